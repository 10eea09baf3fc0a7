import Verif.Proofs.Connected
import Verif.Props.Topology
import Verif.Props.Elliptic

/-!
# Property C55: connected hypergraphs

Chains of hyperedges: cubic grids are connected on every level of refinement, and refinement neither connects nor disconnects hypergraphs read from files.  Hence C54 applies as soon as there is a single
Dirichlet node.
-/

namespace HyperHDG

open Topology Spec Relation

variable {T : Tpcc} {d s n : Nat}

theorem chain_congr {F : Type} {E : Nat} {node : Nat → F → Nat} {get : Nat → Res (F → Nat)} (h : ∀ e, e < E → get e = .ok (node e)) (v w : Nat) :
    ReflTransGen (LinkedBy E get) v w ↔ ReflTransGen (Linked E node) v w := by
  have : LinkedBy E get = Linked E node := by
    funext a b
    refine propext ⟨?_, ?_⟩
    · rintro ⟨e, he, nodes, hn, f, g, h1, h2⟩
      rw [h e he] at hn
      injection hn with hn
      subst hn
      exact ⟨e, he, f, g, h1, h2⟩
    · rintro ⟨e, he, f, g, h1, h2⟩
      exact ⟨e, he, node e, h e he, f, g, h1, h2⟩
  rw [this]

section Cubic

variable (hT : T.Lawful) (h : d + 1 ≤ s) (ns : Fin s → Nat) (hn : 0 < n)
  (hE : T.size (⟨.both, ns, h⟩ : Complex s (d + 1)) * n ^ (d + 1) < U32)
  (hN : T.size (⟨.both, ns, Nat.le_of_succ_le h⟩ : Complex s d) * n ^ d
    + T.size (⟨.both, ns, h⟩ : Complex s (d + 1)) * nInterior d n < U32)

include hT hn hE hN in
/-- **C55** (cubic grids).  Any two hypernodes of a cubic topology with at least one cell in each direction are connected by a chain of hyperedges, at every refinement level. -/
theorem C55_cubic_connected (m : Mode) (hns : ∀ i, 0 < ns i) (v w : Nat) (hv : v < ((Cubic.mk' T h ns).set_refinement T n).n_hyNodes)
    (hw : w < ((Cubic.mk' T h ns).set_refinement T n).n_hyNodes) :
    ReflTransGen (LinkedBy ((Cubic.mk' T h ns).set_refinement T n).n_hyEdges (((Cubic.mk' T h ns).set_refinement T n).get_hyNode_indices m T)) v w := by
  have hc := C24_cubic_counts hT h ns hn hE hN
  rw [hc.2, ← size_refFaces hT] at hv hw
  rw [hc.1, chain_congr (node := refNode T d n (T.size (coarseFaces h ns)) (cubicCoarse T h ns)) fun e he => cubic_nodes_spec hT h ns hn hE hN m he]
  refine refine_connected hT hn (fun E hE' i => cubicCoarse_lt hT h ns hE' i) (fun c hcc => ?_) (cubic_coarse_connected hT h ns hns) v w hv hw
  obtain ⟨e, i, he, hi⟩ := exists_cell hT hns h (hT.elem_belongs (coarseFaces h ns) c hcc)
  refine ⟨T.index (coarseElems h ns) e, hT.index_lt _ _ he, i, ?_⟩
  unfold cubicCoarse
  rw [hT.elem_index _ _ he, hi, hT.index_elem _ _ hcc]

end Cubic

section File

variable (hT : T.Lawful) {D : DomainTopo d} (hD : D.Consistent) (hn : 0 < n)
  (hE : D.n_hyEdges * n ^ (d + 1) < U32) (hN : D.n_hyNodes * n ^ d + D.n_hyEdges * nInterior d n < U32)

include hT hD hn hE hN in
/-- **C55** (domain files).  If each hypernode of a domain file belongs to a hyperedge, the hypernodes of the refined topology are connected exactly if those of the file are. -/
theorem C55_file_connected (m : Mode) (honto : ∀ c, c < D.n_hyNodes → ∃ nodes ∈ D.hyNodes_hyEdge, ∃ i, nodes i = c) :
    (∀ v w, v < ((File.mk' T D).set_refinement T n).n_hyNodes → w < ((File.mk' T D).set_refinement T n).n_hyNodes →
      ReflTransGen (LinkedBy ((File.mk' T D).set_refinement T n).n_hyEdges (((File.mk' T D).set_refinement T n).get_hyNode_indices m T)) v w) ↔
    ∀ v w, v < D.n_hyNodes → w < D.n_hyNodes → ReflTransGen (LinkedInFile D) v w := by
  have hc := C24_file_counts (n := n) hT hE hN
  rw [hc.2, ← size_refFaces hT, hc.1]
  have hnode : ∀ E (hE' : E < D.hyNodes_hyEdge.length) i, fileCoarse D E i = D.hyNodes_hyEdge[E] i := fun E hE' i => by
    unfold fileCoarse
    rw [List.getD_eq_getElem?_getD, List.getElem?_eq_getElem hE', Option.getD_some]
  have hlink : LinkedInFile D = Linked D.n_hyEdges (fileCoarse D) := by
    funext a b
    refine propext ⟨?_, ?_⟩
    · rintro ⟨nodes, hmem, f, g, h1, h2⟩
      obtain ⟨E, hlt, rfl⟩ := List.getElem_of_mem hmem
      exact ⟨E, hD.nodes_length ▸ hlt, f, g, by rw [hnode E hlt, h1], by rw [hnode E hlt, h2]⟩
    · rintro ⟨E, hlt, f, g, h1, h2⟩
      have hlt' : E < D.hyNodes_hyEdge.length := hD.nodes_length ▸ hlt
      rw [hnode E hlt'] at h1 h2
      exact ⟨_, List.getElem_mem hlt', f, g, h1, h2⟩
  have honto' : ∀ c, c < D.n_hyNodes → ∃ E, E < D.n_hyEdges ∧ ∃ i, fileCoarse D E i = c := by
    intro c hcc
    obtain ⟨nodes, hmem, i, hi⟩ := honto c hcc
    obtain ⟨E, hlt, rfl⟩ := List.getElem_of_mem hmem
    exact ⟨E, hD.nodes_length ▸ hlt, i, by rw [hnode E hlt, hi]⟩
  simp only [chain_congr (node := refNode T d n D.n_hyNodes (fileCoarse D)) fun e he => file_nodes_spec hT hD hn hE hN m he, hlink]
  exact ⟨coarse_connected hT hn fun E hE' i => fileCoarse_lt hD hE' i, refine_connected hT hn (fun E hE' i => fileCoarse_lt hD hE' i) honto'⟩

end File

/-- **C55** (Dirichlet nodes).  Let a topology describe the hypergraph of a global loop, let its hypernodes exist and be connected.  Then the hypergraph meets the conditions of C54 for every non-empty set of
Dirichlet nodes. -/
theorem C55_anchored {dim nB : Nat} (G : HyGraph dim nB) (hfit : G.n_hyNodes * nB < U32) {E N : Nat} {get : Nat → Res (Fin (2 * dim) → Nat)} (hG : DescribedBy G E N get)
    (hvalid : ∀ e, e < E → ∃ nodes, get e = .ok nodes ∧ ∀ i, nodes i < N) (hcon : ∀ v w, v < N → w < N → ReflTransGen (LinkedBy E get) v w) :
    ∃ nodes, G.WF nodes ∧ ∀ D : Fin G.n_hyNodes → Prop, (∃ v, D v) → Anchored nodes D := by
  have hlt : ∀ e, e < G.n_hyEdges → ∀ i, G.hyNodes e i < G.n_hyNodes := by
    intro e he i
    rw [hG.edges] at he
    obtain ⟨nodes, h1, h2⟩ := hvalid e he
    rw [hG.indices e he] at h1
    injection h1 with h1
    rw [h1, hG.nodes]
    exact h2 i
  let nodes : Fin G.n_hyEdges → Fin (2 * dim) → Fin G.n_hyNodes := fun e i => ⟨G.hyNodes e i, hlt e e.2 i⟩
  refine ⟨nodes, ⟨fun _ _ => rfl, hfit⟩, fun D ⟨w, hw⟩ v => ⟨w, hw, ?_⟩⟩
  have key : ∀ a b : Nat, ReflTransGen (LinkedBy E get) a b → ∀ (ha : a < G.n_hyNodes), ∃ hb : b < G.n_hyNodes, ReflTransGen (Adjacent nodes) ⟨a, ha⟩ ⟨b, hb⟩ := by
    intro a b hab ha
    induction hab with
    | refl => exact ⟨ha, .refl⟩
    | tail _ h2 ih =>
      obtain ⟨hb, ih⟩ := ih
      obtain ⟨e, he, nd, hn, f, g, h3, h4⟩ := h2
      rw [hG.indices e he] at hn
      injection hn with hn
      subst hn
      have he' : e < G.n_hyEdges := hG.edges ▸ he
      exact ⟨h4 ▸ hlt e he' g, .tail ih ⟨⟨e, he'⟩, f, g, Fin.ext h3, Fin.ext h4⟩⟩
  obtain ⟨_, h1⟩ := key w v (hcon w v (hG.nodes ▸ w.2) (hG.nodes ▸ v.2)) w.2
  exact h1

section Solve

open EllipticProgram Diffusion HyGraph

variable {K : Type} [Field K] [LinearOrder K] [IsStrictOrderedRing K] {nS nB : Nat}

/-- **C55** (elliptic problems on cubic grids).  On every cubic grid, refined into any number of parts, with at least one Dirichlet node, the program returns without exception a vector which vanishes at the
Dirichlet nodes and whose residual is below the tolerance, and there is exactly one discrete solution. -/
theorem C55_cubic_solve (m : Mode) (hT : T.Lawful) (h : d + 1 ≤ s) (ns : Fin s → Nat) (hns : ∀ i, 0 < ns i) (hn : 0 < n)
    (hEd : T.size (⟨.both, ns, h⟩ : Complex s (d + 1)) * n ^ (d + 1) < U32)
    (hNo : T.size (⟨.both, ns, Nat.le_of_succ_le h⟩ : Complex s d) * n ^ d + T.size (⟨.both, ns, h⟩ : Complex s (d + 1)) * nInterior d n < U32)
    (G : HyGraph (d + 1) nB) (hfit : G.n_hyNodes * nB < U32)
    (hG : DescribedBy G ((Cubic.mk' T h ns).set_refinement T n).n_hyEdges ((Cubic.mk' T h ns).set_refinement T n).n_hyNodes (((Cubic.mk' T h ns).set_refinement T n).get_hyNode_indices m T))
    (gesv : Gesv ((d + 1 + 1) * nS) 1 K) (hg : GesvSpec gesv) (tau : K) (ht : 0 < tau) (E : Nat → Edge (d + 1) nS K) (time : K)
    (hE : ∀ e, FormLaws (form (E e) nB time)) (hR : ∀ e, Rigid (form (E e) nB time)) (D : Fin G.n_hyNodes → Prop) (hex : ∃ v, D v)
    (hD : ∀ (e : Fin G.n_hyEdges) (f : Fin (2 * (d + 1))) (v : Fin G.n_hyNodes), G.hyNodes e f = v → ((E e).node_descriptor f ∈ (E e).dirichlet_nodes ↔ D v))
    (old0 new0 : LocDofs (d + 1) nB K) (div : K → K → K) (hdiv : ∀ a c, c ≠ 0 → div a c = a / c) (tolerance : K) (htol : tolerance ≠ 0) :
    (∃! y : Fin (G.n_hyNodes * nB) → K, VanishesAt D y ∧
      (Elliptic.mk' G).apply m (localResidual m gesv tau E time) old0 new0 (List.ofFn y) = .ok (List.replicate (G.n_hyNodes * nB) 0)) ∧
    ∃ x r : Fin (G.n_hyNodes * nB) → K,
      EllipticProgram.solve m div G (localOperator m gesv tau E time) (localResidual m gesv tau E time) old0 new0 tolerance = .ok (List.ofFn x) ∧ VanishesAt D x ∧
      (Elliptic.mk' G).apply m (localResidual m gesv tau E time) old0 new0 (List.ofFn x) = .ok (List.ofFn r) ∧ ∑ k, r k ^ 2 < tolerance ^ 2 := by
  obtain ⟨nodes, hwf, hanch⟩ := C55_anchored G hfit hG (fun e he => C24_cubic_valid hT h ns hn hEd hNo m e he) (fun v w hv hw => C55_cubic_connected hT h ns hn hEd hNo m hns v w hv hw)
  have hD' : ∀ (e : Fin G.n_hyEdges) (f : Fin (2 * (d + 1))), (E e).node_descriptor f ∈ (E e).dirichlet_nodes ↔ D (nodes e f) := fun e f => hD e f _ (hwf.hyNodes_eq e f)
  exact ⟨C54_unique m gesv hg tau ht E time hE hR G nodes hwf D hD' (hanch D hex) old0 new0,
    C54_solve m gesv hg tau ht E time hE hR G nodes hwf D hD' (hanch D hex) old0 new0 div hdiv tolerance htol⟩

/-- **C55** (elliptic problems on domain files).  The same for the hypergraph of a domain file whose hypernodes are connected. -/
theorem C55_file_solve (m : Mode) (hT : T.Lawful) {dom : DomainTopo d} (hdom : dom.Consistent) (honto : ∀ c, c < dom.n_hyNodes → ∃ nodes ∈ dom.hyNodes_hyEdge, ∃ i, nodes i = c)
    (hcon : ∀ v w, v < dom.n_hyNodes → w < dom.n_hyNodes → ReflTransGen (LinkedInFile dom) v w) (hn : 0 < n)
    (hEd : dom.n_hyEdges * n ^ (d + 1) < U32) (hNo : dom.n_hyNodes * n ^ d + dom.n_hyEdges * nInterior d n < U32) (G : HyGraph (d + 1) nB) (hfit : G.n_hyNodes * nB < U32)
    (hG : DescribedBy G ((File.mk' T dom).set_refinement T n).n_hyEdges ((File.mk' T dom).set_refinement T n).n_hyNodes (((File.mk' T dom).set_refinement T n).get_hyNode_indices m T))
    (gesv : Gesv ((d + 1 + 1) * nS) 1 K) (hg : GesvSpec gesv) (tau : K) (ht : 0 < tau) (E : Nat → Edge (d + 1) nS K) (time : K)
    (hE : ∀ e, FormLaws (form (E e) nB time)) (hR : ∀ e, Rigid (form (E e) nB time)) (D : Fin G.n_hyNodes → Prop) (hex : ∃ v, D v)
    (hD : ∀ (e : Fin G.n_hyEdges) (f : Fin (2 * (d + 1))) (v : Fin G.n_hyNodes), G.hyNodes e f = v → ((E e).node_descriptor f ∈ (E e).dirichlet_nodes ↔ D v))
    (old0 new0 : LocDofs (d + 1) nB K) (div : K → K → K) (hdiv : ∀ a c, c ≠ 0 → div a c = a / c) (tolerance : K) (htol : tolerance ≠ 0) :
    (∃! y : Fin (G.n_hyNodes * nB) → K, VanishesAt D y ∧
      (Elliptic.mk' G).apply m (localResidual m gesv tau E time) old0 new0 (List.ofFn y) = .ok (List.replicate (G.n_hyNodes * nB) 0)) ∧
    ∃ x r : Fin (G.n_hyNodes * nB) → K,
      EllipticProgram.solve m div G (localOperator m gesv tau E time) (localResidual m gesv tau E time) old0 new0 tolerance = .ok (List.ofFn x) ∧ VanishesAt D x ∧
      (Elliptic.mk' G).apply m (localResidual m gesv tau E time) old0 new0 (List.ofFn x) = .ok (List.ofFn r) ∧ ∑ k, r k ^ 2 < tolerance ^ 2 := by
  obtain ⟨nodes, hwf, hanch⟩ := C55_anchored G hfit hG (fun e he => C24_file_valid hT hdom hn hEd hNo m e he) ((C55_file_connected hT hdom hn hEd hNo m honto).mpr hcon)
  have hD' : ∀ (e : Fin G.n_hyEdges) (f : Fin (2 * (d + 1))), (E e).node_descriptor f ∈ (E e).dirichlet_nodes ↔ D (nodes e f) := fun e f => hD e f _ (hwf.hyNodes_eq e f)
  exact ⟨C54_unique m gesv hg tau ht E time hE hR G nodes hwf D hD' (hanch D hex) old0 new0,
    C54_solve m gesv hg tau ht E time hE hR G nodes hwf D hD' (hanch D hex) old0 new0 div hdiv tolerance htol⟩

end Solve

/-! Concrete cases which meet the hypotheses. -/

/-- The hypergraph of the 2 x 1 grid, refined into 2 x 2 parts. -/
def grid21 : HyGraph 2 1 where
  n_hyEdges := 8
  n_hyNodes := 22
  hyNodes e i := match ((Cubic.mk' lexTpcc (Nat.le_refl 2) ![2, 1]).set_refinement lexTpcc 2).get_hyNode_indices .debug lexTpcc e with
    | .ok nodes => nodes i
    | _ => 0

theorem grid21_described : DescribedBy grid21 ((Cubic.mk' lexTpcc (Nat.le_refl 2) ![2, 1]).set_refinement lexTpcc 2).n_hyEdges
    ((Cubic.mk' lexTpcc (Nat.le_refl 2) ![2, 1]).set_refinement lexTpcc 2).n_hyNodes (((Cubic.mk' lexTpcc (Nat.le_refl 2) ![2, 1]).set_refinement lexTpcc 2).get_hyNode_indices .debug lexTpcc) where
  edges := by decide +kernel
  nodes := by decide +kernel
  indices := fun e he => by
    obtain ⟨nodes, h1, _⟩ := C24_cubic_valid (n := 2) lexTpcc_lawful (Nat.le_refl 2) ![2, 1] (by decide) (by decide +kernel) (by decide +kernel) .debug e he
    unfold grid21
    simp only [h1]

open Diffusion.Example DiffusionParab.Example in
/-- Local solvers on this hypergraph: hypernode 0 is of Dirichlet type. -/
noncomputable def gridEdges (e : Nat) : Diffusion.Edge 2 1 ℚ :=
  { (E1 0 [7]).toEdge with node_descriptor := fun f => if f < 4 ∧ grid21.hyNodes e (Fin.ofNat 4 f) = 0 then 7 else 0 }

open Diffusion.Example DiffusionParab.Example EllipticProgram.Example in
/-- The hypotheses of `C55_cubic_solve` can be met. -/
example := C55_cubic_solve (n := 2) .debug lexTpcc_lawful (Nat.le_refl 2) ![2, 1] (by decide) (by decide) (by decide +kernel) (by decide +kernel) grid21 (by decide) grid21_described
  (cramerSolve _ _ ℚ) (C44_example _ _ ℚ) 1 one_pos gridEdges 0 (fun _ => E1_laws 0 [7] 0) (fun _ => E1_rigid 0 [7]) (fun v => v.1 = 0) ⟨⟨0, by decide⟩, rfl⟩
  (fun e f v hv => by
    have h1 : (gridEdges e).node_descriptor f = if grid21.hyNodes e f = 0 then 7 else 0 := by
      have hf : Fin.ofNat 4 f.1 = f := by simp [Fin.ofNat, Nat.mod_eq_of_lt f.2]
      show (if f.1 < 4 ∧ grid21.hyNodes e (Fin.ofNat 4 f.1) = 0 then 7 else 0) = _
      rw [hf]
      have : f.1 < 4 := f.2
      simp [this]
    have h2 : (gridEdges e).dirichlet_nodes = [7] := rfl
    rw [h1, h2, hv]
    split <;> simp_all)
  (fun _ _ => 7) (fun _ _ => 8) (fun a b => a / b) (fun _ _ _ => rfl) (1 / 1000) (by norm_num)

/-- Two of its hypernodes are connected. -/
example := C55_cubic_connected (n := 2) lexTpcc_lawful (Nat.le_refl 2) ![2, 1] (by decide) (by decide +kernel) (by decide +kernel) .release (by decide) 0 21 (by decide +kernel) (by decide +kernel)

/-- The star is connected, hence also refined. -/
theorem star_connected : ∀ v w, v < starDomain.n_hyNodes → w < starDomain.n_hyNodes → ReflTransGen (LinkedInFile starDomain) v w := by
  have h0 : ∀ v, v < starDomain.n_hyNodes → LinkedInFile starDomain v 0 ∧ LinkedInFile starDomain 0 v := by unfold LinkedInFile; decide
  intro v w hv hw
  exact .tail (.single (h0 v hv).1) (h0 w hw).2

/-- A domain of two separate edges is not connected, and refinement does not connect it. -/
def apartDomain : DomainTopo 0 where
  n_hyEdges := 2
  n_hyNodes := 4
  hyNodes_hyEdge := [![0, 1], ![2, 3]]
  hyFaces_hyEdge := [![0, 0], ![0, 0]]

example : ¬ ∀ v w, v < apartDomain.n_hyNodes → w < apartDomain.n_hyNodes → ReflTransGen (LinkedInFile apartDomain) v w := by
  intro h
  have h1 : ∀ a b, ReflTransGen (LinkedInFile apartDomain) a b → a < 2 → b < 2 := by
    intro a b hab ha
    induction hab with
    | refl => exact ha
    | tail _ h2 ih =>
      obtain ⟨nodes, hmem, f, g, h3, h4⟩ := h2
      have key : ∀ nodes ∈ apartDomain.hyNodes_hyEdge, ∀ f g, nodes f < 2 → nodes g < 2 := by decide
      rw [← h4]
      exact key nodes hmem f g (h3 ▸ ih)
  exact absurd (h1 0 2 (h 0 2 (by decide) (by decide)) (by decide)) (by decide)

end HyperHDG

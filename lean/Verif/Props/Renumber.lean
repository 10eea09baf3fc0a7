import Verif.Spec.Renumber
import Verif.Proofs.GlobalOk
import Verif.Proofs.GlobalSolve
import Verif.Proofs.Exact
import Verif.Props.GlobalLoop
import Verif.Props.GlobalClasses
import Verif.Props.Topology
import Verif.Props.Connected
import Mathlib.Logic.Equiv.Fin.Basic

/-!
# Property C98: the numbers of hyperedges and hypernodes do not matter

Renumbering hyperedges and hypernodes (reordering the lines of a file) renumbers all results: fluxes, residuals, solutions, data of time dependent problems; the returned errors are the same.
-/

namespace HyperHDG

open Finset Spec HyGraph

variable {dim n : Nat} {K : Type}

theorem assemble_renumbered [CommRing K] {E N E' N' F : Nat} {nodes : Fin E → Fin F → Fin N} {nodes' : Fin E' → Fin F → Fin N'} {sigma : Fin E' ≃ Fin E} {pi : Fin N ≃ Fin N'}
    (h : Renumbered nodes nodes' sigma pi) (y : Fin E → Fin F → Fin n → K) : SameValues pi (assemble nodes y) (assemble nodes' fun e => y (sigma e)) := by
  intro v j
  rw [assemble_at, assemble_at, ← Equiv.sum_comp sigma]
  refine sum_congr rfl fun e _ => sum_congr rfl fun f _ => ?_
  rw [h e f]
  simp only [EmbeddingLike.apply_eq_iff_eq]

theorem faceValues_renumbered {E N E' N' F : Nat} {nodes : Fin E → Fin F → Fin N} {nodes' : Fin E' → Fin F → Fin N'} {sigma : Fin E' ≃ Fin E} {pi : Fin N ≃ Fin N'}
    (h : Renumbered nodes nodes' sigma pi) {x : Fin (N * n) → K} {x' : Fin (N' * n) → K} (hx : SameValues pi x x') (e : Fin E') : faceValues nodes' x' e = faceValues nodes x (sigma e) := by
  funext f j
  simp only [faceValues]
  rw [h e f, hx]

theorem Spec.SameValues.unique {N N' : Nat} {pi : Fin N ≃ Fin N'} {x : Fin (N * n) → K} {x' x'' : Fin (N' * n) → K} (h1 : SameValues pi x x') (h2 : SameValues pi x x'') : x' = x'' := by
  funext k
  obtain ⟨v, j, rfl⟩ := dof_surj k
  have := (h1 (pi.symm v) j).trans (h2 (pi.symm v) j).symm
  rwa [Equiv.apply_symm_apply] at this

/-- Each vector has a renumbered one. -/
theorem Spec.SameValues.exists {N N' : Nat} (pi : Fin N ≃ Fin N') (x : Fin (N * n) → K) : ∃ x' : Fin (N' * n) → K, SameValues pi x x' := by
  have h : ∀ k : Fin (N' * n), ∃ (v : Fin N') (j : Fin n), dof v j = k := fun k => dof_surj k
  choose v j h using h
  refine ⟨fun k => x (dof (pi.symm (v k)) (j k)), fun w i => ?_⟩
  obtain ⟨h1, h2⟩ := dof_inj (h (dof (pi w) i))
  show x (dof (pi.symm (v (dof (pi w) i))) (j (dof (pi w) i))) = _
  rw [h1, h2, Equiv.symm_apply_apply]

section
variable (m : Mode) (G G' : HyGraph dim n) (nodes : Fin G.n_hyEdges → Fin (2 * dim) → Fin G.n_hyNodes) (nodes' : Fin G'.n_hyEdges → Fin (2 * dim) → Fin G'.n_hyNodes) (hwf : G.WF nodes) (hwf' : G'.WF nodes')
  (sigma : Fin G'.n_hyEdges ≃ Fin G.n_hyEdges) (pi : Fin G.n_hyNodes ≃ Fin G'.n_hyNodes) (hren : Renumbered nodes nodes' sigma pi)

include hwf hwf' hren

/-- **C98** (fluxes, residuals, mass).  If the loop over the hyperedges returns a vector, then with the new numbers it returns the renumbered vector: for all local functions, hence for `trace_to_flux`, `residual_flux`,
`trace_to_mass_flux` of all local solvers. -/
theorem C98_flux [CommRing K] (loc loc' : LocalFun dim n K) (hloc : ∀ e : Fin G'.n_hyEdges, loc' e = loc (sigma e)) {x y : Fin (G.n_hyNodes * n) → K} {x' : Fin (G'.n_hyNodes * n) → K} (hx : SameValues pi x x')
    (old0 new0 old0' new0' : LocDofs dim n K) (h : G.mat_vec_multiply m loc old0 new0 (List.ofFn x) = .ok (List.ofFn y)) :
    ∃ y', G'.mat_vec_multiply m loc' old0' new0' (List.ofFn x') = .ok (List.ofFn y') ∧ SameValues pi y y' := by
  obtain ⟨z, h1, h2⟩ := mat_vec_ok m G nodes hwf loc x old0 new0 h
  refine ⟨assemble nodes' fun e => z (sigma e), mat_vec_eq m G' nodes' hwf' loc' x' _ (fun e => ?_) old0' new0', ?_⟩
  · rw [hloc, faceValues_renumbered hren hx]
    exact h1 (sigma e)
  · rw [List.ofFn_injective h2]
    exact assemble_renumbered hren z

/-- **C98** (declared Dirichlet indices).  The same after the indices have been declared under their numbers. -/
theorem C98_declared [CommRing K] (loc loc' : LocalFun dim n K) (hloc : ∀ e : Fin G'.n_hyEdges, loc' e = loc (sigma e)) (I I' : List Nat) (hI : ∀ d ∈ I, d < G.n_hyNodes * n) (hI' : ∀ d ∈ I', d < G'.n_hyNodes * n)
    (hII : ∀ (v : Fin G.n_hyNodes) (j : Fin n), (dof v j).1 ∈ I ↔ (dof (pi v) j).1 ∈ I') :
    ∃ L L', (Elliptic.mk' G).read_dirichlet_indices m I = .ok L ∧ (Elliptic.mk' G').read_dirichlet_indices m I' = .ok L' ∧
      ∀ {x y : Fin (G.n_hyNodes * n) → K} {x' : Fin (G'.n_hyNodes * n) → K}, SameValues pi x x' → ∀ old0 new0 old0' new0' : LocDofs dim n K,
        L.apply m loc old0 new0 (List.ofFn x) = .ok (List.ofFn y) → ∃ y', L'.apply m loc' old0' new0' (List.ofFn x') = .ok (List.ofFn y') ∧ SameValues pi y y' := by
  obtain ⟨L, h1, h2, h3⟩ := C23_zero_at_declared (K := K) m (Elliptic.mk' G) hwf.fits I (fun d hd => by
    show d < G.n_global_dofs
    rw [n_global_dofs_eq G hwf.fits]
    exact hI d hd)
  obtain ⟨L', h1', h2', h3'⟩ := C23_zero_at_declared (K := K) m (Elliptic.mk' G') hwf'.fits I' (fun d hd => by
    show d < G'.n_global_dofs
    rw [n_global_dofs_eq G' hwf'.fits]
    exact hI' d hd)
  refine ⟨L, L', h1, h1', fun {x y x'} hx old0 new0 old0' new0' h => ?_⟩
  have h4 : ∃ a, G.mat_vec_multiply m loc old0 new0 (List.ofFn x) = .ok a := by
    unfold Elliptic.apply at h
    rw [h2] at h
    obtain ⟨a, ha, _⟩ := Res.bind_eq_ok.mp h
    exact ⟨a, ha⟩
  obtain ⟨a, ha⟩ := h4
  obtain ⟨z, _, rfl⟩ := mat_vec_ok m G nodes hwf loc x old0 new0 ha
  obtain ⟨b, hb, hab⟩ := C98_flux m G G' nodes nodes' hwf hwf' sigma pi hren loc loc' hloc hx old0 new0 old0' new0' ha
  rw [h3 loc old0 new0 _ _ ha] at h
  have hy := List.ofFn_injective (Res.ok.inj h)
  refine ⟨_, h3' loc' old0' new0' _ b hb, fun v j => ?_⟩
  have hyv : (if (dof v j).1 ∈ I then 0 else assemble nodes z (dof v j)) = y (dof v j) := congrFun hy (dof v j)
  show (if (dof (pi v) j).1 ∈ I' then 0 else b (dof (pi v) j)) = y (dof v j)
  rw [← hyv, hab v j]
  by_cases hv : (dof v j).1 ∈ I
  · rw [if_pos hv, if_pos ((hII v j).mp hv)]
  · rw [if_neg hv, if_neg (fun h => hv ((hII v j).mpr h))]

/-- **C98** (solutions).  A vector is a solution (its residual vanishes and so do its values at the Dirichlet nodes) iff the renumbered vector is a solution of the renumbered problem. -/
theorem C98_solution [CommRing K] (res res' : LocalFun dim n K) (hres : ∀ e : Fin G'.n_hyEdges, res' e = res (sigma e)) (D : Fin G.n_hyNodes → Prop) (D' : Fin G'.n_hyNodes → Prop) (hD : ∀ v, D v ↔ D' (pi v))
    {y : Fin (G.n_hyNodes * n) → K} {y' : Fin (G'.n_hyNodes * n) → K} (hy : SameValues pi y y') (old0 new0 old0' new0' : LocDofs dim n K) :
    (VanishesAt D y ∧ (Elliptic.mk' G).apply m res old0 new0 (List.ofFn y) = .ok (List.replicate (G.n_hyNodes * n) 0)) ↔
      (VanishesAt D' y' ∧ (Elliptic.mk' G').apply m res' old0' new0' (List.ofFn y') = .ok (List.replicate (G'.n_hyNodes * n) 0)) := by
  have hren' : Renumbered nodes' nodes sigma.symm pi.symm := fun e f => by
    rw [hren, Equiv.symm_apply_apply, Equiv.apply_symm_apply]
  have hy' : SameValues pi.symm y' y := fun v j => by
    rw [← hy, Equiv.apply_symm_apply]
  simp only [C23_fresh, ← List.ofFn_const]
  constructor
  · rintro ⟨h0, h⟩
    obtain ⟨z, hz1, hz2⟩ := C98_flux m G G' nodes nodes' hwf hwf' sigma pi hren res res' hres hy old0 new0 old0' new0' h
    refine ⟨fun v hv j => ?_, ?_⟩
    · obtain ⟨w, rfl⟩ := pi.surjective v
      rw [hy]
      exact h0 w ((hD w).mpr hv) j
    · rw [hz1, SameValues.unique hz2 (x'' := fun _ => 0) fun _ _ => rfl]
  · rintro ⟨h0, h⟩
    obtain ⟨z, hz1, hz2⟩ := C98_flux m G' G nodes' nodes hwf' hwf sigma.symm pi.symm hren' res' res (fun e => by rw [hres, Equiv.apply_symm_apply]) hy' old0' new0' old0 new0 h
    refine ⟨fun v hv j => ?_, ?_⟩
    · rw [← hy]
      exact h0 (pi v) ((hD v).mp hv) j
    · rw [hz1, SameValues.unique hz2 (x'' := fun _ => 0) fun _ _ => rfl]

/-- **C98** (errors).  The returned error is the same, for all local solvers which sum up contributions of the hyperedges. -/
theorem C98_errors {Err : Type} (ed : ErrorDef Err) (hcomm : ∀ a b c, ed.sum_error (ed.sum_error a b) c = ed.sum_error (ed.sum_error a c) b) (loc loc' : Nat → LocDofs dim n K → Res Err)
    (hloc : ∀ e : Fin G'.n_hyEdges, loc' e = loc (sigma e)) {x : Fin (G.n_hyNodes * n) → K} {x' : Fin (G'.n_hyNodes * n) → K} (hx : SameValues pi x x') (buf0 buf0' : LocDofs dim n K) {r : Err}
    (h : G.errors m ed loc buf0 (List.ofFn x) = .ok r) : G'.errors m ed loc' buf0' (List.ofFn x') = .ok r := by
  have herr : ∀ e : Fin G.n_hyEdges, ∃ err, loc e (faceValues nodes x e) = .ok err := by
    intro e
    unfold errors for_each at h
    obtain ⟨s, h1, _⟩ := Res.bind_eq_ok.mp h
    obtain ⟨s', t', h2⟩ := forUp_ok _ _ _ _ h1 e e.2
    rw [gather1_eq m G hwf.fits x (G.hyNodes e) (nodes e) (fun i => hwf.hyNodes_eq e i), Res.ok_bind] at h2
    obtain ⟨z, h3, _⟩ := Res.bind_eq_ok.mp h2
    exact ⟨z, h3⟩
  choose err herr using herr
  rw [C40_fold m G nodes hwf ed loc buf0 x err herr] at h
  rw [C40_fold m G' nodes' hwf' ed loc' buf0' x' (fun e => err (sigma e)) fun e => by rw [hloc, faceValues_renumbered hren hx]; exact herr (sigma e), ← h]
  congr 2
  have : RightCommutative ed.sum_error := ⟨hcomm⟩
  refine List.Perm.foldl_eq ?_ _
  have h5 : (List.ofFn fun e => err (sigma e)) = ((List.finRange G'.n_hyEdges).map sigma).map err := by rw [List.map_map, List.ofFn_eq_map]; rfl
  rw [h5, List.ofFn_eq_map]
  refine List.Perm.map err ?_
  refine (List.perm_ext_iff_of_nodup ((List.nodup_finRange _).map sigma.injective) (List.nodup_finRange _)).mpr fun a => ?_
  simp only [List.mem_map, List.mem_finRange, true_and, iff_true]
  exact sigma.surjective a

/-- **C98** (data of time dependent problems).  After `set_data` each hyperedge has the same data under its new number. -/
theorem C98_set_data {D : Type} (loc loc' : Nat → LocDofs dim n K → D → Res D) (hloc : ∀ e : Fin G'.n_hyEdges, loc' e = loc (sigma e)) {x : Fin (G.n_hyNodes * n) → K} {x' : Fin (G'.n_hyNodes * n) → K}
    (hx : SameValues pi x x') (buf0 buf0' : LocDofs dim n K) (data new : Fin G.n_hyEdges → D) (h : ∀ e : Fin G.n_hyEdges, loc e (faceValues nodes x e) (data e) = .ok (new e)) :
    G.set_data m loc buf0 (List.ofFn x) (List.ofFn data) = .ok (List.ofFn new) ∧
    G'.set_data m loc' buf0' (List.ofFn x') (List.ofFn fun e => data (sigma e)) = .ok (List.ofFn fun e => new (sigma e)) :=
  ⟨C41_set_data m G nodes hwf loc buf0 x data new h,
    C41_set_data m G' nodes' hwf' loc' buf0' x' _ _ fun e => by rw [hloc, faceValues_renumbered hren hx]; exact h (sigma e)⟩

/-- **C98** (initial values).  If the local initial values of hyperedges with a common hypernode agree there, the values of the initial vector on the faces and the data are the same. -/
theorem C98_make_initial [Zero K] {D : Type} (loc loc' : Nat → LocDofs dim n K → D → Res (LocDofs dim n K × D)) (hloc : ∀ e : Fin G'.n_hyEdges, loc' e = loc (sigma e)) (x x' : List K)
    (hx : x.length = G.n_hyNodes * n) (hx' : x'.length = G'.n_hyNodes * n) (data new : Fin G.n_hyEdges → D) (y : Fin G.n_hyEdges → LocDofs dim n K)
    (h : ∀ e : Fin G.n_hyEdges, loc e (fun _ _ => 0) (data e) = .ok (y e, new e)) (hagree : ∀ e e' i i', nodes e i = nodes e' i' → y e i = y e' i') :
    ∃ (r : Fin (G.n_hyNodes * n) → K) (r' : Fin (G'.n_hyNodes * n) → K), G.make_initial_data m loc x (List.ofFn data) = .ok (List.ofFn r, List.ofFn new) ∧
      G'.make_initial_data m loc' x' (List.ofFn fun e => data (sigma e)) = .ok (List.ofFn r', List.ofFn fun e => new (sigma e)) ∧ ∀ e, faceValues nodes' r' e = faceValues nodes r (sigma e) := by
  obtain ⟨r, h1, _, h2⟩ := C41_make_initial m G nodes hwf loc x hx data new y h
  obtain ⟨r', h1', _, h2'⟩ := C41_make_initial m G' nodes' hwf' loc' x' hx' (fun e => data (sigma e)) (fun e => new (sigma e)) (fun e => y (sigma e)) fun e => by rw [hloc]; exact h (sigma e)
  refine ⟨r, r', h1, h1', fun e => ?_⟩
  rw [h2 hagree, h2' fun e e' i i' hv => hagree _ _ _ _ ?_]
  rw [hren, hren] at hv
  exact pi.injective hv

end

/-! ## Files -/

section File

open Topology

variable {T : Tpcc} {d n : Nat}

/-- The content of a file with other numbers: hyperedge `e` of the second file is hyperedge `sigma e` of the first, hypernode `v` of the first has number `pi v` in the second. -/
structure Reordered (D D' : DomainTopo d) (sigma : Equiv.Perm (Fin D.n_hyEdges)) (pi : Equiv.Perm (Fin D.n_hyNodes)) : Prop where
  edges : D'.n_hyEdges = D.n_hyEdges
  nodes : D'.n_hyNodes = D.n_hyNodes
  indices : ∀ (e : Fin D.n_hyEdges) (a b : FaceArr d), D.hyNodes_hyEdge[(sigma e).1]? = some a → D'.hyNodes_hyEdge[e.1]? = some b → ∀ i, ∃ h, b i = (pi ⟨a i, h⟩).1
  types : ∀ e : Fin D.n_hyEdges, D'.hyFaces_hyEdge[e.1]? = D.hyFaces_hyEdge[(sigma e).1]?

/-- Apply a permutation to the blocks of length `k`. -/
def blockPerm {c : Nat} (k : Nat) (sigma : Equiv.Perm (Fin c)) : Equiv.Perm (Fin (c * k)) :=
  (finProdFinEquiv.symm.trans (Equiv.prodCongr sigma (Equiv.refl _))).trans finProdFinEquiv

theorem blockPerm_val {c k : Nat} (sigma : Equiv.Perm (Fin c)) (v : Fin c) (j : Fin k) (h : k * v.1 + j.1 < c * k) : (blockPerm k sigma ⟨k * v.1 + j.1, h⟩).1 = k * (sigma v).1 + j.1 := by
  have h1 : (⟨k * v.1 + j.1, h⟩ : Fin (c * k)) = finProdFinEquiv (v, j) := Fin.ext (by simp [finProdFinEquiv, Nat.add_comm])
  rw [h1]
  show (finProdFinEquiv (Equiv.prodCongr sigma (Equiv.refl _) (finProdFinEquiv.symm (finProdFinEquiv (v, j))))).1 = _
  rw [Equiv.symm_apply_apply]
  exact Nat.add_comm _ _

theorem blockPerm_div {c k : Nat} (sigma : Equiv.Perm (Fin c)) (e : Fin (c * k)) : ∃ h, (blockPerm k sigma e).1 / k = (sigma ⟨e.1 / k, h⟩).1 ∧ (blockPerm k sigma e).1 % k = e.1 % k := by
  have hk : 0 < k := Nat.pos_of_ne_zero fun h => by
    have := e.2
    subst h
    omega
  have hlt : e.1 / k < c := Nat.div_lt_of_lt_mul (e.2.trans_eq (Nat.mul_comm _ _))
  have hj : e.1 % k < k := Nat.mod_lt _ hk
  have h2 : k * (e.1 / k) + e.1 % k < c * k := by rw [Nat.div_add_mod]; exact e.2
  have h1 := blockPerm_val sigma ⟨e.1 / k, hlt⟩ ⟨e.1 % k, hj⟩ h2
  have he : (⟨k * (e.1 / k) + e.1 % k, h2⟩ : Fin (c * k)) = e := Fin.ext (Nat.div_add_mod _ _)
  simp only [he] at h1
  refine ⟨hlt, ?_, ?_⟩
  · rw [h1, Nat.mul_add_div hk, Nat.div_eq_of_lt hj, Nat.add_zero]
  · rw [h1, Nat.mul_add_mod, Nat.mod_mod]

/-- The new numbers of the refined hypernodes: those on coarse hypernodes move with them, those inside of hyperedges move with the hyperedge. -/
def nodePerm {ce cf : Nat} (k l : Nat) (sigma : Equiv.Perm (Fin ce)) (pi : Equiv.Perm (Fin cf)) : Equiv.Perm (Fin (cf * k + ce * l)) :=
  (finSumFinEquiv.symm.trans (Equiv.sumCongr (blockPerm k pi) (blockPerm l sigma.symm))).trans finSumFinEquiv

theorem nodePerm_outer {ce cf k l : Nat} (sigma : Equiv.Perm (Fin ce)) (pi : Equiv.Perm (Fin cf)) (v : Fin (cf * k)) (h : v.1 < cf * k + ce * l) :
    (nodePerm k l sigma pi ⟨v.1, h⟩).1 = (blockPerm k pi v).1 := by
  have h1 : (⟨v.1, h⟩ : Fin (cf * k + ce * l)) = finSumFinEquiv (.inl v) := Fin.ext rfl
  rw [h1]
  simp [nodePerm]

theorem nodePerm_inner {ce cf k l : Nat} (sigma : Equiv.Perm (Fin ce)) (pi : Equiv.Perm (Fin cf)) (v : Fin (ce * l)) (h : cf * k + v.1 < cf * k + ce * l) :
    (nodePerm k l sigma pi ⟨cf * k + v.1, h⟩).1 = cf * k + (blockPerm l sigma.symm v).1 := by
  have h1 : (⟨cf * k + v.1, h⟩ : Fin (cf * k + ce * l)) = finSumFinEquiv (.inr v) := Fin.ext rfl
  rw [h1]
  simp [nodePerm]

section
variable (hT : T.Lawful) {D D' : DomainTopo d} (hD : D.Consistent) (hD' : D'.Consistent) (hn : 0 < n) (hE : D.n_hyEdges * n ^ (d + 1) < U32) (hN : D.n_hyNodes * n ^ d + D.n_hyEdges * nInterior d n < U32)
  {sigma : Equiv.Perm (Fin D.n_hyEdges)} {pi : Equiv.Perm (Fin D.n_hyNodes)} (hre : Reordered D D' sigma pi)

include hT hD hD' hn hE hN hre

/-- **C98** (files).  Reorder the hyperedges of a file and give other numbers to its hypernodes.  Then for every refinement the new topology is the old one with other numbers: each refined hyperedge has the same
position in the same coarse hyperedge, and its hypernodes are the old ones under new numbers. -/
theorem C98_file (m : Mode) : let t := (File.mk' T D).set_refinement T n; let t' := (File.mk' T D').set_refinement T n
    t'.n_hyEdges = t.n_hyEdges ∧ t'.n_hyNodes = t.n_hyNodes ∧ ∃ (sigma' : Equiv.Perm (Fin t.n_hyEdges)) (pi' : Equiv.Perm (Fin t.n_hyNodes)), ∀ e : Fin t.n_hyEdges,
      (∃ h, (sigma' e).1 / n ^ (d + 1) = (sigma ⟨e.1 / n ^ (d + 1), h⟩).1) ∧ (sigma' e).1 % n ^ (d + 1) = e.1 % n ^ (d + 1) ∧
      ∃ a b, t.get_hyNode_indices m T (sigma' e) = .ok a ∧ t'.get_hyNode_indices m T e = .ok b ∧ ∀ i, ∃ h, b i = (pi' ⟨a i, h⟩).1 := by
  intro t t'
  have hE' : D'.n_hyEdges * n ^ (d + 1) < U32 := by rw [hre.edges]; exact hE
  have hN' : D'.n_hyNodes * n ^ d + D'.n_hyEdges * nInterior d n < U32 := by rw [hre.edges, hre.nodes]; exact hN
  have hc := C24_file_counts (n := n) hT hE hN
  have hc' := C24_file_counts (n := n) hT hE' hN'
  rw [hre.edges, hre.nodes] at hc'
  refine ⟨hc'.1.trans hc.1.symm, hc'.2.trans hc.2.symm, ?_⟩
  have hnodes : t.n_hyNodes = D.n_hyNodes * n ^ d + D.n_hyEdges * T.size (refFaces d n) := by rw [size_refFaces hT]; exact hc.2
  refine ⟨(finCongr hc.1).trans ((blockPerm (n ^ (d + 1)) sigma).trans (finCongr hc.1.symm)), (finCongr hnodes).trans ((nodePerm (n ^ d) (T.size (refFaces d n)) sigma pi).trans (finCongr hnodes.symm)), fun e => ?_⟩
  obtain ⟨h1, h2, h3⟩ := blockPerm_div (k := n ^ (d + 1)) sigma (finCongr hc.1 e)
  have hval : (((finCongr hc.1).trans ((blockPerm (n ^ (d + 1)) sigma).trans (finCongr hc.1.symm))) e).1 = (blockPerm (n ^ (d + 1)) sigma (finCongr hc.1 e)).1 := rfl
  rw [hval]
  have hlt := (blockPerm (n ^ (d + 1)) sigma (finCongr hc.1 e)).2
  have hlt' : e.1 < D'.n_hyEdges * n ^ (d + 1) := by rw [hre.edges, ← hc.1]; exact e.2
  refine ⟨⟨h1, h2⟩, h3, _, _, file_nodes_spec hT hD hn hE hN m hlt, file_nodes_spec hT hD' hn hE' hN' m hlt', fun i => ?_⟩
  have hsub : subElem T d n (blockPerm (n ^ (d + 1)) sigma (finCongr hc.1 e)).1 = subElem T d n e.1 := by
    unfold subElem
    rw [h3]
    rfl
  have hr := subElem_belongs (T := T) (d := d) hT hn e.1
  have hEd : (sigma ⟨e.1 / n ^ (d + 1), h1⟩).1 < D.n_hyEdges := (sigma _).2
  have hlen : (sigma ⟨e.1 / n ^ (d + 1), h1⟩).1 < D.hyNodes_hyEdge.length := by rw [hD.nodes_length]; exact hEd
  have hlen' : e.1 / n ^ (d + 1) < D'.hyNodes_hyEdge.length := by rw [hD'.nodes_length, hre.edges]; exact h1
  have hco : ∃ h, fileCoarse D' (e.1 / n ^ (d + 1)) i = (pi ⟨fileCoarse D (sigma ⟨e.1 / n ^ (d + 1), h1⟩).1 i, h⟩).1 := by
    obtain ⟨h4, h5⟩ := hre.indices ⟨e.1 / n ^ (d + 1), h1⟩ _ _ (List.getElem?_eq_getElem hlen) (List.getElem?_eq_getElem hlen') i
    unfold fileCoarse
    simp only [List.getD_eq_getElem?_getD, List.getElem?_eq_getElem hlen, List.getElem?_eq_getElem hlen', Option.getD_some]
    exact ⟨h4, h5⟩
  obtain ⟨hc4, hc5⟩ := hco
  have hlt2 := nodeVal_lt (i := i) hT (fits_of hT hE hN) hEd hr hc4
  have e2 : (blockPerm (n ^ (d + 1)) sigma (finCongr hc.1 e)).1 / n ^ (d + 1) = (sigma ⟨e.1 / n ^ (d + 1), h1⟩).1 := h2
  rw [hsub]
  simp only [e2, hc5, hre.nodes]
  refine ⟨hnodes ▸ hlt2, ?_⟩
  show _ = (nodePerm (n ^ d) (T.size (refFaces d n)) sigma pi ⟨nodeVal T d n D.n_hyNodes (sigma ⟨e.1 / n ^ (d + 1), h1⟩).1 (subElem T d n e.1) i (fileCoarse D (sigma ⟨e.1 / n ^ (d + 1), h1⟩).1 i), hlt2⟩).1
  by_cases hs : faceCoord (subElem T d n e.1) i = 0 ∨ faceCoord (subElem T d n e.1) i = n
  · have h6 := slice_facet_lt hT hr i
    have h7 := Fits.slice_add hc4 h6
    simp only [nodeVal, if_pos hs]
    rw [nodePerm_outer sigma pi ⟨_, h7⟩]
    exact (blockPerm_val pi ⟨_, hc4⟩ ⟨_, h6⟩ _).symm
  · have h6 := hT.index_lt _ _ (facet_belongs_ref hr i hs)
    have h7 : T.size (refFaces d n) * (sigma ⟨e.1 / n ^ (d + 1), h1⟩).1 + T.index (refFaces d n) ((subElem T d n e.1).facet i) < D.n_hyEdges * T.size (refFaces d n) := by
      calc _ < T.size (refFaces d n) * (sigma ⟨e.1 / n ^ (d + 1), h1⟩).1 + T.size (refFaces d n) := by omega
        _ = ((sigma ⟨e.1 / n ^ (d + 1), h1⟩).1 + 1) * T.size (refFaces d n) := by ring
        _ ≤ _ := Nat.mul_le_mul_right _ hEd
    simp only [nodeVal, if_neg hs, Nat.add_assoc]
    rw [nodePerm_inner sigma pi ⟨_, h7⟩]
    have := blockPerm_val sigma.symm (sigma ⟨e.1 / n ^ (d + 1), h1⟩) ⟨_, h6⟩ h7
    simp only [Equiv.symm_apply_apply] at this
    rw [this]

/-- **C98** (types of faces).  A refined hyperedge of the reordered file has the same types of faces as the old hyperedge with the same position. -/
theorem C98_file_types (m : Mode) (e e' : Nat) (he : e < D.n_hyEdges * n ^ (d + 1)) (hdiv : ∃ h, e' / n ^ (d + 1) = (sigma ⟨e / n ^ (d + 1), h⟩).1) (hmod : e' % n ^ (d + 1) = e % n ^ (d + 1)) :
    (NodeDescriptor.File.ofTopology ((File.mk' T D').set_refinement T n)).get_hyFace_types m T e = (NodeDescriptor.File.ofTopology ((File.mk' T D).set_refinement T n)).get_hyFace_types m T e' := by
  obtain ⟨h1, h2⟩ := hdiv
  have hce : 0 < D.n_hyEdges := Nat.zero_lt_of_lt h1
  have hnn : Wrapper.n_elements T (refElem d n) = n ^ (d + 1) := by
    unfold Wrapper.n_elements
    rw [size_refElem hT]
    exact u32_of_lt (lt_of_le_of_lt (Nat.le_mul_of_pos_left _ hce) hE)
  have he' : e' < D.n_hyEdges * n ^ (d + 1) := (index_lt_iff hn).2 (h2 ▸ (sigma _).2)
  have hpos : n ^ (d + 1) ≠ 0 := Nat.pos_iff_ne_zero.1 (Nat.pow_pos hn)
  unfold NodeDescriptor.File.get_hyFace_types NodeDescriptor.eraseInterior
  have hr1 : (NodeDescriptor.File.ofTopology ((File.mk' T D').set_refinement T n)).tpcc_ref_elem = refElem d n := rfl
  have hr2 : (NodeDescriptor.File.ofTopology ((File.mk' T D).set_refinement T n)).tpcc_ref_elem = refElem d n := rfl
  have hi1 : (NodeDescriptor.File.ofTopology ((File.mk' T D').set_refinement T n)).domain_info = D' := rfl
  have hi2 : (NodeDescriptor.File.ofTopology ((File.mk' T D).set_refinement T n)).domain_info = D := rfl
  have hs1 : (NodeDescriptor.File.ofTopology ((File.mk' T D').set_refinement T n)).n_subintervals = n := rfl
  have hs2 : (NodeDescriptor.File.ofTopology ((File.mk' T D).set_refinement T n)).n_subintervals = n := rfl
  rw [hr1, hr2, hi1, hi2, hs1, hs2, hnn, hre.edges, hyAssert_of (by rw [u32_of_lt hE]; exact he), hyAssert_of (by rw [u32_of_lt hE]; exact he')]
  simp only [Res.ok_bind, udiv, umod, if_neg hpos]
  have ht := hre.types ⟨e / n ^ (d + 1), h1⟩
  have hlen : (sigma ⟨e / n ^ (d + 1), h1⟩).1 < D.hyFaces_hyEdge.length := by rw [hD.types_length]; exact (sigma _).2
  have hlen' : e / n ^ (d + 1) < D'.hyFaces_hyEdge.length := by rw [hD'.types_length, hre.edges]; exact h1
  rw [List.getElem?_eq_getElem hlen, List.getElem?_eq_getElem hlen'] at ht
  rw [h2, vget_of_lt hlen, vget_of_lt hlen', Option.some.inj ht, hmod]

/-- **C98** (files and loops).  The hypergraphs of the loops are renumbered in the same way, so that all of the statements above apply. -/
theorem C98_file_graph (m : Mode) {nB : Nat} (G G' : HyGraph (d + 1) nB) (hfit : G.n_hyNodes * nB < U32)
    (hG : DescribedBy G ((File.mk' T D).set_refinement T n).n_hyEdges ((File.mk' T D).set_refinement T n).n_hyNodes fun e => ((File.mk' T D).set_refinement T n).get_hyNode_indices m T e)
    (hG' : DescribedBy G' ((File.mk' T D').set_refinement T n).n_hyEdges ((File.mk' T D').set_refinement T n).n_hyNodes fun e => ((File.mk' T D').set_refinement T n).get_hyNode_indices m T e) :
    ∃ nodes nodes' sigma' pi', G.WF nodes ∧ G'.WF nodes' ∧ Renumbered nodes nodes' sigma' pi' ∧
      ∀ e : Fin G'.n_hyEdges, (∃ h, (sigma' e).1 / n ^ (d + 1) = (sigma ⟨e.1 / n ^ (d + 1), h⟩).1) ∧ (sigma' e).1 % n ^ (d + 1) = e.1 % n ^ (d + 1) := by
  obtain ⟨h1, h2, s, p, h3⟩ := C98_file hT hD hD' hn hE hN hre m
  have hge := hG.edges
  have hgn := hG.nodes
  have hge' := hG'.edges.trans h1
  have hgn' := hG'.nodes.trans h2
  have hval : ∀ e : Fin G.n_hyEdges, ∀ i, G.hyNodes e i < G.n_hyNodes := fun e i => by
    obtain ⟨nd, h4, h5⟩ := C24_file_valid (n := n) hT hD hn hE hN m e (hge ▸ e.2)
    rw [hG.indices e (hge ▸ e.2)] at h4
    rw [Res.ok.inj h4, hgn]
    exact h5 i
  have key : ∀ e : Fin G'.n_hyEdges, ∀ i, ∃ h, G'.hyNodes e i = (p ⟨G.hyNodes (s (finCongr hge' e)).1 i, h⟩).1 := fun e i => by
    obtain ⟨_, _, a, b, h4, h5, h6⟩ := h3 (finCongr hge' e)
    rw [hG.indices _ (s (finCongr hge' e)).2] at h4
    rw [hG'.indices _ (lt_of_lt_of_eq (finCongr hge' e).2 h1.symm)] at h5
    obtain ⟨h7, h8⟩ := h6 i
    obtain rfl := Res.ok.inj h4
    obtain rfl := Res.ok.inj h5
    exact ⟨h7, h8⟩
  refine ⟨fun e i => ⟨G.hyNodes e i, hval e i⟩, fun e i => ⟨G'.hyNodes e i, by
      obtain ⟨h4, h5⟩ := key e i
      rw [h5, hgn']
      exact (p _).2⟩, (finCongr hge').trans (s.trans (finCongr hge.symm)), (finCongr hgn).trans (p.trans (finCongr hgn'.symm)), ⟨fun _ _ => rfl, hfit⟩, ⟨fun _ _ => rfl, by rw [hgn', ← hgn]; exact hfit⟩, fun e i => ?_, fun e => ?_⟩
  · obtain ⟨h4, h5⟩ := key e i
    exact Fin.ext h5
  · obtain ⟨h4, h5, _⟩ := h3 (finCongr hge' e)
    exact ⟨h4, h5⟩

end

/-- The star with its lines in the opposite order and the numbers 0 and 3 of the points exchanged. -/
def starDomain' : DomainTopo 0 where
  n_hyEdges := 3
  n_hyNodes := 4
  hyNodes_hyEdge := [![3, 0], ![3, 2], ![3, 1]]
  hyFaces_hyEdge := [![0, 2], ![0, 1], ![0, 1]]

def starEdges : Equiv.Perm (Fin 3) := Equiv.swap 0 2
def starNodes : Equiv.Perm (Fin 4) := Equiv.swap 0 3

theorem star_reordered : Reordered starDomain starDomain' starEdges starNodes where
  edges := rfl
  nodes := rfl
  indices := by
    show ∀ (e : Fin 3) (a b : FaceArr 0), _
    intro e a b h1 h2 i
    fin_cases e
    · obtain rfl : ![0, 3] = a := Option.some.inj h1
      obtain rfl : ![3, 0] = b := Option.some.inj h2
      fin_cases i <;> exact ⟨by decide, by decide⟩
    · obtain rfl : ![0, 2] = a := Option.some.inj h1
      obtain rfl : ![3, 2] = b := Option.some.inj h2
      fin_cases i <;> exact ⟨by decide, by decide⟩
    · obtain rfl : ![0, 1] = a := Option.some.inj h1
      obtain rfl : ![3, 1] = b := Option.some.inj h2
      fin_cases i <;> exact ⟨by decide, by decide⟩
  types := by
    show ∀ e : Fin 3, _
    decide

/-- The hypotheses of `C98_file` and `C98_file_types` can be met. -/
example := C98_file (n := 4) lexTpcc_lawful (D := starDomain) (D' := starDomain') ⟨rfl, rfl, by decide⟩ ⟨rfl, rfl, by decide⟩ (by decide) (by decide) (by decide) star_reordered .debug

end File

end HyperHDG

namespace HyperHDG.HyGraph.Example

open Spec

/-- The path `0 - 1 - 2` with its edges in the opposite order and the nodes 0 and 1 exchanged. -/
def path' : HyGraph 1 1 := ⟨2, 3, fun e i => if (e = 1 ∧ i = 1) ∨ (e = 0 ∧ i = 0) then 0 else if e = 1 then 1 else 2⟩

def pathNodes' : Fin path'.n_hyEdges → Fin (2 * 1) → Fin path'.n_hyNodes := fun e i => ⟨path'.hyNodes e i, by
  revert e i
  show ∀ (e : Fin 2) (i : Fin 2), _
  decide⟩

theorem path_wf' : path'.WF pathNodes' := ⟨fun _ _ => rfl, by decide⟩

def swapEdges : Equiv.Perm (Fin 2) := Equiv.swap 0 1
def swapNodes : Equiv.Perm (Fin 3) := Equiv.swap 0 1

theorem path_renumbered : Renumbered pathNodes pathNodes' swapEdges swapNodes := by
  show ∀ (e : Fin 2) (i : Fin 2), _
  intro e i
  apply Fin.ext
  revert e i
  decide

/-- The hypotheses of `C98_flux` can be met: a local function which multiplies by the number of the edge plus one. -/
example : ∃ y' : Fin 3 → ℤ, path'.mat_vec_multiply .debug (fun e u _ => .ok fun i j => (2 - (e : ℤ)) * u i j) (fun _ _ => 7) (fun _ _ => 8) (List.ofFn ![20, 10, 30]) = .ok (List.ofFn y') ∧
    SameValues swapNodes (n := 1) ![10, 60, 60] y' :=
  C98_flux .debug path path' pathNodes pathNodes' path_wf path_wf' swapEdges swapNodes path_renumbered (fun e u _ => .ok fun i j => ((e : ℤ) + 1) * u i j) _ (by
    show ∀ e : Fin 2, _
    intro e
    fin_cases e <;> rfl) (x := ![10, 20, 30]) (y := ![10, 60, 60]) (x' := ![20, 10, 30]) (by
    show ∀ (v : Fin 3) (j : Fin 1), _
    decide) (fun _ _ => 0) (fun _ _ => 0) _ _ (by decide +kernel)

/-- Without the agreement of the local values the initial vector depends on the order of the hyperedges: the last one wins. -/
theorem C98_make_initial_order :
    path.make_initial_data .debug (fun e _ d => .ok (fun _ _ => (e : ℤ) + 1, d)) [0, 0, 0] [(), ()] = .ok ([1, 2, 2], [(), ()]) ∧
    path'.make_initial_data .debug (fun e _ d => .ok (fun _ _ => 2 - (e : ℤ), d)) [0, 0, 0] [(), ()] = .ok ([1, 1, 2], [(), ()]) := by
  constructor <;> decide +kernel

end HyperHDG.HyGraph.Example

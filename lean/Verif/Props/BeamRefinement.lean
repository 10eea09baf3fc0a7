import Verif.Proofs.BeamRefinement
import Verif.Props.BeamExact
import Verif.Props.NetworkRefinement

/-!
# Property C106: refining the beams of a network does not change the displacements and rotations of its joints
-/

namespace HyperHDG.Timoshenko

open Finset Spec Matrix HyGraph Polynomial Estimate Diffusion HyperHDG.Topology

/-- **C106** (refinement).  The network of beams of a domain file where each joint is connected to a fixed one, with continuous loads, has an equilibrium with displacements and rotations `w` of the joints, `U` on the beams and forces
and moments `Q` on the beams.  For every refinement `n` of the beams, every degree at least three, every positive `tau` and every solver of the local systems: there is exactly one vector with residual zero, and it consists of the
displacements and rotations of this equilibrium, at the joints of the file and at those in the interior of beams.  Applied to it, the local solver returns the forces and moments of the equilibrium at the ends of the parts. -/
theorem C106_refined {T : Tpcc} (hT : T.Lawful) {dom : DomainTopo 0} {L : List Nat} {DN : Nat → Prop} (hfile : DirichletFile dom L DN) (hfit1 : dom.n_hyNodes * 6 < U32) (B : Nat → Beam) (hB : ∀ e, (B e).Admissible) :
    ∃ (Q U : Nat → ℝ → Fin 6 → ℝ) (w : Nat → Fin 6 → ℝ), EquilibriumOnFile dom DN B Q U w ∧
    ∀ (n : Nat) (_ : BeamsFit dom n) (p : Nat) (_ : 3 ≤ p) (P : Fin (p + 1) → ℝ[X]) (_ : OrthonormalPolys p P) (m : Mode) (gesv : Gesv (n_loc_dofs (p + 1)) 1 ℝ) (_ : GesvSpec gesv) (tau : ℝ) (_ : 0 < tau) (time : ℝ)
      (G : HyGraph 1 6) (E : Nat → Edge (p + 1) ℝ) (_ : RefinedBeams m T dom L B n P G E) (old0 new0 : LocDofs 1 6 ℝ),
      ∃ x : Fin (G.n_hyNodes * 6) → ℝ,
        (∀ y, (VanishesAt (fun v : Fin G.n_hyNodes => v.1 < dom.n_hyNodes ∧ DN v.1) y ∧ G.mat_vec_multiply m (localResidual m gesv tau E time) old0 new0 (List.ofFn y) = .ok (List.replicate (G.n_hyNodes * 6) 0)) ↔ y = x) ∧
        (∀ v : Fin G.n_hyNodes, v.1 < dom.n_hyNodes → ¬ DN v.1 → ∀ j, x (dof v j) = w v.1 j) ∧
        (∀ (e : Nat), e < G.n_hyEdges → ∀ (f : Fin (2 * 1)) (v : Fin G.n_hyNodes), G.hyNodes e f = v.1 → ¬ (v.1 < dom.n_hyNodes ∧ DN v.1) →
          ∀ j, x (dof v j) = inSpace (B (e / n)).frame (U (e / n) ((refPos T 0 n e 0 + f.1 : Nat) / n)) j) ∧
        ∃ nodes' : Fin G.n_hyEdges → Fin (2 * 1) → Fin G.n_hyNodes, G.WF nodes' ∧ ∀ e : Fin G.n_hyEdges, residual_flux m gesv tau (faceValues nodes' x e) 0 (E e) time =
          .ok (offDirichlet (E e) fun f => endSign f • inSpace (B (e.1 / n)).frame (Q (e.1 / n) ((refPos T 0 n e 0 + f.1 : Nat) / n))) := by
  classical
  obtain ⟨Q, U, w, h⟩ := C105_exists (fun e : Fin dom.n_hyEdges => B e) (fun e => hB e) (fileNodes hfile.consistent) (fun v => DN v.1) (file_anchored hfile) hfit1
  refine ⟨fun e s => if he : e < dom.n_hyEdges then Q ⟨e, he⟩ s else 0, fun e s => if he : e < dom.n_hyEdges then U ⟨e, he⟩ s else 0, fun v => if hv : v < dom.n_hyNodes then w ⟨v, hv⟩ else 0,
    ⟨fileNodes hfile.consistent, fun e => ?_, ?_⟩, ?_⟩
  · have he : e.1 < dom.hyNodes_hyEdge.length := by rw [hfile.consistent.nodes_length]; exact e.2
    exact ⟨he, fun f => fileNodes_eq _ e he f⟩
  · have e1 : (fun (e : Fin dom.n_hyEdges) (s : ℝ) => if he : e.1 < dom.n_hyEdges then Q ⟨e, he⟩ s else 0) = Q := funext fun e => funext fun s => dif_pos e.2
    have e2 : (fun (e : Fin dom.n_hyEdges) (s : ℝ) => if he : e.1 < dom.n_hyEdges then U ⟨e, he⟩ s else 0) = U := funext fun e => funext fun s => dif_pos e.2
    have e3 : (fun (v : Fin dom.n_hyNodes) => if hv : v.1 < dom.n_hyNodes then w ⟨v, hv⟩ else 0) = w := funext fun v => dif_pos v.2
    rw [e1, e2, e3]
    exact h
  · intro n hfit p hp P hP m gesv hg tau ht time G E hR old0 new0
    obtain ⟨nodes', coarse, pos, N, ι, hwf, hS, hco, hpo, hι⟩ := file_subdivides hT hfile.consistent hfit.fits m (nB := 6) G hfit.dofs hR.graph
    obtain ⟨w', hw', h'⟩ := hS.equilibrium h hfit.fits.pos
    have hD : ∀ (e : Fin G.n_hyEdges) (f : Fin (2 * 1)), (E e).node_descriptor f ∈ (E e).dirichlet_nodes ↔ ∃ v, nodes' e f = ι v ∧ DN v.1 := fun e f => by
      rw [hR.dirichlet]
      exact face_types hT hfile hfit.fits hR.types hS hco hpo e f
    have hdata : (fun e' => (B (coarse e')).part n (pos e')) = fun e' : Fin G.n_hyEdges => (B (e'.1 / n)).part n (refPos T 0 n e' 0) := funext fun e' => by rw [hco, hpo]
    rw [hdata] at h'
    obtain ⟨x, h1, h2, h3⟩ := C105_exact hP hp m gesv hg tau ht time (fun e => (B (e / n)).part n (refPos T 0 n e 0)) (fun e => beamPart_admissible (hB _) hfit.fits.pos _) E hR.integrals G nodes' hwf _ hD
      (hS.anchored (file_anchored hfile)) h'
    have hDN : (fun v : Fin G.n_hyNodes => v.1 < dom.n_hyNodes ∧ DN v.1) = fun v' => ∃ v, v' = ι v ∧ DN v.1 := funext fun v' => propext
      ⟨fun ⟨a, b⟩ => ⟨⟨v'.1, a⟩, Fin.ext (hι ⟨v'.1, a⟩).symm, b⟩, fun ⟨v, a, b⟩ => by
        have : v'.1 = v.1 := by rw [a, hι]
        rw [this]
        exact ⟨v.2, b⟩⟩
    have hlt : ∀ e : Fin G.n_hyEdges, e.1 / n < dom.n_hyEdges := fun e => hco e ▸ (coarse e).2
    have hc : ∀ e : Fin G.n_hyEdges, coarse e = ⟨e.1 / n, hlt e⟩ := fun e => Fin.ext (hco e)
    have hx : ∀ (e : Fin G.n_hyEdges) (f : Fin (2 * 1)), (((pos e).1 : ℝ) + (f.1 : ℝ)) / n = ((refPos T 0 n e 0 + f.1 : Nat) : ℝ) / n := fun e f => by
      rw [hpo]
      push_cast
      rfl
    rw [hDN]
    refine ⟨x, fun y => h1 old0 new0 y, fun v hv hvD j => ?_, fun e he f v hev hvD j => ?_, nodes', hwf, fun e => ?_⟩
    · simp only [dif_pos hv]
      have hvι : v = ι ⟨v.1, hv⟩ := Fin.ext (hι ⟨v.1, hv⟩).symm
      have hnD : ¬ ∃ v₀, v = ι v₀ ∧ DN v₀.1 := fun ⟨v₀, a, b⟩ => hvD (by rw [a, hι]; exact b)
      rw [h2 v hnD j]
      exact congrFun ((congrArg w' hvι).trans (hw' _)) j
    · have hnode : nodes' ⟨e, he⟩ f = v := Fin.ext ((hwf.hyNodes_eq ⟨e, he⟩ f).symm.trans hev)
      have hnD : ¬ ∃ v₀, v = ι v₀ ∧ DN v₀.1 := fun hx => hvD ((congrFun hDN v).mpr hx)
      have h4 := h'.joints ⟨e, he⟩ f (by rw [hnode]; exact hnD)
      rw [hx ⟨e, he⟩ f, hc ⟨e, he⟩, hnode] at h4
      simp only [dif_pos (hlt ⟨e, he⟩)]
      rw [h2 v hnD j, ← h4]
      rfl
    · rw [h3 e]
      simp only [dif_pos (hlt e), hx, hc]
      rfl

/-- **C106** (independence).  The solutions of the discrete problems on two refinements of a network of beams, also with different degrees and values of `tau`, agree at the joints of the network. -/
theorem C106_independent {T : Tpcc} (hT : T.Lawful) {dom : DomainTopo 0} {L : List Nat} {DN : Nat → Prop} (hfile : DirichletFile dom L DN) (B : Nat → Beam) (hB : ∀ e, (B e).Admissible)
    {n n' p p' : Nat} (hfit : BeamsFit dom n) (hfit' : BeamsFit dom n') (hp : 3 ≤ p) (hp' : 3 ≤ p') {P : Fin (p + 1) → ℝ[X]} {P' : Fin (p' + 1) → ℝ[X]} (hP : OrthonormalPolys p P) (hP' : OrthonormalPolys p' P')
    (m m' : Mode) (gesv : Gesv (n_loc_dofs (p + 1)) 1 ℝ) (hg : GesvSpec gesv) (gesv' : Gesv (n_loc_dofs (p' + 1)) 1 ℝ) (hg' : GesvSpec gesv') {tau tau' : ℝ} (ht : 0 < tau) (ht' : 0 < tau') {time time' : ℝ} {G G' : HyGraph 1 6}
    {E : Nat → Edge (p + 1) ℝ} {E' : Nat → Edge (p' + 1) ℝ} (hR : RefinedBeams m T dom L B n P G E) (hR' : RefinedBeams m' T dom L B n' P' G' E') (old0 new0 old0' new0' : LocDofs 1 6 ℝ)
    (x : Fin (G.n_hyNodes * 6) → ℝ) (x' : Fin (G'.n_hyNodes * 6) → ℝ)
    (hx0 : VanishesAt (fun v : Fin G.n_hyNodes => v.1 < dom.n_hyNodes ∧ DN v.1) x) (hx0' : VanishesAt (fun v : Fin G'.n_hyNodes => v.1 < dom.n_hyNodes ∧ DN v.1) x')
    (hx : G.mat_vec_multiply m (localResidual m gesv tau E time) old0 new0 (List.ofFn x) = .ok (List.replicate (G.n_hyNodes * 6) 0))
    (hx' : G'.mat_vec_multiply m' (localResidual m' gesv' tau' E' time') old0' new0' (List.ofFn x') = .ok (List.replicate (G'.n_hyNodes * 6) 0))
    (v : Fin G.n_hyNodes) (v' : Fin G'.n_hyNodes) (hvv : v.1 = v'.1) (hv : v.1 < dom.n_hyNodes) (j : Fin 6) : x (dof v j) = x' (dof v' j) := by
  obtain ⟨Q, U, w, _, hall⟩ := C106_refined hT hfile ((Nat.mul_le_mul_right 6 (Nat.le_add_right _ _)).trans_lt hfit.dofs) B hB
  obtain ⟨y, h1, h2, _⟩ := hall n hfit p hp P hP m gesv hg tau ht time G E hR old0 new0
  obtain ⟨y', h1', h2', _⟩ := hall n' hfit' p' hp' P' hP' m' gesv' hg' tau' ht' time' G' E' hR' old0' new0'
  obtain rfl := (h1 x).mp ⟨hx0, hx⟩
  obtain rfl := (h1' x').mp ⟨hx0', hx'⟩
  by_cases hD : DN v.1
  · rw [hx0 v ⟨hv, hD⟩ j, hx0' v' ⟨hvv ▸ hv, hvv ▸ hD⟩ j]
  · rw [h2 v hv hD j, h2' v' (hvv ▸ hv) (hvv ▸ hD) j, hvv]

/-- **C106** (refined networks exist).  For every consistent file, all beams and every refinement which does not overflow there are a hypergraph and local problems as the theorems above assume. -/
theorem C106_network {T : Tpcc} (hT : T.Lawful) {dom : DomainTopo 0} (hdom : dom.Consistent) (L : List Nat) (B : Nat → Beam) (hB : ∀ e, (B e).Admissible) {n : Nat} (hfit : BeamsFit dom n) (m : Mode) {p : Nat} (P : Fin (p + 1) → ℝ[X]) :
    ∃ (G : HyGraph 1 6) (E : Nat → Edge (p + 1) ℝ), RefinedBeams m T dom L B n P G E := by
  obtain ⟨hE, hN⟩ := file_fits hfit.fits
  have hn := hfit.fits.pos
  let t := (Topology.File.mk' T dom).set_refinement T n
  let types : Nat → Nat → Nat := fun e f => match (NodeDescriptor.File.ofTopology t).get_hyFace_types m T e with
    | .ok types => if h : f < 2 * (0 + 1) then types ⟨f, h⟩ else 0
    | _ => 0
  refine ⟨⟨t.n_hyEdges, t.n_hyNodes, fun e f => match t.get_hyNode_indices m T e with
    | .ok nodes => nodes f
    | _ => 0⟩, fun e => beamOf P ((B (e / n)).part n (refPos T 0 n e 0)) (types e) L, ⟨rfl, rfl, fun e he => ?_⟩, fun e he => ?_, fun e => rfl, fun e => beamOf_exact P (beamPart_admissible (hB _) hn _) _ _⟩
  · obtain ⟨nodes, h1, _⟩ := C24_file_valid hT hdom hn hE hN m e he
    simp only [t, h1]
  · have hl : e / n ^ (0 + 1) < dom.hyFaces_hyEdge.length := by
      rw [hdom.types_length]
      exact (index_lt_iff (d := 0) hn).mp (by simpa using he)
    obtain ⟨tys, h1, _⟩ := C28_file (n := n) hT hdom hn hE m e (by simpa using he) _ (List.getElem?_eq_getElem hl)
    have h2 : ∀ f : Fin (2 * (0 + 1)), types e f = tys f := fun f => by
      simp only [types, t, h1]
      rw [dif_pos f.2]
    show (NodeDescriptor.File.ofTopology t).get_hyFace_types m T e = .ok fun f : Fin (2 * (0 + 1)) => types e f
    rw [show (fun f : Fin (2 * (0 + 1)) => types e f) = tys from funext h2]
    exact h1

namespace Example

/-- A file with one beam whose first end is fixed. -/
def beamDomain : DomainTopo 0 := ⟨1, 2, [![0, 1]], [![1, 0]]⟩

theorem beamDomain_file : DirichletFile beamDomain [1] fun v => v = 0 where
  consistent := ⟨rfl, rfl, by decide⟩
  zero := by decide
  types := fun e nodes types h1 h2 => by
    have he : e < 1 := (List.getElem?_eq_some_iff.mp h1).1
    obtain rfl : e = 0 := by omega
    cases h1
    cases h2
    decide
  anchored := fun v hv => by
    refine ⟨0, by decide, rfl, .single ⟨![0, 1], by decide, 0, ⟨v, hv⟩, rfl, ?_⟩⟩
    have hv' : v < 2 := hv
    rcases (show v = 0 ∨ v = 1 by omega) with rfl | rfl <;> rfl

/-- **C106** (example).  The cantilever divided into any number of parts: the computed deflection of its free end is `g L^4 / (8 E I) + g L^2 / (2 k G A)`. -/
theorem C106_example {T : Tpcc} (hT : T.Lawful) {n p : Nat} (hp : 3 ≤ p) (hfit : BeamsFit beamDomain n) {P : Fin (p + 1) → ℝ[X]} (hP : OrthonormalPolys p P) (m : Mode) (gesv : Gesv (n_loc_dofs (p + 1)) 1 ℝ) (hg : GesvSpec gesv)
    (tau : ℝ) (ht : 0 < tau) (time : ℝ) {l : ℝ} (hl : 0 < l) (g : ℝ) {C : Fin 6 → ℝ} (hC : ∀ d, 0 < C d) (G : HyGraph 1 6) (E : Nat → Edge (p + 1) ℝ) (hR : RefinedBeams m T beamDomain [1] (fun _ => cantilever l g C) n P G E)
    (old0 new0 : LocDofs 1 6 ℝ) (x : Fin (G.n_hyNodes * 6) → ℝ) (hx0 : VanishesAt (fun v : Fin G.n_hyNodes => v.1 < 2 ∧ v.1 = 0) x)
    (hx : G.mat_vec_multiply m (localResidual m gesv tau E time) old0 new0 (List.ofFn x) = .ok (List.replicate (G.n_hyNodes * 6) 0)) (v : Fin G.n_hyNodes) (hv : v.1 = 1) :
    x (dof v 1) = g * l ^ 4 / (8 * C 5) + g * l ^ 2 / (2 * C 1) := by
  obtain ⟨Q, U, w, ⟨nodes, hnodes, hs⟩, hall⟩ := C106_refined hT beamDomain_file (by decide) (fun _ => cantilever l g C) fun _ => cantilever_admissible hl g hC
  obtain ⟨y, h1, h2, _⟩ := hall n hfit p hp P hP m gesv hg tau ht time G E hR old0 new0
  obtain rfl := (h1 x).mp ⟨hx0, hx⟩
  rw [h2 v (by rw [hv]; decide) (by rw [hv]; decide) 1, hv]
  have hn : nodes = ends := funext fun e => funext fun f => Fin.ext (by
    obtain ⟨he, hn⟩ := hnodes e
    rw [hn f]
    have h3 : ∀ (k : Nat) (hk : k < beamDomain.hyNodes_hyEdge.length) (f : Fin (2 * 1)), beamDomain.hyNodes_hyEdge[k] f = f.1 := by decide
    exact h3 e.1 he f)
  subst hn
  have hD : (fun v : Fin 2 => v.1 = 0) = fun v => v = 0 := funext fun v => propext ⟨fun h => Fin.ext h, fun h => congrArg Fin.val h⟩
  have hs' : IsEquilibrium (fun _ : Fin 1 => cantilever l g C) ends (fun v : Fin 2 => v = 0) (fun e => Q e) (fun e => U e) fun v => w v := hD ▸ hs
  have h3 := (C105_unique _ (fun _ => cantilever_admissible hl g hC) ends _ ends_anchored (by decide) hs' (cantilever_equilibrium l g hC)).1 1 (by decide)
  refine (congrFun h3 1).trans ?_
  simp [displacement]
  ring

/-- The hypotheses of `C106_example` can be met, for every refinement without overflow. -/
example {n p : Nat} (hfit : BeamsFit beamDomain n) (P : Fin (p + 1) → ℝ[X]) (g : ℝ) := C106_network lexTpcc_lawful beamDomain_file.consistent [1] (fun _ => cantilever 1 g 1) (fun _ => cantilever_admissible one_pos g fun _ => one_pos) hfit .debug P

example : BeamsFit beamDomain 7 := ⟨⟨by decide, by decide, by decide⟩, by decide⟩

end Example

end HyperHDG.Timoshenko

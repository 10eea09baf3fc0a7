import Verif.Props.BilaplacianExact
import Verif.Spec.BilaplacianRefinement

/-!
# Property C109: refinement of a network does not change the values of the bilaplacian at its nodes
-/

namespace HyperHDG.Bilaplacian

open Finset Spec Matrix HyGraph LDG Mixed Polynomial HyperHDG.Topology
open Diffusion (DirichletFile RefinedFits)

theorem part_coefficient {p : Nat} {B : Data 0} (h : PolynomialCoefficient p B) (n k : Nat) : PolynomialCoefficient p (B.part n k) := by
  obtain ⟨r, hr, ha⟩ := h
  refine ⟨r.comp (C (1 / n : ℝ) * X + C (k / n : ℝ)), ?_, fun z => ?_⟩
  · refine le_trans (Nat.add_le_add_right (natDegree_comp_le.trans ?_) 3) hr
    exact (Nat.mul_le_mul_left _ (natDegree_linear_le (a := (1 / n : ℝ)) (b := (k / n : ℝ)))).trans (Nat.mul_one _).le
  · show B.b _ = _
    rw [ha, eval_comp]
    congr 1
    simp
    ring

theorem part_affine {B : Data 0} (hB : AffineLaws B.A) {n : Nat} (hn : 0 < n) (k : Nat) : AffineLaws (B.part n k).A :=
  ⟨div_pos hB.vol_pos (Nat.cast_pos.mpr hn), hB.cof_inv, hB.area_pos, hB.piola⟩

/-- **C109** (refinement).  The problem on the network of a domain file where each node is connected to one where `u` and `w` are prescribed, with continuous data, has an exact solution: `U`, `W` at the nodes of the file, `u`, `w` on
the edges.  For every refinement `n` of the edges, every degree `p` such that the inverse coefficient is on each edge a polynomial of degree at most `p - 3`, every positive `tau` and every solver of the local systems: `residual_flux` of the
zero vector returns a vector `R`, there is exactly one vector with prescribed values zero that `trace_to_flux` maps to `-R`, and it consists of the values of the same exact solution, at the nodes of the file and at those in the interior of edges. -/
theorem C109_refined {T : Tpcc} (hT : T.Lawful) {dom : DomainTopo 0} {L : List Nat} {DN : Nat → Prop} (hfile : DirichletFile dom L DN) (B : Nat → Data 0) (hB : ∀ e, AffineLaws (B e).A) (harea : ∀ e f, (B e).A.area f = 1)
    (hb : ∀ e, Continuous (B e).b) (hf : ∀ e, Continuous (B e).f) : ∃ (q u : Nat → ℝ → ℝ) (U : Nat → ℝ) (r w : Nat → ℝ → ℝ) (W : Nat → ℝ), SolvesOnFile dom DN B q u U r w W ∧
    ∀ (n : Nat) (_ : DofsFit dom n) (p : Nat) (P : Fin (p + 1) → ℝ[X]) (_ : OrthonormalPolys p P) (_ : ∀ e, PolynomialCoefficient p (B e)) (m : Mode)
      (gesv : Gesv (n_loc_dofs (0 + 1) ((p + 1) ^ (0 + 1))) 1 ℝ) (_ : GesvSpec gesv) (tau : ℝ) (_ : 0 < tau) (time : ℝ) (G : HyGraph (0 + 1) (2 * (p + 1) ^ 0)) (E : Nat → Edge (0 + 1) ((p + 1) ^ (0 + 1)) ℝ)
      (_ : RefinedNetwork m T dom L B time n P G E) (old0 new0 : LocDofs (0 + 1) (2 * (p + 1) ^ 0) ℝ),
      ∃ R x : Fin (G.n_hyNodes * (2 * (p + 1) ^ 0)) → ℝ,
        G.mat_vec_multiply m (localResidual m gesv tau E time) old0 new0 (List.ofFn (0 : Fin (G.n_hyNodes * (2 * (p + 1) ^ 0)) → ℝ)) = .ok (List.ofFn R) ∧
        (∀ y, (VanishesAt (fun v : Fin G.n_hyNodes => v.1 < dom.n_hyNodes ∧ DN v.1) y ∧
          G.mat_vec_multiply m (localOperator m gesv tau E time) old0 new0 (List.ofFn y) = .ok (List.ofFn (-R))) ↔ y = x) ∧
        (∀ v : Fin G.n_hyNodes, v.1 < dom.n_hyNodes → ¬ DN v.1 → ∀ j, x (dof v (up j)) = U v.1 ∧ x (dof v (lo j)) = W v.1) ∧
        ∀ (e : Nat), e < G.n_hyEdges → ∀ (f : Fin (2 * (0 + 1))) (v : Fin G.n_hyNodes), G.hyNodes e f = v.1 → ¬ (v.1 < dom.n_hyNodes ∧ DN v.1) → ∀ j,
          x (dof v (up j)) = u (e / n) ((refPos T 0 n e 0 + f.1 : Nat) / n) ∧ x (dof v (lo j)) = w (e / n) ((refPos T 0 n e 0 + f.1 : Nat) / n) := by
  classical
  obtain ⟨q, u, U, r, w, W, h⟩ := C108_exists (fun e : Fin dom.n_hyEdges => B e) (fun e => hB e) (fun e => hb e) (fun e => hf e) (Estimate.fileNodes hfile.consistent) (fun v => DN v.1) (Estimate.file_anchored hfile)
  let y0 : Fin 0 → ℝ := fun k => k.elim0
  have hpt : ∀ y : Fin 0 → ℝ, y = y0 := fun y => _root_.funext fun k => k.elim0
  refine ⟨fun e s => if he : e < dom.n_hyEdges then q ⟨e, he⟩ 0 (fun _ => s) else 0, fun e s => if he : e < dom.n_hyEdges then u ⟨e, he⟩ (fun _ => s) else 0, fun v => if hv : v < dom.n_hyNodes then U ⟨v, hv⟩ y0 else 0,
    fun e s => if he : e < dom.n_hyEdges then r ⟨e, he⟩ 0 (fun _ => s) else 0, fun e s => if he : e < dom.n_hyEdges then w ⟨e, he⟩ (fun _ => s) else 0, fun v => if hv : v < dom.n_hyNodes then W ⟨v, hv⟩ y0 else 0,
    ⟨Estimate.fileNodes hfile.consistent, fun e => ?_, ?_⟩, ?_⟩
  · have he : e.1 < dom.hyNodes_hyEdge.length := by rw [hfile.consistent.nodes_length]; exact e.2
    exact ⟨he, fun f => Estimate.fileNodes_eq _ e he f⟩
  · have e1 : ∀ q : Fin dom.n_hyEdges → Fin (0 + 1) → (Fin (0 + 1) → ℝ) → ℝ,
        (fun (e : Fin dom.n_hyEdges) (_ : Fin (0 + 1)) (z : Fin (0 + 1) → ℝ) => if he : e.1 < dom.n_hyEdges then q ⟨e, he⟩ 0 (fun _ => z 0) else 0) = q := fun q => by
      funext e l z
      rw [dif_pos e.2, show l = 0 from Subsingleton.elim (α := Fin 1) _ _, ← Estimate.line_point z]
    have e2 : ∀ u : Fin dom.n_hyEdges → (Fin (0 + 1) → ℝ) → ℝ, (fun (e : Fin dom.n_hyEdges) (z : Fin (0 + 1) → ℝ) => if he : e.1 < dom.n_hyEdges then u ⟨e, he⟩ (fun _ => z 0) else 0) = u := fun u => by
      funext e z
      rw [dif_pos e.2, ← Estimate.line_point z]
    have e3 : ∀ w : Fin dom.n_hyNodes → (Fin 0 → ℝ) → ℝ, (fun (v : Fin dom.n_hyNodes) (_ : Fin 0 → ℝ) => if hv : v.1 < dom.n_hyNodes then w ⟨v, hv⟩ y0 else 0) = w := fun w => by
      funext v y
      rw [dif_pos v.2, hpt y]
    rw [e1, e2, e3, e1, e2, e3]
    exact h
  · intro n hfit p P hP ha m gesv hg tau ht time G E hR old0 new0
    obtain ⟨nodes', coarse, pos, N, ι, hwf, hS, hco, hpo, hι⟩ := Estimate.file_subdivides hT hfile.consistent hfit.toRefinedFits m G (by rw [pow_zero, mul_one]; exact hfit.dofs) hR.graph
    obtain ⟨U', hU', hu'⟩ := hS.solution (fun e : Fin dom.n_hyEdges => primal_admissible (hB e) (w e)) h.primal hfit.pos
    obtain ⟨W', hW', hw'⟩ := hS.solution (fun e : Fin dom.n_hyEdges => admissible (hB e)) h.laplacian hfit.pos
    have hD : ∀ (e : Fin G.n_hyEdges) (f : Fin (2 * (0 + 1))), (E e).node_descriptor f ∈ (E e).dirichlet_nodes ↔ ∃ v, nodes' e f = ι v ∧ DN v.1 := fun e f => by
      rw [hR.dirichlet]
      exact Estimate.face_types hT hfile hfit.toRefinedFits hR.types hS hco hpo e f
    have hD' : ∀ (e : Fin G.n_hyEdges) (f : Fin (2 * (0 + 1))), (E e).node_descriptor f ∈ (E e).dirichlet_laplacian_nodes ↔ ∃ v, nodes' e f = ι v ∧ DN v.1 := fun e f => by
      rw [hR.laplacian]
      exact Estimate.face_types hT hfile hfit.toRefinedFits hR.types hS hco hpo e f
    have h0 : IsClassicalSolution (fun e' => (B (coarse e')).part n (pos e')) nodes' (fun v' => ∃ v, v' = ι v ∧ DN v.1) _ _ U' _ _ W' := ⟨hu', hw'⟩
    have hdata : (fun e' => (B (coarse e')).part n (pos e')) = fun e' : Fin G.n_hyEdges => (B (e'.1 / n)).part n (refPos T 0 n e' 0) := _root_.funext fun e' => by rw [hco, hpo]
    rw [hdata] at h0
    obtain ⟨R, hres, h2⟩ := C108_nodes hP m gesv hg tau ht (fun e => (B (e / n)).part n (refPos T 0 n e 0)) (fun e => part_affine (hB _) hfit.pos _) (fun e f => harea _ f) (fun e => part_coefficient (ha _) n _) time E
      hR.integrals G nodes' hwf _ hD hD' (hS.anchored (Estimate.file_anchored hfile)) _ _ _ _ _ _ h0 old0 new0
    have hDN : (fun v : Fin G.n_hyNodes => v.1 < dom.n_hyNodes ∧ DN v.1) = fun v' => ∃ v, v' = ι v ∧ DN v.1 := _root_.funext fun v' => propext
      ⟨fun ⟨a, b⟩ => ⟨⟨v'.1, a⟩, Fin.ext (hι ⟨v'.1, a⟩).symm, b⟩, fun ⟨v, a, b⟩ => by
        have : v'.1 = v.1 := by rw [a, hι]
        rw [this]
        exact ⟨v.2, b⟩⟩
    rw [hDN]
    have hF := fun e => Diffusion.exact_laws hP (admissible (part_affine (hB (e / n)) hfit.pos (refPos T 0 n e 0))) (lap_exact (hR.integrals e))
    obtain ⟨R', hres', x, hx, hxu⟩ := C61_unique (nB := (p + 1) ^ 0) m gesv hg tau ht E time (fun e => (hF e).1) G nodes' hwf old0 new0 (fun e => (hF e).2) _ hD hD' (hS.anchored (Estimate.file_anchored hfile))
    have hRR : R' = R := List.ofFn_injective (Res.ok.inj (hres'.symm.trans hres))
    rw [hRR] at hx hxu
    have h3 := ((h2 x).mp hx).2
    refine ⟨R, x, hres, fun y => ⟨fun hy => hxu y hy, fun hy => hy ▸ hx⟩, fun v hv hvD j => ?_, fun e he f v hev hvD j => ?_⟩
    · simp only [dif_pos hv]
      have hvι : v = ι ⟨v.1, hv⟩ := Fin.ext (hι ⟨v.1, hv⟩).symm
      have hnD : ¬ ∃ v₀, v = ι v₀ ∧ DN v₀.1 := fun ⟨v₀, a, b⟩ => hvD (by rw [a, hι]; exact b)
      obtain ⟨a, b⟩ := h3 v hnD j y0
      exact ⟨a.trans (congrFun ((congrArg U' hvι).trans (hU' _)) y0), b.trans (congrFun ((congrArg W' hvι).trans (hW' _)) y0)⟩
    · have hnode : nodes' ⟨e, he⟩ f = v := Fin.ext ((hwf.hyNodes_eq ⟨e, he⟩ f).symm.trans hev)
      have hnD : ¬ ∃ v₀, v = ι v₀ ∧ DN v₀.1 := fun hx => hvD ((congrFun hDN v).mpr hx)
      have h4 := h0.primal.continuous ⟨e, he⟩ f (by rw [hnode]; exact hnD) y0 fun k => k.elim0
      have h5 := h0.laplacian.continuous ⟨e, he⟩ f (by rw [hnode]; exact hnD) y0 fun k => k.elim0
      have hlt : e / n < dom.n_hyEdges := hco ⟨e, he⟩ ▸ (coarse ⟨e, he⟩).2
      have h6 : coarse ⟨e, he⟩ = ⟨e / n, hlt⟩ := Fin.ext (hco ⟨e, he⟩)
      simp only [dif_pos hlt]
      obtain ⟨a, b⟩ := h3 v hnD j y0
      rw [a, b, ← hnode, ← h4, ← h5, Estimate.facePoint_zero one_pos, hpo, h6]
      push_cast
      exact ⟨rfl, rfl⟩

/-- **C109** (independence).  The solutions of the discrete problems on two refinements of a network, also with different degrees and values of `tau`, agree at the nodes of the network. -/
theorem C109_independent {T : Tpcc} (hT : T.Lawful) {dom : DomainTopo 0} {L : List Nat} {DN : Nat → Prop} (hfile : DirichletFile dom L DN) (B : Nat → Data 0) (hB : ∀ e, AffineLaws (B e).A) (harea : ∀ e f, (B e).A.area f = 1)
    (hf : ∀ e, Continuous (B e).f) {n n' p p' : Nat} (hfit : DofsFit dom n) (hfit' : DofsFit dom n') {P : Fin (p + 1) → ℝ[X]} {P' : Fin (p' + 1) → ℝ[X]} (hP : OrthonormalPolys p P) (hP' : OrthonormalPolys p' P')
    (ha : ∀ e, PolynomialCoefficient p (B e)) (ha' : ∀ e, PolynomialCoefficient p' (B e)) (m m' : Mode) (gesv : Gesv (n_loc_dofs (0 + 1) ((p + 1) ^ (0 + 1))) 1 ℝ) (hg : GesvSpec gesv)
    (gesv' : Gesv (n_loc_dofs (0 + 1) ((p' + 1) ^ (0 + 1))) 1 ℝ) (hg' : GesvSpec gesv') {tau tau' : ℝ} (ht : 0 < tau) (ht' : 0 < tau') {time time' : ℝ} {G : HyGraph (0 + 1) (2 * (p + 1) ^ 0)} {G' : HyGraph (0 + 1) (2 * (p' + 1) ^ 0)}
    {E : Nat → Edge (0 + 1) ((p + 1) ^ (0 + 1)) ℝ} {E' : Nat → Edge (0 + 1) ((p' + 1) ^ (0 + 1)) ℝ} (hR : RefinedNetwork m T dom L B time n P G E) (hR' : RefinedNetwork m' T dom L B time' n' P' G' E')
    (old0 new0 : LocDofs (0 + 1) (2 * (p + 1) ^ 0) ℝ) (old0' new0' : LocDofs (0 + 1) (2 * (p' + 1) ^ 0) ℝ) (R x : Fin (G.n_hyNodes * (2 * (p + 1) ^ 0)) → ℝ) (R' x' : Fin (G'.n_hyNodes * (2 * (p' + 1) ^ 0)) → ℝ)
    (hres : G.mat_vec_multiply m (localResidual m gesv tau E time) old0 new0 (List.ofFn (0 : Fin (G.n_hyNodes * (2 * (p + 1) ^ 0)) → ℝ)) = .ok (List.ofFn R))
    (hres' : G'.mat_vec_multiply m' (localResidual m' gesv' tau' E' time') old0' new0' (List.ofFn (0 : Fin (G'.n_hyNodes * (2 * (p' + 1) ^ 0)) → ℝ)) = .ok (List.ofFn R'))
    (hx0 : VanishesAt (fun v : Fin G.n_hyNodes => v.1 < dom.n_hyNodes ∧ DN v.1) x) (hx0' : VanishesAt (fun v : Fin G'.n_hyNodes => v.1 < dom.n_hyNodes ∧ DN v.1) x')
    (hx : G.mat_vec_multiply m (localOperator m gesv tau E time) old0 new0 (List.ofFn x) = .ok (List.ofFn (-R)))
    (hx' : G'.mat_vec_multiply m' (localOperator m' gesv' tau' E' time') old0' new0' (List.ofFn x') = .ok (List.ofFn (-R')))
    (v : Fin G.n_hyNodes) (v' : Fin G'.n_hyNodes) (hvv : v.1 = v'.1) (hv : v.1 < dom.n_hyNodes) (j : Fin ((p + 1) ^ 0)) (j' : Fin ((p' + 1) ^ 0)) :
    x (dof v (up j)) = x' (dof v' (up j')) ∧ x (dof v (lo j)) = x' (dof v' (lo j')) := by
  have hb : ∀ e, Continuous (B e).b := fun e => by
    obtain ⟨b, _, hb2⟩ := ha e
    rw [show (B e).b = fun z => b.eval (z 0) from _root_.funext hb2]
    exact b.continuous.comp (continuous_apply 0)
  obtain ⟨q, u, U, r, w, W, _, hall⟩ := C109_refined hT hfile B hB harea hb hf
  obtain ⟨S, y, h0, h1, h2, _⟩ := hall n hfit p P hP ha m gesv hg tau ht time G E hR old0 new0
  obtain ⟨S', y', h0', h1', h2', _⟩ := hall n' hfit' p' P' hP' ha' m' gesv' hg' tau' ht' time' G' E' hR' old0' new0'
  obtain rfl : R = S := List.ofFn_injective (Res.ok.inj (hres.symm.trans h0))
  obtain rfl : R' = S' := List.ofFn_injective (Res.ok.inj (hres'.symm.trans h0'))
  obtain rfl := (h1 x).mp ⟨hx0, hx⟩
  obtain rfl := (h1' x').mp ⟨hx0', hx'⟩
  by_cases hD : DN v.1
  · rw [hx0 v ⟨hv, hD⟩, hx0' v' ⟨hvv ▸ hv, hvv ▸ hD⟩, hx0 v ⟨hv, hD⟩, hx0' v' ⟨hvv ▸ hv, hvv ▸ hD⟩]
    exact ⟨rfl, rfl⟩
  · rw [(h2 v hv hD j).1, (h2 v hv hD j).2, (h2' v' (hvv ▸ hv) (hvv ▸ hD) j').1, (h2' v' (hvv ▸ hv) (hvv ▸ hD) j').2, hvv]
    exact ⟨rfl, rfl⟩

/-- A hyperedge with the integrals of given data. -/
noncomputable def edgeOf {p : Nat} (P : Fin (p + 1) → ℝ[X]) (B : Data 0) (types : Nat → Nat) (L : List Nat) : Edge (0 + 1) ((p + 1) ^ (0 + 1)) ℝ :=
  { Estimate.edgeOf P B.laplacian types L with
    vol_phiphifunc := fun _ i j => if h : i < (p + 1) ^ (0 + 1) ∧ j < (p + 1) ^ (0 + 1) then B.A.vol * cubeInt fun x => B.b x * (shape P ⟨i, h.1⟩ x * shape P ⟨j, h.2⟩ x) else 0
    bdr_phifunc := fun _ i f => if h : i < (p + 1) ^ (0 + 1) ∧ f < 2 * (0 + 1) then
      B.A.area ⟨f, h.2⟩ * cubeInt fun y => B.g (facePoint ⟨f, h.2⟩ y) * shape P ⟨i, h.1⟩ (facePoint ⟨f, h.2⟩ y) else 0
    bdr_phifunc_laplace := (Estimate.edgeOf P B.laplacian types L).bdr_phifunc
    bdrUni_psifunc_laplace := fun _ _ _ => 0
    dirichlet_laplacian_nodes := L }

theorem edgeOf_exact {p : Nat} {P : Fin (p + 1) → ℝ[X]} (hP : OrthonormalPolys p P) (B : Data 0) (types : Nat → Nat) (L : List Nat) (time : ℝ) : ExactIntegrals P B time (edgeOf P B types L) where
  form := by
    have h1 := (Estimate.edgeOf_exact P B.laplacian types L time).form
    have h2 : form (edgeOf P B types L) ((p + 1) ^ 0) = { Diffusion.form (Estimate.edgeOf P B.laplacian types L) ((p + 1) ^ 0) time with mass := (Diffusion.form (Estimate.edgeOf P B.laplacian types L) ((p + 1) ^ 0) time).mass0 } := rfl
    rw [h2, h1]
    have h3 : ∀ i j : Fin ((p + 1) ^ (0 + 1)), (tensorIntegrator (p + 1) (0 + 1) (exactBasis P)).vol_phiphi i j = cubeInt fun x => shape P i x * shape P j x := fun i j => by
      rw [shape_ortho hP]
      simp only [tensorIntegrator, all_digits_iff]
    simp only [affineForm, h3]
    rfl
  coupling := fun i j => dif_pos ⟨i.2, j.2⟩
  source := (Estimate.edgeOf_exact P B.laplacian types L time).source
  dirichlet := fun i f => dif_pos ⟨i.2, f.2⟩
  laplacian := (Estimate.edgeOf_exact P B.laplacian types L time).dirichlet

/-- **C109** (refined networks exist).  For every consistent file, all data and every refinement which does not overflow there are a hypergraph and local problems as the theorems above assume. -/
theorem C109_network {T : Tpcc} (hT : T.Lawful) {dom : DomainTopo 0} (hdom : dom.Consistent) (L : List Nat) (B : Nat → Data 0) (time : ℝ) {n : Nat} (hfit : RefinedFits dom n) (m : Mode) {p : Nat} {P : Fin (p + 1) → ℝ[X]}
    (hP : OrthonormalPolys p P) : ∃ (G : HyGraph (0 + 1) (2 * (p + 1) ^ 0)) (E : Nat → Edge (0 + 1) ((p + 1) ^ (0 + 1)) ℝ), RefinedNetwork m T dom L B time n P G E := by
  obtain ⟨G, E, hR⟩ := Estimate.C104_network hT hdom L (fun e => (B e).laplacian) time hfit m P
  exact ⟨⟨G.n_hyEdges, G.n_hyNodes, G.hyNodes⟩, fun e => edgeOf P ((B (e / n)).part n (refPos T 0 n e 0)) (E e).node_descriptor L,
    ⟨hR.graph.1, hR.graph.2, hR.graph.3⟩, hR.types, fun _ => rfl, fun _ => rfl, fun e => edgeOf_exact hP _ _ _ _⟩

/-- **C109** (uniqueness).  A problem with continuous data has only one exact solution: its values at the nodes, and the values and fluxes of `u` and `w` on the edges. -/
theorem C109_unique {nE nN : Nat} (B : Fin nE → Data 0) (hB : ∀ e, AffineLaws (B e).A) (hb : ∀ e, Continuous (B e).b) (hf : ∀ e, Continuous (B e).f) (nodes : Fin nE → Fin (2 * (0 + 1)) → Fin nN) (D : Fin nN → Prop)
    (hcon : Anchored nodes D) {q q' r r' : Fin nE → Fin (0 + 1) → (Fin (0 + 1) → ℝ) → ℝ} {u u' w w' : Fin nE → (Fin (0 + 1) → ℝ) → ℝ} {U U' W W' : Fin nN → (Fin 0 → ℝ) → ℝ}
    (h : IsClassicalSolution B nodes D q u U r w W) (h' : IsClassicalSolution B nodes D q' u' U' r' w' W') :
    (∀ v, ¬ D v → U v = U' v ∧ W v = W' v) ∧ ∀ e, ∀ z ∈ Diffusion.cube (0 + 1), u e z = u' e z ∧ q e 0 z = q' e 0 z ∧ w e z = w' e z ∧ r e 0 z = r' e 0 z := by
  obtain ⟨h1, h2⟩ := Estimate.C104_unique (fun e => (B e).laplacian) (fun e => admissible (hB e)) hf nodes D hcon h.laplacian h'.laplacian
  have hwc : ∀ e, Continuous (w e) := fun e => let ⟨_, _, _, _, hu, _, _⟩ := h.laplacian.equation e; hu
  have h3 : Diffusion.IsClassicalSolution (fun e => (B e).primal (w e)) nodes D q' u' U' := by
    refine ⟨fun e => ?_, h'.primal.continuous, h'.primal.dirichlet, h'.primal.balance⟩
    obtain ⟨du, dq, a1, a2, a3, a4, a5⟩ := h'.primal.equation e
    refine ⟨du, dq, a1, a2, a3, a4, fun z hz => ⟨(a5 z hz).1, (a5 z hz).2.trans ?_⟩⟩
    show _ * ((B e).b z * w' e z) = _ * ((B e).b z * w e z)
    rw [(h2 e z hz).1]
    rfl
  obtain ⟨h4, h5⟩ := Estimate.C104_unique (fun e => (B e).primal (w e)) (fun e => primal_admissible (hB e) _) (fun e => (hb e).mul (hwc e)) nodes D hcon h.primal h3
  exact ⟨fun v hv => ⟨h4 v hv, h1 v hv⟩, fun e z hz => ⟨(h5 e z hz).1, (h5 e z hz).2, (h2 e z hz).1, (h2 e z hz).2⟩⟩

/-! A star of three edges, `b` and the right-hand side are one, `u` and `w` vanish at the outer ends: the values in the centre are `5 / 24` and `1 / 2`. -/

/-- The data of its edges. -/
noncomputable def starData : Data 0 where
  A := Estimate.starData.A
  b := fun _ => 1
  f := fun _ => 1
  g := fun _ => 0
  h := fun _ => 0

open Estimate (star_file)

/-- **C109** (example).  The values computed for the centre of the star are `5 / 24` and `1 / 2`, for every refinement, every degree at least three and every positive `tau`. -/
theorem C109_example {T : Tpcc} (hT : T.Lawful) {n p : Nat} (hp : 3 ≤ p) (hfit : DofsFit starDomain n) {P : Fin (p + 1) → ℝ[X]} (hP : OrthonormalPolys p P) (m : Mode)
    (gesv : Gesv (n_loc_dofs (0 + 1) ((p + 1) ^ (0 + 1))) 1 ℝ) (hg : GesvSpec gesv) (tau : ℝ) (ht : 0 < tau) (time : ℝ) (G : HyGraph (0 + 1) (2 * (p + 1) ^ 0)) (E : Nat → Edge (0 + 1) ((p + 1) ^ (0 + 1)) ℝ)
    (hR : RefinedNetwork m T starDomain [1, 2] (fun _ => starData) time n P G E) (old0 new0 : LocDofs (0 + 1) (2 * (p + 1) ^ 0) ℝ) (R x : Fin (G.n_hyNodes * (2 * (p + 1) ^ 0)) → ℝ)
    (hres : G.mat_vec_multiply m (localResidual m gesv tau E time) old0 new0 (List.ofFn (0 : Fin (G.n_hyNodes * (2 * (p + 1) ^ 0)) → ℝ)) = .ok (List.ofFn R))
    (hx0 : VanishesAt (fun v : Fin G.n_hyNodes => v.1 < 4 ∧ v.1 ≠ 0) x)
    (hx : G.mat_vec_multiply m (localOperator m gesv tau E time) old0 new0 (List.ofFn x) = .ok (List.ofFn (-R))) (v : Fin G.n_hyNodes) (hv : v.1 = 0) (j : Fin ((p + 1) ^ 0)) :
    x (dof v (up j)) = 5 / 24 ∧ x (dof v (lo j)) = 1 / 2 := by
  have hA : AffineLaws starData.A := Estimate.starData_admissible.affine
  obtain ⟨q, u, U, r, w, W, ⟨nodes, hnodes, hs⟩, hall⟩ := C109_refined hT star_file (fun _ => starData) (fun _ => hA) (fun _ _ => rfl) (fun _ => continuous_const) fun _ => continuous_const
  obtain ⟨S, y, h0, h1, h2, _⟩ := hall n hfit p P hP (fun _ => ⟨1, by rw [natDegree_one]; omega, fun _ => (eval_one).symm⟩) m gesv hg tau ht time G E hR old0 new0
  obtain rfl : R = S := List.ofFn_injective (Res.ok.inj (hres.symm.trans h0))
  obtain rfl := (h1 x).mp ⟨hx0, hx⟩
  have hval := h2 v (by rw [hv]; decide) (by rw [hv]; simp) j
  rw [hval.1, hval.2, hv]
  -- the exact solution
  have hn0 : ∀ e, (nodes e 0).1 = 0 ∧ (nodes e 1).1 ≠ 0 := fun e => by
    obtain ⟨he, hn⟩ := hnodes e
    rw [hn, hn]
    have h3 : ∀ (e : Nat) (he : e < starDomain.hyNodes_hyEdge.length), starDomain.hyNodes_hyEdge[e] 0 = 0 ∧ starDomain.hyNodes_hyEdge[e] 1 ≠ 0 := by decide
    exact h3 e.1 he
  have hanch : Anchored nodes fun v => v.1 ≠ 0 := by
    have h3 : nodes = Estimate.fileNodes star_file.consistent := _root_.funext fun e => _root_.funext fun f => Fin.ext (by
      obtain ⟨he, hn⟩ := hnodes e
      rw [hn, Estimate.fileNodes_eq _ e he])
    rw [h3]
    exact Estimate.file_anchored star_file
  have v0 : ((0 : Fin (2 * (0 + 1))).1 : ℝ) = 0 := Nat.cast_zero
  have v1 : ((1 : Fin (2 * (0 + 1))).1 : ℝ) = 1 := Nat.cast_one
  have hbal : ∀ (Q : ℝ → ℝ), Q 0 = 0 → ∀ v : Fin starDomain.n_hyNodes, ¬ v.1 ≠ 0 → ∀ y : Fin 0 → ℝ,
      ∑ e, ∑ f, (if nodes e f = v then starData.A.area f * ∑ k : Fin (0 + 1), starData.A.normal f k * Q (facePoint f y 0) else 0) = 0 := fun Q hQ v hv y => by
    refine sum_eq_zero fun e _ => ?_
    rw [Estimate.sum_ends, if_neg (show ¬ nodes e 1 = v from fun h => hv (h ▸ (hn0 e).2)), add_zero, Estimate.sum_line, Estimate.facePoint_zero one_pos, v0, hQ]
    simp
  have hends : ∀ (F : ℝ → ℝ) (c : ℝ), F 0 = c → F 1 = 0 → ∀ (e : Fin starDomain.n_hyEdges) (f : Fin (2 * (0 + 1))) (y : Fin 0 → ℝ),
      (¬ (nodes e f).1 ≠ 0 → F (facePoint f y 0) = c) ∧ ((nodes e f).1 ≠ 0 → F (facePoint f y 0) = 0) := fun F c hF0 hF1 e f y => by
    rcases Estimate.face_cases f with rfl | rfl
    · rw [Estimate.facePoint_zero one_pos, v0]
      exact ⟨fun _ => hF0, fun h => absurd (hn0 e).1 h⟩
    · rw [Estimate.facePoint_zero one_pos, v1]
      exact ⟨fun h => absurd (not_not.mp h) (hn0 e).2, fun _ => hF1⟩
  have hsol : IsClassicalSolution (fun _ : Fin starDomain.n_hyEdges => starData) nodes (fun v => v.1 ≠ 0) (fun _ _ z => z 0 / 2 - z 0 ^ 3 / 6) (fun _ z => 5 / 24 - z 0 ^ 2 / 4 + z 0 ^ 4 / 24) (fun _ _ => 5 / 24)
      (fun _ _ z => z 0) (fun _ z => (1 - z 0 ^ 2) / 2) fun _ _ => 1 / 2 := by
    refine ⟨⟨fun e => Estimate.solves_line (B := starData.primal fun z => (1 - z 0 ^ 2) / 2) (Q := fun s => s / 2 - s ^ 3 / 6) (U := fun s => 5 / 24 - s ^ 2 / 4 + s ^ 4 / 24) (Q' := fun s => 1 / 2 - s ^ 2 / 2)
        (U' := fun s => -(s / 2) + s ^ 3 / 6) (fun s => ?_) (fun s => ?_) (by fun_prop) (by fun_prop) fun s _ => ⟨?_, ?_⟩,
        fun e f hf y _ => (hends (fun s => 5 / 24 - s ^ 2 / 4 + s ^ 4 / 24) (5 / 24) (by norm_num) (by norm_num) e f y).1 hf,
        fun e f hf y _ => (hends (fun s => 5 / 24 - s ^ 2 / 4 + s ^ 4 / 24) (5 / 24) (by norm_num) (by norm_num) e f y).2 hf, fun v hv y _ => hbal (fun s => s / 2 - s ^ 3 / 6) (by norm_num) v hv y⟩,
      ⟨fun e => Estimate.solves_line (B := starData.laplacian) (Q := fun s => s) (U := fun s => (1 - s ^ 2) / 2) (Q' := fun _ => 1) (U' := fun s => -s) (fun s => hasDerivAt_id s) (fun s => ?_) continuous_const (by fun_prop)
        fun s _ => ⟨?_, ?_⟩,
        fun e f hf y _ => (hends (fun s => (1 - s ^ 2) / 2) (1 / 2) (by norm_num) (by norm_num) e f y).1 hf,
        fun e f hf y _ => (hends (fun s => (1 - s ^ 2) / 2) (1 / 2) (by norm_num) (by norm_num) e f y).2 hf, fun v hv y _ => hbal (fun s => s) rfl v hv y⟩⟩
    · exact (((hasDerivAt_id s).div_const 2).sub ((hasDerivAt_pow 3 s).div_const 6)).congr_deriv (by simp; ring)
    · exact ((((hasDerivAt_pow 2 s).div_const 4).const_sub (5 / 24)).add ((hasDerivAt_pow 4 s).div_const 24)).congr_deriv (by simp; ring)
    · show (1 : ℝ) * (1 * (s / 2 - s ^ 3 / 6)) + (1 : Matrix (Fin (0 + 1)) (Fin (0 + 1)) ℝ) 0 0 * (-(s / 2) + s ^ 3 / 6) = 0
      rw [Matrix.one_apply_eq]
      ring
    · show (1 : Matrix (Fin (0 + 1)) (Fin (0 + 1)) ℝ) 0 0 * (1 / 2 - s ^ 2 / 2) = 1 * (1 * ((1 - s ^ 2) / 2))
      rw [Matrix.one_apply_eq]
      ring
    · exact (((hasDerivAt_pow 2 s).const_sub 1).div_const 2).congr_deriv (by norm_num; ring)
    · show (1 : ℝ) * (1 * s) + (1 : Matrix (Fin (0 + 1)) (Fin (0 + 1)) ℝ) 0 0 * -s = 0
      rw [Matrix.one_apply_eq]
      ring
    · show (1 : Matrix (Fin (0 + 1)) (Fin (0 + 1)) ℝ) 0 0 * 1 = 1 * 1
      rw [Matrix.one_apply_eq]
  have h3 := (C109_unique _ (fun _ => hA) (fun _ => continuous_const) (fun _ => continuous_const) nodes _ hanch hs hsol).1 ⟨0, by decide⟩ (by simp)
  exact ⟨congrFun h3.1 fun k => k.elim0, congrFun h3.2 fun k => k.elim0⟩

/-- The hypotheses of `C109_example` can be met, for every refinement without overflow. -/
example {n p : Nat} (hfit : DofsFit starDomain n) {P : Fin (p + 1) → ℝ[X]} (hP : OrthonormalPolys p P) := C109_network lexTpcc_lawful star_file.consistent [1, 2] (fun _ => starData) 0 hfit.toRefinedFits .debug hP

/-- Ten parts of each edge do not overflow. -/
example : DofsFit starDomain 10 := ⟨⟨by decide, by decide, by decide⟩, by decide⟩

end HyperHDG.Bilaplacian

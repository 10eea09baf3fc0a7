import Verif.Props.Bilaplacian
import Verif.Props.NetworkRefinement
import Verif.Proofs.BilaplacianExact
import Verif.Spec.BilaplacianExact

/-!
# Property C108: on networks the values at the nodes of the solution of the bilaplacian are exact
-/

namespace HyperHDG.Bilaplacian

open Finset Spec Matrix HyGraph LDG Mixed Polynomial

section
variable {K : Type} {dim nS nB : Nat} [Field K] [LinearOrder K] [IsStrictOrderedRing K] (m : Mode) (gesv : Gesv (n_loc_dofs dim nS) 1 K) (hg : GesvSpec gesv) (tau : K) (ht : 0 < tau)
    (E : Nat → Edge dim nS K) (time : K) (hE : ∀ e, FormLaws (form (E e) nB)) (G : HyGraph dim (2 * nB)) (nodes : Fin G.n_hyEdges → Fin (2 * dim) → Fin G.n_hyNodes)
    (hwf : G.WF nodes) (old0 new0 : LocDofs dim (2 * nB) K) (D : Fin G.n_hyNodes → Prop)
    (hD : ∀ (e : Fin G.n_hyEdges) (f : Fin (2 * dim)), (E e).node_descriptor f ∈ (E e).dirichlet_nodes ↔ D (nodes e f))
    (hD' : ∀ (e : Fin G.n_hyEdges) (f : Fin (2 * dim)), (E e).node_descriptor f ∈ (E e).dirichlet_laplacian_nodes ↔ D (nodes e f))

include hg ht hE hwf hD hD' in
/-- A solution of the linear system is made of local solutions whose fluxes balance. -/
theorem discrete_mixed {R x : Fin (G.n_hyNodes * (2 * nB)) → K}
    (hR : G.mat_vec_multiply m (localResidual m gesv tau E time) old0 new0 (List.ofFn (0 : Fin (G.n_hyNodes * (2 * nB)) → K)) = .ok (List.ofFn R))
    (hx : G.mat_vec_multiply m (localOperator m gesv tau E time) old0 new0 (List.ofFn x) = .ok (List.ofFn (-R))) :
    ∃ (q : Fin G.n_hyEdges → Fin dim → Fin nS → K) (u : Fin G.n_hyEdges → Fin nS → K) (r : Fin G.n_hyEdges → Fin dim → Fin nS → K) (w : Fin G.n_hyEdges → Fin nS → K),
      (∀ e : Fin G.n_hyEdges, IsMixedSolution (form (E e) nB) (coupling (E e) time) 0 tau 1 (moments (form (E e) nB) (upper (faceValues nodes x e)) + dirichletMoments (E e) time)
        (moments (form (E e) nB) (lower (faceValues nodes x e)) + laplacianMoments (E e) time) 0 (source (E e) time) (q e) (u e) (r e) (w e)) ∧
      (∀ v, ¬ D v → ∀ j, ∑ e : Fin G.n_hyEdges, ∑ f, (if nodes e f = v then faceFlux (form (E e) nB) tau (lower (faceValues nodes x e)) (r e) (w e) f j else 0) = 0) ∧
      ∀ v, ¬ D v → ∀ j, ∑ e : Fin G.n_hyEdges, ∑ f, (if nodes e f = v then faceFlux (form (E e) nB) tau (upper (faceValues nodes x e)) (q e) (u e) f j else 0) = 0 := by
  have hS := fun e : Fin G.n_hyEdges => (C59_solvable m gesv hg tau (E e) time (hE e) ht (0 : LocDofs dim (2 * nB) K) 0).1
  have h1 := fun e : Fin G.n_hyEdges => (C59_flux m gesv hg tau (E e) time (faceValues nodes x e) (fun _ _ => 0)).1 (hS e)
  choose q1 u1 r1 w1 h1 hl1 using h1
  have h2 := fun e : Fin G.n_hyEdges => (C60_residual m gesv hg tau (E e) time (faceValues nodes (0 : Fin (G.n_hyNodes * (2 * nB)) → K) e) (fun _ _ => 0)).1 (hS e)
  choose q2 u2 r2 w2 h2 hl2 using h2
  have hz : ∀ e, faceValues nodes (0 : Fin (G.n_hyNodes * (2 * nB)) → K) e = 0 := fun e => rfl
  have hup : upper (0 : LocDofs dim (2 * nB) K) = 0 := rfl
  have hlo : lower (0 : LocDofs dim (2 * nB) K) = 0 := rfl
  rw [mat_vec_eq m G nodes hwf (localOperator m gesv tau E time) x _ hl1 old0 new0] at hx
  rw [mat_vec_eq m G nodes hwf (localResidual m gesv tau E time) 0 _ hl2 old0 new0] at hR
  have hx' := List.ofFn_injective (Res.ok.inj hx)
  have hR' := List.ofFn_injective (Res.ok.inj hR)
  have hm0 : ∀ e : Fin G.n_hyEdges, moments (form (E e) nB) (0 : LocDofs dim nB K) = 0 := fun e => by funext f; exact mulVec_zero _
  have hbal : ∀ v k, ∑ e : Fin G.n_hyEdges, ∑ f, (if nodes e f = v then (offDirichlet (E e) (faceFlux (form (E e) nB) tau (lower (faceValues nodes x e)) (r1 e) (w1 e)) (faceFlux (form (E e) nB) tau (upper (faceValues nodes x e)) (q1 e) (u1 e)) f k +
      offDirichlet (E e) (faceFlux (form (E e) nB) tau 0 (r2 e) (w2 e)) (faceFlux (form (E e) nB) tau 0 (q2 e) (u2 e)) f k) else 0) = 0 := fun v k => by
    have h3 := congrFun hx' (dof v k)
    have h4 := congrFun hR' (dof v k)
    rw [assemble_at] at h3 h4
    rw [Pi.neg_apply, ← h4] at h3
    simp only [hz, hup, hlo] at h3
    rw [← add_eq_zero_iff_eq_neg, ← sum_add_distrib] at h3
    refine Eq.trans (sum_congr rfl fun e _ => ?_) h3
    rw [← sum_add_distrib]
    refine sum_congr rfl fun f _ => ?_
    by_cases hf : nodes e f = v
    · rw [if_pos hf, if_pos hf, if_pos hf]
    · rw [if_neg hf, if_neg hf, if_neg hf]
      exact (add_zero (0 : K)).symm
  have hfl : ∀ (e : Fin G.n_hyEdges) (l : LocDofs dim nB K) (q q' : Fin dim → Fin nS → K) (u u' : Fin nS → K), faceFlux (form (E e) nB) tau l (q + q') (u + u') = faceFlux (form (E e) nB) tau l q u + faceFlux (form (E e) nB) tau 0 q' u' :=
    fun e l q q' u u' => by
      have := flux_lin (F := form (E e) nB) (tau := tau) (lambda := l) (mu := 0) (q := q) (q' := q') (u := u) (u' := u') 1 1
      simpa only [one_smul, add_zero, smul_zero] using this
  refine ⟨fun e => q1 e + q2 e, fun e => u1 e + u2 e, fun e => r1 e + r2 e, fun e => w1 e + w2 e, fun e => ?_, fun v hv j => ?_, fun v hv j => ?_⟩
  · have h3 := mixed_lin 1 1 (h1 e) (h2 e)
    rw [hz, hup, hlo, hm0] at h3
    simpa only [one_smul, zero_add, add_zero] using h3
  · refine Eq.trans (sum_congr rfl fun e _ => sum_congr rfl fun f _ => ?_) (hbal v (up j))
    by_cases hf : nodes e f = v
    · have hf' : ¬ IsDirichlet (E e) f := fun h => hv (hf ▸ (hD e f).mp h)
      rw [if_pos hf, if_pos hf, offDirichlet_up, offDirichlet_up, if_neg hf', if_neg hf', hfl]
      rfl
    · rw [if_neg hf, if_neg hf]
  · refine Eq.trans (sum_congr rfl fun e _ => sum_congr rfl fun f _ => ?_) (hbal v (lo j))
    by_cases hf : nodes e f = v
    · have hf' : ¬ IsDirichletLaplacian (E e) f := fun h => hv (hf ▸ (hD' e f).mp h)
      rw [if_pos hf, if_pos hf, offDirichlet_lo, offDirichlet_lo, if_neg hf', if_neg hf', hfl]
      rfl
    · rw [if_neg hf, if_neg hf]

end

/-! ## Networks -/

variable {p : Nat} {P : Fin (p + 1) → ℝ[X]}

/-- The inverse of the coefficient is a polynomial of degree at most `p - 3`. -/
def PolynomialCoefficient (p : Nat) (B : Data 0) : Prop := ∃ r : ℝ[X], r.natDegree + 3 ≤ p ∧ ∀ z, B.b z = r.eval (z 0)

/-- The edge as one of the problem for `w`. -/
noncomputable def lapEdge (P : Fin (p + 1) → ℝ[X]) (B : Data 0) (E : Edge (0 + 1) ((p + 1) ^ (0 + 1)) ℝ) : Diffusion.Edge (0 + 1) ((p + 1) ^ (0 + 1)) ℝ :=
  { E.toEdge with
    vol_phiphifunc := fun _ => E.vol_phiphi
    bdr_phifunc := E.bdr_phifunc_laplace
    dirichlet_nodes := E.dirichlet_laplacian_nodes
    vol_diffsquare := fun _ u => B.A.vol * cubeInt fun x => (polyFun P u x - 0) ^ 2 }

/-- The edge as one of the problem for `u`, where `w` is the discrete solution. -/
noncomputable def primalEdge (P : Fin (p + 1) → ℝ[X]) (B : Data 0) (time : ℝ) (w : Fin ((p + 1) ^ (0 + 1)) → ℝ) (E : Edge (0 + 1) ((p + 1) ^ (0 + 1)) ℝ) : Diffusion.Edge (0 + 1) ((p + 1) ^ (0 + 1)) ℝ :=
  { E.toEdge with
    vol_phiphifunc := fun _ => E.vol_phiphi
    vol_phifunc := fun _ i => if h : i < (p + 1) ^ (0 + 1) then (coupling E time *ᵥ w) ⟨i, h⟩ else 0
    vol_diffsquare := fun _ u => B.A.vol * cubeInt fun x => (polyFun P u x - 0) ^ 2 }

section
variable {B : Data 0} {time : ℝ} {E : Edge (0 + 1) ((p + 1) ^ (0 + 1)) ℝ} (hE : ExactIntegrals P B time E)

include hE

theorem lap_exact : Diffusion.ExactIntegrals P B.laplacian time (lapEdge P B E) where
  form := by
    show form E ((p + 1) ^ 0) = _
    rw [hE.form]
    simp only [Data.laplacian, one_mul]
  source := hE.source
  dirichlet := hE.laplacian
  diff := fun _ => rfl

theorem primal_exact (hb : Continuous B.b) (w : Fin ((p + 1) ^ (0 + 1)) → ℝ) : Diffusion.ExactIntegrals P (B.primal (polyFun P w)) time (primalEdge P B time w E) where
  form := by
    show form E ((p + 1) ^ 0) = _
    rw [hE.form]
    simp only [Data.primal, one_mul]
  source := fun i => by
    show (if h : i.1 < (p + 1) ^ (0 + 1) then (coupling E time *ᵥ w) ⟨i, h⟩ else 0) = _
    rw [dif_pos i.2]
    simp only [coupling, mulVec, dotProduct, of_apply, hE.coupling, mul_assoc, ← mul_sum]
    rw [Diffusion.mass_apply hb]
    simp only [Data.primal]
  dirichlet := hE.dirichlet
  diff := fun _ => rfl

omit hE in
theorem primal_source (w : Fin ((p + 1) ^ (0 + 1)) → ℝ) : Diffusion.source (primalEdge P B time w E) time = coupling E time *ᵥ w := _root_.funext fun i => dif_pos i.2

end

theorem admissible {B : Data 0} (hB : AffineLaws B.A) : B.laplacian.Admissible := ⟨hB, continuous_const, fun _ => one_pos⟩

theorem primal_admissible {B : Data 0} (hB : AffineLaws B.A) (w : (Fin (0 + 1) → ℝ) → ℝ) : (B.primal w).Admissible := ⟨hB, continuous_const, fun _ => one_pos⟩

section
variable (hP : OrthonormalPolys p P) (m : Mode) (gesv : Gesv (n_loc_dofs (0 + 1) ((p + 1) ^ (0 + 1))) 1 ℝ) (hg : GesvSpec gesv) (tau : ℝ) (ht : 0 < tau)
    (B : Nat → Data 0) (hB : ∀ e, AffineLaws (B e).A) (harea : ∀ e f, (B e).A.area f = 1) (hb : ∀ e, PolynomialCoefficient p (B e)) (time : ℝ) (E : Nat → Edge (0 + 1) ((p + 1) ^ (0 + 1)) ℝ)
    (hE : ∀ e, ExactIntegrals P (B e) time (E e))
    (G : HyGraph (0 + 1) (2 * (p + 1) ^ 0)) (nodes : Fin G.n_hyEdges → Fin (2 * (0 + 1)) → Fin G.n_hyNodes) (hwf : G.WF nodes) (D : Fin G.n_hyNodes → Prop)
    (hD : ∀ (e : Fin G.n_hyEdges) (f : Fin (2 * (0 + 1))), (E e).node_descriptor f ∈ (E e).dirichlet_nodes ↔ D (nodes e f))
    (hD' : ∀ (e : Fin G.n_hyEdges) (f : Fin (2 * (0 + 1))), (E e).node_descriptor f ∈ (E e).dirichlet_laplacian_nodes ↔ D (nodes e f)) (hcon : Anchored nodes D)
    (q : Fin G.n_hyEdges → Fin (0 + 1) → (Fin (0 + 1) → ℝ) → ℝ) (u : Fin G.n_hyEdges → (Fin (0 + 1) → ℝ) → ℝ) (U : Fin G.n_hyNodes → (Fin 0 → ℝ) → ℝ)
    (r : Fin G.n_hyEdges → Fin (0 + 1) → (Fin (0 + 1) → ℝ) → ℝ) (w : Fin G.n_hyEdges → (Fin (0 + 1) → ℝ) → ℝ) (W : Fin G.n_hyNodes → (Fin 0 → ℝ) → ℝ)
    (h : IsClassicalSolution (fun e : Fin G.n_hyEdges => B e) nodes D q u U r w W)

include hP hg ht hB harea hb hE hwf hD hD' hcon h in
theorem nodal_mixed (old0 new0 : LocDofs (0 + 1) (2 * (p + 1) ^ 0) ℝ) {R x : Fin (G.n_hyNodes * (2 * (p + 1) ^ 0)) → ℝ}
    (hR : G.mat_vec_multiply m (localResidual m gesv tau E time) old0 new0 (List.ofFn (0 : Fin (G.n_hyNodes * (2 * (p + 1) ^ 0)) → ℝ)) = .ok (List.ofFn R))
    (hx0 : VanishesAt D x) (hx : G.mat_vec_multiply m (localOperator m gesv tau E time) old0 new0 (List.ofFn x) = .ok (List.ofFn (-R))) :
    ∀ v, ¬ D v → ∀ j y, x (dof v (up j)) = U v y ∧ x (dof v (lo j)) = W v y := by
  have hF : ∀ e, FormLaws (form (E e) ((p + 1) ^ 0)) := fun e => (Diffusion.exact_laws hP (admissible (hB e)) (lap_exact (hE e))).1
  obtain ⟨q', u', r', w', h1, h2, h3⟩ := discrete_mixed m gesv hg tau ht E time hF G nodes hwf old0 new0 D hD hD' hR hx
  have hcoef : ∀ (e : Nat) (A : Diffusion.Data 0), (∀ z, A.a z = 1) → Estimate.PolynomialCoefficient p A := fun e A hA => by
    obtain ⟨b, hb1, _⟩ := hb e
    exact ⟨1, by rw [natDegree_one]; omega, fun z => by rw [hA, eval_one]⟩
  -- the problem for `w`
  let xw : Fin (G.n_hyNodes * (p + 1) ^ 0) → ℝ := ofNodes fun v j => x (dof v (lo j))
  have hxw : ∀ e, faceValues nodes xw e = lower (faceValues nodes x e) := fun e => _root_.funext fun f => _root_.funext fun j => ofNodes_dof (fun v j => x (dof v (lo j))) (nodes e f) j
  have hxw0 : VanishesAt D xw := fun v hv j => (ofNodes_dof _ v j).trans (hx0 v hv _)
  obtain ⟨hw1, hw2, hw3⟩ := Estimate.nodal_values hP (B := fun e : Fin G.n_hyEdges => (B e).laplacian) (fun e => admissible (hB e)) (fun e => harea e) (fun e => hcoef e _ fun _ => rfl) (time := time)
    (E := fun e : Fin G.n_hyEdges => lapEdge P (B e) (E e)) (fun e => lap_exact (hE e)) hD' hcon h.laplacian (tau := tau) hxw0 (q' := r') (u' := w')
    (fun e => by
      rw [hxw]
      have := (h1 e).second
      rw [zero_mulVec, sub_zero] at this
      exact this)
    (fun v hv j => by
      simp only [hxw]
      exact h2 v hv j)
  -- its moments
  have hmom : ∀ (e : Fin G.n_hyEdges) (s : ℝ[X]), s.natDegree + 2 ≤ p → cubeInt (fun z => s.eval (z 0) * (w e z - polyFun P (w' e) z)) = 0 := fun e s hs =>
    Estimate.primal_moments hP (admissible (hB e)) (harea e) (lap_exact (hE e)) (fun _ => rfl)
      (by
        have := (h1 e).second
        rw [zero_mulVec, sub_zero] at this
        exact this) (h.laplacian.equation e) (fun f i => by
        have := hw2 e f i
        rw [hxw] at this
        exact this) (hw3 e) s hs
  -- an exact solution for the discrete `w`
  have hwc : ∀ e, Continuous (w e) := fun e => let ⟨_, _, _, _, hu, _, _⟩ := h.laplacian.equation e; hu
  have hbc : ∀ e, Continuous (B e).b := fun e => by
    obtain ⟨b, _, hb2⟩ := hb e
    rw [show (B e).b = fun z => b.eval (z 0) from _root_.funext hb2]
    exact b.continuous.comp (continuous_apply 0)
  have hch : ∀ e : Fin G.n_hyEdges, ∃ q'' u'', Diffusion.SolvesClassically ((B e).primal (polyFun P (w' e))) q'' u'' ∧ ∀ f y, u'' (facePoint f y) = u e (facePoint f y) ∧ q'' 0 (facePoint f y) = q e 0 (facePoint f y) := fun e => by
    obtain ⟨b, hb1, hb2⟩ := hb e
    have hconst : ∀ z : Fin (0 + 1) → ℝ, (fun _ => z 0) = z := fun z => _root_.funext fun k => congrArg z (Subsingleton.elim (α := Fin 1) _ _)
    have hline : Continuous fun t : ℝ => (fun _ => t : Fin (0 + 1) → ℝ) := continuous_pi fun _ => continuous_id
    have hneg : ∀ s : ℝ[X], s.natDegree + 2 ≤ p → cubeInt (fun z => s.eval (z 0) * (polyFun P (w' e) z - w e z)) = 0 := fun s hs => by
      have h4 := hmom e s hs
      rw [← neg_eq_zero, ← neg_one_mul, ← Diffusion.cubeInt_mul] at h4
      rw [← h4]
      exact Diffusion.cubeInt_congr fun z _ => by ring
    have h5 := Estimate.change_source (B := (B e).primal (w e)) (hB e) (harea e) (fun _ => rfl) (fun t => b.eval t * (polyFun P (w' e) (fun _ => t) - w e fun _ => t))
      (b.continuous.mul (((polyFun_cont (w' e)).comp hline).sub ((hwc e).comp hline)))
      (by
        simp only [hconst]
        exact hneg b (by omega))
      (by
        simp only [hconst]
        refine Eq.trans (Diffusion.cubeInt_congr fun z _ => ?_) (hneg (X * b) ((Nat.add_le_add_right natDegree_mul_le 2).trans ?_))
        · rw [eval_mul, eval_X, mul_assoc]
        · rw [natDegree_X]; omega) (h.primal.equation e)
    have h6 : ({ (B e).primal (w e) with f := fun z => ((B e).primal (w e)).f z + b.eval (z 0) * (polyFun P (w' e) (fun _ => z 0) - w e fun _ => z 0) } : Diffusion.Data 0) = (B e).primal (polyFun P (w' e)) := by
      simp only [Data.primal, hconst, hb2]
      congr 1
      funext z
      ring
    rw [h6] at h5
    exact h5
  choose q'' u'' hs hends using hch
  -- the problem for `u`
  let xu : Fin (G.n_hyNodes * (p + 1) ^ 0) → ℝ := ofNodes fun v j => x (dof v (up j))
  have hxu : ∀ e, faceValues nodes xu e = upper (faceValues nodes x e) := fun e => _root_.funext fun f => _root_.funext fun j => ofNodes_dof (fun v j => x (dof v (up j))) (nodes e f) j
  have hxu0 : VanishesAt D xu := fun v hv j => (ofNodes_dof _ v j).trans (hx0 v hv _)
  have hclass : Diffusion.IsClassicalSolution (fun e : Fin G.n_hyEdges => (B e).primal (polyFun P (w' e))) nodes D q'' u'' U :=
    ⟨hs, fun e f hf y hy => by rw [(hends e f y).1]; exact h.primal.continuous e f hf y hy, fun e f hf y hy => by rw [(hends e f y).1]; exact h.primal.dirichlet e f hf y hy, fun v hv y hy => by
      refine Eq.trans (sum_congr rfl fun e _ => sum_congr rfl fun f _ => ?_) (h.primal.balance v hv y hy)
      refine if_congr Iff.rfl (congrArg _ (sum_congr rfl fun k _ => ?_)) rfl
      rw [show k = 0 from Subsingleton.elim (α := Fin 1) _ _, (hends e f y).2]
      rfl⟩
  obtain ⟨hu1, _, _⟩ := Estimate.nodal_values hP (B := fun e : Fin G.n_hyEdges => (B e).primal (polyFun P (w' e))) (fun e => primal_admissible (hB e) _) (fun e => harea e) (fun e => hcoef e _ fun _ => rfl) (time := time)
    (E := fun e : Fin G.n_hyEdges => primalEdge P (B e) time (w' e) (E e)) (fun e => primal_exact (hE e) (hbc e) _) hD hcon hclass (tau := tau) hxu0 (q' := q') (u' := u')
    (fun e => by
      rw [hxu, primal_source]
      have := (h1 e).first
      rw [zero_add (_ : Fin ((p + 1) ^ (0 + 1)) → ℝ)] at this
      exact this)
    (fun v hv j => by
      simp only [hxu]
      exact h3 v hv j)
  exact fun v hv j y => ⟨(ofNodes_dof _ v j).symm.trans (hu1 v hv j y), (ofNodes_dof _ v j).symm.trans (hw1 v hv j y)⟩

include hP hg ht hB harea hb hE hwf hD hD' hcon h in
/-- **C108** (values at the nodes).  On a network of edges where each node is connected to a node of `D`, both `u` and `w` prescribed in `D`, with an inverse coefficient which is on each edge a polynomial of degree at most `p - 3` (e.g. a
constant, if `p` is at least three), with any right-hand side and any positive `tau`: `residual_flux` of the zero vector returns a vector `R`, and the only vector which vanishes in `D` and is mapped to `-R` by `trace_to_flux` consists of
the values of `u` and of `w` at the nodes. -/
theorem C108_nodes (old0 new0 : LocDofs (0 + 1) (2 * (p + 1) ^ 0) ℝ) : ∃ R : Fin (G.n_hyNodes * (2 * (p + 1) ^ 0)) → ℝ,
    G.mat_vec_multiply m (localResidual m gesv tau E time) old0 new0 (List.ofFn (0 : Fin (G.n_hyNodes * (2 * (p + 1) ^ 0)) → ℝ)) = .ok (List.ofFn R) ∧
    ∀ x : Fin (G.n_hyNodes * (2 * (p + 1) ^ 0)) → ℝ, (VanishesAt D x ∧ G.mat_vec_multiply m (localOperator m gesv tau E time) old0 new0 (List.ofFn x) = .ok (List.ofFn (-R))) ↔
      VanishesAt D x ∧ ∀ v, ¬ D v → ∀ j y, x (dof v (up j)) = U v y ∧ x (dof v (lo j)) = W v y := by
  have hF := fun e => Diffusion.exact_laws hP (admissible (hB e)) (lap_exact (hE e))
  obtain ⟨R, hR, x', ⟨h1, h2⟩, h3⟩ := C61_unique (nB := (p + 1) ^ 0) m gesv hg tau ht E time (fun e => (hF e).1) G nodes hwf old0 new0 (fun e => (hF e).2) D hD hD' hcon
  have hcore := fun {x : Fin (G.n_hyNodes * (2 * (p + 1) ^ 0)) → ℝ} => nodal_mixed hP m gesv hg tau ht B hB harea hb time E hE G nodes hwf D hD hD' hcon q u U r w W h old0 new0 (x := x) hR
  refine ⟨R, hR, fun x => ⟨fun hx => ⟨hx.1, hcore hx.1 hx.2⟩, fun hx => ?_⟩⟩
  have hxx : x = x' := _root_.funext fun k => by
    obtain ⟨v, j, rfl⟩ := dof_surj k
    by_cases hv : D v
    · rw [hx.1 v hv, h1 v hv]
    · have a := hx.2 v hv
      have b := hcore h1 h2 v hv
      obtain ⟨i, rfl | rfl⟩ := halves_cases j
      · rw [(a i fun k => k.elim0).1, (b i fun k => k.elim0).1]
      · rw [(a i fun k => k.elim0).2, (b i fun k => k.elim0).2]
  rw [hxx]
  exact ⟨h1, h2⟩

end

/-- **C108** (existence).  The problem on a network where each node is connected to a node of `D`, with continuous data, has a classical solution. -/
theorem C108_exists {nE nN : Nat} (B : Fin nE → Data 0) (hB : ∀ e, AffineLaws (B e).A) (hb : ∀ e, Continuous (B e).b) (hf : ∀ e, Continuous (B e).f) (nodes : Fin nE → Fin (2 * (0 + 1)) → Fin nN) (D : Fin nN → Prop)
    (hcon : Anchored nodes D) : ∃ (q : Fin nE → Fin (0 + 1) → (Fin (0 + 1) → ℝ) → ℝ) (u : Fin nE → (Fin (0 + 1) → ℝ) → ℝ) (U : Fin nN → (Fin 0 → ℝ) → ℝ) (r : Fin nE → Fin (0 + 1) → (Fin (0 + 1) → ℝ) → ℝ)
      (w : Fin nE → (Fin (0 + 1) → ℝ) → ℝ) (W : Fin nN → (Fin 0 → ℝ) → ℝ), IsClassicalSolution B nodes D q u U r w W := by
  obtain ⟨r, w, W, h1⟩ := Estimate.C104_exists (fun e => (B e).laplacian) (fun e => admissible (hB e)) hf nodes D hcon
  have hwc : ∀ e, Continuous (w e) := fun e => let ⟨_, _, _, _, hu, _, _⟩ := h1.equation e; hu
  obtain ⟨q, u, U, h2⟩ := Estimate.C104_exists (fun e => (B e).primal (w e)) (fun e => primal_admissible (hB e) _) (fun e => (hb e).mul (hwc e)) nodes D hcon
  exact ⟨q, u, U, r, w, W, h2, h1⟩

/-! ## Example -/

namespace ExactExample

open Estimate Exact.Example

/-- The path with `n` edges. -/
def path2 (p n : Nat) : HyGraph (0 + 1) (2 * (p + 1) ^ 0) := ⟨n, n + 1, fun e f => e + f⟩

/-- The problem `- u'' = w`, `- w'' = exp` on the unit interval divided into `n` edges. -/
noncomputable def data (n e : Nat) : Data 0 where
  A := (expLine.data n e).A
  b := fun _ => 1
  f := fun z => Real.exp ((e + z 0) / n)
  g := fun z => Real.exp ((e + z 0) / n)
  h := fun z => -Real.exp ((e + z 0) / n)

/-- `u = exp`, the problem `- u'' = - exp`. -/
noncomputable def primalLine : Line where
  a := fun _ => 1
  f := fun s => -Real.exp s
  q := fun s => -Real.exp s
  u := Real.exp
  cont := continuous_const
  pos := fun _ => one_pos
  flux := fun s => (Real.hasDerivAt_exp s).congr_deriv (by rw [one_mul, neg_neg])
  balance := fun s => (Real.hasDerivAt_exp s).fun_neg

/-- The edges; at the ends of the path `u` and `w` are prescribed. -/
noncomputable def edges (P : Fin (p + 1) → ℝ[X]) (n e : Nat) : Edge (0 + 1) ((p + 1) ^ (0 + 1)) ℝ :=
  { primalLine.edges P n e with
    vol_phifunc := (expLine.edges P n e).vol_phifunc
    bdr_phifunc_laplace := (expLine.edges P n e).bdr_phifunc
    bdrUni_psifunc_laplace := fun _ _ _ => 0
    dirichlet_laplacian_nodes := [1] }

theorem edges_exact (hP : OrthonormalPolys p P) (n e : Nat) : ExactIntegrals P (data n e) 0 (edges P n e) where
  form := by
    have h1 := (line_integrals P primalLine n e).form
    have h2 : form (edges P n e) ((p + 1) ^ 0) = { Diffusion.form (primalLine.edges P n e) ((p + 1) ^ 0) 0 with mass := (Diffusion.form (primalLine.edges P n e) ((p + 1) ^ 0) 0).mass0 } := rfl
    rw [h2, h1]
    have h3 : ∀ i j : Fin ((p + 1) ^ (0 + 1)), (tensorIntegrator (p + 1) (0 + 1) (exactBasis P)).vol_phiphi i j = cubeInt fun x => shape P i x * shape P j x := fun i j => by
      rw [shape_ortho hP]
      simp only [tensorIntegrator, all_digits_iff]
    simp only [affineForm, h3]
    rfl
  coupling := fun i j => by
    have h1 := congrArg (fun F => F.mass i j) (line_integrals P primalLine n e).form
    exact h1.trans (by simp [affineForm, Line.data, primalLine, data, expLine])
  source := (line_integrals P expLine n e).source
  dirichlet := (line_integrals P primalLine n e).dirichlet
  laplacian := (line_integrals P expLine n e).dirichlet

theorem solution (p : Nat) {n : Nat} (hn : 0 < n) : IsClassicalSolution (fun e : Fin (path2 p n).n_hyEdges => data n e) (pathNodes p n) (Ends p n)
    (fun e _ z => -Real.exp ((e.1 + z 0) / n)) (fun e z => Real.exp ((e.1 + z 0) / n)) (fun v _ => Real.exp (v.1 / n))
    (fun e _ z => Real.exp ((e.1 + z 0) / n)) (fun e z => -Real.exp ((e.1 + z 0) / n)) (fun v _ => -Real.exp (v.1 / n)) where
  primal := by
    have h := line_solution primalLine hn p Real.continuous_exp.neg
    refine ⟨fun e => ?_, h.continuous, h.dirichlet, h.balance⟩
    have h1 : Diffusion.SolvesClassically { primalLine.data n e with f := fun z => 1 * -Real.exp ((e.1 + z 0) / n), w := fun _ => 0 } (fun _ z => -Real.exp ((e.1 + z 0) / n)) fun z => Real.exp ((e.1 + z 0) / n) := by
      simp only [one_mul]
      exact h.equation e
    exact h1
  laplacian := by
    have h := line_solution expLine hn p Real.continuous_exp
    exact ⟨h.equation, h.continuous, h.dirichlet, h.balance⟩

end ExactExample

open ExactExample Estimate Exact.Example

/-- **C108** (example).  The problem `- u'' = w`, `- w'' = exp` on the unit interval divided into `n` edges: the solution of the linear system consists of the values of `exp` and `- exp`, for every degree at least three. -/
theorem C108_example (hP : OrthonormalPolys p P) (hp : 3 ≤ p) (n : Nat) (hn : 0 < n) (hU : 2 * (n + 1) < U32) (m : Mode) (gesv : Gesv (n_loc_dofs (0 + 1) ((p + 1) ^ (0 + 1))) 1 ℝ) (hg : GesvSpec gesv)
    (tau : ℝ) (ht : 0 < tau) (old0 new0 : LocDofs (0 + 1) (2 * (p + 1) ^ 0) ℝ) : ∃ R : Fin ((path2 p n).n_hyNodes * (2 * (p + 1) ^ 0)) → ℝ,
    (path2 p n).mat_vec_multiply m (localResidual m gesv tau (edges P n) 0) old0 new0 (List.ofFn (0 : Fin ((path2 p n).n_hyNodes * (2 * (p + 1) ^ 0)) → ℝ)) = .ok (List.ofFn R) ∧
    ∀ x : Fin ((path2 p n).n_hyNodes * (2 * (p + 1) ^ 0)) → ℝ, (VanishesAt (Ends p n) x ∧ (path2 p n).mat_vec_multiply m (localOperator m gesv tau (edges P n) 0) old0 new0 (List.ofFn x) = .ok (List.ofFn (-R))) ↔
      VanishesAt (Ends p n) x ∧ ∀ v, ¬ Ends p n v → ∀ j, x (dof v (up j)) = Real.exp (v.1 / n) ∧ x (dof v (lo j)) = -Real.exp (v.1 / n) := by
  obtain ⟨R, h1, h2⟩ := C108_nodes hP m gesv hg tau ht (data n) (fun e => (data_admissible expLine hn e).affine) (fun e f => rfl) (fun e => ⟨1, by rw [natDegree_one]; omega, fun z => eval_one.symm⟩) 0 (edges P n) (edges_exact hP n)
    (path2 p n) (pathNodes p n) ⟨fun _ _ => rfl, by show (n + 1) * (2 * (p + 1) ^ 0) < U32; simpa [mul_comm] using hU⟩ (Ends p n) (line_types (P := P) primalLine n) (line_types (P := P) primalLine n) (path_anchored p n) _ _ _ _ _ _ (solution p hn) old0 new0
  refine ⟨R, h1, fun x => (h2 x).trans ?_⟩
  exact and_congr_right fun _ => forall_congr' fun v => imp_congr_right fun _ => forall_congr' fun j => ⟨fun h => h fun k => k.elim0, fun h _ => h⟩

/-- All hypotheses can be met. -/
example : ∃ (P : Fin (3 + 1) → ℝ[X]) (gesv : Gesv (n_loc_dofs (0 + 1) ((3 + 1) ^ (0 + 1))) 1 ℝ), OrthonormalPolys 3 P ∧ GesvSpec gesv :=
  ⟨_, _, (exists_orthonormal 3).choose_spec, C44_example _ _ ℝ⟩

end HyperHDG.Bilaplacian

import Verif.Props.NetworkEstimate
import Mathlib.Algebra.Polynomial.Derivative

/-!
# The values at the nodes of a network
-/

namespace HyperHDG.Estimate

open Finset Spec Matrix HyGraph Diffusion EllipticProgram Polynomial Exact

variable {p : Nat} {P : Fin (p + 1) → ℝ[X]}

/-- A polynomial has an antiderivative. -/
theorem antiderivative (r : ℝ[X]) (hr : r.natDegree < p) : ∃ R : ℝ[X], R.derivative = r ∧ R.natDegree ≤ p := by
  refine ⟨∑ i ∈ range p, C (r.coeff i / (i + 1)) * X ^ (i + 1), ?_, ?_⟩
  · rw [derivative_sum]
    conv_rhs => rw [r.as_sum_range_C_mul_X_pow' hr]
    refine sum_congr rfl fun i _ => ?_
    rw [derivative_C_mul_X_pow, Nat.add_sub_cancel]
    push_cast
    rw [div_mul_cancel₀ _ (by positivity)]
  · refine natDegree_sum_le_of_forall_le _ _ fun i hi => (natDegree_C_mul_X_pow_le _ _).trans ?_
    exact mem_range.mp hi

theorem isPoly_line (R : ℝ[X]) (hR : R.natDegree ≤ p) : IsPoly p fun z : Fin (0 + 1) → ℝ => R.eval (z 0) := by
  refine ⟨∑ k ∈ range (p + 1), MvPolynomial.C (R.coeff k) * MvPolynomial.X 0 ^ k, fun k => ?_, fun z => ?_⟩
  · refine (MvPolynomial.degreeOf_sum_le _ _ _).trans (Finset.sup_le fun j hj => ?_)
    refine (MvPolynomial.degreeOf_C_mul_le _ _ _).trans ((MvPolynomial.degreeOf_pow_le _ _ _).trans ?_)
    have h1 := MvPolynomial.degreeOf_X (R := ℝ) k (0 : Fin (0 + 1))
    rw [if_pos (Subsingleton.elim (α := Fin 1) _ _)] at h1
    rw [h1, mul_one]
    exact Nat.lt_succ_iff.mp (mem_range.mp hj)
  · simp only [map_sum, map_mul, map_pow, MvPolynomial.eval_C, MvPolynomial.eval_X]
    exact eval_eq_sum_range' (Nat.lt_succ_of_le hR) _

theorem partial_line (R : ℝ[X]) : IsPartial 0 (fun z : Fin (0 + 1) → ℝ => R.eval (z 0)) fun z => R.derivative.eval (z 0) := fun z => by
  simp only [Function.update_self]
  exact R.hasDerivAt (z 0)

section
variable (hP : OrthonormalPolys p P) {B : Data 0} (hB : B.Admissible) (harea : ∀ f, B.A.area f = 1) {time : ℝ} {E : Edge (0 + 1) ((p + 1) ^ (0 + 1)) ℝ} (hE : ExactIntegrals P B time E)

include hP hB harea hE

/-- The difference of exact and numerical fluxes at the ends of an edge, tested by a polynomial `g`. -/
theorem flux_difference {tau : ℝ} {G : Fin (2 * (0 + 1)) → Fin ((p + 1) ^ (0 + 1)) → ℝ} {q' : Fin (0 + 1) → Fin ((p + 1) ^ (0 + 1)) → ℝ} {u' : Fin ((p + 1) ^ (0 + 1)) → ℝ}
    (h : IsSolution (form E ((p + 1) ^ 0) time) tau 0 1 G (source E time) q' u') {T : Fin (2 * (0 + 1)) → (Fin 0 → ℝ) → ℝ}
    (hT : ∀ f i, G f i = B.A.area f * cubeInt fun y => T f y * shape P i (facePoint f y))
    {q : Fin (0 + 1) → (Fin (0 + 1) → ℝ) → ℝ} {u : (Fin (0 + 1) → ℝ) → ℝ} (hs : SolvesClassically B q u)
    {c : Fin ((p + 1) ^ (0 + 1)) → ℝ} {g dg : (Fin (0 + 1) → ℝ) → ℝ} (hc : ∀ z, g z = polyFun P c z) (hg : IsPartial 0 g dg) (hdg : Continuous dg) (y : Fin 0 → ℝ) :
    ∑ f, g (facePoint f y) * (B.A.normal f 0 * q 0 (facePoint f y) - (B.A.normal f 0 * polyFun P (q' 0) (facePoint f y) + tau * (polyFun P u' (facePoint f y) - T f y))) =
      B.A.cof 0 0 * cubeInt fun z => dg z * (q 0 z - polyFun P (q' 0) z) := by
  obtain rfl : g = polyFun P c := funext hc
  obtain ⟨du, dq, h1, h2, hu, hq, h3⟩ := hs
  have hn : (form E ((p + 1) ^ 0) time).normal = B.A.normal := by rw [hE.form]; rfl
  have hone : ∀ g : Fin (0 + 1) → ℝ, ∑ k, g k = g 0 := fun g => Fin.sum_univ_one g
  have hone' : ∀ g : Fin (0 + 1) → Fin ((p + 1) ^ (0 + 1)) → ℝ, ∑ k, g k = g 0 := fun g => Fin.sum_univ_one g
  have hsum : ∀ g : Fin (2 * (0 + 1)) → ℝ, ∑ f, g f = g 0 + g 1 := fun g => Fin.sum_univ_two g
  -- the discrete problem
  have h4 := congrArg (fun v => c ⬝ᵥ v) h.primal
  rw [zero_smul, zero_add (_ : Fin ((p + 1) ^ (0 + 1)) → ℝ), one_smul, hone'] at h4
  simp only [dotProduct_add, dotProduct_neg, dot_sum, dotProduct_sub, dotProduct_smul, smul_eq_mul] at h4
  have hgrad : c ⬝ᵥ (form E ((p + 1) ^ 0) time).grad 0 *ᵥ q' 0 = B.A.cof 0 0 * cubeInt fun z => dg z * polyFun P (q' 0) z := by
    have h5 := partial_unique (polyFun_partial hP c 0) hg
    have h6 : ((form E ((p + 1) ^ 0) time).grad 0)ᵀ *ᵥ c = B.A.cof 0 0 • fun j : Fin ((p + 1) ^ (0 + 1)) => ∑ i : Fin ((p + 1) ^ (0 + 1)), (tensorIntegrator (p + 1) (0 + 1) (exactBasis P)).vol_Dphiphi i j (0 : Fin (0 + 1)) * c i := by
      rw [hE.form]
      funext j
      simp only [affineForm, mulVec, dotProduct, transpose_apply, of_apply, hone, Pi.smul_apply, smul_eq_mul, mul_sum, mul_assoc]
    rw [dotProduct_mulVec, ← mulVec_transpose, h6, smul_dotProduct, smul_eq_mul, dotProduct_comm, dot_polyFun hP, h5]
  have hbdr : ∀ f v, c ⬝ᵥ (form E ((p + 1) ^ 0) time).bdr f *ᵥ v = polyFun P c (facePoint f y) * polyFun P v (facePoint f y) := fun f v => by
    simp only [dotProduct, bdr_apply hP hE, harea, one_mul]
    have h5 : ∀ i : Fin ((p + 1) ^ (0 + 1)), cubeInt (fun y => polyFun P v (facePoint f y) * shape P i (facePoint f y)) = polyFun P v (facePoint f y) * shape P i (facePoint f y) := fun i => int_point _ y
    simp only [h5]
    unfold polyFun
    rw [sum_mul]
    exact sum_congr rfl fun i _ => by ring
  have hG : ∀ f, c ⬝ᵥ G f = polyFun P c (facePoint f y) * T f y := fun f => by
    simp only [dotProduct, hT, harea, one_mul]
    have h5 : ∀ i : Fin ((p + 1) ^ (0 + 1)), cubeInt (fun y => T f y * shape P i (facePoint f y)) = T f y * shape P i (facePoint f y) := fun i => int_point _ y
    simp only [h5]
    unfold polyFun
    rw [sum_mul]
    exact sum_congr rfl fun i _ => by ring
  have hsrc : c ⬝ᵥ source E time = B.A.cof 0 0 * cubeInt fun z => dq 0 0 z * polyFun P c z := by
    have h5 : ∀ i, source E time i = B.A.cof 0 0 * cubeInt fun z => dq 0 0 z * shape P i z := fun i => by
      show E.vol_phifunc time i = _
      rw [hE.source, ← cubeInt_mul, ← cubeInt_mul]
      refine cubeInt_congr fun z hz => ?_
      have h6 := (h3 z hz).2
      rw [hone, hone] at h6
      rw [← mul_assoc, ← h6, mul_assoc]
    rw [int_test (h2 0 0).2, mul_sum]
    simp only [dotProduct, h5]
    exact sum_congr rfl fun i _ => by ring
  -- the exact solution
  have h7 := cube_ftc 0 (partial_mul (h2 0 0).1 hg) ((hq 0).mul (polyFun_cont c)) (((h2 0 0).2.mul (polyFun_cont c)).add ((hq 0).mul hdg))
  rw [cubeInt_add ((h2 0 0).2.fun_mul (polyFun_cont c)) ((hq 0).fun_mul hdg), int_point _ y, int_point _ y] at h7
  have hf0 : (0 : Fin (0 + 1)).insertNth (α := fun _ => ℝ) 0 y = facePoint 0 y := by
    unfold facePoint
    rw [show axis (0 : Fin (2 * (0 + 1))) = 0 from Subsingleton.elim (α := Fin 1) _ _]
    rfl
  have hf1 : (0 : Fin (0 + 1)).insertNth (α := fun _ => ℝ) 1 y = facePoint 1 y := by
    unfold facePoint
    rw [show axis (1 : Fin (2 * (0 + 1))) = 0 from Subsingleton.elim (α := Fin 1) _ _]
    rfl
  rw [hf0, hf1] at h7
  have hn0 : B.A.normal 0 0 = -B.A.cof 0 0 := by
    have p0 := hB.affine.piola 0 0
    rw [harea, mul_one, show axis (0 : Fin (2 * (0 + 1))) = 0 from Subsingleton.elim (α := Fin 1) _ _] at p0
    rw [p0]
    simp [Spec.normal]
  have hn1 : B.A.normal 1 0 = B.A.cof 0 0 := by
    have p1 := hB.affine.piola 1 0
    rw [harea, mul_one, show axis (1 : Fin (2 * (0 + 1))) = 0 from Subsingleton.elim (α := Fin 1) _ _] at p1
    rw [p1]
    simp [Spec.normal]
  have h8 : cubeInt (fun z => dg z * (q 0 z - polyFun P (q' 0) z)) = cubeInt (fun z => q 0 z * dg z) - cubeInt fun z => dg z * polyFun P (q' 0) z := by
    rw [← cubeInt_sub ((hq 0).fun_mul hdg) (hdg.fun_mul (polyFun_cont _))]
    exact cubeInt_congr fun z _ => by ring
  rw [hgrad, hsrc] at h4
  simp only [hbdr, hG, hone', hn, polyFun_add, polyFun_smul, hsum, hn0, hn1] at h4
  rw [hsum, h8, hn0, hn1]
  linear_combination -h4 - B.A.cof 0 0 * h7

end

end HyperHDG.Estimate

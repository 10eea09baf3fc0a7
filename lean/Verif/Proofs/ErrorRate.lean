import Verif.Proofs.ErrorGlobal
import Mathlib.Analysis.Calculus.Taylor
import Mathlib.Algebra.Order.Chebyshev

/-!
# Mean values of the flux, approximation by Taylor polynomials
-/

namespace HyperHDG.Diffusion

open Spec HyGraph MeasureTheory Polynomial Finset Matrix

variable {p d n : Nat} {P : Fin (p + 1) → ℝ[X]}

theorem isPoly_const (p : Nat) (r : ℝ) : IsPoly p (fun _ : Fin n → ℝ => r) := ⟨MvPolynomial.C r, fun k => by rw [MvPolynomial.degreeOf_C]; exact Nat.zero_le _, fun x => (MvPolynomial.eval_C r).symm⟩

section
variable (hP : OrthonormalPolys p P) {B : Data d} (hB : B.Admissible) {time : ℝ} {E : Edge (d + 1) ((p + 1) ^ (d + 1)) ℝ} (hE : ExactIntegrals P B time E)

include hP hB hE

/-- Testing the first equation of the local problem by constants. -/
theorem const_test : ∃ c : Fin ((p + 1) ^ (d + 1)) → ℝ, (∀ z, polyFun P c z = 1) ∧ ∀ (k : Fin (d + 1)) (q u : Fin ((p + 1) ^ (d + 1)) → ℝ) (G : Fin (2 * (d + 1)) → Fin ((p + 1) ^ (d + 1)) → ℝ)
    (T : Fin (2 * (d + 1)) → (Fin d → ℝ) → ℝ), (∀ f, Continuous (T f)) → (∀ f i, G f i = B.A.area f * cubeInt fun y => T f y * shape P i (facePoint f y)) →
    c ⬝ᵥ ((form E ((p + 1) ^ d) time).mass *ᵥ q - (form E ((p + 1) ^ d) time).grad k *ᵥ u + ∑ f, (form E ((p + 1) ^ d) time).normal f k • G f) =
      B.A.vol * cubeInt (fun z => B.a z * polyFun P q z) + ∑ f, B.A.normal f k * (B.A.area f * cubeInt (T f)) := by
  obtain ⟨c, hc⟩ := poly_mem hP (isPoly_const (n := d + 1) p 1)
  have hc' : ∀ z, polyFun P c z = 1 := fun z => (hc z).symm
  refine ⟨c, hc', fun k q u G T hTc hT => ?_⟩
  have hn : (form E ((p + 1) ^ d) time).normal = B.A.normal := by rw [hE.form]; rfl
  have hmass : c ⬝ᵥ (form E ((p + 1) ^ d) time).mass *ᵥ q = B.A.vol * cubeInt fun z => B.a z * polyFun P (q) z := by
    have hm : ∀ i, ((form E ((p + 1) ^ d) time).mass *ᵥ q) i = B.A.vol * cubeInt fun x => B.a x * polyFun P (q) x * shape P i x := fun i => by
      rw [hE.form]
      simp only [affineForm, mulVec, dotProduct, of_apply, mul_assoc, ← mul_sum]
      rw [mass_apply hB.cont]
      simp only [mul_assoc]
    have h2 := int_test (P := P) (hB.cont.fun_mul (polyFun_cont (P := P) (q))) c
    simp only [hc', mul_one] at h2
    rw [h2, mul_sum]
    simp only [dotProduct, hm]
    exact sum_congr rfl fun i _ => by ring
  have hgrad : c ⬝ᵥ (form E ((p + 1) ^ d) time).grad k *ᵥ u = 0 := by
    have h2 : ∀ l : Fin (d + 1), (fun j : Fin ((p + 1) ^ (d + 1)) => ∑ i : Fin ((p + 1) ^ (d + 1)), (tensorIntegrator (p + 1) (d + 1) (exactBasis P)).vol_Dphiphi i (j : Fin ((p + 1) ^ (d + 1))) l * c i) = (0 : Fin ((p + 1) ^ (d + 1)) → ℝ) := fun l => by
      refine polyFun_inj hP fun x => ?_
      have h3 := partial_unique (polyFun_partial hP c l) (g' := fun _ => 0) fun x => by simp only [hc']; exact hasDerivAt_const _ _
      rw [congrFun h3 x]
      simp [polyFun]
    have h4 : ((form E ((p + 1) ^ d) time).grad k)ᵀ *ᵥ c = 0 := by
      rw [hE.form]
      funext j
      simp only [affineForm, mulVec, dotProduct, transpose_apply, of_apply, sum_mul, Pi.zero_apply]
      rw [sum_comm]
      refine sum_eq_zero fun l _ => ?_
      have h5 := congrFun (h2 l) j
      simp only [mul_assoc, ← mul_sum]
      rw [show ∑ i : Fin ((p + 1) ^ (d + 1)), (tensorIntegrator (p + 1) (d + 1) (exactBasis P)).vol_Dphiphi i j l * c i = 0 from h5, mul_zero]
    rw [dotProduct_mulVec, ← mulVec_transpose, h4, zero_dotProduct]
  have hface : ∀ f : Fin (2 * (d + 1)), c ⬝ᵥ G f = B.A.area f * cubeInt (T f) := fun f => by
    have h2 : ∀ y, T f y = ∑ i, c i * (T f y * shape P i (facePoint f y)) := fun y => by
      have h3 := hc' (facePoint f y)
      unfold polyFun at h3
      have h5 : ∑ i, c i * (T f y * shape P i (facePoint f y)) = T f y * ∑ i, c i * shape P i (facePoint f y) := by
        rw [mul_sum]
        exact sum_congr rfl fun i _ => by ring
      rw [h5, h3, mul_one]
    have h4 : cubeInt (T f) = ∑ i, c i * cubeInt fun y => T f y * shape P i (facePoint f y) := by
      rw [cubeInt_congr fun y _ => h2 y, cubeInt_sum univ (f := fun i y => c i * (T f y * shape P i (facePoint f y))) fun i => continuous_const.mul ((hTc f).mul ((shape_cont i).comp (face_cont f)))]
      exact sum_congr rfl fun i _ => cubeInt_mul _ _
    rw [h4, mul_sum]
    simp only [dotProduct, hT]
    exact sum_congr rfl fun i _ => by ring
  rw [dotProduct_add, dotProduct_sub, hmass, hgrad, sub_zero, dot_sum]
  simp only [dotProduct_smul, smul_eq_mul, hface, hn]

/-- Mean values of the flux of a local solution. -/
theorem mean_flux {tau : ℝ} {G : Fin (2 * (d + 1)) → Fin ((p + 1) ^ (d + 1)) → ℝ} {s : Fin ((p + 1) ^ (d + 1)) → ℝ} {q : Fin (d + 1) → Fin ((p + 1) ^ (d + 1)) → ℝ} {u : Fin ((p + 1) ^ (d + 1)) → ℝ}
    (h : IsSolution (form E ((p + 1) ^ d) time) tau 0 1 G s q u) {T : Fin (2 * (d + 1)) → (Fin d → ℝ) → ℝ} (hTc : ∀ f, Continuous (T f))
    (hT : ∀ f i, G f i = B.A.area f * cubeInt fun y => T f y * shape P i (facePoint f y)) (k : Fin (d + 1)) :
    B.A.vol * cubeInt (fun z => B.a z * polyFun P (q k) z) + ∑ f, B.A.normal f k * (B.A.area f * cubeInt (T f)) = 0 := by
  obtain ⟨c, _, hc⟩ := const_test hP hB hE
  rw [← hc k (q k) u G T hTc hT, h.flux k, dotProduct_zero]

/-- Mean values of the flux of the exact solution. -/
theorem mean_exact {q : Fin (d + 1) → (Fin (d + 1) → ℝ) → ℝ} {u : (Fin (d + 1) → ℝ) → ℝ} (h : SolvesClassically B q u) (k : Fin (d + 1)) :
    B.A.vol * cubeInt (fun z => B.a z * q k z) + ∑ f, B.A.normal f k * (B.A.area f * cubeInt fun y => u (facePoint f y)) = 0 := by
  obtain ⟨c, hc1, hc⟩ := const_test hP hB hE
  have hu : Continuous u := let ⟨_, _, _, _, hu, _, _⟩ := h; hu
  have hq : Continuous (q k) := let ⟨_, _, _, _, _, hq, _⟩ := h; hq k
  have h1 := hc k (proj P (q k)) (proj P u) (fun f i => B.A.area f * cubeInt fun y => u (facePoint f y) * shape P i (facePoint f y)) (fun f y => u (facePoint f y))
    (fun f => hu.comp (face_cont f)) fun f i => rfl
  rw [defect_flux hP hB hE h (fun f i => rfl) k, dot_mass_test hB hq] at h1
  have h2 : cubeInt (fun z => B.a z * (polyFun P (proj P (q k)) z - q k z) * polyFun P c z) = cubeInt (fun z => B.a z * polyFun P (proj P (q k)) z) - cubeInt fun z => B.a z * q k z := by
    rw [← cubeInt_sub (hB.cont.fun_mul (polyFun_cont _)) (hB.cont.fun_mul hq)]
    exact cubeInt_congr fun z _ => by rw [hc1]; ring
  rw [h2] at h1
  linear_combination -h1

end

/-- The values on the faces from which the moments of a local problem are made. -/
theorem moments_of (hP : OrthonormalPolys p P) {B : Data d} {time : ℝ} {E : Edge (d + 1) ((p + 1) ^ (d + 1)) ℝ} (hE : ExactIntegrals P B time E) {u : (Fin (d + 1) → ℝ) → ℝ}
    {lambda : Fin (2 * (d + 1)) → Fin ((p + 1) ^ d) → ℝ} {T : Fin (2 * (d + 1)) → (Fin d → ℝ) → ℝ} (f : Fin (2 * (d + 1)))
    (h : IsDirichlet E f → lambda f = 0 ∧ (∀ y ∈ cube d, u (facePoint f y) = B.g (facePoint f y)) ∧ T f = fun y => u (facePoint f y)) (h' : ¬ IsDirichlet E f → T f = polyFun P (lambda f)) (i : Fin ((p + 1) ^ (d + 1))) :
    (moments (form E ((p + 1) ^ d) time) lambda + dirichletMoments E time) f i = B.A.area f * cubeInt fun y => T f y * shape P i (facePoint f y) := by
  classical
  rw [Pi.add_apply, Pi.add_apply, moments]
  by_cases hf : IsDirichlet E f
  · obtain ⟨h1, h2, h3⟩ := h hf
    rw [h1, h3, mulVec_zero, Pi.zero_apply, zero_add, dirichletMoments, if_pos hf, hE.dirichlet]
    exact congrArg _ (cubeInt_congr fun y hy => by rw [← h2 y hy])
  · have h1 : lambda f = proj P (polyFun P (lambda f)) := funext fun j => (int_polyFun hP _ j).symm
    rw [h' hf, dirichletMoments, if_neg hf, add_zero, h1, psi_proj hE (polyFun_cont _), ← h1]

/-- Approximation by Taylor polynomials on intervals of length `h`. -/
theorem taylor_approx {g : ℝ → ℝ} (hg : ContDiff ℝ (p + 1) g) : ∃ M : ℝ, 0 ≤ M ∧ ∀ (n e : Nat), e < n → ApproxBy p (M * (1 / n : ℝ) ^ (p + 1)) fun z : Fin (0 + 1) → ℝ => g ((e + z 0) / n) := by
  obtain ⟨M, hM⟩ := isCompact_Icc (a := (0 : ℝ)) (b := 1) |>.exists_bound_of_continuousOn (hg.continuous_iteratedDeriv (p + 1) (by norm_cast)).continuousOn
  have hM0 : 0 ≤ M := (norm_nonneg _).trans (hM 0 ⟨le_rfl, zero_le_one⟩)
  refine ⟨M, hM0, fun n e he => ?_⟩
  have hn : (0 : ℝ) < n := Nat.cast_pos.mpr (by omega)
  have hab : (e : ℝ) / n < (e + 1) / n := by gcongr; linarith
  let s := Set.Icc ((e : ℝ) / n) ((e + 1) / n)
  have hs : UniqueDiffOn ℝ s := uniqueDiffOn_Icc hab
  have hsub : ∀ r ∈ s, r ∈ Set.Icc (0 : ℝ) 1 := fun r hr => by
    have he' : ((e : ℝ) + 1) ≤ n := by exact_mod_cast he
    exact ⟨le_trans (by positivity) hr.1, hr.2.trans (by rw [div_le_one hn]; exact he')⟩
  refine ⟨fun z => taylorWithinEval g p s (e / n) ((e + z 0) / n), ⟨∑ k ∈ range (p + 1), MvPolynomial.C ((k.factorial : ℝ)⁻¹ * (1 / n : ℝ) ^ k * iteratedDerivWithin k g s (e / n)) * MvPolynomial.X 0 ^ k,
    fun k => ?_, fun z => ?_⟩, fun z hz => ?_⟩
  · refine (MvPolynomial.degreeOf_sum_le _ _ _).trans (Finset.sup_le fun j hj => ?_)
    refine (MvPolynomial.degreeOf_C_mul_le _ _ _).trans ((MvPolynomial.degreeOf_pow_le _ _ _).trans ?_)
    have h1 := MvPolynomial.degreeOf_X (R := ℝ) k (0 : Fin (0 + 1))
    rw [h1]
    have := mem_range.mp hj
    split <;> omega
  · show taylorWithinEval g p s (e / n) ((e + z 0) / n) = _
    rw [taylor_within_apply, map_sum]
    refine sum_congr rfl fun k _ => ?_
    rw [map_mul, map_pow, MvPolynomial.eval_C, MvPolynomial.eval_X, smul_eq_mul, show ((e : ℝ) + z 0) / n - e / n = 1 / n * z 0 by ring, mul_pow]
    ring
  · have hz0 : z 0 ∈ Set.Icc (0 : ℝ) 1 := hz 0 trivial
    have hx : ((e : ℝ) + z 0) / n ∈ s := ⟨by gcongr; linarith [hz0.1], by gcongr; exact hz0.2⟩
    have h1 := taylor_mean_remainder_bound hab.le hg.contDiffOn hx (C := M) fun y hy => by
      rw [iteratedDerivWithin_eq_iteratedDeriv hs (by exact_mod_cast hg.contDiffAt) hy]
      exact hM y (hsub y hy)
    rw [Real.norm_eq_abs, show ((e : ℝ) + z 0) / n - e / n = 1 / n * z 0 by ring] at h1
    refine h1.trans ?_
    have h2 : (1 / n * z 0 : ℝ) ^ (p + 1) ≤ (1 / n : ℝ) ^ (p + 1) := pow_le_pow_left₀ (mul_nonneg (by positivity) hz0.1) (mul_le_of_le_one_right (by positivity) hz0.2) _
    exact (div_le_self (mul_nonneg hM0 (pow_nonneg (mul_nonneg (by positivity) hz0.1) _)) (by exact_mod_cast Nat.one_le_iff_ne_zero.mpr (Nat.factorial_ne_zero p))).trans (mul_le_mul_of_nonneg_left h2 hM0)

/-- The square of a mean value is at most the mean value of the square. -/
theorem mean_sq {g : (Fin n → ℝ) → ℝ} (hg : Continuous g) : cubeInt g ^ 2 ≤ cubeInt fun z => g z ^ 2 := by
  have h1 := cubeInt_nonneg (f := fun z => (g z - cubeInt g) ^ 2) ((hg.sub continuous_const).pow 2) fun z _ => sq_nonneg _
  have h2 : ∀ z, (g z - cubeInt g) ^ 2 = g z ^ 2 - (2 * cubeInt g * g z - cubeInt g ^ 2) := fun z => by ring
  simp only [h2] at h1
  rw [cubeInt_sub (hg.fun_pow 2) ((continuous_const.fun_mul hg).fun_sub continuous_const), cubeInt_sub (continuous_const.fun_mul hg) continuous_const, cubeInt_mul, cubeInt_const] at h1
  linarith

end HyperHDG.Diffusion

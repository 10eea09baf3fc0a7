import Verif.Spec.Polynomials
import Verif.Proofs.Legendre
import Verif.Proofs.TensorIntegrator
import Mathlib.Analysis.Calculus.Deriv.Mul

/-!
# Functions on the reference cube and the exact integrals
-/

namespace HyperHDG.Spec

open Polynomial MeasureTheory Finset

variable {p d : Nat} {P : Fin (p + 1) → ℝ[X]}

/-! ## Integrals -/

theorem int_Icc (f : ℝ → ℝ) : ∫ x in Set.Icc (0 : ℝ) 1, f x = ∫ x in (0 : ℝ)..1, f x := by
  rw [integral_Icc_eq_integral_Ioc, intervalIntegral.integral_of_le zero_le_one]

theorem cubeInt_prod (f : Fin d → ℝ → ℝ) : cubeInt (fun x => ∏ k, f k (x k)) = ∏ k, ∫ x in (0 : ℝ)..1, f k x := by
  unfold cubeInt
  rw [volume_pi, Measure.restrict_pi_pi, integral_fintype_prod_eq_prod]
  exact prod_congr rfl fun k _ => int_Icc _

theorem shape_ortho (hP : OrthonormalPolys p P) (i j : Fin ((p + 1) ^ d)) : cubeInt (fun x => shape P i x * shape P j x) = if i = j then 1 else 0 := by
  have h1 : ∀ x : Fin d → ℝ, shape P i x * shape P j x = ∏ k, ((P (digs i k)).eval (x k) * (P (digs j k)).eval (x k)) := fun x => prod_mul_distrib.symm
  simp only [h1]
  rw [cubeInt_prod (fun k r => (P (digs i k)).eval r * (P (digs j k)).eval r)]
  simp only [hP.ortho]
  split
  next h => subst h; simp
  next h =>
    have : ∃ k, digs i k ≠ digs j k := by
      by_contra hn
      push Not at hn
      exact h (digs_inj hn)
    obtain ⟨k, hk⟩ := this
    exact prod_eq_zero (mem_univ k) (if_neg hk)

theorem shape_cont (i : Fin ((p + 1) ^ d)) : Continuous (shape P i) :=
  continuous_finsetProd _ fun k _ => (P _).continuous.comp (continuous_apply k)

theorem polyFun_cont (u : Fin ((p + 1) ^ d) → ℝ) : Continuous (polyFun P u) :=
  continuous_finsetSum _ fun i _ => continuous_const.mul (shape_cont i)

theorem cube_integrable {f : (Fin d → ℝ) → ℝ} (hf : Continuous f) : IntegrableOn f (Set.univ.pi fun _ => Set.Icc (0 : ℝ) 1) :=
  hf.continuousOn.integrableOn_compact (isCompact_univ_pi fun _ => isCompact_Icc)

/-- The integral of a function of the space times a shape function is its coefficient. -/
theorem int_polyFun (hP : OrthonormalPolys p P) (u : Fin ((p + 1) ^ d) → ℝ) (i : Fin ((p + 1) ^ d)) : cubeInt (fun x => polyFun P u x * shape P i x) = u i := by
  have h1 : ∀ x, polyFun P u x * shape P i x = ∑ j, u j * (shape P j x * shape P i x) := fun x => by
    unfold polyFun
    rw [sum_mul]
    exact sum_congr rfl fun j _ => mul_assoc _ _ _
  unfold cubeInt
  simp only [h1]
  rw [integral_finsetSum _ fun j _ => cube_integrable (f := fun x => u j * (shape P j x * shape P i x)) (continuous_const.mul ((shape_cont j).mul (shape_cont i)))]
  simp only [integral_const_mul]
  have h2 := fun j => shape_ortho hP j i
  unfold cubeInt at h2
  simp only [h2, mul_ite, mul_one, mul_zero, sum_ite_eq', mem_univ, if_true]

theorem polyFun_inj (hP : OrthonormalPolys p P) {u v : Fin ((p + 1) ^ d) → ℝ} (h : ∀ x, polyFun P u x = polyFun P v x) : u = v := by
  funext i
  rw [← int_polyFun hP u i, ← int_polyFun hP v i]
  simp only [h]

theorem polyFun_add (u v : Fin ((p + 1) ^ d) → ℝ) (x : Fin d → ℝ) : polyFun P (u + v) x = polyFun P u x + polyFun P v x := by
  unfold polyFun
  rw [← sum_add_distrib]
  exact sum_congr rfl fun i _ => by rw [Pi.add_apply]; ring

theorem polyFun_smul (a : ℝ) (u : Fin ((p + 1) ^ d) → ℝ) (x : Fin d → ℝ) : polyFun P (a • u) x = a * polyFun P u x := by
  unfold polyFun
  rw [mul_sum]
  exact sum_congr rfl fun i _ => by rw [Pi.smul_apply, smul_eq_mul]; ring

theorem polyFun_sum {ι : Type} (s : Finset ι) (u : ι → Fin ((p + 1) ^ d) → ℝ) (x : Fin d → ℝ) : polyFun P (∑ a ∈ s, u a) x = ∑ a ∈ s, polyFun P (u a) x := by
  unfold polyFun
  rw [sum_comm]
  refine sum_congr rfl fun i _ => ?_
  rw [Finset.sum_apply, sum_mul]

/-! ## The space -/

theorem poly_mem (hP : OrthonormalPolys p P) {f : (Fin d → ℝ) → ℝ} (hf : IsPoly p f) : ∃ u, ∀ x, f x = polyFun P u x := by
  obtain ⟨F, hF, hf⟩ := hf
  simp only [hf]
  have hmono : ∀ s : Fin d →₀ ℕ, (∀ k, s k ≤ p) → ∃ u, ∀ x : Fin d → ℝ, ∏ k, x k ^ s k = polyFun P u x := by
    intro s hs
    have h1 : ∀ k, ∃ c : Fin (p + 1) → ℝ, (X ^ s k : ℝ[X]) = ∑ i, C (c i) * P i := fun k => ortho_span hP _ (by rw [natDegree_X_pow]; exact hs k)
    choose c hc using h1
    refine ⟨fun i => ∏ k, c k (digs i k), fun x => ?_⟩
    have h2 : ∀ k, x k ^ s k = ∑ i, c k i * (P i).eval (x k) := fun k => by
      have := congrArg (fun g : ℝ[X] => g.eval (x k)) (hc k)
      simpa [eval_finsetSum] using this
    simp only [h2]
    rw [prod_univ_sum, Fintype.piFinset_univ, ← Equiv.sum_comp finFunctionFinEquiv.symm]
    refine sum_congr rfl fun i _ => ?_
    rw [prod_mul_distrib]
    rfl
  have hsum : ∃ u, ∀ x, ∑ s ∈ F.support, F.coeff s * ∏ k, x k ^ s k = polyFun P u x := by
    have h1 : ∀ s : Fin d →₀ ℕ, ∃ u, s ∈ F.support → ∀ x : Fin d → ℝ, ∏ k, x k ^ s k = polyFun P u x := fun s => by
      by_cases hs : s ∈ F.support
      · obtain ⟨u, hu⟩ := hmono s fun k => (MvPolynomial.le_degreeOf_of_mem_support k hs).trans (hF k)
        exact ⟨u, fun _ => hu⟩
      · exact ⟨0, fun h => absurd h hs⟩
    choose u hu using h1
    refine ⟨∑ s ∈ F.support, F.coeff s • u s, fun x => ?_⟩
    rw [polyFun_sum]
    exact sum_congr rfl fun s hs => by rw [hu s hs, polyFun_smul]
  obtain ⟨u, hu⟩ := hsum
  exact ⟨u, fun x => by rw [← hu, MvPolynomial.eval_eq']⟩

/-! ## Derivatives -/

theorem deriv_coeffs (hP : OrthonormalPolys p P) (i : Fin (p + 1)) (r : ℝ) : (P i).derivative.eval r = ∑ l : Fin (p + 1), (exactBasis P).D i l * (P l).eval r := by
  obtain ⟨c, hc⟩ := ortho_span hP (P i).derivative ((natDegree_derivative_le _).trans ((Nat.sub_le _ _).trans (hP.degree i)))
  have h1 : ∀ l : Fin (p + 1), (exactBasis P).D i l = c l := fun l => by
    have h2 := int_sum P c (P l)
    rw [← hc] at h2
    simp [hP.ortho] at h2
    simp only [exactBasis, Fin.is_lt, and_self, dif_pos, Fin.eta]
    exact h2
  simp only [h1]
  conv_lhs => rw [hc]
  simp [eval_finsetSum]

/-- Sums over the shape functions with the same digits except that of axis `a`. -/
theorem sum_sameExcept (a : Fin (d + 1)) (i : Fin ((p + 1) ^ (d + 1))) (g : Fin ((p + 1) ^ (d + 1)) → ℝ) [∀ j : Fin ((p + 1) ^ (d + 1)), Decidable (SameExcept (p + 1) (d + 1) a i j)] :
    (∑ j : Fin ((p + 1) ^ (d + 1)), if SameExcept (p + 1) (d + 1) a i j then g j else 0) = ∑ l : Fin (p + 1), g (ofDigs (Function.update (digs i) a l)) := by
  classical
  rw [← sum_filter]
  refine (sum_bij' (fun l _ => ofDigs (Function.update (digs i) a l)) (fun j _ => digs j a) ?_ ?_ ?_ ?_ ?_).symm
  · intro l _
    simp only [mem_filter, mem_univ, true_and]
    rw [sameExcept_iff, digs_ofDigs]
    simp
  · simp
  · intro l _
    rw [digs_ofDigs]
    simp
  · intro j hj
    simp only [mem_filter, mem_univ, true_and] at hj
    rw [sameExcept_iff] at hj
    refine digs_inj fun k => ?_
    rw [digs_ofDigs]
    by_cases hk : k = a
    · subst hk; simp
    · obtain ⟨l, hl⟩ := Fin.exists_succAbove_eq hk
      rw [Function.update_of_ne hk, ← hl]
      exact congrFun hj l
  · simp

theorem shape_update (i : Fin ((p + 1) ^ (d + 1))) (a : Fin (d + 1)) (x : Fin (d + 1) → ℝ) (r : ℝ) :
    shape P i (Function.update x a r) = (P (digs i a)).eval r * ∏ k : Fin d, (P (digs i (a.succAbove k))).eval (x (a.succAbove k)) := by
  unfold shape
  rw [Fin.prod_univ_succAbove _ a, Function.update_self]
  congr 1
  refine prod_congr rfl fun k _ => ?_
  rw [Function.update_of_ne (Fin.succAbove_ne a k)]

theorem shape_change (i : Fin ((p + 1) ^ (d + 1))) (a : Fin (d + 1)) (x : Fin (d + 1) → ℝ) (l : Fin (p + 1)) :
    shape P (ofDigs (Function.update (digs i) a l)) x = (P l).eval (x a) * ∏ k : Fin d, (P (digs i (a.succAbove k))).eval (x (a.succAbove k)) := by
  unfold shape
  change ∏ k, (P (digs (ofDigs _) k)).eval (x k) = _
  rw [digs_ofDigs, Fin.prod_univ_succAbove _ a, Function.update_self]
  congr 1
  refine prod_congr rfl fun k _ => ?_
  rw [Function.update_of_ne (Fin.succAbove_ne a k)]

theorem shape_partial (hP : OrthonormalPolys p P) (i : Fin ((p + 1) ^ (d + 1))) (a : Fin (d + 1)) :
    IsPartial a (shape P i) (fun x => ∑ j : Fin ((p + 1) ^ (d + 1)), (tensorIntegrator (p + 1) (d + 1) (exactBasis P)).vol_Dphiphi i j a * shape P j x) := by
  classical
  intro x
  simp only [shape_update]
  have h1 : (∑ j : Fin ((p + 1) ^ (d + 1)), (tensorIntegrator (p + 1) (d + 1) (exactBasis P)).vol_Dphiphi i j a * shape P j x) =
      (P (digs i a)).derivative.eval (x a) * ∏ k : Fin d, (P (digs i (a.succAbove k))).eval (x (a.succAbove k)) := by
    rw [deriv_coeffs hP, sum_mul]
    simp only [tensorIntegrator, ite_mul, zero_mul]
    rw [sum_sameExcept a i (fun j => (exactBasis P).D (digitOf (p + 1) a i) (digitOf (p + 1) a j) * shape P j x)]
    refine sum_congr rfl fun l _ => ?_
    rw [shape_change, ← digs_val, ← digs_val, digs_ofDigs, Function.update_self]
    ring
  rw [h1]
  exact ((P (digs i a)).hasDerivAt (x a)).mul_const _

/-- The partial derivatives of a function of the space, by the integrals the code uses. -/
theorem polyFun_partial (hP : OrthonormalPolys p P) (u : Fin ((p + 1) ^ (d + 1)) → ℝ) (a : Fin (d + 1)) :
    IsPartial a (polyFun P u) (polyFun P fun j => ∑ i : Fin ((p + 1) ^ (d + 1)), (tensorIntegrator (p + 1) (d + 1) (exactBasis P)).vol_Dphiphi i j a * u i) := by
  intro x
  have h1 : (polyFun P (fun j => ∑ i : Fin ((p + 1) ^ (d + 1)), (tensorIntegrator (p + 1) (d + 1) (exactBasis P)).vol_Dphiphi i j a * u i) x) =
      ∑ i, u i * ∑ j : Fin ((p + 1) ^ (d + 1)), (tensorIntegrator (p + 1) (d + 1) (exactBasis P)).vol_Dphiphi i j a * shape P j x := by
    unfold polyFun
    simp only [sum_mul, mul_sum]
    rw [sum_comm]
    exact sum_congr rfl fun i _ => sum_congr rfl fun j _ => by ring
  rw [h1]
  exact HasDerivAt.fun_sum fun i _ => (shape_partial hP i a x).const_mul (u i)

theorem partial_unique {a : Fin d} {f g g' : (Fin d → ℝ) → ℝ} (h : IsPartial a f g) (h' : IsPartial a f g') : g = g' :=
  funext fun x => (h x).unique (h' x)

/-! ## Traces -/

theorem sum_sameFace (a : Fin (d + 1)) (i : Fin ((p + 1) ^ (d + 1))) (g : Fin ((p + 1) ^ d) → ℝ) [∀ j : Fin ((p + 1) ^ d), Decidable (SameFace (p + 1) (d + 1) a i j)] :
    (∑ j : Fin ((p + 1) ^ d), if SameFace (p + 1) (d + 1) a i j then g j else 0) = g (ofDigs (a.removeNth (digs i))) := by
  rw [sum_eq_single (ofDigs (a.removeNth (digs i)))]
  · rw [if_pos]
    rw [sameFace_iff, digs_ofDigs]
  · intro j _ hj
    refine if_neg fun h => hj ?_
    rw [sameFace_iff] at h
    rw [← h]
    exact (finFunctionFinEquiv.apply_symm_apply j).symm
  · simp

theorem shape_face (i : Fin ((p + 1) ^ (d + 1))) (f : Fin (2 * (d + 1))) (y : Fin d → ℝ) :
    shape P i (facePoint f y) = ∑ j : Fin ((p + 1) ^ d), (tensorIntegrator (p + 1) (d + 1) (exactBasis P)).bdr_phipsi i j f * shape P j y := by
  classical
  have hd : ∀ h, (⟨digitOf (p + 1) (f / 2) i, h⟩ : Fin (p + 1)) = digs i (axis f) := fun h => Fin.ext (digs_val i (axis f)).symm
  have hlt : digitOf (p + 1) (f / 2) i < p + 1 := Nat.mod_lt _ (Nat.succ_pos p)
  simp only [tensorIntegrator, ite_mul, zero_mul]
  rw [show (f : Nat) / 2 = (axis f : Fin (d + 1)).1 from rfl]
  rw [sum_sameFace (axis f) i]
  have h1 : shape P (ofDigs ((axis f).removeNth (digs i))) y = ∏ k : Fin d, (P (digs i ((axis f).succAbove k))).eval (y k) := by
    unfold shape
    change ∏ k, (P (digs (ofDigs _) k)).eval (y k) = _
    rw [digs_ofDigs]
    rfl
  rw [h1]
  unfold shape facePoint
  rw [Fin.prod_univ_succAbove _ (axis f), Fin.insertNth_apply_same]
  simp only [Fin.insertNth_apply_succAbove]
  by_cases hf : f.1 % 2 = 0
  · rw [if_pos hf, if_pos hf]
    simp only [exactBasis]
    rw [dif_pos (show digitOf (p + 1) (axis f : Fin (d + 1)).1 i < p + 1 from hlt)]
    congr 3
  · rw [if_neg hf, if_neg hf]
    simp only [exactBasis]
    rw [dif_pos (show digitOf (p + 1) (axis f : Fin (d + 1)).1 i < p + 1 from hlt)]
    congr 3

/-- The values of a function of the space on a face. -/
theorem polyFun_face (u : Fin ((p + 1) ^ (d + 1)) → ℝ) (f : Fin (2 * (d + 1))) (y : Fin d → ℝ) :
    polyFun P u (facePoint f y) = polyFun P (traceOf (tensorIntegrator (p + 1) (d + 1) (exactBasis P)) ((p + 1) ^ d) u f) y := by
  unfold polyFun traceOf
  simp only [shape_face, sum_mul, mul_sum]
  rw [sum_comm]
  exact sum_congr rfl fun i _ => sum_congr rfl fun j _ => by ring

/-- The integral of a function of the space times a shape function over a face. -/
theorem int_face (hP : OrthonormalPolys p P) (u : Fin ((p + 1) ^ (d + 1)) → ℝ) (f : Fin (2 * (d + 1))) (i : Fin ((p + 1) ^ (d + 1))) :
    cubeInt (fun y => polyFun P u (facePoint f y) * shape P i (facePoint f y)) =
      ∑ j : Fin ((p + 1) ^ (d + 1)), (tensorIntegrator (p + 1) (d + 1) (exactBasis P)).bdr_phiphi i j f * u j := by
  have h1 : ∀ y, polyFun P u (facePoint f y) * shape P i (facePoint f y) = ∑ k : Fin ((p + 1) ^ d), (tensorIntegrator (p + 1) (d + 1) (exactBasis P)).bdr_phipsi i k f *
      (polyFun P (traceOf (tensorIntegrator (p + 1) (d + 1) (exactBasis P)) ((p + 1) ^ d) u f) y * shape P k y) := fun y => by
    rw [polyFun_face, shape_face, mul_sum]
    exact sum_congr rfl fun k _ => by ring
  unfold cubeInt
  simp only [h1]
  rw [integral_finsetSum _ fun (k : Fin ((p + 1) ^ d)) _ => cube_integrable (f := fun y => (tensorIntegrator (p + 1) (d + 1) (exactBasis P)).bdr_phipsi i k f *
      (polyFun P (traceOf (tensorIntegrator (p + 1) (d + 1) (exactBasis P)) ((p + 1) ^ d) u f) y * shape P k y)) (continuous_const.mul ((polyFun_cont _).mul (shape_cont k)))]
  simp only [integral_const_mul]
  have h2 := fun k => int_polyFun hP (traceOf (tensorIntegrator (p + 1) (d + 1) (exactBasis P)) ((p + 1) ^ d) u f) k
  unfold cubeInt at h2
  simp only [h2, (tensor_lawful (d := d) (exactBasis P) (exact_lawful hP)).trace, traceOf, sum_mul, mul_sum]
  rw [sum_comm]
  exact sum_congr rfl fun j _ => sum_congr rfl fun k _ => by ring

end HyperHDG.Spec

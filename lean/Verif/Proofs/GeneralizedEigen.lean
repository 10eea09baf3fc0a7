import Verif.Spec.EigenvalueProgram
import Mathlib.Analysis.Matrix.Order
import Mathlib.LinearAlgebra.Matrix.ToLinearEquiv
import Mathlib.RingTheory.Polynomial.Basic
import Mathlib.Algebra.Polynomial.Roots
import Mathlib.LinearAlgebra.Matrix.Polynomial

/-!
# The generalised eigenvalue problem for real symmetric operators
-/

namespace HyperHDG.EigenvalueProgram

open Matrix Finset
open scoped MatrixOrder

section
variable {J : Type} [Fintype J] [DecidableEq J] {P B : Matrix J J ℝ}

/-- If `P` is positive definite and `B`, symmetric, not zero, then there are eigenvectors. -/
theorem generalized_exists (hP : P.PosDef) (hB : B.IsHermitian) (h0 : B ≠ 0) : ∃ (val : ℝ) (v : J → ℝ), v ≠ 0 ∧ P *ᵥ v = val • (B *ᵥ v) := by
  obtain ⟨R, hR⟩ := CStarAlgebra.nonneg_iff_eq_star_mul_self.mp hP.posSemidef.nonneg
  rw [star_eq_conjTranspose] at hR
  have hu : IsUnit R.det := by
    have h1 := hP.isUnit
    rw [hR, isUnit_iff_isUnit_det, det_mul] at h1
    exact isUnit_of_mul_isUnit_right h1
  set H := (R⁻¹)ᴴ * B * R⁻¹ with hH
  have hHs : H.IsHermitian := isHermitian_conjTranspose_mul_mul _ hB
  have e1 : R⁻¹ * R = 1 := nonsing_inv_mul _ hu
  have e2 : Rᴴ * (R⁻¹)ᴴ = 1 := by rw [← conjTranspose_mul, e1, conjTranspose_one]
  have e3 : Rᴴ * H * R = B := by
    calc Rᴴ * H * R = (Rᴴ * (R⁻¹)ᴴ) * B * (R⁻¹ * R) := by rw [hH]; simp only [Matrix.mul_assoc]
      _ = B := by rw [e1, e2, Matrix.one_mul, Matrix.mul_one]
  have hH0 : H ≠ 0 := by
    intro h
    rw [h, Matrix.mul_zero, Matrix.zero_mul] at e3
    exact h0 e3.symm
  obtain ⟨w, t, ht, hw, hv⟩ := hHs.exists_eigenvector_of_ne_zero hH0
  have e4 : R * R⁻¹ = 1 := mul_nonsing_inv _ hu
  have e5 : R *ᵥ (R⁻¹ *ᵥ w) = w := by rw [mulVec_mulVec, e4, one_mulVec]
  refine ⟨t⁻¹, R⁻¹ *ᵥ w, fun h => hw ?_, ?_⟩
  · rw [← e5, h, mulVec_zero]
  · have e6 : B *ᵥ (R⁻¹ *ᵥ w) = t • (P *ᵥ (R⁻¹ *ᵥ w)) := by
      conv_lhs => rw [← e3]
      rw [← mulVec_mulVec, e5, ← mulVec_mulVec, hv, mulVec_smul, hR, ← mulVec_mulVec, e5]
    rw [e6, smul_smul, inv_mul_cancel₀ ht, one_smul]

/-- There are finitely many eigenvalues if `P` is not singular. -/
theorem generalized_finite (hP : P.det ≠ 0) : {val : ℝ | ∃ v : J → ℝ, v ≠ 0 ∧ P *ᵥ v = val • (B *ᵥ v)}.Finite := by
  set p : Polynomial ℝ := det ((Polynomial.X : Polynomial ℝ) • (-B).map Polynomial.C + P.map Polynomial.C) with hp
  have heval : ∀ t : ℝ, p.eval t = det (P - t • B) := by
    intro t
    rw [hp, ← Polynomial.coe_evalRingHom, RingHom.map_det]
    congr 1
    ext i j
    simp [sub_eq_add_neg, add_comm]
    exact mul_comm _ _
  have hp0 : p ≠ 0 := by
    intro h
    have h1 := heval 0
    rw [h, Polynomial.eval_zero, zero_smul, sub_zero] at h1
    exact hP h1.symm
  refine (p.roots.toFinset.finite_toSet).subset ?_
  rintro t ⟨v, hv, h⟩
  rw [Finset.mem_coe, Multiset.mem_toFinset, Polynomial.mem_roots hp0, Polynomial.IsRoot.def, heval]
  refine exists_mulVec_eq_zero_iff.mp ⟨v, hv, ?_⟩
  rw [sub_mulVec, smul_mulVec, h, sub_self]

end

section
variable {n : Nat} (d : List Nat) (a b : (Fin n → ℝ) → Fin n → ℝ)

/-- The vectors which vanish at the indices `d`. -/
def Vanish (x : Fin n → ℝ) : Prop := ∀ k : Fin n, k.1 ∈ d → x k = 0

/-- The matrix of the operator for the other indices. -/
def freeMatrix : Matrix {k : Fin n // k.1 ∉ d} {k : Fin n // k.1 ∉ d} ℝ := fun k l => a (Pi.single k.1 1) l.1

/-- The vector extended by zeros. -/
def extendFree (v : {k : Fin n // k.1 ∉ d} → ℝ) : Fin n → ℝ := fun k => if h : k.1 ∈ d then 0 else v ⟨k, h⟩

theorem extendFree_vanish (v : {k : Fin n // k.1 ∉ d} → ℝ) : Vanish d (extendFree d v) := fun _ hk => dif_pos hk

theorem extendFree_apply (v : {k : Fin n // k.1 ∉ d} → ℝ) (k : {k : Fin n // k.1 ∉ d}) : extendFree d v k.1 = v k := dif_neg k.2

theorem extendFree_self {x : Fin n → ℝ} (hx : Vanish d x) : extendFree d (fun k => x k.1) = x := by
  funext k
  by_cases h : k.1 ∈ d
  · rw [hx k h]
    exact dif_pos h
  · exact dif_neg h

theorem extendFree_eq_zero {v : {k : Fin n // k.1 ∉ d} → ℝ} : extendFree d v = 0 ↔ v = 0 := by
  constructor
  · intro h
    funext k
    rw [← extendFree_apply d v k, h]
    rfl
  · rintro rfl
    funext k
    unfold extendFree
    split <;> rfl

theorem single_vanish (k : {k : Fin n // k.1 ∉ d}) : Vanish d (Pi.single k.1 (1 : ℝ)) := by
  intro l hl
  refine Pi.single_eq_of_ne ?_ _
  rintro rfl
  exact k.2 hl

theorem sum_free {x : Fin n → ℝ} (hx : Vanish d x) (y : Fin n → ℝ) : ∑ k, x k * y k = ∑ k : {k : Fin n // k.1 ∉ d}, x k.1 * y k.1 := by
  rw [← Finset.sum_subtype (univ.filter fun k : Fin n => k.1 ∉ d) (by simp) fun k => x k * y k, Finset.sum_filter]
  refine Finset.sum_congr rfl fun k _ => ?_
  split
  · rfl
  · rename_i h
    rw [hx k (not_not.mp h), zero_mul]

variable {a b} (ha : ∀ x z, Vanish d x → Vanish d z → ∑ k, z k * a x k = ∑ k, x k * a z k)
include ha

/-- A symmetric operator is given by its matrix. -/
theorem free_mulVec (v : {k : Fin n // k.1 ∉ d} → ℝ) (k : {k : Fin n // k.1 ∉ d}) : a (extendFree d v) k.1 = (freeMatrix d a *ᵥ v) k := by
  have h := ha (extendFree d v) (Pi.single k.1 1) (extendFree_vanish d v) (single_vanish d k)
  rw [Finset.sum_eq_single k.1 (fun l _ hl => by rw [Pi.single_eq_of_ne hl, zero_mul]) (fun h => absurd (mem_univ _) h), Pi.single_eq_same, one_mul, sum_free d (extendFree_vanish d v)] at h
  rw [h]
  refine Finset.sum_congr rfl fun l _ => ?_
  rw [extendFree_apply, mul_comm]
  rfl

theorem free_symm : (freeMatrix d a).IsHermitian := by
  ext k l
  have h := ha (Pi.single l.1 1) (Pi.single k.1 1) (single_vanish d l) (single_vanish d k)
  rw [Finset.sum_eq_single k.1 (fun i _ hl => by rw [Pi.single_eq_of_ne hl, zero_mul]) (fun h => absurd (mem_univ _) h), Pi.single_eq_same, one_mul,
    Finset.sum_eq_single l.1 (fun i _ hl => by rw [Pi.single_eq_of_ne hl, zero_mul]) (fun h => absurd (mem_univ _) h), Pi.single_eq_same, one_mul] at h
  simpa [freeMatrix] using h

variable (hb : ∀ x z, Vanish d x → Vanish d z → ∑ k, z k * b x k = ∑ k, x k * b z k)
include hb

theorem eigenvector_matrix (val : ℝ) (v : {k : Fin n // k.1 ∉ d} → ℝ) :
    IsEigenvector d a b val (extendFree d v) ↔ v ≠ 0 ∧ (-freeMatrix d a) *ᵥ v = val • (freeMatrix d b *ᵥ v) := by
  unfold IsEigenvector
  refine and_congr (not_congr (extendFree_eq_zero d)) ⟨fun ⟨_, h⟩ => ?_, fun h => ⟨extendFree_vanish d v, fun k hk => ?_⟩⟩
  · funext k
    have := h k.1 k.2
    rw [free_mulVec d ha v k, free_mulVec d hb v k] at this
    rw [neg_mulVec]
    show -(freeMatrix d a *ᵥ v) k = val * _
    linarith
  · have h1 := congrFun h ⟨k, hk⟩
    rw [neg_mulVec] at h1
    have h2 : -(freeMatrix d a *ᵥ v) ⟨k, hk⟩ = val * (freeMatrix d b *ᵥ v) ⟨k, hk⟩ := h1
    rw [free_mulVec d ha v ⟨k, hk⟩, free_mulVec d hb v ⟨k, hk⟩]
    linarith

/-- If `a` is negative definite and `b` is not zero, then there is an eigenvalue next to `sigma`. -/
theorem nearest_exists (hneg : ∀ x, Vanish d x → x ≠ 0 → ∑ k, x k * a x k < 0) (h0 : ∃ x, Vanish d x ∧ ∃ k : Fin n, k.1 ∉ d ∧ b x k ≠ 0) (sigma : ℝ) :
    ∃ val x, IsEigenvector d a b val x ∧ ∀ val' x', IsEigenvector d a b val' x' → |val - sigma| ≤ |val' - sigma| := by
  have hP : (-freeMatrix d a).PosDef := by
    refine PosDef.of_dotProduct_mulVec_pos (free_symm d ha).neg fun v hv => ?_
    have h := hneg (extendFree d v) (extendFree_vanish d v) fun h => hv ((extendFree_eq_zero d).mp h)
    rw [sum_free d (extendFree_vanish d v)] at h
    rw [neg_mulVec, dotProduct_neg]
    have e : star v ⬝ᵥ freeMatrix d a *ᵥ v = ∑ k : {k : Fin n // k.1 ∉ d}, extendFree d v k.1 * a (extendFree d v) k.1 :=
      Finset.sum_congr rfl fun k _ => by rw [extendFree_apply, free_mulVec d ha v k]; rfl
    rw [e]
    linarith
  have hB0 : freeMatrix d b ≠ 0 := by
    intro h
    obtain ⟨x, hx, k, hk, hne⟩ := h0
    refine hne ?_
    rw [← extendFree_self d hx, free_mulVec d hb _ ⟨k, hk⟩, h, zero_mulVec]
    rfl
  have hdet : (-freeMatrix d a).det ≠ 0 := ((isUnit_iff_isUnit_det _).mp hP.isUnit).ne_zero
  have hfin := generalized_finite (B := freeMatrix d b) hdet
  obtain ⟨val0, v0, hv0⟩ := generalized_exists hP (free_symm d hb) hB0
  obtain ⟨val, ⟨v, hv⟩, hmin⟩ := Set.exists_min_image _ (fun t => |t - sigma|) hfin ⟨val0, v0, hv0⟩
  refine ⟨val, extendFree d v, (eigenvector_matrix d ha hb val v).mpr hv, fun val' x' hx' => ?_⟩
  have hx'' := extendFree_self d hx'.2.1
  rw [← hx''] at hx'
  exact hmin val' ⟨_, (eigenvector_matrix d ha hb val' _).mp hx'⟩

/-- If `sigma` is not an eigenvalue, then the shifted problem has solutions. -/
theorem shifted_solution {sigma : ℝ} (h : ∀ x, ¬ IsEigenvector d a b sigma x) (r : Fin n → ℝ) : ∃ x, Vanish d x ∧ ∀ k : Fin n, k.1 ∉ d → -a x k - sigma * b x k = r k := by
  have hinj : Function.Injective (-freeMatrix d a - sigma • freeMatrix d b).mulVec := by
    intro v w hvw
    by_contra hne
    have h1 : (-freeMatrix d a - sigma • freeMatrix d b) *ᵥ (v - w) = 0 := by rw [mulVec_sub]; exact sub_eq_zero.mpr hvw
    rw [sub_mulVec, smul_mulVec] at h1
    exact h _ ((eigenvector_matrix d ha hb sigma (v - w)).mpr ⟨sub_ne_zero.mpr hne, sub_eq_zero.mp h1⟩)
  obtain ⟨v, hv⟩ := mulVec_surjective_iff_isUnit.mpr (mulVec_injective_iff_isUnit.mp hinj) fun k => r k.1
  refine ⟨extendFree d v, extendFree_vanish d v, fun k hk => ?_⟩
  have h1 := congrFun hv ⟨k, hk⟩
  rw [sub_mulVec, neg_mulVec, smul_mulVec] at h1
  rw [free_mulVec d ha v ⟨k, hk⟩, free_mulVec d hb v ⟨k, hk⟩]
  exact h1

end

end HyperHDG.EigenvalueProgram

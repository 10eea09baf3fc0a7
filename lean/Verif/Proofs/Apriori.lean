import Verif.Proofs.LDG
import Verif.Proofs.Exact
import Mathlib.Tactic.LinearCombination
import Mathlib.Tactic.Linarith

/-!
# Stability of the discrete problem with respect to defects
-/

namespace HyperHDG.Spec

open Finset Matrix HyGraph

variable {dim nS nB : Nat} {K : Type} [Field K] [LinearOrder K] [IsStrictOrderedRing K]

/-- The jump between the trace of `u` and `lambda` on a face (coefficients with respect to the face shape functions). -/
def jump (F : Form dim nS nB K) (lambda : Fin (2 * dim) → Fin nB → K) (u : Fin nS → K) (f : Fin (2 * dim)) : Fin nB → K := (F.area f)⁻¹ • (F.psi f)ᵀ *ᵥ u - lambda f

/-- `q`, `u`, `lambda` solve the local problem up to the defects `alpha` and `delta`. -/
structure HasDefects (F : Form dim nS nB K) (tau : K) (lambda : Fin (2 * dim) → Fin nB → K) (q : Fin dim → Fin nS → K) (u : Fin nS → K)
    (alpha : Fin dim → Fin nS → K) (delta : Fin (2 * dim) → Fin nB → K) : Prop where
  flux : ∀ d, F.mass *ᵥ q d - F.grad d *ᵥ u + ∑ f, F.normal f d • moments F lambda f = alpha d
  primal : -(∑ d, F.grad d *ᵥ q d) + ∑ f, (F.bdr f *ᵥ (∑ d, F.normal f d • q d + tau • u) - tau • moments F lambda f) = ∑ f, F.psi f *ᵥ delta f

variable {F : Form dim nS nB K} {tau : K} {lambda : Fin (2 * dim) → Fin nB → K} {q : Fin dim → Fin nS → K} {u : Fin nS → K}
    {alpha : Fin dim → Fin nS → K} {delta : Fin (2 * dim) → Fin nB → K}

theorem defect_energy (hF : FormLaws F) (h : HasDefects F tau lambda q u alpha delta) :
    (∑ d, q d ⬝ᵥ F.mass *ᵥ q d) + tau * ∑ f, F.area f * (jump F lambda u f ⬝ᵥ jump F lambda u f) =
      (∑ d, q d ⬝ᵥ alpha d) + ∑ f, F.area f * (delta f ⬝ᵥ jump F lambda u f) - ∑ f, lambda f ⬝ᵥ (faceFlux F tau lambda q u f - F.area f • delta f) := by
  have h1 : ∑ d, (q d ⬝ᵥ F.mass *ᵥ q d - q d ⬝ᵥ F.grad d *ᵥ u + ∑ f, F.normal f d * (q d ⬝ᵥ F.psi f *ᵥ lambda f)) = ∑ d, q d ⬝ᵥ alpha d :=
    sum_congr rfl fun d _ => by
      have := congrArg (fun x => q d ⬝ᵥ x) (h.flux d)
      simpa [moments, dotProduct_add, dotProduct_sub, dotProduct_sum, dotProduct_smul] using this
  have h2 : -(∑ d, u ⬝ᵥ F.grad d *ᵥ q d) + ∑ f, ((∑ d, F.normal f d * (u ⬝ᵥ F.bdr f *ᵥ q d)) + tau * (u ⬝ᵥ F.bdr f *ᵥ u) - tau * (u ⬝ᵥ F.psi f *ᵥ lambda f)) = ∑ f, u ⬝ᵥ F.psi f *ᵥ delta f := by
    have := congrArg (fun x => u ⬝ᵥ x) h.primal
    simpa only [moments, dotProduct_add, dotProduct_sub, dotProduct_neg, dotProduct_sum, dotProduct_smul, mulVec_add, mulVec_sum, mulVec_smul, smul_eq_mul] using this
  have h3 : ∑ d, (q d ⬝ᵥ F.grad d *ᵥ u + u ⬝ᵥ F.grad d *ᵥ q d) = ∑ d, ∑ f, F.normal f d * (u ⬝ᵥ F.bdr f *ᵥ q d) :=
    sum_congr rfl fun d _ => by
      rw [parts_dot hF]
      exact sum_congr rfl fun f _ => by rw [bdr_symm hF]
  have h4 := flux_pair (F := F) (tau := tau) (lambda := lambda) (q := q) (u := u) (mu := lambda)
  have hjump : ∀ f, F.area f * (jump F lambda u f ⬝ᵥ jump F lambda u f) = u ⬝ᵥ F.bdr f *ᵥ u - 2 * (u ⬝ᵥ F.psi f *ᵥ lambda f) + F.area f * (lambda f ⬝ᵥ lambda f) := fun f => by
    have ha := (hF.area_pos f).ne'
    have h5 := bdr_dot hF f u u
    have h6 : ((F.psi f)ᵀ *ᵥ u) ⬝ᵥ lambda f = u ⬝ᵥ F.psi f *ᵥ lambda f := by rw [mulVec_transpose, ← dotProduct_mulVec]
    have h7 : lambda f ⬝ᵥ ((F.psi f)ᵀ *ᵥ u) = u ⬝ᵥ F.psi f *ᵥ lambda f := by rw [dotProduct_comm, h6]
    simp only [jump, dotProduct_sub, sub_dotProduct, dotProduct_smul, smul_dotProduct, smul_eq_mul, h6, h7, ← h5]
    field_simp
    ring
  have hdelta : ∀ f, F.area f * (delta f ⬝ᵥ jump F lambda u f) = u ⬝ᵥ F.psi f *ᵥ delta f - F.area f * (delta f ⬝ᵥ lambda f) := fun f => by
    have ha := (hF.area_pos f).ne'
    have h6 : delta f ⬝ᵥ ((F.psi f)ᵀ *ᵥ u) = u ⬝ᵥ F.psi f *ᵥ delta f := by rw [dotProduct_comm, mulVec_transpose, ← dotProduct_mulVec]
    simp only [jump, dotProduct_sub, dotProduct_smul, smul_eq_mul, h6]
    field_simp
  have h8 : ∀ f, lambda f ⬝ᵥ (faceFlux F tau lambda q u f - F.area f • delta f) = lambda f ⬝ᵥ faceFlux F tau lambda q u f - F.area f * (delta f ⬝ᵥ lambda f) := fun f => by
    rw [dotProduct_sub, dotProduct_smul, smul_eq_mul, dotProduct_comm (lambda f) (delta f)]
  simp only [hjump, hdelta, h8, sum_sub_distrib, h4]
  simp only [sum_add_distrib, sum_sub_distrib, ← mul_sum] at h1 h2 h3 ⊢
  rw [sum_comm (s := univ (α := Fin dim))] at h1 h3
  linear_combination h1 + h2 + h3

omit [LinearOrder K] [IsStrictOrderedRing K] in
/-- Sum over all hyperedges: the term with the fluxes vanishes if the defect of their balance is that of `delta`. -/
theorem defect_global {nE nN : Nat} (nodes : Fin nE → Fin (2 * dim) → Fin nN) (x : Fin (nN * nB) → K) (y : Fin nE → Fin (2 * dim) → Fin nB → K)
    (h : ∀ v j, x (dof v j) = 0 ∨ ∑ e, ∑ f, (if nodes e f = v then y e f j else 0) = 0) : ∑ e, ∑ f, faceValues nodes x e f ⬝ᵥ y e f = 0 := by
  have h1 : ∀ e f, faceValues nodes x e f ⬝ᵥ y e f = ∑ v, ∑ j, x (dof v j) * (if nodes e f = v then y e f j else 0) := fun e f => by
    rw [sum_eq_single (nodes e f)]
    · exact sum_congr rfl fun j _ => by rw [if_pos rfl]; rfl
    · intro v _ hv
      exact sum_eq_zero fun j _ => by rw [if_neg fun h => hv h.symm, mul_zero]
    · simp
  simp only [h1]
  have h2 : ∀ e, ∑ f, ∑ v, ∑ j, x (dof v j) * (if nodes e f = v then y e f j else 0) = ∑ v, ∑ j, x (dof v j) * ∑ f, (if nodes e f = v then y e f j else 0) := fun e => by
    rw [sum_comm]
    refine sum_congr rfl fun v _ => ?_
    rw [sum_comm]
    exact sum_congr rfl fun j _ => (mul_sum _ _ _).symm
  rw [sum_congr rfl fun e _ => h2 e, sum_comm]
  refine sum_eq_zero fun v _ => ?_
  rw [sum_comm]
  refine sum_eq_zero fun j _ => ?_
  rw [← mul_sum]
  rcases h v j with h | h <;> rw [h]
  · exact zero_mul _
  · exact mul_zero _

/-- If the defects are bounded, so are the errors. -/
theorem defect_bound {nE nN : Nat} (nodes : Fin nE → Fin (2 * dim) → Fin nN) (F : Fin nE → Form dim nS nB K) (hF : ∀ e, FormLaws (F e)) (tau : K) (ht : 0 < tau) (x : Fin (nN * nB) → K)
    (q : Fin nE → Fin dim → Fin nS → K) (u : Fin nE → Fin nS → K) (alpha : Fin nE → Fin dim → Fin nS → K) (delta : Fin nE → Fin (2 * dim) → Fin nB → K)
    (h : ∀ e, HasDefects (F e) tau (faceValues nodes x e) (q e) (u e) (alpha e) (delta e))
    (hbal : ∀ v j, x (dof v j) = 0 ∨ ∑ e, ∑ f, (if nodes e f = v then (faceFlux (F e) tau (faceValues nodes x e) (q e) (u e) f - (F e).area f • delta e f) j else 0) = 0)
    (bound : Fin nE → Fin dim → K) (hb : ∀ e d, 2 * (q e d ⬝ᵥ alpha e d) ≤ q e d ⬝ᵥ (F e).mass *ᵥ q e d + bound e d) :
    (∑ e, ∑ d, q e d ⬝ᵥ (F e).mass *ᵥ q e d) + tau * ∑ e, ∑ f, (F e).area f * (jump (F e) (faceValues nodes x e) (u e) f ⬝ᵥ jump (F e) (faceValues nodes x e) (u e) f) ≤
      (∑ e, ∑ d, bound e d) + tau⁻¹ * ∑ e, ∑ f, (F e).area f * (delta e f ⬝ᵥ delta e f) := by
  have h1 := sum_congr (s₁ := univ) rfl fun e (_ : e ∈ univ) => defect_energy (hF e) (h e)
  have h2 := defect_global nodes x (fun e f => faceFlux (F e) tau (faceValues nodes x e) (q e) (u e) f - (F e).area f • delta e f) hbal
  simp only [sum_add_distrib, sum_sub_distrib, ← mul_sum] at h1
  rw [h2, sub_zero] at h1
  have h3 : 2 * ∑ e, ∑ d, q e d ⬝ᵥ alpha e d ≤ ∑ e, ∑ d, q e d ⬝ᵥ (F e).mass *ᵥ q e d + ∑ e, ∑ d, bound e d := by
    simp only [mul_sum, ← sum_add_distrib]
    exact sum_le_sum fun e _ => sum_le_sum fun d _ => hb e d
  have hdot : ∀ v w : Fin nB → K, 2 * (v ⬝ᵥ w) ≤ tau * (w ⬝ᵥ w) + tau⁻¹ * (v ⬝ᵥ v) := fun v w => by
    simp only [dotProduct, mul_sum, ← sum_add_distrib]
    refine sum_le_sum fun j _ => ?_
    have h4 : 0 ≤ tau⁻¹ * (tau * w j - v j) ^ 2 := mul_nonneg (inv_nonneg.mpr ht.le) (sq_nonneg _)
    have h5 : tau⁻¹ * (tau * w j - v j) ^ 2 = tau * (w j * w j) - 2 * (v j * w j) + tau⁻¹ * (v j * v j) := by
      field_simp
      ring
    linarith
  have h4 : 2 * ∑ e, ∑ f, (F e).area f * (delta e f ⬝ᵥ jump (F e) (faceValues nodes x e) (u e) f) ≤
      tau * ∑ e, ∑ f, (F e).area f * (jump (F e) (faceValues nodes x e) (u e) f ⬝ᵥ jump (F e) (faceValues nodes x e) (u e) f) + tau⁻¹ * ∑ e, ∑ f, (F e).area f * (delta e f ⬝ᵥ delta e f) := by
    simp only [mul_sum, ← sum_add_distrib]
    refine sum_le_sum fun e _ => sum_le_sum fun f _ => ?_
    have := mul_le_mul_of_nonneg_left (hdot (delta e f) (jump (F e) (faceValues nodes x e) (u e) f)) ((hF e).area_pos f).le
    linarith
  linarith

end HyperHDG.Spec

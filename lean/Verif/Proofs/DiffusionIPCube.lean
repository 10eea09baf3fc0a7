import Verif.Proofs.DiffusionIP
import Verif.Proofs.Rigid
import Mathlib.Algebra.Order.BigOperators.Ring.Finset

/-!
# The integrals over the unit cube meet the assumptions of the interior penalty method
-/

set_option linter.unusedSectionVars false

namespace HyperHDG.Spec.IP

open Finset Matrix

variable {K : Type} {dim nS nB : Nat} [Field K] [LinearOrder K] [IsStrictOrderedRing K]

/-- The coefficients of the derivatives. -/
def derivOf (I : Integrator K) (u : Fin nS → K) (d : Fin dim) (k : Fin nS) : K := ∑ i : Fin nS, I.vol_Dphiphi i k d * u i

theorem cube_stiff (I : Integrator K) (kappa : K) (u : Fin nS → K) :
    u ⬝ᵥ (cubeForm I dim nS nB kappa).stiff *ᵥ u = kappa * ∑ d : Fin dim, ∑ k, derivOf I u d k ^ 2 := by
  simp only [cubeForm, mulVec, dotProduct, of_apply, derivOf, sq, Finset.sum_mul_sum]
  simp only [Finset.mul_sum, Finset.sum_mul]
  have e : ∀ i j : Fin nS, (∑ d : Fin dim, ∑ k : Fin nS, u i * (kappa * (I.vol_Dphiphi i k d * I.vol_Dphiphi j k d) * u j)) =
      ∑ d : Fin dim, ∑ k : Fin nS, kappa * (I.vol_Dphiphi i k d * u i * (I.vol_Dphiphi j k d * u j)) := fun i j =>
    Finset.sum_congr rfl fun d _ => Finset.sum_congr rfl fun k _ => by ring
  simp only [e]
  have h1 : ∀ i : Fin nS, (∑ j : Fin nS, ∑ d : Fin dim, ∑ k : Fin nS, kappa * (I.vol_Dphiphi i k d * u i * (I.vol_Dphiphi j k d * u j))) =
      ∑ d : Fin dim, ∑ k : Fin nS, ∑ j : Fin nS, kappa * (I.vol_Dphiphi i k d * u i * (I.vol_Dphiphi j k d * u j)) := fun i => by
    rw [Finset.sum_comm]
    exact Finset.sum_congr rfl fun d _ => Finset.sum_comm
  simp only [h1]
  rw [Finset.sum_comm]
  exact Finset.sum_congr rfl fun d _ => Finset.sum_comm

theorem cube_conormPsi (I : Integrator K) (kappa : K) (u : Fin nS → K) (f : Fin (2 * dim)) (j : Fin nB) :
    ((cubeForm I dim nS nB kappa).conormPsi f *ᵥ u) j = kappa * (normal f * ∑ k : Fin nS, I.bdr_phipsi k j f * derivOf I u (axis f) k) := by
  simp only [cubeForm, mulVec, dotProduct, of_apply, derivOf, Finset.mul_sum, Finset.sum_mul]
  rw [Finset.sum_comm]
  exact Finset.sum_congr rfl fun k _ => Finset.sum_congr rfl fun i _ => by ring

theorem normal_sq (f : Fin (2 * dim)) : (normal f : K) ^ 2 = 1 := by
  unfold normal
  split <;> simp

theorem cube_laws (I : Integrator K) (hI : Lawful I dim nS nB) {kappa : K} (hk : 0 < kappa) :
    Laws (cubeForm I dim nS nB kappa) (kappa * cubeTrace I dim nS nB) where
  area_pos _ := one_pos
  trace f := by
    ext i j
    simp [cubeForm, Matrix.mul_apply, hI.trace i j f]
  trace_conorm f := by
    ext i j
    simp only [cubeForm, one_smul, of_apply, Matrix.mul_apply, hI.trace i _ f, Finset.mul_sum]
    rw [Finset.sum_comm]
    exact Finset.sum_congr rfl fun k _ => Finset.sum_congr rfl fun l _ => by ring
  energy_nonneg u := by
    rw [cube_stiff]
    exact mul_nonneg hk.le (Finset.sum_nonneg fun _ _ => Finset.sum_nonneg fun _ _ => sq_nonneg _)
  trace_ineq u w := by
    rw [cube_stiff]
    set S := ∑ d : Fin dim, ∑ k, derivOf I u d k ^ 2
    have h1 : ∑ f, w f ⬝ᵥ (cubeForm I dim nS nB kappa).conormPsi f *ᵥ u =
        kappa * ∑ p : Fin (2 * dim) × Fin nS × Fin nB, I.bdr_phipsi p.2.1 p.2.2 p.1 * (normal p.1 * w p.1 p.2.2 * derivOf I u (axis p.1) p.2.1) := by
      rw [Fintype.sum_prod_type, Finset.mul_sum]
      refine Finset.sum_congr rfl fun f _ => ?_
      simp only [dotProduct, cube_conormPsi]
      rw [Fintype.sum_prod_type_right, Finset.mul_sum]
      refine Finset.sum_congr rfl fun j _ => ?_
      simp only [Finset.mul_sum]
      exact Finset.sum_congr rfl fun k _ => by ring
    have h2 : ∑ p : Fin (2 * dim) × Fin nS × Fin nB, (normal p.1 * w p.1 p.2.2 * derivOf I u (axis p.1) p.2.1) ^ 2 ≤ S * ∑ f, (w f ⬝ᵥ w f) := by
      rw [Fintype.sum_prod_type, Finset.mul_sum]
      refine Finset.sum_le_sum fun f _ => ?_
      have e : ∑ p : Fin nS × Fin nB, ((normal f : K) * w f p.2 * derivOf I u (axis f) p.1) ^ 2 = (∑ k, derivOf I u (axis f) k ^ 2) * (w f ⬝ᵥ w f) := by
        rw [Fintype.sum_prod_type, dotProduct, Finset.sum_mul_sum]
        refine Finset.sum_congr rfl fun k _ => Finset.sum_congr rfl fun j _ => ?_
        rw [mul_pow, mul_pow, normal_sq]
        ring
      dsimp only
      rw [e]
      refine mul_le_mul_of_nonneg_right ?_ (Finset.sum_nonneg fun _ _ => mul_self_nonneg _)
      exact Finset.single_le_sum (f := fun d => ∑ k, derivOf I u d k ^ 2) (fun d _ => Finset.sum_nonneg fun _ _ => sq_nonneg _) (Finset.mem_univ (axis f))
    have h3 := Finset.sum_mul_sq_le_sq_mul_sq Finset.univ (fun p : Fin (2 * dim) × Fin nS × Fin nB => I.bdr_phipsi p.2.1 p.2.2 p.1)
      (fun p => normal p.1 * w p.1 p.2.2 * derivOf I u (axis p.1) p.2.1)
    have h4 : ∑ p : Fin (2 * dim) × Fin nS × Fin nB, I.bdr_phipsi p.2.1 p.2.2 p.1 ^ 2 = cubeTrace I dim nS nB := by
      rw [Fintype.sum_prod_type]
      exact Finset.sum_congr rfl fun f _ => Fintype.sum_prod_type _
    have h5 : 0 ≤ cubeTrace I dim nS nB := Finset.sum_nonneg fun _ _ => Finset.sum_nonneg fun _ _ => Finset.sum_nonneg fun _ _ => sq_nonneg _
    rw [h4] at h3
    have h6 : ∑ f, (cubeForm I dim nS nB kappa).area f * (w f ⬝ᵥ w f) = ∑ f, w f ⬝ᵥ w f := Finset.sum_congr rfl fun f _ => one_mul _
    rw [h1, h6, mul_pow]
    have h7 := h3.trans (mul_le_mul_of_nonneg_left h2 h5)
    have h8 := mul_le_mul_of_nonneg_left h7 (sq_nonneg kappa)
    refine h8.trans (le_of_eq (by ring))
  unisolvent u h1 h2 := by
    rw [cube_stiff] at h1
    have h3 := (mul_eq_zero.mp h1).resolve_left hk.ne'
    refine hI.unisolvent u (fun d k => ?_) (funext fun f => ?_)
    · have h4 := (Finset.sum_eq_zero_iff_of_nonneg (fun d _ => Finset.sum_nonneg fun k _ => sq_nonneg _)).mp h3 d (Finset.mem_univ d)
      exact pow_eq_zero_iff two_ne_zero |>.mp ((Finset.sum_eq_zero_iff_of_nonneg (fun k _ => sq_nonneg _)).mp h4 k (Finset.mem_univ k))
    · exact h2 f

theorem cube_rigid (I : Integrator K) (hI : RigidIntegrator I dim nS nB) {kappa : K} (hk : 0 < kappa) : Rigid (cubeForm I dim nS nB kappa) := by
  intro u f h1 h2
  rw [cube_stiff] at h1
  have h3 := (mul_eq_zero.mp h1).resolve_left hk.ne'
  refine hI u f (fun d k => ?_) h2
  have h4 := (Finset.sum_eq_zero_iff_of_nonneg (fun d _ => Finset.sum_nonneg fun k _ => sq_nonneg _)).mp h3 d (Finset.mem_univ d)
  exact pow_eq_zero_iff two_ne_zero |>.mp ((Finset.sum_eq_zero_iff_of_nonneg (fun k _ => sq_nonneg _)).mp h4 k (Finset.mem_univ k))

end HyperHDG.Spec.IP

import Verif.Spec.AffineForm
import Verif.Proofs.Accumulate
import Mathlib.Tactic.Ring
import Mathlib.Tactic.LinearCombination

/-!
# The laws of the integrals hold on affine hyperedges
-/

namespace HyperHDG.Spec

open Matrix Finset

variable {dim nS nB : Nat} {K : Type} [Field K] [LinearOrder K] [IsStrictOrderedRing K]

theorem affine_laws (I : Integrator K) (hI : Lawful I dim nS nB) (A : Affine dim K) (hA : AffineLaws A) (mass : Matrix (Fin nS) (Fin nS) K)
    (hsymm : massᵀ = mass) (hpos : ∀ v, v ≠ 0 → 0 < v ⬝ᵥ mass *ᵥ v) : FormLaws (affineForm (nB := nB) I A mass) where
  mass_symm := hsymm
  mass_pos := hpos
  mass0_symm := by
    ext i j
    simp only [affineForm, transpose_apply, of_apply]
    rw [hI.vol_symm]
  mass0_pos := fun v hv => by
    have h := mul_pos hA.vol_pos (hI.vol_pos v hv)
    refine lt_of_lt_of_eq h ?_
    simp only [affineForm, dotProduct, mulVec, of_apply, Finset.mul_sum]
    exact Finset.sum_congr rfl fun i _ => Finset.sum_congr rfl fun j _ => by ring
  by_parts := fun d => by
    ext i j
    rw [Matrix.sum_apply, sum_faces]
    simp only [affineForm, Matrix.add_apply, transpose_apply, of_apply, Matrix.smul_apply, smul_eq_mul]
    rw [← Finset.sum_add_distrib]
    refine Finset.sum_congr rfl fun a _ => ?_
    have h := hI.by_parts i j a
    have h0 := hA.piola (lowFace a) d
    have h1 := hA.piola (highFace a) d
    have e0 : axis (lowFace a) = a := Fin.ext (by simp only [axis, lowFace]; omega)
    have e1 : axis (highFace a) = a := Fin.ext (by simp only [axis, highFace]; omega)
    have n0 : (Spec.normal (lowFace a) : K) = -1 := by simp [Spec.normal, lowFace]
    have n1 : (Spec.normal (highFace a) : K) = 1 := by
      have : (2 * a.1 + 1) % 2 = 1 := by omega
      simp [Spec.normal, highFace, this]
    rw [e0, n0] at h0
    rw [e1, n1] at h1
    have f0 : ((lowFace a : Fin (2 * dim)) : Nat) = 2 * a := rfl
    have f1 : ((highFace a : Fin (2 * dim)) : Nat) = 2 * a + 1 := rfl
    rw [f0, f1]
    linear_combination A.cof a d * h - I.bdr_phiphi i j (2 * a) * h0 - I.bdr_phiphi i j (2 * a + 1) * h1
  area_pos := hA.area_pos
  trace := fun f => by
    ext i j
    simp only [affineForm, Matrix.smul_apply, mul_apply, transpose_apply, of_apply, smul_eq_mul, hI.trace, Finset.mul_sum]
    exact Finset.sum_congr rfl fun k _ => by ring
  unisolvent := fun u hc ht => by
    refine hI.unisolvent u (fun a j => ?_) ?_
    · have key : A.cofᵀ *ᵥ (fun a => ∑ i : Fin nS, I.vol_Dphiphi i j a * u i) = 0 := by
        funext d
        have h := congrFun (hc d) j
        simp only [affineForm, mulVec, dotProduct, transpose_apply, of_apply, Pi.zero_apply] at h ⊢
        rw [← h]
        simp only [Finset.mul_sum, Finset.sum_mul]
        rw [Finset.sum_comm]
        exact Finset.sum_congr rfl fun i _ => Finset.sum_congr rfl fun a _ => by ring
      have hu : IsUnit A.cofᵀ := (Matrix.isUnit_transpose _).mpr hA.cof_inv
      obtain ⟨⟨M, N, hMN, hNM⟩, rfl : M = A.cofᵀ⟩ := hu
      have := congrArg (N *ᵥ ·) key
      simp only [mulVec_mulVec, hNM, one_mulVec, mulVec_zero] at this
      exact congrFun this a
    · funext f k
      have h := congrFun (ht f) k
      simp only [affineForm, mulVec, dotProduct, transpose_apply, of_apply, Pi.zero_apply] at h
      have h2 : A.area f * traceOf (dim := dim) I nB u f k = 0 := by
        rw [← h, traceOf, Finset.mul_sum]
        exact Finset.sum_congr rfl fun i _ => by ring
      exact (mul_eq_zero.mp h2).resolve_left (hA.area_pos f).ne'

end HyperHDG.Spec

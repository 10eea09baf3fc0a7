import Mathlib.Topology.Instances.Matrix
import Mathlib.Analysis.Calculus.Deriv.Slope
import Mathlib.Analysis.Calculus.Deriv.Prod
import Mathlib.Analysis.Calculus.Deriv.Add
import Mathlib.Analysis.Calculus.Deriv.Mul
import Mathlib.Analysis.Calculus.Deriv.Comp
import Mathlib.LinearAlgebra.Matrix.NonsingularInverse
import Mathlib.Topology.Algebra.Module.FiniteDimension

/-!
# Derivatives of solutions of linear systems
-/

namespace HyperHDG.MatrixDeriv

open Matrix Topology Filter

variable {n : Type} [Fintype n] [DecidableEq n]

/-- A family of matrices depending affinely on a parameter is regular near a regular matrix, and the solutions are differentiable. -/
theorem hasDerivAt_solve (A N : Matrix n n ℝ) (v w : n → ℝ) (hA : IsUnit A) (x : ℝ → n → ℝ) (hx : ∀ t, IsUnit (A + t • N) → (A + t • N) *ᵥ x t = v + t • w) :
    (∀ᶠ t in 𝓝 (0 : ℝ), IsUnit (A + t • N)) ∧ ∀ x', A *ᵥ x' = w - N *ᵥ x 0 → HasDerivAt x x' 0 := by
  have hdet0 : A.det ≠ 0 := ((Matrix.isUnit_iff_isUnit_det _).mp hA).ne_zero
  have hcA : Continuous fun t : ℝ => A + t • N := by fun_prop
  have hcdet : Continuous fun t : ℝ => (A + t • N).det := hcA.matrix_det
  have hev : ∀ᶠ t in 𝓝 (0 : ℝ), (A + t • N).det ≠ 0 := hcdet.continuousAt.eventually_ne (by simpa using hdet0)
  have hunit : ∀ t : ℝ, (A + t • N).det ≠ 0 → IsUnit (A + t • N) := fun t h => (Matrix.isUnit_iff_isUnit_det _).mpr h.isUnit
  refine ⟨hev.mono hunit, fun x' hx' => ?_⟩
  have h0 : (0 : ℝ) ∈ {t : ℝ | (A + t • N).det ≠ 0} := by simpa using hdet0
  have hxt : ∀ t : ℝ, (A + t • N).det ≠ 0 → x t = (A + t • N).det⁻¹ • ((A + t • N).adjugate *ᵥ (v + t • w)) := by
    intro t ht
    have h1 := hx t (hunit t ht)
    rw [← h1, mulVec_mulVec, Matrix.adjugate_mul, smul_mulVec, one_mulVec, smul_smul, inv_mul_cancel₀ ht, one_smul]
  have hcont : ContinuousAt x 0 := by
    have hc : ContinuousAt (fun t : ℝ => (A + t • N).det⁻¹ • ((A + t • N).adjugate *ᵥ (v + t • w))) 0 := by
      refine ContinuousAt.smul (hcdet.continuousAt.inv₀ (by simpa using hdet0)) (Continuous.continuousAt ?_)
      exact Continuous.matrix_mulVec hcA.matrix_adjugate (by fun_prop)
    exact hc.congr (hev.mono fun t ht => (hxt t ht).symm)
  have hAdj : ∀ y z : n → ℝ, A *ᵥ y = z → y = A⁻¹ *ᵥ z := by
    rintro y z rfl
    rw [mulVec_mulVec, Matrix.nonsing_inv_mul A ((Matrix.isUnit_iff_isUnit_det _).mp hA), one_mulVec]
  rw [hasDerivAt_iff_tendsto_slope_zero]
  have hlim : Tendsto (fun t : ℝ => A⁻¹ *ᵥ (w - N *ᵥ x t)) (𝓝[≠] 0) (𝓝 x') := by
    rw [hAdj _ _ hx']
    have hc : ContinuousAt (fun t : ℝ => A⁻¹ *ᵥ (w - N *ᵥ x t)) 0 := by
      have h1 : Continuous fun y : n → ℝ => A⁻¹ *ᵥ (w - N *ᵥ y) := by fun_prop
      exact h1.continuousAt.comp hcont
    exact hc.tendsto.mono_left nhdsWithin_le_nhds
  refine hlim.congr' ?_
  have hev' : ∀ᶠ t in 𝓝[≠] (0 : ℝ), (A + t • N).det ≠ 0 := hev.filter_mono nhdsWithin_le_nhds
  filter_upwards [hev', self_mem_nhdsWithin] with t ht ht0
  symm
  apply hAdj
  have h1 := hx t (hunit t ht)
  have h2 := hx 0 (by simpa using hA)
  simp only [zero_smul, add_zero] at h2
  rw [zero_add, mulVec_smul, mulVec_sub, h2]
  rw [add_mulVec, smul_mulVec] at h1
  have h3 : A *ᵥ x t - v = t • (w - N *ᵥ x t) := by
    rw [smul_sub, sub_eq_sub_iff_add_eq_add, h1, add_comm]
  rw [h3, smul_smul, inv_mul_cancel₀ ht0, one_smul]

end HyperHDG.MatrixDeriv

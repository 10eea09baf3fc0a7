import Mathlib.Analysis.Calculus.ContDiff.RCLike
import Mathlib.Analysis.Calculus.ContDiff.Operations
import Mathlib.Analysis.Normed.Module.FiniteDimension

/-!
# Newton's method near a regular zero, with inexact solutions of the linear systems
-/

namespace HyperHDG.NewtonLocal

open Topology Filter

variable {E F : Type} [NormedAddCommGroup E] [NormedSpace ℝ E] [NormedAddCommGroup F] [NormedSpace ℝ F]

/-- A linear map which is injective on a subspace is bounded from below there. -/
theorem bounded_below [FiniteDimensional ℝ E] (A : E →L[ℝ] F) (V : Submodule ℝ E) (h : ∀ u ∈ V, A u = 0 → u = 0) : ∃ c > 0, ∀ u ∈ V, c * ‖u‖ ≤ ‖A u‖ := by
  have hker : LinearMap.ker (A.toLinearMap.comp V.subtype) = ⊥ := by
    rw [LinearMap.ker_eq_bot']
    intro u hu
    exact Subtype.ext (h u.1 u.2 hu)
  obtain ⟨k, hk, hl⟩ := LinearMap.exists_antilipschitzWith (A.toLinearMap.comp V.subtype) hker
  refine ⟨(k : ℝ)⁻¹, inv_pos.mpr (by exact_mod_cast hk), fun u hu => ?_⟩
  have h1 := hl.le_mul_dist ⟨u, hu⟩ 0
  simp only [dist_eq_norm, sub_zero, map_zero] at h1
  have h2 : ‖u‖ ≤ k * ‖A u‖ := h1
  have hk' : (0 : ℝ) < k := by exact_mod_cast hk
  rw [inv_mul_le_iff₀ hk']
  exact h2

/-- Inexact Newton steps from points near a regular zero are short and reduce the residual by each factor. -/
theorem step (B : E → F) (p : E) (hB : ContDiffAt ℝ 1 B p) (h0 : B p = 0) (V : Submodule ℝ E) {c : ℝ} (hc : 0 < c) (hV : ∀ u ∈ V, c * ‖u‖ ≤ ‖fderiv ℝ B p u‖) (k : ℝ) {η ε : ℝ}
    (hη : 0 < η) (hε : 0 < ε) :
    ∀ᶠ q in 𝓝 p, ∀ u ∈ V, ‖fderiv ℝ B q u - B q‖ ≤ k * ‖B q‖ ^ 2 → ‖B (q - u)‖ ≤ η * ‖B q‖ ∧ ‖u‖ ≤ ε := by
  let δ : ℝ := min (c / 2) (η * c / 16)
  have hδ : 0 < δ := by positivity
  have hδ1 : δ ≤ c / 2 := min_le_left _ _
  have hδ2 : δ ≤ η * c / 16 := min_le_right _ _
  have hcont : Tendsto (fun q => ‖B q‖) (𝓝 p) (𝓝 0) := by
    have := hB.continuousAt.norm
    rwa [ContinuousAt, h0, norm_zero] at this
  -- the derivative
  have hs : HasStrictFDerivAt B (fderiv ℝ B p) p := hB.hasStrictFDerivAt (by norm_num)
  have hs' := hs.isLittleO.def hδ
  rw [nhds_prod_eq] at hs'
  obtain ⟨P, hP, Q, hQ, hPQ⟩ := Filter.eventually_prod_iff.mp hs'
  obtain ⟨ρ, hρ, hball⟩ := Metric.eventually_nhds_iff.mp hQ
  have hd : ∀ᶠ q in 𝓝 p, ‖fderiv ℝ B q - fderiv ℝ B p‖ < δ := by
    have h1 : ContinuousAt (fderiv ℝ B) p := (hB.fderiv_right (m := 0) (by norm_num)).continuousAt
    have h2 := Metric.tendsto_nhds.mp h1 δ hδ
    exact h2.mono fun q hq => by rwa [dist_eq_norm] at hq
  have hk : ∀ᶠ q in 𝓝 p, k * ‖B q‖ < min 1 (η / 2) := by
    have : Tendsto (fun q => k * ‖B q‖) (𝓝 p) (𝓝 (k * 0)) := hcont.const_mul k
    rw [mul_zero] at this
    exact this.eventually_lt_const (by positivity)
  have hu : ∀ᶠ q in 𝓝 p, 4 / c * ‖B q‖ < min ε (ρ / 2) := by
    have : Tendsto (fun q => 4 / c * ‖B q‖) (𝓝 p) (𝓝 (4 / c * 0)) := hcont.const_mul _
    rw [mul_zero] at this
    exact this.eventually_lt_const (by positivity)
  filter_upwards [hP, hd, hk, hu, Metric.ball_mem_nhds p (half_pos hρ)] with q hPq hdq hkq huq hq u huV hres
  have hn : 0 ≤ ‖B q‖ := norm_nonneg _
  have hk1 : k * ‖B q‖ ≤ 1 := hkq.le.trans (min_le_left _ _)
  have hk2 : k * ‖B q‖ ≤ η / 2 := hkq.le.trans (min_le_right _ _)
  have hdu : ‖fderiv ℝ B q u - fderiv ℝ B p u‖ ≤ δ * ‖u‖ := by
    have := (fderiv ℝ B q - fderiv ℝ B p).le_opNorm u
    rw [sub_apply] at this
    exact this.trans (mul_le_mul_of_nonneg_right hdq.le (norm_nonneg _))
  have hres' : ‖fderiv ℝ B q u - B q‖ ≤ ‖B q‖ := hres.trans (by nlinarith)
  have hlen : ‖u‖ ≤ 4 / c * ‖B q‖ := by
    have h1 := hV u huV
    have h2 : ‖fderiv ℝ B p u‖ ≤ 2 * ‖B q‖ + δ * ‖u‖ := by
      have e : fderiv ℝ B p u = (fderiv ℝ B q u - B q) + B q - (fderiv ℝ B q u - fderiv ℝ B p u) := by abel
      rw [e]
      refine (norm_sub_le _ _).trans ?_
      have := norm_add_le (fderiv ℝ B q u - B q) (B q)
      linarith
    have h3 : δ * ‖u‖ ≤ c / 2 * ‖u‖ := mul_le_mul_of_nonneg_right hδ1 (norm_nonneg _)
    have h4 : c / 2 * ‖u‖ ≤ 2 * ‖B q‖ := by linarith
    rw [div_mul_eq_mul_div, le_div_iff₀ hc]
    linarith
  refine ⟨?_, hlen.trans (huq.le.trans (min_le_left _ _))⟩
  have hQu : Q (q - u) := by
    refine hball ?_
    have h1 : ‖u‖ < ρ / 2 := lt_of_le_of_lt hlen (lt_of_lt_of_le huq (min_le_right _ _))
    rw [Metric.mem_ball, dist_eq_norm] at hq
    rw [dist_eq_norm]
    have e : q - u - p = (q - p) - u := by abel
    rw [e]
    refine lt_of_le_of_lt (norm_sub_le _ _) ?_
    linarith
  have hst := hPQ hPq hQu
  simp only [sub_sub_cancel] at hst
  have e : B (q - u) = -(B q - B (q - u) - fderiv ℝ B p u) - (fderiv ℝ B q u - B q) + (fderiv ℝ B q u - fderiv ℝ B p u) := by abel
  rw [e]
  have n1 := norm_add_le (-(B q - B (q - u) - fderiv ℝ B p u) - (fderiv ℝ B q u - B q)) (fderiv ℝ B q u - fderiv ℝ B p u)
  have n2 := norm_sub_le (-(B q - B (q - u) - fderiv ℝ B p u)) (fderiv ℝ B q u - B q)
  rw [norm_neg] at n2
  have h5 : δ * ‖u‖ ≤ η / 4 * ‖B q‖ := by
    have := mul_le_mul hδ2 hlen (norm_nonneg _) (by positivity)
    refine this.trans (le_of_eq ?_)
    field_simp
    ring
  have h6 : k * ‖B q‖ ^ 2 ≤ η / 2 * ‖B q‖ := by
    have := mul_le_mul_of_nonneg_right hk2 hn
    linarith [this, (by ring : k * ‖B q‖ ^ 2 = k * ‖B q‖ * ‖B q‖)]
  linarith

end HyperHDG.NewtonLocal

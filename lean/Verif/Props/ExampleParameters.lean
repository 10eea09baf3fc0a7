import Verif.Proofs.ExampleParameters
import Mathlib.LinearAlgebra.Matrix.NonsingularInverse
import Mathlib.Analysis.Calculus.MeanValue

/-!
# Property C93: the analytic results of the examples solve the problems whose data they come with

The specifications are in `Verif/Spec/ExampleParameters.lean`.
-/

namespace HyperHDG.Parameters

open Finset Spec Real

variable {d s : Nat}

/-- A hyperedge of the dimension of the space contains the directions of all coordinates. -/
theorem contains_full (H : Plane s s) (i : Fin s) : H.Contains i := by
  have h : Matrix.of H.dir * (Matrix.of H.dir).transpose = 1 := by
    ext k l
    simp only [Matrix.mul_apply, Matrix.transpose_apply, Matrix.of_apply, Matrix.one_apply]
    exact H.orthonormal k l
  have h1 : (Matrix.of H.dir).transpose * Matrix.of H.dir = 1 := mul_eq_one_comm.mp h
  have h2 : ((Matrix.of H.dir).transpose * Matrix.of H.dir) i i = (1 : Matrix (Fin s) (Fin s) ℝ) i i := by rw [h1]
  simpa [Matrix.mul_apply, Plane.Contains] using h2

/-- The Laplacian of a sine wave in the direction of coordinate 0 is that of the space iff the hyperedge contains this direction. -/
theorem sine_divergence (H : Plane d (s + 1)) {a c b e : ℝ} (ha : a ≠ 0) (hc : c ≠ 0) (he : e ≠ 0) {f : Pt (s + 1) → ℝ} (hf : ∀ x, a * f x = c * c * e * sin (c * (x 0 + b))) :
    HasDivergence H Set.univ (fun _ => a) 0 (fun x => e * sin (c * (x 0 + b))) f ↔ H.Contains 0 ∨ ∀ r, sin (c * (H.point r 0 + b)) = 0 := by
  rw [hasDivergence_iff H ha (fun k => (sin_partial H 0 k c b).const_mul e) (fun k => (sin_partial2 H 0 k c b).const_mul e)]
  have key : ∀ r, (-∑ k, e * (-(c * c * (H.dir k 0 * H.dir k 0)) * sin (c * (H.point r 0 + b))) = a * f (H.point r)) ↔
      (∑ k, H.dir k 0 * H.dir k 0 = 1 ∨ sin (c * (H.point r 0 + b)) = 0) := fun r => by
    have : -∑ k, e * (-(c * c * (H.dir k 0 * H.dir k 0)) * sin (c * (H.point r 0 + b))) = c * c * e * sin (c * (H.point r 0 + b)) * ∑ k, H.dir k 0 * H.dir k 0 := by
      rw [Finset.mul_sum, ← Finset.sum_neg_distrib]
      exact Finset.sum_congr rfl fun k _ => by ring
    rw [this, hf]
    constructor
    · intro h
      by_cases hs : sin (c * (H.point r 0 + b)) = 0
      · exact .inr hs
      · exact .inl (mul_left_cancel₀ (mul_ne_zero (mul_ne_zero (mul_ne_zero hc hc) he) hs) (h.trans (mul_one _).symm))
    · rintro (h | h)
      · rw [h, mul_one]
      · rw [h]; ring
  simp only [key]
  exact forall_or_left

/-- **C93** (`diffusion.hxx`, `TestParametersSinEllipt`).  The analytic result solves the problem on a hyperedge iff the hyperedge contains the direction of coordinate 0, or the analytic result vanishes there. -/
theorem C93_diffusion_sin (H : Plane d (s + 1)) : Fits H sinEllipt ↔ H.Contains 0 ∨ ∀ r, sinEllipt.analytic_result (H.point r) 0 = 0 := by
  have h := sine_divergence (s := s) H (a := 0.5 * π) (c := 0.5 * π) (b := 0) (e := 1) (by positivity) (by positivity) one_ne_zero (f := (sinEllipt.right_hand_side · 0)) fun x => by
    simp only [sinEllipt, add_zero]; ring
  simp only [add_zero, one_mul] at h
  exact ⟨fun hf => h.mp hf.1, fun hr => ⟨h.mpr hr, rfl⟩⟩

/-- In particular it solves the problem on all hyperedges of the dimension of the space (grids of intervals, squares, and cubes). -/
theorem C93_diffusion_sin_full (H : Plane (s + 1) (s + 1)) : Fits H sinEllipt := (C93_diffusion_sin H).mpr (.inl (contains_full H 0))

/-- **C93** (`diffusion.hxx`, `HG<hyEdge_dim>::TestParametersQuadEllipt`).  The analytic result solves the problem on all hyperedges of dimension `hyEdge_dim`, and on no others. -/
theorem C93_diffusion_quad (n : Nat) (H : Plane d s) : Fits H (quadEllipt n) ↔ n = d := by
  have hu : ∀ x : Pt s, (quadEllipt n).analytic_result x 0 = -1 * ∑ i, (x i - 0) * (x i - 0) := fun x => by
    show (List.finRange s).foldl (fun result dim => result - x dim * x dim) 0 = _
    rw [loop_sub fun i => x i * x i]
    simp
  have h := hasDivergence_iff H (a := 1) one_ne_zero (u := fun x => (quadEllipt n).analytic_result x 0) (g := fun x => (quadEllipt n).right_hand_side x 0)
    (fun k => (sq_partial H k 0 (-1)).congr (fun r => (hu _).symm) fun r => rfl) (fun k => sq_partial2 H k 0 (2 * -1))
  have h2 : (∀ r : Fin d → ℝ, (-∑ k : Fin d, (2 * -1 : ℝ) = 1 * (quadEllipt n).right_hand_side (H.point r) 0)) ↔ n = d := by
    simp only [quadEllipt, Finset.sum_const, Finset.card_univ, Fintype.card_fin, nsmul_eq_mul, one_mul]
    constructor
    · intro h
      have := h 0
      have h3 : (n : ℝ) = d := by linarith
      exact_mod_cast h3
    · rintro rfl _
      ring
  exact ⟨fun hf => h2.mp (h.mp hf.1), fun hn => ⟨h.mpr (h2.mpr hn), rfl⟩⟩

/-- **C93** (`diffusion.hxx`, `HG<hyEdge_dim>::TestParametersQuadElliptHO`).  The analytic result solves the problem on a hyperedge iff the parts of it which belong to directions outside of the hyperedge cancel. -/
theorem C93_diffusion_high_order (H : Plane d s) :
    Fits H quadElliptHO ↔ ∀ r, ∑ i, (1 - ∑ k, H.dir k i * H.dir k i) * sin (2 * π * H.point r i) = 0 := by
  have hu : ∀ x : Pt s, quadElliptHO.analytic_result x 0 = ∑ i, sin (2 * π * (x i + 0)) := fun x => by
    show (List.finRange s).foldl (fun result dim => result + sin (2 * π * x dim)) 0 = _
    rw [loop_add fun i => sin (2 * π * x i)]
    simp
  have h := hasDivergence_iff H (a := 4 * π * π) (by positivity) (u := fun x => quadElliptHO.analytic_result x 0) (g := fun x => quadElliptHO.right_hand_side x 0)
    (fun k => (IsPartial.sum fun i => sin_partial H i k (2 * π) 0).congr (fun r => (hu _).symm) fun r => rfl) (fun k => IsPartial.sum fun i => sin_partial2 H i k (2 * π) 0)
  have key : ∀ r, (-∑ k, ∑ i, -(2 * π * (2 * π) * (H.dir k i * H.dir k i)) * sin (2 * π * (H.point r i + 0)) = 4 * π * π * quadElliptHO.right_hand_side (H.point r) 0) ↔
      ∑ i, (1 - ∑ k, H.dir k i * H.dir k i) * sin (2 * π * H.point r i) = 0 := fun r => by
    have h1 : quadElliptHO.right_hand_side (H.point r) 0 = ∑ i, sin (2 * π * H.point r i) := by
      have := hu (H.point r)
      simp only [add_zero] at this
      exact this
    have h2 : -∑ k, ∑ i, -(2 * π * (2 * π) * (H.dir k i * H.dir k i)) * sin (2 * π * (H.point r i + 0)) =
        4 * π * π * ∑ i, (∑ k, H.dir k i * H.dir k i) * sin (2 * π * H.point r i) := by
      rw [Finset.sum_comm, ← Finset.sum_neg_distrib, Finset.mul_sum]
      refine Finset.sum_congr rfl fun i _ => ?_
      rw [add_zero, ← Finset.sum_mul, Finset.sum_neg_distrib, ← Finset.mul_sum]
      ring
    rw [h1, h2]
    simp only [sub_mul, one_mul, Finset.sum_sub_distrib]
    have hp : (4 * π * π : ℝ) ≠ 0 := by positivity
    constructor
    · intro h
      rw [mul_left_cancel₀ hp h, sub_self]
    · intro h
      rw [← sub_eq_zero.mp h]
  simp only [key] at h
  exact ⟨fun hf => h.mp hf.1, fun hr => ⟨h.mpr hr, rfl⟩⟩

/-- In particular it solves the problem on hyperedges for which each coordinate is a direction of the hyperedge, or half an integer on the hyperedge (the examples use the faces of cubes). -/
theorem C93_diffusion_high_order_faces (H : Plane d s) (h : ∀ i, H.Contains i ∨ ∀ r, ∃ n : ℤ, 2 * H.point r i = n) : Fits H quadElliptHO := by
  refine (C93_diffusion_high_order H).mpr fun r => Finset.sum_eq_zero fun i _ => ?_
  rcases h i with h | h
  · rw [h, sub_self, zero_mul]
  · obtain ⟨n, hn⟩ := h r
    have : 2 * π * H.point r i = n * π := by rw [← hn]; ring
    rw [this, sin_int_mul_pi, mul_zero]

theorem sine_all_times (H : Plane d (s + 1)) : (∀ t, H.Contains 0 ∨ ∀ r, sin (π * (H.point r 0 + t)) = 0) ↔ H.Contains 0 := by
  refine ⟨fun h => ?_, fun h _ => .inl h⟩
  rcases h (1 / 2 - H.point 0 0) with h | h
  · exact h
  · have := h 0
    rw [add_sub_cancel, mul_one_div, sin_pi_div_two] at this
    exact absurd this one_ne_zero

/-- **C93** (`diffusion.hxx`, `TestParametersSinParab`).  The analytic result solves the parabolic problem on a hyperedge iff the hyperedge contains the direction of coordinate 0. -/
theorem C93_diffusion_parabolic (H : Plane d (s + 1)) : FitsParabolic H sinParab ↔ H.Contains 0 := by
  have hd : ∀ (x : Pt (s + 1)) t, HasDerivAt (fun t => sinParab.analytic_result x t) (π * cos (π * (x 0 + t))) t := fun x t => by
    refine (sin_deriv π (x 0) t).congr_deriv (by rw [add_comm]) |>.congr_of_eventuallyEq (.of_forall fun t => ?_)
    show sin (π * (x 0 + t)) = _
    rw [add_comm]
  have h := fun t => sine_divergence (s := s) H (a := π) (c := π) (b := t) (e := 1) pi_ne_zero pi_ne_zero one_ne_zero
    (f := fun x => sinParab.right_hand_side x t - π * cos (π * (x 0 + t))) fun x => by simp only [sinParab]; ring
  simp only [one_mul] at h
  rw [← sine_all_times H]
  constructor
  · intro hf t
    obtain ⟨ut, h1, h2⟩ := hf.1 t
    obtain rfl : ut = fun x => π * cos (π * (x 0 + t)) := funext fun x => (h1 x).unique (hd x t)
    exact (h t).mp h2
  · exact fun hr => ⟨fun t => ⟨_, fun x => hd x t, (h t).mpr (hr t)⟩, rfl⟩

/-- **C93** (`bilaplacian.hxx`, `TestParametersSinEllipt`). -/
theorem C93_bilaplacian_sin (H : Plane d (s + 1)) :
    FitsBilaplacian H sinBilaplacian 0 0 ↔ H.Contains 0 ∨ ∀ r, sinBilaplacian.analytic_result (H.point r) 0 = 0 := by
  have h1 := sine_divergence (s := s) H (a := 1) (c := π) (b := 0) (e := 1) one_ne_zero pi_ne_zero one_ne_zero
    (f := fun x => sinBilaplacian.inverse_bilaplacian_coefficient x 0 * sinBilaplacian.dirichlet_laplace_value x 0) fun x => by simp only [sinBilaplacian, add_zero]; ring
  have h2 := sine_divergence (s := s) H (a := 1) (c := π) (b := 0) (e := π) one_ne_zero pi_ne_zero pi_ne_zero
    (f := fun x => sinBilaplacian.right_hand_side x 0 - (0 : Pt (s + 1) → ℝ) x) fun x => by simp only [sinBilaplacian, add_zero, Pi.zero_apply, sub_zero]; ring
  simp only [add_zero, one_mul] at h1 h2
  exact ⟨fun hf => h1.mp hf.1, fun hr => ⟨h1.mpr hr, h2.mpr hr, rfl⟩⟩

/-- **C93** (`bilaplacian.hxx`, `HG<hyEdge_dim>::TestParametersQuadEllipt`). -/
theorem C93_bilaplacian_quad (n : Nat) (H : Plane d s) : FitsBilaplacian H (quadBilaplacian n) 0 0 ↔ n = d := by
  have hu : ∀ x : Pt s, (quadBilaplacian n).analytic_result x 0 = 1 * ∑ i, (x i - 0) * (x i - 0) := fun x => by
    show (List.finRange s).foldl (fun result dim => result + x dim * x dim) 0 = _
    rw [loop_add fun i => x i * x i]
    simp
  have h := hasDivergence_iff H (a := 1) one_ne_zero (u := fun x => (quadBilaplacian n).analytic_result x 0)
    (g := fun x => (quadBilaplacian n).inverse_bilaplacian_coefficient x 0 * (quadBilaplacian n).dirichlet_laplace_value x 0)
    (fun k => (sq_partial H k 0 1).congr (fun r => (hu _).symm) fun r => rfl) (fun k => sq_partial2 H k 0 (2 * 1))
  have hc : ∀ (k : Fin d) (c : ℝ), IsPartial k (fun _ => c) fun _ => 0 := fun k c x => hasDerivAt_const _ _
  have h' := hasDivergence_iff H (a := 1) one_ne_zero (u := fun x => (quadBilaplacian n).dirichlet_laplace_value x 0)
    (g := fun x => (quadBilaplacian n).right_hand_side x 0 - (0 : Pt s → ℝ) x) (fun k => hc k (-2 * n)) (fun k => hc k 0)
  have h2 : (∀ r : Fin d → ℝ, (-∑ k : Fin d, (2 * 1 : ℝ) = 1 * ((quadBilaplacian n).inverse_bilaplacian_coefficient (H.point r) 0 * (quadBilaplacian n).dirichlet_laplace_value (H.point r) 0))) ↔ n = d := by
    simp only [quadBilaplacian, Finset.sum_const, Finset.card_univ, Fintype.card_fin, nsmul_eq_mul, one_mul]
    constructor
    · intro h
      have := h 0
      have h3 : (n : ℝ) = d := by linarith
      exact_mod_cast h3
    · rintro rfl _
      ring
  refine ⟨fun hf => h2.mp (h.mp hf.1), fun hn => ⟨h.mpr (h2.mpr hn), h'.mpr fun r => ?_, rfl⟩⟩
  simp [quadBilaplacian]

/-- **C93** (`bilaplacian.hxx`, `TestParametersSinParab`): for all times, with the derivative in time. -/
theorem C93_bilaplacian_parabolic (H : Plane d (s + 1)) :
    (∀ t, ∃ ut, (∀ x, HasDerivAt (fun t => sinBilaplacianParab.analytic_result x t) (ut x) t) ∧ FitsBilaplacian H sinBilaplacianParab ut t) ↔ H.Contains 0 := by
  have hd : ∀ (x : Pt (s + 1)) t, HasDerivAt (fun t => sinBilaplacianParab.analytic_result x t) (π * cos (π * (x 0 + t))) t := fun x t => by
    refine (sin_deriv π (x 0) t).congr_deriv (by rw [add_comm]) |>.congr_of_eventuallyEq (.of_forall fun t => ?_)
    show sin (π * (x 0 + t)) = _
    rw [add_comm]
  have h1 := fun t => sine_divergence (s := s) H (a := 1) (c := π) (b := t) (e := 1) one_ne_zero pi_ne_zero one_ne_zero
    (f := fun x => sinBilaplacianParab.inverse_bilaplacian_coefficient x t * sinBilaplacianParab.dirichlet_laplace_value x t) fun x => by simp only [sinBilaplacianParab]; ring
  have h2 := fun t => sine_divergence (s := s) H (a := 1) (c := π) (b := t) (e := π) one_ne_zero pi_ne_zero pi_ne_zero
    (f := fun x => sinBilaplacianParab.right_hand_side x t - π * cos (π * (x 0 + t))) fun x => by simp only [sinBilaplacianParab]; ring
  simp only [one_mul] at h1
  rw [← sine_all_times H]
  constructor
  · intro hf t
    obtain ⟨ut, _, h4⟩ := hf t
    exact (h1 t).mp h4.1
  · exact fun hr t => ⟨_, fun x => hd x t, (h1 t).mpr (hr t), (h2 t).mpr (hr t), rfl⟩

/-- **C93**: the initial values of the Laplacian are those of the Laplacian in the parabolic problem. -/
theorem C93_initial_laplace : (sinBilaplacianParab (s := s)).initial_laplace = sinBilaplacianParab.dirichlet_laplace_value := rfl

/-- This fails for the data of the stationary problems. -/
theorem C93_not_initial_laplace : (sinBilaplacian (s := s)).initial_laplace ≠ sinBilaplacian.dirichlet_laplace_value ∧
    ∀ n, 0 < n → (quadBilaplacian (s := s) n).initial_laplace ≠ (quadBilaplacian n).dirichlet_laplace_value := by
  constructor
  · intro h
    have := congrFun (congrFun h fun _ => 1 / 2) 0
    simp only [sinBilaplacian, mul_one_div, sin_pi_div_two, mul_one] at this
    have := two_le_pi
    linarith
  · intro n hn h
    have := congrFun (congrFun h 0) 0
    change (List.finRange s).foldl (fun result dim => result + (0 : Pt s) dim * (0 : Pt s) dim) 0 = -2 * (n : ℝ) at this
    rw [loop_add fun i => (0 : Pt s) i * (0 : Pt s) i] at this
    have h2 : (0 : ℝ) < n := by exact_mod_cast hn
    simp at this
    omega

/-- **C93** (`diffusion_advection_reaction.hxx`, `TestParametersSinEllipt`): where the coefficient is finite. -/
theorem C93_advection_reaction_sin (H : Plane d (s + 1)) (hH : H.Contains 0) : FitsADR H {r | cos (0.25 * π * H.point r 0) ≠ 0} sinADR := by
  have h1 : ∀ k, IsPartial k (fun r => sin (0.25 * π * H.point r 0)) fun r => 0.25 * π * cos (0.25 * π * H.point r 0) * H.dir k 0 := fun k => by
    simpa only [add_zero] using sin_partial H 0 k (0.25 * π) 0
  have h2 : ∀ k, IsPartial k (fun r => H.dir k 0 * (sin (0.25 * π * H.point r 0) - 0.25 * π)) fun r => H.dir k 0 * (0.25 * π * cos (0.25 * π * H.point r 0) * H.dir k 0) := fun k x =>
    ((h1 k x).sub_const _).const_mul _
  refine ⟨⟨_, _, _, h1, h2, fun r hr => ⟨fun k => ?_, ?_⟩⟩, rfl⟩
  · have hc : cos (0.25 * π * H.point r 0) ≠ 0 := hr
    have hv : ∑ i, sinADR.advective_velocity (H.point r) 0 i * H.dir k i = 1 / cos (0.25 * π * H.point r 0) * (-0.25 * π * sin (0.25 * π * H.point r 0) + 1) * H.dir k 0 := by
      rw [Finset.sum_eq_single 0 (fun i _ hi => by simp [sinADR, hi]) (by simp)]
      simp [sinADR]
    rw [hv]
    simp only [sinADR]
    have hsq := sin_sq_add_cos_sq (0.25 * π * H.point r 0)
    field_simp
    linear_combination (0.25 * π * H.dir k 0) * hsq
  · simp only [sinADR]
    have : ∀ k, H.dir k 0 * (0.25 * π * cos (0.25 * π * H.point r 0) * H.dir k 0) = 0.25 * π * cos (0.25 * π * H.point r 0) * (H.dir k 0 * H.dir k 0) := fun k => by ring
    simp only [this, ← Finset.mul_sum]
    rw [hH]
    ring

theorem shiftedQuad_eq (x : Pt s) : shiftedQuad x = -1 * ∑ i, (x i - 2) * (x i - 2) := by
  unfold shiftedQuad
  rw [loop_sub fun i => (x i - 2) * (x i - 2)]
  ring

/-- **C93** (`diffusion_advection_reaction.hxx`, `HG<hyEdge_dim>::TestParametersQuadEllipt`): where the velocity is finite. -/
theorem C93_advection_reaction_quad (H : Plane d s) : FitsADR H {r | (quadADR d).analytic_result (H.point r) 0 ≠ 0} (quadADR d) := by
  refine ⟨⟨_, fun k r => 3 * ∑ i, (H.point r i - 2) * H.dir k i, fun _ _ => 3, fun k => (sq_partial H k 2 (-1)).congr (fun r => (shiftedQuad_eq _).symm) fun r => rfl,
    fun k => sq_partial2 H k 2 3, fun r hr => ⟨fun k => ?_, ?_⟩⟩, rfl⟩
  · have hr : shiftedQuad (H.point r) ≠ 0 := hr
    have hv : (∑ i, (quadADR d).advective_velocity (H.point r) 0 i * H.dir k i) * shiftedQuad (H.point r) = ∑ i, (H.point r i - 2) * H.dir k i := by
      rw [Finset.sum_mul]
      refine Finset.sum_congr rfl fun i _ => ?_
      simp only [quadADR]
      field_simp
    show 1 * _ + _ - (∑ i, (quadADR d).advective_velocity (H.point r) 0 i * H.dir k i) * shiftedQuad (H.point r) = 0
    rw [hv]
    ring
  · simp only [quadADR, Finset.sum_const, Finset.card_univ, Fintype.card_fin, nsmul_eq_mul]
    ring

/-- **C93** (`advection.hxx`, `TestParametersSinParab`). -/
theorem C93_advection_parabolic (H : Plane d (s + 1)) : FitsAdvection H sinAdvection ↔ H.Contains 0 := by
  have hd : ∀ (x : Pt (s + 1)) t, HasDerivAt (fun t => sinAdvection.analytic_result x t) (π * cos (π * (x 0 + t))) t := fun x t => by
    refine (sin_deriv π (x 0) t).congr_deriv (by rw [add_comm]) |>.congr_of_eventuallyEq (.of_forall fun t => ?_)
    show sin (π * (x 0 + t)) = _
    rw [add_comm]
  have hv : ∀ t k r, (∑ i, sinAdvection.velocity (H.point r) t i * H.dir k i) = 1 / π * H.dir k 0 := fun t k r => by
    rw [Finset.sum_eq_single 0 (fun i _ hi => by simp [sinAdvection, hi]) (by simp)]
    simp [sinAdvection]
  have hq : ∀ t k, IsPartial k (fun r => (∑ i, sinAdvection.velocity (H.point r) t i * H.dir k i) * sinAdvection.analytic_result (H.point r) t)
      fun r => cos (π * (H.point r 0 + t)) * (H.dir k 0 * H.dir k 0) := fun t k => by
    refine ((sin_partial H 0 k π t).const_mul (1 / π * H.dir k 0)).congr (fun r => by rw [hv]; rfl) fun r => ?_
    have := pi_ne_zero
    field_simp
  constructor
  · intro hf
    obtain ⟨ut, dq, h1, h2, h3⟩ := hf.1 (-H.point 0 0)
    have h4 := h3 0
    rw [(h1 _).unique (hd _ _)] at h4
    simp only [partial_unique (h2 _) (hq _ _), sinAdvection, add_neg_cancel, mul_zero, cos_zero, mul_one, one_mul] at h4
    show ∑ k, H.dir k 0 * H.dir k 0 = 1
    linarith
  · intro h
    refine ⟨fun t => ⟨_, _, fun x => hd x t, hq t, fun r => ?_⟩, rfl⟩
    rw [← Finset.mul_sum, h]
    simp only [sinAdvection]
    ring

/-! ## Rotation -/

/-- The point which the rotation of `LeVeque` moves to `x` in time `t`. -/
noncomputable def back (x : Pt 2) (t : ℝ) : Pt 2 :=
  ![0.5 + (cos t * (x 0 - 0.5) + sin t * (x 1 - 0.5)), 0.5 + (cos t * (x 1 - 0.5) - sin t * (x 0 - 0.5))]

/-- **C93** (`advection.hxx`, `LeVeque`): there is exactly one function which is transported with the velocity and has the initial values. -/
theorem C93_rotation_unique (u : Pt 2 → ℝ → ℝ) :
    (Transported leVeque.velocity u ∧ ∀ x, u x 0 = leVeque.analytic_result x 0) ↔ ∀ x t, u x t = leVeque.analytic_result (back x t) 0 := by
  have hback0 : ∀ x : Pt 2, back x 0 = x := fun x => by
    ext i
    fin_cases i <;> simp [back]
  constructor
  · rintro ⟨h1, h2⟩ x t
    have h := h1 (fun r => back x (t - r)) (fun r i => ?_) t
    · simp only [sub_self, sub_zero, hback0] at h
      rw [h, h2]
    · have hs : HasDerivAt (fun r => t - r) (-1) r := by simpa using (hasDerivAt_id r).const_sub t
      have hsin := hs.sin
      have hcos := hs.cos
      fin_cases i
      · refine (((hcos.mul_const (x 0 - 0.5)).add (hsin.mul_const (x 1 - 0.5))).const_add 0.5).congr_deriv ?_
        simp [leVeque, back]
        ring
      · refine (((hcos.mul_const (x 1 - 0.5)).sub (hsin.mul_const (x 0 - 0.5))).const_add 0.5).congr_deriv ?_
        simp [leVeque, back]
        ring
  · intro h
    refine ⟨fun path hp t => ?_, fun x => by rw [h, hback0]⟩
    rw [h, h]
    refine congrArg (leVeque.analytic_result · 0) ?_
    have h0 : ∀ t, HasDerivAt (fun t => path t 0 - 0.5) (0.5 - path t 1) t := fun t => (hp t 0).sub_const _
    have h1 : ∀ t, HasDerivAt (fun t => path t 1 - 0.5) (path t 0 - 0.5) t := fun t => (hp t 1).sub_const _
    have c0 : ∀ t, HasDerivAt (fun t => cos t * (path t 0 - 0.5) + sin t * (path t 1 - 0.5)) 0 t := fun t =>
      (((hasDerivAt_cos t).mul (h0 t)).add ((hasDerivAt_sin t).mul (h1 t))).congr_deriv (by ring)
    have c1 : ∀ t, HasDerivAt (fun t => cos t * (path t 1 - 0.5) - sin t * (path t 0 - 0.5)) 0 t := fun t =>
      (((hasDerivAt_cos t).mul (h1 t)).sub ((hasDerivAt_sin t).mul (h0 t))).congr_deriv (by ring)
    have e0 := is_const_of_deriv_eq_zero (fun t => (c0 t).differentiableAt) (fun t => (c0 t).deriv) t 0
    have e1 := is_const_of_deriv_eq_zero (fun t => (c1 t).differentiableAt) (fun t => (c1 t).deriv) t 0
    unfold back
    rw [e0, e1]

/-- **C93** (`advection.hxx`, `LeVeque`): after any number of revolutions (the example compares at time `2 * np.pi`) the transported function is the analytic result. -/
theorem C93_rotation (u : Pt 2 → ℝ → ℝ) (h : Transported leVeque.velocity u) (h0 : ∀ x, u x 0 = leVeque.analytic_result x 0) (n : Nat) (x : Pt 2) :
    u x (n * (2 * π)) = leVeque.analytic_result x (n * (2 * π)) := by
  rw [(C93_rotation_unique u).mp ⟨h, h0⟩]
  show leVequeResult (back x _) = leVequeResult x
  congr 1
  ext i
  have hs : sin (n * (2 * π)) = 0 := by
    have := sin_nat_mul_pi (n * 2)
    rwa [Nat.cast_mul, mul_assoc, Nat.cast_ofNat] at this
  fin_cases i <;> simp [back, cos_nat_mul_two_pi, hs]

/-! ## Where the data do not fit -/

/-- An edge in the plane in the direction of the second coordinate. -/
def upright (x : ℝ) : Plane 1 2 := ⟨![x, 0], fun _ => ![0, 1], fun k l => by rw [if_pos (Subsingleton.elim k l)]; simp⟩

theorem upright_point (x : ℝ) (r : Fin 1 → ℝ) : (upright x).point r 0 = x := by simp [upright, Plane.point]

theorem upright_contains (x : ℝ) : ¬ (upright x).Contains 0 := by simp [upright, Plane.Contains]

/-- **C93 fails** for `TestParametersSinEllipt` on networks of edges in the plane or in space, as used by `fiber_network_diffusion.py`: the analytic result does not solve the problem on edges in other directions. -/
theorem C93_not_diffusion_sin : ∃ H : Plane 1 2, ¬ Fits H sinEllipt := by
  refine ⟨upright 1, fun h => ?_⟩
  rcases (C93_diffusion_sin _).mp h with h | h
  · exact upright_contains 1 h
  · have := h 0
    simp only [sinEllipt, upright_point, mul_one] at this
    rw [show (0.5 : ℝ) * π = π / 2 by ring, sin_pi_div_two] at this
    exact one_ne_zero this

/-- **C93 fails** for `TestParametersQuadElliptHO` on hyperedges at other coordinates. -/
theorem C93_not_diffusion_high_order : ∃ H : Plane 1 2, ¬ Fits H quadElliptHO := by
  refine ⟨upright (1 / 4), fun h => ?_⟩
  have := (C93_diffusion_high_order _).mp h 0
  rw [Fin.sum_univ_two, upright_point] at this
  simp only [upright, Finset.univ_unique, Finset.sum_singleton, Matrix.cons_val_zero, Matrix.cons_val_one, mul_zero, sub_zero, mul_one, one_mul, sub_self, zero_mul, add_zero] at this
  rw [show 2 * π * (1 / 4) = π / 2 by ring, sin_pi_div_two] at this
  exact one_ne_zero this

/-- The hypotheses can be met: the unit square, and the side of the unit square on the axis of coordinate 0. -/
example : Fits (⟨0, fun k i => if k = i then 1 else 0, fun k l => by simp⟩ : Plane 2 2) sinEllipt := C93_diffusion_sin_full _
example : FitsParabolic (⟨0, fun _ => ![1, 0], fun k l => by rw [if_pos (Subsingleton.elim k l)]; simp⟩ : Plane 1 2) sinParab := (C93_diffusion_parabolic _).mpr (by simp [Plane.Contains])
example : Fits (upright 1) quadElliptHO := C93_diffusion_high_order_faces _ fun i => by
  fin_cases i
  · exact .inr fun r => ⟨2, by simp [upright_point]⟩
  · exact .inl (by simp [Plane.Contains, upright])

end HyperHDG.Parameters

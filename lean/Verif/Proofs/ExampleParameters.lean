import Verif.Spec.ExampleParameters
import Verif.Proofs.Polynomials
import Mathlib.Analysis.SpecialFunctions.Trigonometric.Deriv

/-!
# Derivatives along flat hyperedges
-/

namespace HyperHDG.Parameters

open Finset Spec Real

variable {d s : Nat}

theorem point_partial (H : Plane d s) (i : Fin s) (k : Fin d) : IsPartial k (fun r => H.point r i) fun _ => H.dir k i := by
  intro x
  have h : ∀ r : ℝ, H.point (Function.update x k r) i = H.point x i + (r - x k) * H.dir k i := fun r => by
    unfold Plane.point
    rw [← Finset.add_sum_erase _ _ (mem_univ k), ← Finset.add_sum_erase univ (fun k => x k * H.dir k i) (mem_univ k), Function.update_self,
      Finset.sum_congr rfl fun l hl => by rw [Function.update_of_ne (Finset.ne_of_mem_erase hl)]]
    ring
  simp only [h]
  simpa using (((hasDerivAt_id (x k)).sub_const (x k)).mul_const (H.dir k i)).const_add (H.point x i)

/-- The chain rule for functions of one coordinate. -/
theorem comp_partial (H : Plane d s) (i : Fin s) (k : Fin d) {F F' : ℝ → ℝ} (h : ∀ y, HasDerivAt F (F' y) y) :
    IsPartial k (fun r => F (H.point r i)) fun r => F' (H.point r i) * H.dir k i := by
  intro x
  have h1 := point_partial H i k x
  have h2 := h (H.point (Function.update x k (x k)) i)
  have := h2.comp (x k) h1
  simpa only [Function.update_eq_self, Function.comp_def] using this

theorem _root_.HyperHDG.Spec.IsPartial.sum {a : Fin d} {n : Nat} {f g : Fin n → (Fin d → ℝ) → ℝ} (h : ∀ i, IsPartial a (f i) (g i)) : IsPartial a (fun x => ∑ i, f i x) fun x => ∑ i, g i x := by
  intro x
  have := HasDerivAt.fun_sum (u := univ) fun i _ => h i x
  exact this

theorem _root_.HyperHDG.Spec.IsPartial.const_mul {a : Fin d} {f g : (Fin d → ℝ) → ℝ} (c : ℝ) (h : IsPartial a f g) : IsPartial a (fun x => c * f x) fun x => c * g x := fun x => (h x).const_mul c

theorem _root_.HyperHDG.Spec.IsPartial.congr {a : Fin d} {f f' g g' : (Fin d → ℝ) → ℝ} (h : IsPartial a f g) (hf : ∀ x, f x = f' x) (hg : ∀ x, g x = g' x) : IsPartial a f' g' := by
  obtain rfl : f = f' := funext hf
  obtain rfl : g = g' := funext hg
  exact h

/-- With a constant coefficient and no velocity, the divergence of the flux is the Laplacian of `u` along the hyperedge. -/
theorem hasDivergence_iff (H : Plane d s) {a : ℝ} (ha : a ≠ 0) {u g : Pt s → ℝ} {du ddu : Fin d → (Fin d → ℝ) → ℝ}
    (h1 : ∀ k, IsPartial k (fun r => u (H.point r)) (du k)) (h2 : ∀ k, IsPartial k (du k) (ddu k)) :
    HasDivergence H Set.univ (fun _ => a) 0 u g ↔ ∀ r, -∑ k, ddu k r = a * g (H.point r) := by
  constructor
  · rintro ⟨du', q, dq, h3, h4, h5⟩ r
    have hq : ∀ k, q k = fun r => (-1 / a) * du k r := fun k => funext fun r => by
      have := (h5 r trivial).1 k
      rw [partial_unique (h3 k) (h1 k)] at this
      simp only [Pi.zero_apply, zero_mul, Finset.sum_const_zero, sub_zero] at this
      field_simp
      linarith
    have hd : ∀ k, dq k = fun r => (-1 / a) * ddu k r := fun k => partial_unique (h4 k) (by rw [hq k]; exact (h2 k).const_mul _)
    rw [← (h5 r trivial).2]
    simp only [hd, ← Finset.mul_sum]
    field_simp
  · intro h
    refine ⟨du, fun k r => (-1 / a) * du k r, fun k r => (-1 / a) * ddu k r, h1, fun k => (h2 k).const_mul _, fun r _ => ⟨fun k => ?_, ?_⟩⟩
    · simp only [Pi.zero_apply, zero_mul, Finset.sum_const_zero, sub_zero]
      field_simp
      ring
    · rw [← Finset.mul_sum]
      have := h r
      field_simp
      linarith

theorem foldl_add (l : List (Fin s)) (g : Fin s → ℝ) (a : ℝ) : l.foldl (fun result dim => result + g dim) a = a + (l.map g).sum := by
  induction l generalizing a with
  | nil => simp
  | cons x l ih => simp [ih, add_assoc]

/-- The loops over the coordinates compute sums. -/
theorem loop_add (g : Fin s → ℝ) : (List.finRange s).foldl (fun result dim => result + g dim) 0 = ∑ i, g i := by
  rw [foldl_add, zero_add, ← List.ofFn_eq_map, List.sum_ofFn]

theorem loop_sub (g : Fin s → ℝ) : (List.finRange s).foldl (fun result dim => result - g dim) 0 = -∑ i, g i := by
  simp only [sub_eq_add_neg]
  rw [loop_add fun i => -g i, Finset.sum_neg_distrib]

theorem sin_deriv (c b : ℝ) (y : ℝ) : HasDerivAt (fun y => sin (c * (y + b))) (c * cos (c * (y + b))) y := by
  have := (((hasDerivAt_id y).add_const b).const_mul c).sin
  simpa [mul_comm] using this

theorem cos_deriv (c b : ℝ) (y : ℝ) : HasDerivAt (fun y => cos (c * (y + b))) (-(c * sin (c * (y + b)))) y := by
  have := (((hasDerivAt_id y).add_const b).const_mul c).cos
  simpa [mul_comm] using this

/-- Sums of sines. -/
theorem sin_partial (H : Plane d s) (i : Fin s) (k : Fin d) (c b : ℝ) :
    IsPartial k (fun r => sin (c * (H.point r i + b))) (fun r => c * cos (c * (H.point r i + b)) * H.dir k i) :=
  comp_partial H i k (sin_deriv c b)

theorem sin_partial2 (H : Plane d s) (i : Fin s) (k : Fin d) (c b : ℝ) :
    IsPartial k (fun r => c * cos (c * (H.point r i + b)) * H.dir k i) (fun r => -(c * c * (H.dir k i * H.dir k i)) * sin (c * (H.point r i + b))) := by
  refine ((comp_partial H i k (cos_deriv c b)).const_mul (c * H.dir k i)).congr (fun x => by ring) (fun x => by ring)

/-- Squares of the distance. -/
theorem sq_partial (H : Plane d s) (k : Fin d) (b c : ℝ) :
    IsPartial k (fun r => c * ∑ i, (H.point r i - b) * (H.point r i - b)) (fun r => 2 * c * ∑ i, (H.point r i - b) * H.dir k i) := by
  have h : ∀ i, IsPartial k (fun r => (H.point r i - b) * (H.point r i - b)) fun r => 2 * (H.point r i - b) * H.dir k i := fun i =>
    comp_partial H i k (F := fun y => (y - b) * (y - b)) (F' := fun y => 2 * (y - b)) fun y => by
      have h1 := (hasDerivAt_id y).sub_const b
      refine (h1.mul h1).congr_deriv ?_
      simp only [id]
      ring
  refine ((IsPartial.sum h).const_mul c).congr (fun x => rfl) fun x => ?_
  rw [Finset.mul_sum, Finset.mul_sum]
  exact Finset.sum_congr rfl fun i _ => by ring

theorem sq_partial2 (H : Plane d s) (k : Fin d) (b c : ℝ) : IsPartial k (fun r => c * ∑ i, (H.point r i - b) * H.dir k i) (fun _ => c) := by
  have h : ∀ i, IsPartial k (fun r => (H.point r i - b) * H.dir k i) fun _ => H.dir k i * H.dir k i := fun i => by
    refine (comp_partial H i k (F := fun y => (y - b) * H.dir k i) (F' := fun _ => H.dir k i) fun y => ?_)
    simpa using ((hasDerivAt_id y).sub_const b).mul_const (H.dir k i)
  refine ((IsPartial.sum h).const_mul c).congr (fun x => rfl) fun x => ?_
  rw [H.orthonormal, if_pos rfl, mul_one]

end HyperHDG.Parameters

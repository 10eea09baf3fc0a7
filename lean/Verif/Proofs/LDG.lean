import Verif.Spec.LDG
import Mathlib.Tactic.LinearCombination
import Mathlib.Tactic.FieldSimp
import Mathlib.LinearAlgebra.Matrix.Symmetric
import Mathlib.Tactic.Linarith
import Mathlib.Tactic.Module
import Mathlib.Tactic.Abel

/-!
# The bilinear form of the local problem
-/

set_option linter.unusedSectionVars false

namespace HyperHDG.Spec

open Matrix Finset

variable {dim nS nB : Nat} {K : Type}

section Ring
variable [CommRing K] {F : Form dim nS nB K} {tau rho sigma : K} {g : Fin (2 * dim) → Fin nS → K} {s : Fin nS → K}
  {lambda mu : Fin (2 * dim) → Fin nB → K} {q q' : Fin dim → Fin nS → K} {u u' : Fin nS → K}

theorem dot_sum {ι : Type} (t : Finset ι) (v : Fin nS → K) (f : ι → Fin nS → K) : v ⬝ᵥ ∑ a ∈ t, f a = ∑ a ∈ t, v ⬝ᵥ f a := dotProduct_sum v t f

theorem flux_test (h : IsSolution F tau rho sigma g s q u) (d : Fin dim) (v : Fin nS → K) :
    v ⬝ᵥ F.mass *ᵥ q d - v ⬝ᵥ F.grad d *ᵥ u + ∑ f, F.normal f d * (v ⬝ᵥ g f) = 0 := by
  have := congrArg (fun x => v ⬝ᵥ x) (h.flux d)
  simpa [dotProduct_add, dotProduct_sub, dotProduct_sum, dotProduct_smul] using this

theorem primal_test (h : IsSolution F tau rho sigma g s q u) (w : Fin nS → K) :
    rho * (w ⬝ᵥ F.mass0 *ᵥ u) + sigma * (-(∑ d, w ⬝ᵥ F.grad d *ᵥ q d) + ∑ f, ((∑ d, F.normal f d * (w ⬝ᵥ F.bdr f *ᵥ q d)) +
      tau * (w ⬝ᵥ F.bdr f *ᵥ u) - tau * (w ⬝ᵥ g f))) = w ⬝ᵥ s := by
  have := congrArg (fun x => w ⬝ᵥ x) h.primal
  simpa only [dotProduct_add, dotProduct_sub, dotProduct_neg, dotProduct_sum, dotProduct_smul, mulVec_add, mulVec_sum, mulVec_smul, smul_eq_mul] using this

theorem flux_pair : ∑ f, mu f ⬝ᵥ faceFlux F tau lambda q u f =
    ∑ f, ((∑ d, F.normal f d * (q d ⬝ᵥ F.psi f *ᵥ mu f)) + tau * (u ⬝ᵥ F.psi f *ᵥ mu f) - tau * (F.area f * (mu f ⬝ᵥ lambda f))) := by
  refine Finset.sum_congr rfl fun f _ => ?_
  have hT : ∀ v : Fin nS → K, mu f ⬝ᵥ (F.psi f)ᵀ *ᵥ v = v ⬝ᵥ F.psi f *ᵥ mu f := by
    intro v
    rw [mulVec_transpose, dotProduct_comm, dotProduct_mulVec]
  simp only [faceFlux, dotProduct_sub, mulVec_add, mulVec_sum, mulVec_smul, dotProduct_add, dotProduct_sum, dotProduct_smul, smul_eq_mul, hT]
  ring

/-- The bilinear form. -/
def bilin (F : Form dim nS nB K) (tau : K) (q : Fin dim → Fin nS → K) (u : Fin nS → K) (lambda : Fin (2 * dim) → Fin nB → K)
    (q' : Fin dim → Fin nS → K) (u' : Fin nS → K) (mu : Fin (2 * dim) → Fin nB → K) : K :=
  (∑ d, q d ⬝ᵥ F.mass *ᵥ q' d) + tau * ∑ f, (u ⬝ᵥ F.bdr f *ᵥ u' - u' ⬝ᵥ F.psi f *ᵥ lambda f - u ⬝ᵥ F.psi f *ᵥ mu f + F.area f * (mu f ⬝ᵥ lambda f))

end Ring

section Laws
variable [Field K] [LinearOrder K] [IsStrictOrderedRing K] {F : Form dim nS nB K} {tau rho sigma : K} {g : Fin (2 * dim) → Fin nS → K} {s s' : Fin nS → K}
  {lambda mu : Fin (2 * dim) → Fin nB → K} {q q' : Fin dim → Fin nS → K} {u u' : Fin nS → K}

theorem symm_dot {M : Matrix (Fin nS) (Fin nS) K} (h : Mᵀ = M) (v w : Fin nS → K) : v ⬝ᵥ M *ᵥ w = w ⬝ᵥ M *ᵥ v := by
  conv_lhs => rw [← h, mulVec_transpose, dotProduct_comm, ← dotProduct_mulVec]

theorem bdr_dot (hF : FormLaws F) (f : Fin (2 * dim)) (v w : Fin nS → K) :
    F.area f * (v ⬝ᵥ F.bdr f *ᵥ w) = ((F.psi f)ᵀ *ᵥ v) ⬝ᵥ ((F.psi f)ᵀ *ᵥ w) := by
  rw [← smul_eq_mul, ← dotProduct_smul, ← smul_mulVec, hF.trace f, ← mulVec_mulVec, dotProduct_mulVec, ← mulVec_transpose]

theorem bdr_symm (hF : FormLaws F) (f : Fin (2 * dim)) (v w : Fin nS → K) : v ⬝ᵥ F.bdr f *ᵥ w = w ⬝ᵥ F.bdr f *ᵥ v := by
  have h1 := bdr_dot hF f v w
  have h2 := bdr_dot hF f w v
  rw [dotProduct_comm ((F.psi f)ᵀ *ᵥ w)] at h2
  exact mul_left_cancel₀ (hF.area_pos f).ne' (h1.trans h2.symm)

theorem parts_dot (hF : FormLaws F) (d : Fin dim) (v w : Fin nS → K) :
    v ⬝ᵥ F.grad d *ᵥ w + w ⬝ᵥ F.grad d *ᵥ v = ∑ f, F.normal f d * (v ⬝ᵥ F.bdr f *ᵥ w) := by
  have h := congrArg (fun M => v ⬝ᵥ M *ᵥ w) (hF.by_parts d)
  simp only [add_mulVec, dotProduct_add, sum_mulVec, dotProduct_sum, smul_mulVec, dotProduct_smul, smul_eq_mul] at h
  rw [← h, mulVec_transpose (F.grad d) w, dotProduct_comm v (w ᵥ* F.grad d), ← dotProduct_mulVec]

/-- The bilinear form is symmetric. -/
theorem bilin_symm (hF : FormLaws F) : bilin F tau q u lambda q' u' mu = bilin F tau q' u' mu q u lambda := by
  unfold bilin
  have h1 : ∀ d, q d ⬝ᵥ F.mass *ᵥ q' d = q' d ⬝ᵥ F.mass *ᵥ q d := fun d => symm_dot hF.mass_symm _ _
  have h2 : ∀ f, u ⬝ᵥ F.bdr f *ᵥ u' = u' ⬝ᵥ F.bdr f *ᵥ u := fun f => bdr_symm hF f _ _
  simp only [h1, h2, fun f => dotProduct_comm (mu f) (lambda f)]
  congr 2
  refine Finset.sum_congr rfl fun f _ => ?_
  ring

/-- The flux of a solution with source `s`, tested by `mu`, whose solution is `(q', u')`. -/
theorem flux_form (hF : FormLaws F) (hs : sigma ≠ 0) (h : IsSolution F tau rho sigma (moments F lambda) s q u)
    {rho' sigma' : K} (h' : IsSolution F tau rho' sigma' (moments F mu) s' q' u') :
    ∑ f, mu f ⬝ᵥ faceFlux F tau lambda q u f =
      -bilin F tau q u lambda q' u' mu + sigma⁻¹ * (u' ⬝ᵥ s - rho * (u' ⬝ᵥ F.mass0 *ᵥ u)) := by
  have h1 : ∑ d, (q d ⬝ᵥ F.mass *ᵥ q' d - q d ⬝ᵥ F.grad d *ᵥ u' + ∑ f, F.normal f d * (q d ⬝ᵥ moments F mu f)) = 0 :=
    Finset.sum_eq_zero fun d _ => flux_test h' d (q d)
  have h2 := primal_test h u'
  have h3 : ∑ d, (u' ⬝ᵥ F.grad d *ᵥ q d + q d ⬝ᵥ F.grad d *ᵥ u') = ∑ d, ∑ f, F.normal f d * (u' ⬝ᵥ F.bdr f *ᵥ q d) :=
    Finset.sum_congr rfl fun d _ => parts_dot hF d u' (q d)
  rw [Finset.sum_comm] at h3
  have h4 : ∑ d, ∑ f, F.normal f d * (q d ⬝ᵥ moments F mu f) = ∑ f, ∑ d, F.normal f d * (q d ⬝ᵥ moments F mu f) := Finset.sum_comm
  rw [flux_pair]
  unfold bilin
  simp only [Finset.sum_add_distrib, Finset.sum_sub_distrib, moments, ← Finset.mul_sum] at h1 h2 h3 h4 ⊢
  have h5 : ∀ f, u' ⬝ᵥ F.bdr f *ᵥ u = u ⬝ᵥ F.bdr f *ᵥ u' := fun f => bdr_symm hF f _ _
  simp only [h5] at h2
  rw [← h2]
  rw [h4] at h1
  have h6 : ∀ x : K, sigma⁻¹ * (sigma * x) = x := fun x => by rw [← mul_assoc, inv_mul_cancel₀ hs, one_mul]
  rw [show ∀ a b : K, a + sigma * b - a = sigma * b from fun a b => by ring, h6]
  linear_combination h1 + h3

/-- The value of the quadratic form. -/
theorem bilin_self (hF : FormLaws F) : bilin F tau q u lambda q u lambda =
    (∑ d, q d ⬝ᵥ F.mass *ᵥ q d) + tau * ∑ f, (F.area f)⁻¹ * (((F.psi f)ᵀ *ᵥ u - F.area f • lambda f) ⬝ᵥ ((F.psi f)ᵀ *ᵥ u - F.area f • lambda f)) := by
  unfold bilin
  congr 2
  refine Finset.sum_congr rfl fun f _ => ?_
  have ha := (hF.area_pos f).ne'
  have h1 := bdr_dot hF f u u
  have hT : u ⬝ᵥ F.psi f *ᵥ lambda f = ((F.psi f)ᵀ *ᵥ u) ⬝ᵥ lambda f := by
    rw [mulVec_transpose, dotProduct_mulVec]
  rw [hT]
  simp only [dotProduct_sub, sub_dotProduct, dotProduct_smul, smul_dotProduct, smul_eq_mul]
  rw [← h1, dotProduct_comm (lambda f) ((F.psi f)ᵀ *ᵥ u)]
  field_simp
  ring

theorem quad_nonneg {M : Matrix (Fin nS) (Fin nS) K} (h : ∀ v, v ≠ 0 → 0 < v ⬝ᵥ M *ᵥ v) (v : Fin nS → K) : 0 ≤ v ⬝ᵥ M *ᵥ v := by
  by_cases hv : v = 0
  · subst hv; simp
  · exact (h v hv).le

theorem quad_zero {M : Matrix (Fin nS) (Fin nS) K} (h : ∀ v, v ≠ 0 → 0 < v ⬝ᵥ M *ᵥ v) {v : Fin nS → K} (h0 : v ⬝ᵥ M *ᵥ v = 0) : v = 0 := by
  by_contra hv
  exact (h v hv).ne' h0

theorem dot_self_nonneg (v : Fin nB → K) : 0 ≤ v ⬝ᵥ v := Finset.sum_nonneg fun _ _ => mul_self_nonneg _

theorem dot_self_zero {v : Fin nB → K} (h : v ⬝ᵥ v = 0) : v = 0 := by
  funext i
  exact mul_self_eq_zero.mp ((Finset.sum_eq_zero_iff_of_nonneg (fun i _ => mul_self_nonneg (v i))).mp h i (Finset.mem_univ i))

theorem face_nonneg (hF : FormLaws F) (u : Fin nS → K) (lambda : Fin (2 * dim) → Fin nB → K) (f : Fin (2 * dim)) :
    0 ≤ (F.area f)⁻¹ * (((F.psi f)ᵀ *ᵥ u - F.area f • lambda f) ⬝ᵥ ((F.psi f)ᵀ *ᵥ u - F.area f • lambda f)) :=
  mul_nonneg (inv_nonneg.mpr (hF.area_pos f).le) (dot_self_nonneg _)

theorem bilin_nonneg (hF : FormLaws F) (ht : 0 ≤ tau) (q : Fin dim → Fin nS → K) (u : Fin nS → K) (lambda : Fin (2 * dim) → Fin nB → K) :
    0 ≤ bilin F tau q u lambda q u lambda := by
  rw [bilin_self hF]
  exact add_nonneg (Finset.sum_nonneg fun d _ => quad_nonneg hF.mass_pos _) (mul_nonneg ht (Finset.sum_nonneg fun f _ => face_nonneg hF u lambda f))

theorem bilin_q_zero (hF : FormLaws F) (ht : 0 ≤ tau) (h : bilin F tau q u lambda q u lambda = 0) : q = 0 := by
  rw [bilin_self hF] at h
  have h1 : ∀ d, 0 ≤ q d ⬝ᵥ F.mass *ᵥ q d := fun d => quad_nonneg hF.mass_pos _
  have h2 := mul_nonneg ht (Finset.sum_nonneg fun f (_ : f ∈ Finset.univ) => face_nonneg hF u lambda f)
  have h3 : ∑ d, q d ⬝ᵥ F.mass *ᵥ q d = 0 := le_antisymm (by linarith) (Finset.sum_nonneg fun d _ => h1 d)
  funext d
  exact quad_zero hF.mass_pos ((Finset.sum_eq_zero_iff_of_nonneg fun d _ => h1 d).mp h3 d (Finset.mem_univ d))

theorem bilin_trace_zero (hF : FormLaws F) (ht : 0 < tau) (h : bilin F tau q u lambda q u lambda = 0) (f : Fin (2 * dim)) : IsTrace F u f (lambda f) := by
  rw [bilin_self hF] at h
  have h1 : ∀ d, 0 ≤ q d ⬝ᵥ F.mass *ᵥ q d := fun d => quad_nonneg hF.mass_pos _
  have h2 := mul_nonneg ht.le (Finset.sum_nonneg fun f (_ : f ∈ Finset.univ) => face_nonneg hF u lambda f)
  have h3 : tau * ∑ f, (F.area f)⁻¹ * (((F.psi f)ᵀ *ᵥ u - F.area f • lambda f) ⬝ᵥ ((F.psi f)ᵀ *ᵥ u - F.area f • lambda f)) = 0 :=
    le_antisymm (by have := Finset.sum_nonneg fun d (_ : d ∈ Finset.univ) => h1 d; linarith) h2
  have h4 := (mul_eq_zero.mp h3).resolve_left ht.ne'
  have h5 := (Finset.sum_eq_zero_iff_of_nonneg fun f _ => face_nonneg hF u lambda f).mp h4 f (Finset.mem_univ f)
  have h6 := (mul_eq_zero.mp h5).resolve_left (inv_ne_zero (hF.area_pos f).ne')
  exact (sub_eq_zero.mp (dot_self_zero h6)).symm

/-- A solution without flux whose trace matches is constant. -/
theorem const_of (hF : FormLaws F) (h : IsSolution F tau rho sigma (moments F lambda) s (0 : Fin dim → Fin nS → K) u)
    (htr : ∀ f, IsTrace F u f (lambda f)) : IsConst F u := by
  intro d
  have hm : ∀ f, moments F lambda f = F.bdr f *ᵥ u := by
    intro f
    have ha := (hF.area_pos f).ne'
    have : F.area f • moments F lambda f = F.area f • (F.bdr f *ᵥ u) := by
      rw [moments, ← mulVec_smul, show F.area f • lambda f = (F.psi f)ᵀ *ᵥ u from htr f, ← smul_mulVec, hF.trace f, mulVec_mulVec]
    have h2 := congrArg (fun x => (F.area f)⁻¹ • x) this
    simpa only [smul_smul, inv_mul_cancel₀ ha, one_smul] using h2
  have h1 := h.flux d
  simp only [Pi.zero_apply, mulVec_zero, zero_sub, hm] at h1
  have h2 := congrArg (fun M => M *ᵥ u) (hF.by_parts d)
  simp only [add_mulVec, sum_mulVec, smul_mulVec] at h2
  rw [← h2] at h1
  simpa using h1

theorem trace_moments (hF : FormLaws F) (htr : ∀ f, IsTrace F u f (lambda f)) (f : Fin (2 * dim)) : moments F lambda f = F.bdr f *ᵥ u := by
  have ha := (hF.area_pos f).ne'
  have : F.area f • moments F lambda f = F.area f • (F.bdr f *ᵥ u) := by
    rw [moments, ← mulVec_smul, show F.area f • lambda f = (F.psi f)ᵀ *ᵥ u from htr f, ← smul_mulVec, hF.trace f, mulVec_mulVec]
  have h2 := congrArg (fun x => (F.area f)⁻¹ • x) this
  simpa only [smul_smul, inv_mul_cancel₀ ha, one_smul] using h2

/-- A constant solves the stationary problem for its own trace, without flux. -/
theorem const_solution (hF : FormLaws F) (hu : IsConst F u) (htr : ∀ f, IsTrace F u f (lambda f)) (tau sigma : K) :
    IsSolution F tau 0 sigma (moments F lambda) 0 (0 : Fin dim → Fin nS → K) u := by
  constructor
  · intro d
    have h2 := congrArg (fun M => M *ᵥ u) (hF.by_parts d)
    simp only [add_mulVec, sum_mulVec, smul_mulVec] at h2
    rw [hu d, add_zero] at h2
    simp only [Pi.zero_apply, mulVec_zero, zero_sub, trace_moments hF htr, ← h2]
    simp
  · simp [trace_moments hF htr, mulVec_smul]

omit [LinearOrder K] [IsStrictOrderedRing K] in
theorem const_flux (htr : ∀ f, IsTrace F u f (lambda f)) : faceFlux F tau lambda (0 : Fin dim → Fin nS → K) u = 0 := by
  funext f
  have := htr f
  unfold IsTrace at this
  simp only [faceFlux, Pi.zero_apply, smul_zero, Finset.sum_const_zero, zero_add, mulVec_smul, ← this, smul_smul, sub_self]

/-- Unique solvability. -/
theorem solvable_of (hF : FormLaws F) (ht : 0 ≤ tau) (hr : 0 ≤ rho) (hs : 0 < sigma) (hpos : 0 < tau ∨ 0 < rho) : Solvable F tau rho sigma := by
  intro q u h
  have h0 : (0 : Fin (2 * dim) → Fin nS → K) = moments F (0 : Fin (2 * dim) → Fin nB → K) := by
    funext f; simp [moments]
  rw [h0] at h
  have h1 := flux_form hF hs.ne' h h
  simp only [Pi.zero_apply, zero_dotProduct, Finset.sum_const_zero, dotProduct_zero, zero_sub] at h1
  have h2 := bilin_nonneg hF ht q u (0 : Fin (2 * dim) → Fin nB → K)
  have h3 := quad_nonneg hF.mass0_pos u
  have hsi := inv_pos.mpr hs
  have h4 : 0 ≤ sigma⁻¹ * (rho * (u ⬝ᵥ F.mass0 *ᵥ u)) := mul_nonneg hsi.le (mul_nonneg hr h3)
  have h5 : bilin F tau q u 0 q u (0 : Fin (2 * dim) → Fin nB → K) = 0 := le_antisymm (by linarith) h2
  have hq := bilin_q_zero hF ht h5
  subst hq
  refine ⟨rfl, ?_⟩
  rcases hpos with hp | hp
  · have htr := bilin_trace_zero hF hp h5
    refine hF.unisolvent u (const_of hF h htr) fun f => ?_
    have := htr f
    unfold IsTrace at this
    rw [← this]; simp
  · have h6 : sigma⁻¹ * (rho * (u ⬝ᵥ F.mass0 *ᵥ u)) = 0 := le_antisymm (by linarith) h4
    exact quad_zero hF.mass0_pos ((mul_eq_zero.mp ((mul_eq_zero.mp h6).resolve_left hsi.ne')).resolve_left hp.ne')

end Laws

section Linear
variable [CommRing K] {F : Form dim nS nB K} {tau rho sigma : K} {g g' : Fin (2 * dim) → Fin nS → K} {s s' : Fin nS → K}
  {lambda mu : Fin (2 * dim) → Fin nB → K} {q q' : Fin dim → Fin nS → K} {u u' : Fin nS → K}

theorem solution_lin (a b : K) (h : IsSolution F tau rho sigma g s q u) (h' : IsSolution F tau rho sigma g' s' q' u') :
    IsSolution F tau rho sigma (a • g + b • g') (a • s + b • s') (a • q + b • q') (a • u + b • u') := by
  constructor
  · intro d
    have h1 := congrArg (fun x => a • x) (h.flux d)
    have h2 := congrArg (fun x => b • x) (h'.flux d)
    have h3 := congrArg₂ (· + ·) h1 h2
    simp only [smul_zero, add_zero] at h3
    rw [← h3]
    simp only [Pi.add_apply, Pi.smul_apply, mulVec_add, mulVec_smul, smul_add, smul_sub, Finset.smul_sum, Finset.sum_add_distrib, smul_comm a, smul_comm b]
    abel
  · have h1 := congrArg (fun x => a • x) h.primal
    have h2 := congrArg (fun x => b • x) h'.primal
    have h3 := congrArg₂ (· + ·) h1 h2
    rw [← h3]
    simp only [Pi.add_apply, Pi.smul_apply, mulVec_add, mulVec_smul, mulVec_sum, smul_add, smul_sub, smul_neg, Finset.smul_sum, Finset.sum_add_distrib,
      Finset.sum_sub_distrib, smul_comm a, smul_comm b]
    module

theorem flux_lin (a b : K) : faceFlux F tau (a • lambda + b • mu) (a • q + b • q') (a • u + b • u') =
    a • faceFlux F tau lambda q u + b • faceFlux F tau mu q' u' := by
  funext f
  simp only [faceFlux, Pi.add_apply, Pi.smul_apply, mulVec_add, mulVec_smul, mulVec_sum, smul_add, smul_sub, Finset.smul_sum, Finset.sum_add_distrib, smul_comm a, smul_comm b]
  abel

theorem moments_lin (a b : K) : moments F (a • lambda + b • mu) = a • moments F lambda + b • moments F mu := by
  funext f
  simp [moments, mulVec_add, mulVec_smul]

theorem solution_unique (hS : Solvable F tau rho sigma) (h : IsSolution F tau rho sigma g s q u) (h' : IsSolution F tau rho sigma g s q' u') :
    q = q' ∧ u = u' := by
  have := solution_lin 1 (-1) h h'
  simp only [one_smul, neg_smul, add_neg_cancel] at this
  obtain ⟨h1, h2⟩ := hS _ _ this
  exact ⟨by rwa [← sub_eq_add_neg, sub_eq_zero] at h1, by rwa [← sub_eq_add_neg, sub_eq_zero] at h2⟩

end Linear

end HyperHDG.Spec

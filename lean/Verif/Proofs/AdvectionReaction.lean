import Verif.Spec.AdvectionReaction
import Verif.Proofs.LDG
import Verif.Spec.Elliptic
import Mathlib.Algebra.BigOperators.Field

/-!
# The energy of the local problem for diffusion, advection and reaction
-/

set_option linter.unusedSectionVars false

namespace HyperHDG.Spec.DAR

open Matrix Finset
open Spec hiding IsSolution Solvable flux_test primal_test

variable {dim nS nB : Nat} {K : Type}

section Ring
variable [CommRing K] {F : Form dim nS nB K} {C : Coeffs dim nS K} {tau : K} {g : Fin (2 * dim) → Fin nS → K} {s : Fin nS → K}
  {q : Fin dim → Fin nS → K} {u : Fin nS → K}

theorem flux_test (h : IsSolution F C tau g s q u) (d : Fin dim) (v : Fin nS → K) :
    v ⬝ᵥ F.mass *ᵥ q d - v ⬝ᵥ F.grad d *ᵥ u - v ⬝ᵥ C.advect d *ᵥ u + ∑ f, F.normal f d * (v ⬝ᵥ g f) = 0 := by
  have := congrArg (fun x => v ⬝ᵥ x) (h.flux d)
  simpa [dotProduct_add, dotProduct_sub, dotProduct_sum, dotProduct_smul] using this

theorem primal_test (h : IsSolution F C tau g s q u) (w : Fin nS → K) :
    w ⬝ᵥ C.react *ᵥ u - (∑ d, w ⬝ᵥ F.grad d *ᵥ q d) + ∑ f, ((∑ d, F.normal f d * (w ⬝ᵥ F.bdr f *ᵥ q d)) +
      tau * (w ⬝ᵥ F.bdr f *ᵥ u) - tau * (w ⬝ᵥ g f)) = w ⬝ᵥ s := by
  have := congrArg (fun x => w ⬝ᵥ x) h.primal
  simpa only [dotProduct_add, dotProduct_sub, dotProduct_neg, dotProduct_sum, dotProduct_smul, mulVec_add, mulVec_sum, mulVec_smul, smul_eq_mul] using this

end Ring

section Laws
variable [Field K] [LinearOrder K] [IsStrictOrderedRing K] {F : Form dim nS nB K} {C : Coeffs dim nS K} {tau : K} {s : Fin nS → K}
  {lambda : Fin (2 * dim) → Fin nB → K} {q : Fin dim → Fin nS → K} {u : Fin nS → K}

/-- The jump between the trace of `u` and `lambda` on a face, squared. -/
def jump (F : Form dim nS nB K) (u : Fin nS → K) (lambda : Fin (2 * dim) → Fin nB → K) (f : Fin (2 * dim)) : K :=
  (F.area f)⁻¹ * (((F.psi f)ᵀ *ᵥ u - F.area f • lambda f) ⬝ᵥ ((F.psi f)ᵀ *ᵥ u - F.area f • lambda f))

theorem jump_nonneg (hF : FormLaws F) (u : Fin nS → K) (lambda : Fin (2 * dim) → Fin nB → K) (f : Fin (2 * dim)) : 0 ≤ jump F u lambda f := face_nonneg hF u lambda f

theorem jump_zero (hF : FormLaws F) {f : Fin (2 * dim)} (h : jump F u lambda f = 0) : IsTrace F u f (lambda f) := by
  have h6 := (mul_eq_zero.mp h).resolve_left (inv_ne_zero (hF.area_pos f).ne')
  exact (sub_eq_zero.mp (dot_self_zero h6)).symm

theorem jump_eq (hF : FormLaws F) (u : Fin nS → K) (lambda : Fin (2 * dim) → Fin nB → K) (f : Fin (2 * dim)) :
    jump F u lambda f = u ⬝ᵥ F.bdr f *ᵥ u - 2 * (u ⬝ᵥ F.psi f *ᵥ lambda f) + F.area f * (lambda f ⬝ᵥ lambda f) := by
  have ha := (hF.area_pos f).ne'
  have h1 := bdr_dot hF f u u
  have hT : u ⬝ᵥ F.psi f *ᵥ lambda f = ((F.psi f)ᵀ *ᵥ u) ⬝ᵥ lambda f := by
    rw [mulVec_transpose, dotProduct_mulVec]
  rw [hT]
  simp only [jump, dotProduct_sub, sub_dotProduct, dotProduct_smul, smul_dotProduct, smul_eq_mul]
  rw [← h1, dotProduct_comm (lambda f) ((F.psi f)ᵀ *ᵥ u)]
  field_simp
  ring

/-- The energy identity. -/
theorem energy (hF : FormLaws F) (h : IsSolution F C tau (moments F lambda) s q u) : ∑ f, lambda f ⬝ᵥ faceFlux F tau lambda q u f =
    u ⬝ᵥ s - ((∑ d, q d ⬝ᵥ F.mass *ᵥ q d) - (∑ d, q d ⬝ᵥ C.advect d *ᵥ u) + u ⬝ᵥ C.react *ᵥ u) - tau * ∑ f, jump F u lambda f := by
  have h1 : ∑ d, (q d ⬝ᵥ F.mass *ᵥ q d - q d ⬝ᵥ F.grad d *ᵥ u - q d ⬝ᵥ C.advect d *ᵥ u + ∑ f, F.normal f d * (q d ⬝ᵥ moments F lambda f)) = 0 :=
    Finset.sum_eq_zero fun d _ => flux_test h d (q d)
  have h2 := primal_test h u
  have h3 : ∑ d, (u ⬝ᵥ F.grad d *ᵥ q d + q d ⬝ᵥ F.grad d *ᵥ u) = ∑ d, ∑ f, F.normal f d * (u ⬝ᵥ F.bdr f *ᵥ q d) :=
    Finset.sum_congr rfl fun d _ => parts_dot hF d u (q d)
  rw [Finset.sum_comm] at h3
  have h4 : ∑ d, ∑ f, F.normal f d * (q d ⬝ᵥ moments F lambda f) = ∑ f, ∑ d, F.normal f d * (q d ⬝ᵥ moments F lambda f) := Finset.sum_comm
  rw [flux_pair]
  simp only [jump_eq hF, Finset.sum_add_distrib, Finset.sum_sub_distrib, moments, ← Finset.mul_sum] at h1 h2 h3 h4 ⊢
  rw [h4] at h1
  linear_combination h1 + h3 + h2

/-- The energy identity for constant velocity. -/
theorem energy_const (hF : FormLaws F) {b : Fin dim → K} (hb : ∀ d, C.advect d = b d • F.mass) (h : IsSolution F C tau (moments F lambda) s q u) :
    ∑ f, lambda f ⬝ᵥ faceFlux F tau lambda q u f = u ⬝ᵥ s - ((∑ d, (q d - b d • u) ⬝ᵥ F.mass *ᵥ (q d - b d • u)) + u ⬝ᵥ C.react *ᵥ u) -
      (∑ f, (tau + normalVelocity F b f / 2) * jump F u lambda f) + (∑ f, normalVelocity F b f * F.area f * (lambda f ⬝ᵥ lambda f)) / 2 := by
  have h0 := energy hF h
  have h1 : ∀ d, u ⬝ᵥ F.mass *ᵥ (q d - b d • u) = u ⬝ᵥ F.grad d *ᵥ u - ∑ f, F.normal f d * (u ⬝ᵥ moments F lambda f) := fun d => by
    have := flux_test h d u
    rw [hb d, smul_mulVec] at this
    rw [mulVec_sub, mulVec_smul, dotProduct_sub]
    linear_combination this
  have h2 : ∀ d, 2 * (u ⬝ᵥ F.grad d *ᵥ u) = ∑ f, F.normal f d * (u ⬝ᵥ F.bdr f *ᵥ u) := fun d => by rw [← parts_dot hF d u u]; ring
  have h3 : ∀ d, q d ⬝ᵥ F.mass *ᵥ q d - q d ⬝ᵥ C.advect d *ᵥ u = (q d - b d • u) ⬝ᵥ F.mass *ᵥ (q d - b d • u) + b d * (u ⬝ᵥ F.mass *ᵥ (q d - b d • u)) := fun d => by
    simp only [hb d, smul_mulVec, mulVec_sub, mulVec_smul, dotProduct_sub, sub_dotProduct, smul_dotProduct, dotProduct_smul, smul_eq_mul]
    ring
  have h4 : ∑ d, b d * (u ⬝ᵥ F.mass *ᵥ (q d - b d • u)) = ∑ f, normalVelocity F b f * (u ⬝ᵥ F.bdr f *ᵥ u / 2 - u ⬝ᵥ moments F lambda f) := by
    have e : ∀ d, b d * (u ⬝ᵥ F.mass *ᵥ (q d - b d • u)) = ∑ f, F.normal f d * b d * (u ⬝ᵥ F.bdr f *ᵥ u / 2 - u ⬝ᵥ moments F lambda f) := fun d => by
      rw [h1, show u ⬝ᵥ F.grad d *ᵥ u = (∑ f, F.normal f d * (u ⬝ᵥ F.bdr f *ᵥ u)) / 2 from by rw [← h2 d]; ring, Finset.sum_div, ← Finset.sum_sub_distrib, Finset.mul_sum]
      exact Finset.sum_congr rfl fun f _ => by ring
    simp only [e]
    rw [Finset.sum_comm]
    exact Finset.sum_congr rfl fun f _ => by rw [normalVelocity, Finset.sum_mul]
  have h5 : ∑ f, normalVelocity F b f * (u ⬝ᵥ F.bdr f *ᵥ u / 2 - u ⬝ᵥ moments F lambda f) =
      (∑ f, normalVelocity F b f / 2 * jump F u lambda f) - (∑ f, normalVelocity F b f * F.area f * (lambda f ⬝ᵥ lambda f)) / 2 := by
    rw [Finset.sum_div, ← Finset.sum_sub_distrib]
    exact Finset.sum_congr rfl fun f _ => by rw [jump_eq hF, moments]; ring
  rw [h0, ← Finset.sum_sub_distrib]
  simp only [h3, add_mul, Finset.sum_add_distrib, ← Finset.mul_sum]
  rw [h4, h5]
  ring

theorem moments_zero : moments F (0 : Fin (2 * dim) → Fin nB → K) = 0 := by funext f; simp [moments]

/-- Dominating reaction: unique solvability. -/
theorem solvable_dominated (hF : FormLaws F) (ht : 0 ≤ tau) (hC : Dominated F C) : Solvable F C tau := by
  intro q u h
  by_contra hne
  rw [← moments_zero (F := F)] at h
  have h1 := energy hF h
  have h2 := hC q u hne
  have h3 := mul_nonneg ht (Finset.sum_nonneg fun f (_ : f ∈ Finset.univ) => jump_nonneg hF u 0 f)
  simp only [Pi.zero_apply, zero_dotProduct, Finset.sum_const_zero, dotProduct_zero, zero_sub] at h1
  linarith

/-- A solution whose gradient vanishes and whose trace matches is constant. -/
theorem const_of' (hF : FormLaws F) {b : Fin dim → K} (hb : ∀ d, C.advect d = b d • F.mass) (h : IsSolution F C tau (moments F lambda) s q u)
    (hp : ∀ d, q d = b d • u) (htr : ∀ f, IsTrace F u f (lambda f)) : IsConst F u := by
  refine const_of (tau := tau) (rho := 0) (sigma := 1) hF ⟨fun d => ?_, rfl⟩ htr
  have := h.flux d
  rw [hp, hb, mulVec_smul, smul_mulVec] at this
  rw [Pi.zero_apply, mulVec_zero]
  refine Eq.trans ?_ this
  abel

theorem energy_parts (hF : FormLaws F) {b : Fin dim → K} (hC : ConstantVelocity F C b) (ht : ∀ f, 0 < tau + normalVelocity F b f / 2)
    (h : (∑ d, (q d - b d • u) ⬝ᵥ F.mass *ᵥ (q d - b d • u)) + u ⬝ᵥ C.react *ᵥ u + ∑ f, (tau + normalVelocity F b f / 2) * jump F u lambda f ≤ 0) :
    (∀ d, q d = b d • u) ∧ ∀ f, IsTrace F u f (lambda f) := by
  have h1 : ∀ d, 0 ≤ (q d - b d • u) ⬝ᵥ F.mass *ᵥ (q d - b d • u) := fun d => quad_nonneg hF.mass_pos _
  have h2 : ∀ f, 0 ≤ (tau + normalVelocity F b f / 2) * jump F u lambda f := fun f => mul_nonneg (ht f).le (jump_nonneg hF u lambda f)
  have h3 := hC.react u
  have s1 := Finset.sum_nonneg fun d (_ : d ∈ Finset.univ) => h1 d
  have s2 := Finset.sum_nonneg fun f (_ : f ∈ Finset.univ) => h2 f
  refine ⟨fun d => ?_, fun f => ?_⟩
  · have := (Finset.sum_eq_zero_iff_of_nonneg fun d _ => h1 d).mp (le_antisymm (by linarith) s1) d (Finset.mem_univ d)
    exact sub_eq_zero.mp (quad_zero hF.mass_pos this)
  · have := (Finset.sum_eq_zero_iff_of_nonneg fun f _ => h2 f).mp (le_antisymm (by linarith) s2) f (Finset.mem_univ f)
    exact jump_zero hF ((mul_eq_zero.mp this).resolve_left (ht f).ne')

/-- Constant velocity: unique solvability. -/
theorem solvable_const (hF : FormLaws F) {b : Fin dim → K} (hC : ConstantVelocity F C b) (ht : ∀ f, 0 < tau + normalVelocity F b f / 2) : Solvable F C tau := by
  intro q u h
  rw [← moments_zero (F := F)] at h
  have h1 := energy_const hF hC.advect h
  simp only [Pi.zero_apply, zero_dotProduct, Finset.sum_const_zero, dotProduct_zero, zero_sub, mul_zero, zero_div, add_zero] at h1
  obtain ⟨h2, h3⟩ := energy_parts (lambda := 0) hF hC ht (by linarith)
  have hc := const_of' hF hC.advect h h2 h3
  have hu : u = 0 := hF.unisolvent u hc fun f => by
    have := h3 f
    unfold IsTrace at this
    rw [← this]; simp
  exact ⟨funext fun d => by rw [h2 d, hu]; simp, hu⟩

/-- Constants with `a |b|^2 < 4 r` are dominated by the reaction. -/
theorem dominated_const (hF : FormLaws F) {a r : K} {b : Fin dim → K} (ha : 0 < a) (hm : F.mass = a • F.mass0) (hb : ∀ d, C.advect d = b d • F.mass)
    (hr : C.react = r • F.mass0) (h : a * ∑ d, b d ^ 2 < 4 * r) : Dominated F C := by
  intro q u hne
  have key : ∀ d, q d ⬝ᵥ C.advect d *ᵥ u = q d ⬝ᵥ F.mass *ᵥ q d + b d ^ 2 / 4 * (a * (u ⬝ᵥ F.mass0 *ᵥ u)) - a * ((q d - (b d / 2) • u) ⬝ᵥ F.mass0 *ᵥ (q d - (b d / 2) • u)) := fun d => by
    have hs := symm_dot hF.mass0_symm u (q d)
    simp only [hb d, hm, smul_mulVec, mulVec_sub, mulVec_smul, dotProduct_sub, sub_dotProduct, smul_dotProduct, dotProduct_smul, smul_eq_mul, hs]
    ring
  have h1 : ∀ d, 0 ≤ a * ((q d - (b d / 2) • u) ⬝ᵥ F.mass0 *ᵥ (q d - (b d / 2) • u)) := fun d => mul_nonneg ha.le (quad_nonneg hF.mass0_pos _)
  have s1 := Finset.sum_nonneg fun d (_ : d ∈ Finset.univ) => h1 d
  have e : ∑ d, b d ^ 2 / 4 * (a * (u ⬝ᵥ F.mass0 *ᵥ u)) = a * (∑ d, b d ^ 2) / 4 * (u ⬝ᵥ F.mass0 *ᵥ u) := by rw [← Finset.sum_mul, ← Finset.sum_div]; ring
  simp only [key, Finset.sum_sub_distrib, Finset.sum_add_distrib, e, hr, smul_mulVec, dotProduct_smul, smul_eq_mul]
  by_cases hu : u = 0
  · subst hu
    have hq : ∃ d, q d ≠ 0 := by
      by_contra hq
      simp only [not_exists, not_not] at hq
      exact hne ⟨funext hq, rfl⟩
    obtain ⟨d, hd⟩ := hq
    have : 0 < ∑ d, a * ((q d - (b d / 2) • (0 : Fin nS → K)) ⬝ᵥ F.mass0 *ᵥ (q d - (b d / 2) • (0 : Fin nS → K))) :=
      Finset.sum_pos' (fun d _ => h1 d) ⟨d, Finset.mem_univ d, mul_pos ha (hF.mass0_pos _ (by simpa using hd))⟩
    simp only [mulVec_zero, dotProduct_zero, mul_zero, add_zero]
    linarith
  · have := mul_pos (show 0 < r - a * (∑ d, b d ^ 2) / 4 by linarith) (hF.mass0_pos u hu)
    linarith

/-- A function in the discrete space which solves the equations solves the local problem for its trace. -/
theorem exact_solution (hF : FormLaws F) (htr : ∀ f, IsTrace F u f (lambda f)) (h1 : ∀ d, F.mass *ᵥ q d = C.advect d *ᵥ u - (F.grad d)ᵀ *ᵥ u)
    (h2 : ∑ d, (F.grad d)ᵀ *ᵥ q d + C.react *ᵥ u = s) : IsSolution F C tau (moments F lambda) s q u := by
  have hp : ∀ (d : Fin dim) (v : Fin nS → K), F.grad d *ᵥ v + (F.grad d)ᵀ *ᵥ v = ∑ f, F.normal f d • (F.bdr f *ᵥ v) := fun d v => by
    have h2 := congrArg (fun M => M *ᵥ v) (hF.by_parts d)
    simpa only [add_mulVec, sum_mulVec, smul_mulVec] using h2
  constructor
  · intro d
    simp only [trace_moments hF htr]
    rw [← hp d u, h1 d]
    abel
  · have e : ∀ f, F.bdr f *ᵥ (∑ d, F.normal f d • q d + tau • u) - tau • moments F lambda f = ∑ d, F.normal f d • (F.bdr f *ᵥ q d) := fun f => by
      rw [trace_moments hF htr, mulVec_add, mulVec_sum, mulVec_smul]
      simp only [mulVec_smul]
      abel
    simp only [e]
    rw [Finset.sum_comm]
    simp only [← hp]
    rw [Finset.sum_add_distrib, ← h2]
    abel

omit [LinearOrder K] [IsStrictOrderedRing K] in
theorem trace_flux (htr : ∀ f, IsTrace F u f (lambda f)) (f : Fin (2 * dim)) : faceFlux F tau lambda q u f = (F.psi f)ᵀ *ᵥ ∑ d, F.normal f d • q d := by
  have := htr f
  unfold IsTrace at this
  simp only [faceFlux, mulVec_add, mulVec_smul, ← this, smul_smul, add_sub_cancel_right]

/-- Conservation. -/
theorem conservation (hF : FormLaws F) {one : Fin nS → K} {oneF : Fin (2 * dim) → Fin nB → K} (h1 : IsConst F one) (htr : ∀ f, IsTrace F one f (oneF f))
    (h : IsSolution F C tau (moments F lambda) s q u) : ∑ f, oneF f ⬝ᵥ faceFlux F tau lambda q u f = one ⬝ᵥ s - one ⬝ᵥ C.react *ᵥ u := by
  have h2 := primal_test h one
  have hg : ∀ d, one ⬝ᵥ F.grad d *ᵥ q d = 0 := fun d => by
    rw [dotProduct_mulVec, ← mulVec_transpose, h1 d, zero_dotProduct]
  have hT : ∀ f (v : Fin nS → K), v ⬝ᵥ F.psi f *ᵥ oneF f = one ⬝ᵥ F.bdr f *ᵥ v := fun f v => by
    rw [show F.psi f *ᵥ oneF f = moments F oneF f from rfl, trace_moments hF htr, bdr_symm hF]
  have hL : ∀ f, F.area f * (oneF f ⬝ᵥ lambda f) = one ⬝ᵥ F.psi f *ᵥ lambda f := fun f => by
    have := htr f
    unfold IsTrace at this
    rw [← smul_eq_mul, ← smul_dotProduct, this, mulVec_transpose, dotProduct_mulVec]
  rw [flux_pair]
  simp only [hT, hL]
  simp only [hg, Finset.sum_const_zero, sub_zero, moments] at h2
  linear_combination h2

end Laws

end HyperHDG.Spec.DAR

import Verif.Spec.LDG
import Mathlib.Analysis.Calculus.ContDiff.Operations
import Mathlib.Analysis.Normed.Module.FiniteDimension
import Mathlib.Analysis.Normed.Operator.Banach

/-!
# Local solutions depend smoothly on trace and eigenvalue
-/

namespace HyperHDG.LDG

open Spec Finset Matrix Topology Filter

theorem contDiff_linear {E F : Type} [NormedAddCommGroup E] [NormedSpace ℝ E] [FiniteDimensional ℝ E] [NormedAddCommGroup F] [NormedSpace ℝ F] (f : E →ₗ[ℝ] F) : ContDiff ℝ 1 f :=
  (LinearMap.toContinuousLinearMap f).contDiff

/-- Solutions of linear systems which depend affinely on a number. -/
theorem smooth_solution {L X : Type} [NormedAddCommGroup L] [NormedSpace ℝ L] [FiniteDimensional ℝ L] [NormedAddCommGroup X] [NormedSpace ℝ X] [FiniteDimensional ℝ X]
    (T N : X →ₗ[ℝ] X) (b : L →ₗ[ℝ] X) (p : L × ℝ) (h : ∀ x, T x + p.2 • N x = 0 → x = 0) :
    ∃ S : L × ℝ → X, ContDiffAt ℝ 1 S p ∧ ∀ᶠ q in 𝓝 p, (∀ x, T x + q.2 • N x = 0 → x = 0) ∧ T (S q) + q.2 • N (S q) = b q.1 := by
  have : CompleteSpace X := FiniteDimensional.complete ℝ X
  let A : L × ℝ → X →L[ℝ] X := fun q => LinearMap.toContinuousLinearMap T + q.2 • LinearMap.toContinuousLinearMap N
  have hApp : ∀ q x, A q x = T x + q.2 • N x := fun q x => rfl
  have hA : ContDiff ℝ 1 A := contDiff_const.add (contDiff_snd.smul contDiff_const)
  have hunit : IsUnit (A p) := by
    rw [ContinuousLinearMap.isUnit_iff_bijective]
    have hinj : Function.Injective (A p).toLinearMap := by
      rw [← LinearMap.ker_eq_bot, LinearMap.ker_eq_bot']
      exact fun x hx => h x hx
    exact ⟨hinj, LinearMap.injective_iff_surjective.mp hinj⟩
  obtain ⟨a, ha⟩ := hunit
  refine ⟨fun q => Ring.inverse (A q) (b q.1), ?_, ?_⟩
  · have h1 : ContDiffAt ℝ 1 (fun q => Ring.inverse (A q)) p := by
      have h2 : ContDiffAt ℝ 1 Ring.inverse (A p) := by
        rw [← ha]
        exact contDiffAt_ringInverse ℝ a
      exact h2.comp p hA.contDiffAt
    exact h1.clm_apply ((contDiff_linear b).comp contDiff_fst).contDiffAt
  · have h1 : ∀ᶠ q in 𝓝 p, IsUnit (A q) := by
      have : {x : X →L[ℝ] X | IsUnit x} ∈ 𝓝 (A p) := by
        rw [← ha]
        exact Units.nhds a
      exact hA.continuous.continuousAt this
    refine h1.mono fun q hq => ⟨fun x hx => ?_, ?_⟩
    · have h2 := (ContinuousLinearMap.isUnit_iff_bijective.mp hq).1
      exact h2 ((hApp q x).trans (hx.trans (map_zero (A q)).symm))
    · have h2 := Ring.mul_inverse_cancel (A q) hq
      have h3 := congrArg (fun B : X →L[ℝ] X => B (b q.1)) h2
      exact h3

variable {dim nS nB : Nat}

/-- The part of the local equations which does not depend on the eigenvalue. -/
def lhs (F : Form dim nS nB ℝ) (tau : ℝ) : ((Fin dim → Fin nS → ℝ) × (Fin nS → ℝ)) →ₗ[ℝ] ((Fin dim → Fin nS → ℝ) × (Fin nS → ℝ)) where
  toFun x := (fun d => F.mass *ᵥ x.1 d - F.grad d *ᵥ x.2, -(∑ d, F.grad d *ᵥ x.1 d) + ∑ f, F.bdr f *ᵥ (∑ d, F.normal f d • x.1 d + tau • x.2))
  map_add' x y := by
    refine Prod.ext (funext fun d => ?_) ?_
    · simp only [Prod.fst_add, Prod.snd_add, Pi.add_apply, mulVec_add]
      abel
    · simp only [Prod.fst_add, Prod.snd_add, Pi.add_apply, mulVec_add, smul_add, Finset.sum_add_distrib]
      abel
  map_smul' c x := by
    refine Prod.ext (funext fun d => ?_) ?_
    · simp only [Prod.smul_fst, Prod.smul_snd, Pi.smul_apply, mulVec_smul, RingHom.id_apply, smul_sub]
    · simp only [Prod.smul_fst, Prod.smul_snd, Pi.smul_apply, mulVec_smul, RingHom.id_apply, smul_comm _ c, ← Finset.smul_sum, ← smul_add, ← smul_neg]

/-- The mass term. -/
def massTerm (M : Matrix (Fin nS) (Fin nS) ℝ) : ((Fin dim → Fin nS → ℝ) × (Fin nS → ℝ)) →ₗ[ℝ] ((Fin dim → Fin nS → ℝ) × (Fin nS → ℝ)) where
  toFun x := (0, -(M *ᵥ x.2))
  map_add' x y := by
    refine Prod.ext (by simp) ?_
    simp only [Prod.snd_add, mulVec_add]
    abel
  map_smul' c x := by
    refine Prod.ext (by simp) ?_
    simp only [Prod.smul_snd, mulVec_smul, RingHom.id_apply, smul_neg]

/-- The terms with the trace. -/
def traceTerm (F : Form dim nS nB ℝ) (tau : ℝ) : (Fin (2 * dim) → Fin nB → ℝ) →ₗ[ℝ] ((Fin dim → Fin nS → ℝ) × (Fin nS → ℝ)) where
  toFun l := (fun d => -∑ f, F.normal f d • moments F l f, ∑ f, tau • moments F l f)
  map_add' x y := by
    refine Prod.ext (funext fun d => ?_) ?_
    · simp only [Prod.fst_add, Pi.add_apply, moments, mulVec_add, smul_add, Finset.sum_add_distrib]
      abel
    · simp only [Prod.snd_add, Pi.add_apply, moments, mulVec_add, smul_add, Finset.sum_add_distrib]
  map_smul' c x := by
    refine Prod.ext (funext fun d => ?_) ?_
    · simp only [Prod.smul_fst, Pi.smul_apply, moments, mulVec_smul, RingHom.id_apply, smul_comm _ c, ← Finset.smul_sum, ← smul_neg]
    · simp only [Prod.smul_snd, Pi.smul_apply, moments, mulVec_smul, RingHom.id_apply, smul_comm _ c, ← Finset.smul_sum]

theorem isSolution_iff (F : Form dim nS nB ℝ) (tau rho : ℝ) (l : Fin (2 * dim) → Fin nB → ℝ) (s : Fin nS → ℝ) (x : (Fin dim → Fin nS → ℝ) × (Fin nS → ℝ)) :
    IsSolution F tau rho 1 (moments F l) s x.1 x.2 ↔ lhs F tau x + (-rho) • massTerm F.mass0 x = traceTerm F tau l + (0, s) := by
  have e1 : ∀ d, (F.mass *ᵥ x.1 d - F.grad d *ᵥ x.2 + ∑ f, F.normal f d • moments F l f = 0 ↔ (lhs F tau x + (-rho) • massTerm F.mass0 x).1 d = (traceTerm F tau l + (0, s)).1 d) := fun d => by
    have : (lhs F tau x + (-rho) • massTerm F.mass0 x).1 d = F.mass *ᵥ x.1 d - F.grad d *ᵥ x.2 := by simp [lhs, massTerm]
    rw [this]
    have : (traceTerm F tau l + (0, s)).1 d = -∑ f, F.normal f d • moments F l f := by simp [traceTerm]
    rw [this, ← add_eq_zero_iff_eq_neg]
  have e2 : rho • F.mass0 *ᵥ x.2 + (1 : ℝ) • (-(∑ d, F.grad d *ᵥ x.1 d) + ∑ f, (F.bdr f *ᵥ (∑ d, F.normal f d • x.1 d + tau • x.2) - tau • moments F l f)) = s ↔
      (lhs F tau x + (-rho) • massTerm F.mass0 x).2 = (traceTerm F tau l + (0, s)).2 := by
    have h1 : (lhs F tau x + (-rho) • massTerm F.mass0 x).2 = -(∑ d, F.grad d *ᵥ x.1 d) + ∑ f, F.bdr f *ᵥ (∑ d, F.normal f d • x.1 d + tau • x.2) + rho • F.mass0 *ᵥ x.2 := by
      simp [lhs, massTerm]
    have h2 : (traceTerm F tau l + (0, s)).2 = ∑ f, tau • moments F l f + s := by simp [traceTerm]
    rw [h1, h2, one_smul, Finset.sum_sub_distrib, add_comm (∑ f, tau • moments F l f) s, ← sub_eq_iff_eq_add]
    constructor
    · rintro rfl
      abel
    · intro h
      rw [← h]
      abel
  constructor
  · rintro ⟨h1, h2⟩
    exact Prod.ext (funext fun d => (e1 d).mp (h1 d)) (e2.mp h2)
  · intro h
    exact ⟨fun d => (e1 d).mpr (by rw [h]), e2.mpr (by rw [h])⟩

theorem moments_zero (F : Form dim nS nB ℝ) : moments F 0 = 0 := by
  funext f
  simp [moments]

theorem solvable_iff (F : Form dim nS nB ℝ) (tau eig : ℝ) : Solvable F tau (-eig) 1 ↔ ∀ x, lhs F tau x + eig • massTerm F.mass0 x = 0 → x = 0 := by
  have e : ∀ x, IsSolution F tau (-eig) 1 0 0 x.1 x.2 ↔ lhs F tau x + eig • massTerm F.mass0 x = 0 := fun x => by
    have := isSolution_iff F tau (-eig) 0 0 x
    rw [moments_zero, map_zero, neg_neg] at this
    rw [this]
    exact Iff.of_eq (congrArg _ (by simp))
  constructor
  · intro h x hx
    have := h x.1 x.2 ((e x).mpr hx)
    exact Prod.ext this.1 this.2
  · intro h q u hq
    have := h (q, u) ((e (q, u)).mp hq)
    exact ⟨congrArg Prod.fst this, congrArg Prod.snd this⟩

/-- Near a pair of trace and eigenvalue for which the local problem is solvable it is solvable, and the solution is continuously differentiable. -/
theorem solution_smooth (F : Form dim nS nB ℝ) (tau : ℝ) (p : (Fin (2 * dim) → Fin nB → ℝ) × ℝ) (hs : Solvable F tau (-p.2) 1) :
    ∃ S : (Fin (2 * dim) → Fin nB → ℝ) × ℝ → (Fin dim → Fin nS → ℝ) × (Fin nS → ℝ), ContDiffAt ℝ 1 S p ∧
      ∀ᶠ q in 𝓝 p, Solvable F tau (-q.2) 1 ∧ IsSolution F tau (-q.2) 1 (moments F q.1) 0 (S q).1 (S q).2 := by
  obtain ⟨S, h1, h2⟩ := smooth_solution (lhs F tau) (massTerm F.mass0) (traceTerm F tau) p ((solvable_iff F tau p.2).mp hs)
  refine ⟨S, h1, h2.mono fun q hq => ⟨(solvable_iff F tau q.2).mpr hq.1, ?_⟩⟩
  rw [isSolution_iff, neg_neg, hq.2]
  simp

/-- The flux as a linear function of trace and local solution. -/
def fluxTerm (F : Form dim nS nB ℝ) (tau : ℝ) : ((Fin (2 * dim) → Fin nB → ℝ) × (Fin dim → Fin nS → ℝ) × (Fin nS → ℝ)) →ₗ[ℝ] (Fin (2 * dim) → Fin nB → ℝ) where
  toFun x := faceFlux F tau x.1 x.2.1 x.2.2
  map_add' x y := by
    funext f
    simp only [faceFlux, Prod.fst_add, Prod.snd_add, Pi.add_apply, mulVec_add, smul_add, Finset.sum_add_distrib]
    abel
  map_smul' c x := by
    funext f
    simp only [faceFlux, Prod.smul_fst, Prod.smul_snd, Pi.smul_apply, RingHom.id_apply]
    have e : ∑ d, F.normal f d • c • x.2.1 d + tau • c • x.2.2 = c • (∑ d, F.normal f d • x.2.1 d + tau • x.2.2) := by
      rw [smul_add, Finset.smul_sum, smul_comm tau c]
      congr 1
      exact Finset.sum_congr rfl fun d _ => smul_comm _ _ _
    rw [e, mulVec_smul, smul_comm _ c, smul_sub]

theorem flux_smooth (F : Form dim nS nB ℝ) (tau : ℝ) {P : Type} [NormedAddCommGroup P] [NormedSpace ℝ P] {p : P} {l : P → Fin (2 * dim) → Fin nB → ℝ}
    {S : P → (Fin dim → Fin nS → ℝ) × (Fin nS → ℝ)} (hl : ContDiffAt ℝ 1 l p) (hS : ContDiffAt ℝ 1 S p) :
    ContDiffAt ℝ 1 (fun q => faceFlux F tau (l q) (S q).1 (S q).2) p := by
  have h1 : ContDiffAt ℝ 1 (fun q => (l q, S q)) p := hl.prodMk hS
  have h2 : ContDiff ℝ 1 (fluxTerm F tau) := contDiff_linear (fluxTerm F tau)
  have h3 : ContDiffAt ℝ 1 (fun q => fluxTerm F tau (l q, S q)) p := h2.contDiffAt.comp p h1
  exact h3

end HyperHDG.LDG

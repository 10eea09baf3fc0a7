import Verif.Spec.Timoshenko
import Verif.Proofs.LDG
import Mathlib.Tactic.FinCases

/-!
# The local problem of a Timoshenko beam
-/

set_option linter.unusedSectionVars false

namespace HyperHDG.Spec

open Matrix Finset

variable {K : Type} {nS : Nat}

theorem sum_six [AddCommMonoid K] (f : Fin 6 → K) : ∑ d, f d = f 0 + f 1 + f 2 + f 3 + f 4 + f 5 := by
  simp [Fin.sum_univ_succ, add_assoc]

section Frame
variable [CommRing K]

theorem inFrame_lin (R : Matrix (Fin 3) (Fin 3) K) (a b : K) (v w : Fin 6 → K) : inFrame R (a • v + b • w) = a • inFrame R v + b • inFrame R w := by
  funext d
  fin_cases d <;> simp [inFrame, both, linPart, angPart, mulVec, dotProduct, Fin.sum_univ_three] <;> ring

theorem inSpace_lin (R : Matrix (Fin 3) (Fin 3) K) (a b : K) (v w : Fin 6 → K) : inSpace R (a • v + b • w) = a • inSpace R v + b • inSpace R w := by
  funext d
  fin_cases d <;> simp [inSpace, both, linPart, angPart, mulVec, dotProduct, Fin.sum_univ_three] <;> ring

theorem inFrame_zero (R : Matrix (Fin 3) (Fin 3) K) : inFrame R 0 = 0 := by
  have := inFrame_lin R 0 0 0 0; simpa using this

theorem inSpace_zero (R : Matrix (Fin 3) (Fin 3) K) : inSpace R 0 = 0 := by
  have := inSpace_lin R 0 0 0 0; simpa using this

theorem space_dot (R : Matrix (Fin 3) (Fin 3) K) (v w : Fin 6 → K) : v ⬝ᵥ inSpace R w = inFrame R v ⬝ᵥ w := by
  simp only [dotProduct, sum_six]
  simp [inSpace, inFrame, both, linPart, angPart, mulVec, dotProduct, Fin.sum_univ_three]
  ring

theorem space_frame (R : Matrix (Fin 3) (Fin 3) K) (hR : Rᵀ * R = 1) (v : Fin 6 → K) : inSpace R (inFrame R v) = v := by
  have h1 : ∀ w : Fin 3 → K, Rᵀ *ᵥ (R *ᵥ w) = w := fun w => by rw [mulVec_mulVec, hR, one_mulVec]
  have e1 : ∀ a b : Fin 3 → K, linPart (both a b) = a := fun a b => by funext i; fin_cases i <;> rfl
  have e2 : ∀ a b : Fin 3 → K, angPart (both a b) = b := fun a b => by funext i; fin_cases i <;> rfl
  rw [inSpace, inFrame, e1, e2, h1, h1]
  funext i; fin_cases i <;> rfl

theorem frame_space (R : Matrix (Fin 3) (Fin 3) K) (hR : R * Rᵀ = 1) (v : Fin 6 → K) : inFrame R (inSpace R v) = v := by
  have h1 : ∀ w : Fin 3 → K, R *ᵥ (Rᵀ *ᵥ w) = w := fun w => by rw [mulVec_mulVec, hR, one_mulVec]
  have e1 : ∀ a b : Fin 3 → K, linPart (both a b) = a := fun a b => by funext i; fin_cases i <;> rfl
  have e2 : ∀ a b : Fin 3 → K, angPart (both a b) = b := fun a b => by funext i; fin_cases i <;> rfl
  rw [inSpace, inFrame, e1, e2, h1, h1]
  funext i; fin_cases i <;> rfl

theorem shear_lin (a b : K) (u u' : Fin 6 → Fin nS → K) : shear (a • u + b • u') = a • shear u + b • shear u' := by
  funext d
  fin_cases d <;> simp [shear]
  abel

theorem lever_lin (a b : K) (u u' : Fin 6 → Fin nS → K) : lever (a • u + b • u') = a • lever u + b • lever u' := by
  funext d
  fin_cases d <;> simp [lever]
  abel

end Frame

section Linear
variable [Field K] {F : Form 1 nS 1 K} {c : Fin 6 → K} {tau : K} {g g' : Fin (2 * 1) → Fin 6 → Fin nS → K} {s s' : Fin 6 → Fin nS → K}
  {lambda mu : Fin (2 * 1) → Fin 6 → K} {q q' u u' : Fin 6 → Fin nS → K}

theorem beam_lin (a b : K) (h : IsBeam F c tau g s q u) (h' : IsBeam F c tau g' s' q' u') :
    IsBeam F c tau (a • g + b • g') (a • s + b • s') (a • q + b • q') (a • u + b • u') := by
  constructor
  · intro d
    have h3 := congrArg₂ (· + ·) (congrArg (fun x => a • x) (h.strain d)) (congrArg (fun x => b • x) (h'.strain d))
    rw [shear_lin]
    simp only [Pi.add_apply, Pi.smul_apply, mulVec_add, mulVec_smul] at h3 ⊢
    rw [← h3]
    simp only [smul_add, smul_sub, Finset.smul_sum, Finset.sum_add_distrib, smul_comm a, smul_comm b]
    abel
  · intro d
    have h3 := congrArg₂ (· + ·) (congrArg (fun x => a • x) (h.balance d)) (congrArg (fun x => b • x) (h'.balance d))
    rw [lever_lin]
    simp only [Pi.add_apply, Pi.smul_apply, mulVec_add, mulVec_smul, smul_add] at h3 ⊢
    rw [show a • s d + b • s' d + (a • F.mass *ᵥ lever q d + b • F.mass *ᵥ lever q' d) = a • s d + a • F.mass *ᵥ lever q d + (b • s' d + b • F.mass *ᵥ lever q' d) from by abel, ← h3]
    simp only [smul_add, smul_sub, smul_neg, Finset.smul_sum, Finset.sum_add_distrib, Finset.sum_sub_distrib, smul_comm a, smul_comm b]
    module

theorem beamFlux_lin (a b : K) : beamFlux F tau (a • lambda + b • mu) (a • q + b • q') (a • u + b • u') = a • beamFlux F tau lambda q u + b • beamFlux F tau mu q' u' := by
  funext f d
  have := flux_lin (F := F) (tau := tau) (lambda := fun f _ => lambda f d) (mu := fun f _ => mu f d) (q := fun _ => q d) (q' := fun _ => q' d) (u := u d) (u' := u' d) a b
  exact congrFun (congrFun this f) 0

theorem beamMoments_lin (a b : K) : beamMoments F (a • lambda + b • mu) = a • beamMoments F lambda + b • beamMoments F mu := by
  funext f d
  have := moments_lin (F := F) (lambda := fun f _ => lambda f d) (mu := fun f _ => mu f d) a b
  exact congrFun this f

theorem beamMoments_zero : beamMoments F (0 : Fin (2 * 1) → Fin 6 → K) = 0 := by
  funext f d
  show F.psi f *ᵥ (fun _ => 0) = 0
  exact mulVec_zero _

theorem beam_zero : IsBeam F c tau 0 0 0 0 := by
  have hs : shear (0 : Fin 6 → Fin nS → K) = 0 := by funext d; fin_cases d <;> simp [shear]
  have hl : lever (0 : Fin 6 → Fin nS → K) = 0 := by funext d; fin_cases d <;> simp [lever]
  constructor <;> intro d <;> simp [hs, hl]

theorem beam_unique (hS : BeamSolvable F c tau) (h : IsBeam F c tau g s q u) (h' : IsBeam F c tau g s q' u') : q = q' ∧ u = u' := by
  have := beam_lin 1 (-1) h h'
  simp only [one_smul, neg_smul, add_neg_cancel] at this
  obtain ⟨h1, h2⟩ := hS _ _ this
  exact ⟨by rwa [← sub_eq_add_neg, sub_eq_zero] at h1, by rwa [← sub_eq_add_neg, sub_eq_zero] at h2⟩

end Linear

section Energy
variable [Field K] [LinearOrder K] [IsStrictOrderedRing K] {F : Form 1 nS 1 K} {c : Fin 6 → K} {tau : K} {g : Fin (2 * 1) → Fin 6 → Fin nS → K} {s s' : Fin 6 → Fin nS → K}
  {lambda mu : Fin (2 * 1) → Fin 6 → K} {q q' u u' : Fin 6 → Fin nS → K}

/-- The form of one component. -/
def comp (F : Form 1 nS 1 K) (x : K) : Form 1 nS 1 K := { F with mass := x⁻¹ • F.mass }

theorem comp_laws (hF : FormLaws F) {x : K} (hx : 0 < x) : FormLaws (comp F x) where
  mass_symm := by simp [comp, hF.mass_symm]
  mass_pos v hv := by
    show 0 < v ⬝ᵥ (x⁻¹ • F.mass) *ᵥ v
    rw [smul_mulVec, dotProduct_smul, smul_eq_mul]
    exact mul_pos (inv_pos.mpr hx) (hF.mass_pos v hv)
  mass0_symm := hF.mass0_symm
  mass0_pos := hF.mass0_pos
  by_parts := hF.by_parts
  area_pos := hF.area_pos
  trace := hF.trace
  unisolvent := hF.unisolvent

/-- The energy. -/
def beamEnergy (F : Form 1 nS 1 K) (c : Fin 6 → K) (tau : K) (q u : Fin 6 → Fin nS → K) (lambda : Fin (2 * 1) → Fin 6 → K) (q' u' : Fin 6 → Fin nS → K)
    (mu : Fin (2 * 1) → Fin 6 → K) : K :=
  ∑ d, bilin (comp F (c d)) tau (fun _ => q d) (u d) (fun f _ => lambda f d) (fun _ => q' d) (u' d) (fun f _ => mu f d)

theorem energy_symm (hF : FormLaws F) (hc : ∀ d, 0 < c d) : beamEnergy F c tau q u lambda q' u' mu = beamEnergy F c tau q' u' mu q u lambda :=
  Finset.sum_congr rfl fun d _ => bilin_symm (comp_laws hF (hc d))

theorem energy_nonneg (hF : FormLaws F) (hc : ∀ d, 0 < c d) (ht : 0 ≤ tau) : 0 ≤ beamEnergy F c tau q u lambda q u lambda :=
  Finset.sum_nonneg fun d _ => bilin_nonneg (comp_laws hF (hc d)) ht _ _ _

theorem energy_zero (hF : FormLaws F) (hc : ∀ d, 0 < c d) (ht : 0 < tau) (h : beamEnergy F c tau q u lambda q u lambda = 0) :
    q = 0 ∧ ∀ f d, IsTrace F (u d) f (fun _ => lambda f d) := by
  have h1 := fun d => (Finset.sum_eq_zero_iff_of_nonneg fun d _ => bilin_nonneg (comp_laws hF (hc d)) ht.le (fun _ => q d) (u d) (fun f _ => lambda f d)).mp h d (Finset.mem_univ d)
  refine ⟨funext fun d => congrFun (bilin_q_zero (comp_laws hF (hc d)) ht.le (h1 d)) 0, fun f d => bilin_trace_zero (comp_laws hF (hc d)) ht (h1 d) f⟩

theorem coupling (hF : FormLaws F) : ∑ d, u' d ⬝ᵥ F.mass *ᵥ lever q d + ∑ d, q d ⬝ᵥ F.mass *ᵥ shear u' d = 0 := by
  have e1 := symm_dot hF.mass_symm (q 1) (u' 5)
  have e2 := symm_dot hF.mass_symm (q 2) (u' 4)
  simp only [sum_six]
  simp [shear, lever, mulVec_neg]
  rw [e1, e2]
  ring

/-- The flux of a solution with source `s`, tested by `mu`, whose solution is `(q', u')`. -/
theorem beam_flux_form (hF : FormLaws F) (h : IsBeam F c tau (beamMoments F lambda) s q u) (h' : IsBeam F c tau (beamMoments F mu) s' q' u') :
    beamPairing mu (beamFlux F tau lambda q u) = -beamEnergy F c tau q u lambda q' u' mu + ∑ d, u' d ⬝ᵥ s d := by
  have key : ∀ d, ∑ f, (fun _ : Fin 1 => mu f d) ⬝ᵥ faceFlux F tau (fun f _ => lambda f d) (fun _ => q d) (u d) f =
      -bilin (comp F (c d)) tau (fun _ => q d) (u d) (fun f _ => lambda f d) (fun _ => q' d) (u' d) (fun f _ => mu f d) + q d ⬝ᵥ F.mass *ᵥ shear u' d +
        (u' d ⬝ᵥ s d + u' d ⬝ᵥ F.mass *ᵥ lever q d) := by
    intro d
    have h1 := congrArg (fun x => q d ⬝ᵥ x) (h'.strain d)
    have h2 := congrArg (fun x => u' d ⬝ᵥ x) (h.balance d)
    have h3 := parts_dot hF 0 (u' d) (q d)
    simp only [dotProduct_add, dotProduct_sub, dotProduct_neg, dotProduct_sum, dotProduct_smul, mulVec_add, mulVec_smul, smul_eq_mul] at h1 h2
    have h5 : ∀ f, u' d ⬝ᵥ F.bdr f *ᵥ u d = u d ⬝ᵥ F.bdr f *ᵥ u' d := fun f => bdr_symm hF f _ _
    simp only [h5] at h2
    rw [flux_pair]
    unfold bilin
    simp only [Finset.univ_unique, Finset.sum_singleton, comp, smul_mulVec, dotProduct_smul, smul_eq_mul, beamMoments, moments, Finset.sum_add_distrib, Finset.sum_sub_distrib,
      ← Finset.mul_sum] at h1 h2 h3 ⊢
    simp only [show (default : Fin 1) = 0 from rfl] at *
    linear_combination h1 + h2 + h3
  have e : beamPairing mu (beamFlux F tau lambda q u) = ∑ d, ∑ f, (fun _ : Fin 1 => mu f d) ⬝ᵥ faceFlux F tau (fun f _ => lambda f d) (fun _ => q d) (u d) f := by
    rw [Finset.sum_comm]
    refine Finset.sum_congr rfl fun f _ => Finset.sum_congr rfl fun d _ => ?_
    simp [beamFlux, dotProduct]
  rw [e]
  simp only [key, Finset.sum_add_distrib, Finset.sum_neg_distrib]
  have := coupling (u' := u') (q := q) hF
  unfold beamEnergy
  linear_combination this

/-- The strains of a solution without forces whose trace matches. -/
theorem strain_zero (hF : FormLaws F) (h : IsBeam F c tau (beamMoments F lambda) s (0 : Fin 6 → Fin nS → K) u) (htr : ∀ f d, IsTrace F (u d) f (fun _ => lambda f d)) (d : Fin 6) :
    (F.grad 0)ᵀ *ᵥ u d = F.mass *ᵥ shear u d := by
  have h1 := h.strain d
  have hm : ∀ f, beamMoments F lambda f d = F.bdr f *ᵥ u d := fun f => trace_moments hF (fun f => htr f d) f
  have h2 := congrArg (fun M => M *ᵥ u d) (hF.by_parts 0)
  simp only [add_mulVec, sum_mulVec, smul_mulVec] at h2
  simp only [Pi.zero_apply, mulVec_zero, smul_zero, zero_sub, hm, ← h2] at h1
  rw [← h1]; abel

theorem rotation_const (hF : FormLaws F) (h : IsBeam F c tau (beamMoments F lambda) s (0 : Fin 6 → Fin nS → K) u) (htr : ∀ f d, IsTrace F (u d) f (fun _ => lambda f d)) (d : Fin 3) :
    IsConst F (u (Fin.natAdd 3 d)) := by
  intro a
  obtain rfl : a = 0 := Subsingleton.elim _ _
  rw [strain_zero hF h htr]
  fin_cases d <;> exact mulVec_zero _

theorem displacement_const (hF : FormLaws F) (h : IsBeam F c tau (beamMoments F lambda) s (0 : Fin 6 → Fin nS → K) u) (htr : ∀ f d, IsTrace F (u d) f (fun _ => lambda f d))
    (hr : ∀ d : Fin 3, u (Fin.natAdd 3 d) = 0) (d : Fin 6) : IsConst F (u d) := by
  intro a
  obtain rfl : a = 0 := Subsingleton.elim _ _
  rw [strain_zero hF h htr]
  have h4 : u 4 = 0 := hr 1
  have h5 : u 5 = 0 := hr 2
  fin_cases d <;> simp [shear, h4, h5]

theorem beam_solvable (hF : FormLaws F) (hc : ∀ d, 0 < c d) (ht : 0 < tau) : BeamSolvable F c tau := by
  intro q u h
  rw [← beamMoments_zero] at h
  have h1 := beam_flux_form hF h h
  have h2 : beamEnergy F c tau q u 0 q u 0 = 0 := by
    simpa [beamPairing] using h1
  obtain ⟨rfl, htr⟩ := energy_zero hF hc ht h2
  refine ⟨rfl, ?_⟩
  have hz : ∀ d, IsConst F (u d) → u d = 0 := fun d hd => hF.unisolvent _ hd fun f => by
    have := htr f d
    unfold IsTrace at this
    rw [← this]
    exact smul_zero _
  have hr : ∀ d : Fin 3, u (Fin.natAdd 3 d) = 0 := fun d => hz _ (rotation_const hF h htr d)
  exact funext fun d => hz d (displacement_const hF h htr hr d)

/-- A state without energy which vanishes at one end vanishes at the other. -/
theorem kernel_step (hF : FormLaws F) (hR : Rigid F) (h : IsBeam F c tau (beamMoments F lambda) s (0 : Fin 6 → Fin nS → K) u) (htr : ∀ f d, IsTrace F (u d) f (fun _ => lambda f d))
    {f : Fin (2 * 1)} (h0 : lambda f = 0) (f' : Fin (2 * 1)) : lambda f' = 0 := by
  have hz : ∀ d, IsConst F (u d) → u d = 0 := fun d hd => hR (u d) f hd (by
    have := htr f d
    unfold IsTrace at this
    rw [← this, h0]
    exact smul_zero _)
  have hr : ∀ d : Fin 3, u (Fin.natAdd 3 d) = 0 := fun d => hz _ (rotation_const hF h htr d)
  funext d
  have hd := hz d (displacement_const hF h htr hr d)
  have := htr f' d
  unfold IsTrace at this
  rw [hd, mulVec_zero] at this
  have := congrFun this 0
  exact (mul_eq_zero.mp this).resolve_left (hF.area_pos f').ne'

end Energy

section Motion
variable [Field K] {F : Form 1 nS 1 K} {c : Fin 6 → K} {tau : K}

theorem cross_mulVec {K : Type} [CommRing K] (R : Matrix (Fin 3) (Fin 3) K) (hR : R * Rᵀ = 1) (v w : Fin 3 → K) : (R *ᵥ v) ⨯₃ (R *ᵥ w) = R.det • (R *ᵥ (v ⨯₃ w)) := by
  have h1 : Rᵀ *ᵥ ((R *ᵥ v) ⨯₃ (R *ᵥ w)) = R.det • (v ⨯₃ w) := by
    funext i
    rw [det_fin_three]
    fin_cases i <;> simp [mulVec, dotProduct, Fin.sum_univ_three, cross_apply] <;> ring
  have h2 := congrArg (fun x => R *ᵥ x) h1
  simpa only [mulVec_mulVec, hR, one_mulVec, mulVec_smul] using h2

end Motion

end HyperHDG.Spec

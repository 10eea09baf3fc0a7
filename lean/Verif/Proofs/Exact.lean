import Verif.Spec.Exact
import Verif.Proofs.LDG
import Verif.Proofs.GlobalSolve

/-!
# Exact solutions solve the local problems of the method
-/

namespace HyperHDG.Spec

open Finset Matrix HyGraph

variable {dim nS nB : Nat} {K : Type}

section
variable [CommRing K] [LinearOrder K] {F : Form dim nS nB K} {tau rho sigma : K} {s : Fin nS → K} {q : Fin dim → Fin nS → K} {u : Fin nS → K} {g : Fin (2 * dim) → Fin nS → K}

theorem exact_solution (hF : FormLaws F) (h : SolvesEquation F rho sigma s q u) (hg : ∀ f, g f = F.bdr f *ᵥ u) : IsSolution F tau rho sigma g s q u := by
  have hp : ∀ (d : Fin dim) (v : Fin nS → K), ∑ f, F.normal f d • F.bdr f *ᵥ v = F.grad d *ᵥ v + (F.grad d)ᵀ *ᵥ v := fun d v => by
    rw [← add_mulVec, hF.by_parts, sum_mulVec]
    exact sum_congr rfl fun f _ => (smul_mulVec _ _ _).symm
  constructor
  · intro d
    simp only [hg]
    rw [hp, sub_add, sub_eq_add_neg, neg_sub, add_sub_cancel_left]
    exact h.flux d
  · rw [← h.primal]
    congr 2
    have h1 : ∀ f, F.bdr f *ᵥ (∑ d, F.normal f d • q d + tau • u) - tau • g f = ∑ d, F.normal f d • F.bdr f *ᵥ q d := fun f => by
      rw [hg, mulVec_add, mulVec_smul, add_sub_cancel_right, mulVec_sum]
      exact sum_congr rfl fun d _ => mulVec_smul _ _ _
    rw [sum_congr rfl fun f _ => h1 f, sum_comm, sum_congr rfl fun d _ => hp d (q d), sum_add_distrib, neg_add_cancel_left]

end

theorem exact_flux [CommRing K] {F : Form dim nS nB K} {tau : K} {q : Fin dim → Fin nS → K} {u : Fin nS → K} {lambda : Fin (2 * dim) → Fin nB → K} {f : Fin (2 * dim)}
    (h : IsTrace F u f (lambda f)) : faceFlux F tau lambda q u f = normalFlux F q f := by
  unfold faceFlux normalFlux
  unfold IsTrace at h
  rw [mulVec_add, mulVec_smul, ← h, ← smul_smul, add_sub_cancel_right]

/-- The moments of the trace of a function. -/
theorem moments_of_trace [Field K] [LinearOrder K] {F : Form dim nS nB K} (hF : FormLaws F) {u : Fin nS → K} {lambda : Fin (2 * dim) → Fin nB → K} {f : Fin (2 * dim)}
    (h : IsTrace F u f (lambda f)) : moments F lambda f = F.bdr f *ᵥ u := by
  unfold IsTrace at h
  have ha := (hF.area_pos f).ne'
  have h1 : F.area f • (F.bdr f *ᵥ u) = F.area f • moments F lambda f := by
    rw [← smul_mulVec, hF.trace, ← mulVec_mulVec, ← h, mulVec_smul]
    rfl
  have := congrArg (fun v => (F.area f)⁻¹ • v) h1
  simp only [smul_smul, inv_mul_cancel₀ ha, one_smul] at this
  exact this.symm

theorem assemble_at [CommRing K] {E N n : Nat} (nodes : Fin E → Fin F → Fin N) (y : Fin E → Fin F → Fin n → K) (v : Fin N) (j : Fin n) :
    assemble nodes y (dof v j) = ∑ e, ∑ f, if nodes e f = v then y e f j else 0 := by
  unfold assemble
  refine sum_congr rfl fun e _ => sum_congr rfl fun f _ => ?_
  split
  next h =>
    rw [sum_eq_single j]
    · rw [if_pos (by rw [h])]
    · intro k _ hk
      rw [if_neg fun h' => hk (HyGraph.dof_inj h').2]
    · simp
  next h => exact sum_eq_zero fun k _ => if_neg fun h' => h (HyGraph.dof_inj h').1

end HyperHDG.Spec

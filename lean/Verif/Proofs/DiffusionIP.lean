import Verif.Model.DiffusionIP
import Verif.Spec.DiffusionIP
import Verif.Proofs.AdvectionParab
import Mathlib.Tactic.Linarith

/-!
# Lemmas about the local solver with interior penalty
-/

set_option linter.unusedSectionVars false

namespace HyperHDG.DiffusionIP

open Finset Matrix
open Spec hiding Form IsSolution faceFlux Solvable moments IsTrace
open Spec.IP
open DiffusionParab (vecOf set_add entry_add vec_write)
open AdvectionParab (mat_single_sum mat_single_add mat_entry_add mat_loop vec_add_loop map_loop)
open Diffusion (add_mat_spec catch_throw)

variable {K : Type} {dim nS nB : Nat}

/-- Face `f` belongs to a node of Dirichlet type. -/
def IsDirichlet (E : Edge dim nS K) (f : Fin (2 * dim)) : Prop := E.node_descriptor f ∈ E.dirichlet_nodes

theorem is_dirichlet_iff (E : Edge dim nS K) (f : Fin (2 * dim)) : is_dirichlet E f = true ↔ IsDirichlet E f := by
  unfold is_dirichlet IsDirichlet
  rw [List.contains_iff_mem]

section Data
variable [CommRing K]

open Classical in
/-- The local vector `v` with the entries of Dirichlet faces replaced by zero. -/
noncomputable def offDirichlet (E : Edge dim nS K) (v : LocDofs dim nB K) : LocDofs dim nB K := fun f j => if IsDirichlet E f then 0 else v f j

/-- The integrals the local solver works with at time `time`: the coefficients of the normal derivatives are those at time 0. -/
def form (E : Edge dim nS K) (nB : Nat) (time : K) : Form dim nS nB K where
  stiff := .of fun i j => E.vol_nablaphinablaphifunc time i j
  conorm := fun f => .of fun i j => E.bdr_nablaphiphinufunc 0 j i f
  conormPsi := fun f => .of fun i j => E.bdr_nablaphipsinufunc 0 j i f
  bdr := fun f => .of fun i j => E.bdr_phiphi i j f
  psi := fun f => .of fun i j => E.bdr_phipsi i j f
  area := fun f => E.face_area f

/-- The integrals of the right-hand side. -/
def source (E : Edge dim nS K) (time : K) : Fin nS → K := fun i => E.vol_phifunc time i

open Classical in
/-- The integrals of the Dirichlet values over faces of Dirichlet type. -/
noncomputable def dirichletMoments (E : Edge dim nS K) (time : K) : Fin (2 * dim) → Fin nS → K := fun f i =>
  if IsDirichlet E f then E.bdr_phifunc time i f else 0

/-- The matrix of the local problem. -/
noncomputable def locMat (F : Form dim nS nB K) (tau : K) : Matrix (Fin nS) (Fin nS) K := F.stiff - ∑ f, F.conorm f + tau • ∑ f, F.bdr f

theorem isSolution_iff (F : Form dim nS nB K) (tau : K) (g : Fin (2 * dim) → Fin nS → K) (s u : Fin nS → K) :
    IsSolution F tau g s u ↔ locMat F tau *ᵥ u = tau • ∑ f, g f + s := by
  unfold IsSolution locMat
  rw [← sub_eq_zero, ← sub_eq_zero (a := _ *ᵥ u), add_mulVec, sub_mulVec, smul_mulVec, Matrix.sum_mulVec, Matrix.sum_mulVec, Finset.sum_sub_distrib]
  have : F.stiff *ᵥ u - ∑ f, F.conorm f *ᵥ u + tau • (∑ f, F.bdr f *ᵥ u - ∑ f, g f) - s =
    F.stiff *ᵥ u - ∑ f, F.conorm f *ᵥ u + tau • ∑ f, F.bdr f *ᵥ u - (tau • ∑ f, g f + s) := by module
  rw [this]

theorem assemble_loc_matrix_spec (m : Mode) (E : Edge dim nS K) (nB : Nat) (tau time : K) :
    ∃ A, assemble_loc_matrix m E tau time = .ok A ∧ toMat A = locMat (form E nB time) tau := by
  obtain ⟨A, h1, h2⟩ := mat_loop (fun i j M => do
      let M ← SmallMat.addAt m i j (E.vol_nablaphinablaphifunc time i j) M
      forUp (2 * dim) (fun face M => do
        let M ← SmallMat.addAt m i j (tau * E.bdr_phiphi i j face) M
        SmallMat.subAt m i j (E.bdr_nablaphiphinufunc 0 j i face) M) M)
    (fun i j : Fin nS => E.vol_nablaphinablaphifunc time i j + ∑ f : Fin (2 * dim), (tau * E.bdr_phiphi i j f + -E.bdr_nablaphiphinufunc 0 j i f)) (fun i j M => by
      rw [addAt_single m M i.2 j.2, Res.ok_bind, mat_entry_add i j _ (fun f : Fin (2 * dim) => tau * E.bdr_phiphi i j f + -E.bdr_nablaphiphinufunc 0 j i f) (fun f M => by
        rw [addAt_single m M i.2 j.2, Res.ok_bind, subAt_single m _ i.2 j.2, mat_single_add, add_assoc]), mat_single_add, add_assoc])
  refine ⟨A, h1, ?_⟩
  ext i j
  rw [h2]
  simp only [locMat, form, Matrix.add_apply, Matrix.sub_apply, Matrix.smul_apply, Matrix.sum_apply, Matrix.of_apply, smul_eq_mul, Finset.mul_sum, Finset.sum_add_distrib,
    Finset.sum_neg_distrib]
  ring

theorem rhs_lambda_spec (m : Mode) (E : Edge dim nS K) (tau time : K) (lambda : LocDofs dim nB K) :
    ∃ v, assemble_rhs_from_lambda m E tau lambda = .ok v ∧ vecOf v = tau • ∑ f, moments (form E nB time) lambda f := by
  obtain ⟨v, h1, h2⟩ := vec_add_loop (fun i v => forUp nB (fun j v => forUp (2 * dim) (fun face (v : SmallVec nS K) => do
      let l ← arrGet2 lambda face j
      SmallMat.addTo m i (tau * l * E.bdr_phipsi i j face) v) v) v)
    (fun i : Fin nS => ∑ j : Fin nB, ∑ f : Fin (2 * dim), tau * lambda f j * E.bdr_phipsi i j f) (fun i v =>
      entry_add i _ _ (fun j v => entry_add i _ _ (fun f v => by
        rw [arrGet2_lt lambda f.2 j.2, Res.ok_bind, addTo_single m v i.2]) v) v) (SmallMat.fill _ _ 0)
  refine ⟨v, h1, ?_⟩
  rw [h2]
  funext i
  rw [Pi.add_apply, show vecOf (SmallMat.fill nS 1 (0 : K)) i = 0 from rfl, zero_add, Finset.sum_comm]
  simp only [moments, form, mulVec, dotProduct, Matrix.of_apply, Pi.smul_apply, Finset.sum_apply, smul_eq_mul, Finset.mul_sum]
  exact Finset.sum_congr rfl fun f _ => Finset.sum_congr rfl fun j _ => by ring

theorem rhs_global_spec (m : Mode) (E : Edge dim nS K) (tau time : K) :
    ∃ v, assemble_rhs_from_global_rhs m E tau time = .ok v ∧ vecOf v = tau • ∑ f, dirichletMoments E time f + source E time := by
  obtain ⟨v, h1, h2⟩ := vec_write (fun i (v : SmallVec nS K) => do
    let v ← SmallMat.set m i (E.vol_phifunc time i) v
    forUp (2 * dim) (fun face v =>
      if ¬ is_dirichlet E face then .ok v else SmallMat.addTo m i (tau * E.bdr_phifunc time i face) v) v)
    (fun i => E.vol_phifunc time i + ∑ f : Fin (2 * dim), tau * dirichletMoments E time f i) (fun i v =>
    set_add m i _ _ v _ fun v => entry_add i _ _ (fun f v => by
      by_cases hdir : IsDirichlet E f
      · have hb := (is_dirichlet_iff E f).mpr hdir
        rw [if_neg (by simp [hb]), addTo_single m v i.2]
        simp [dirichletMoments, hdir]
      · have hb : is_dirichlet E f = false := by rw [← Bool.not_eq_true, is_dirichlet_iff]; exact hdir
        rw [if_pos (by simp [hb])]
        simp [dirichletMoments, hdir, singleMat]) v) (SmallMat.fill _ _ 0)
  refine ⟨v, h1, ?_⟩
  rw [h2]
  funext i
  simp only [source, Pi.add_apply, Pi.smul_apply, Finset.sum_apply, smul_eq_mul, Finset.mul_sum]
  ring

/-- The loops over shape functions of the element, those of a face, and faces. -/
theorem bdr_loop (f : Nat → Nat → Nat → SmallMat (2 * dim) nB K → Res (SmallMat (2 * dim) nB K)) (g : Fin nS → Fin nB → Fin (2 * dim) → K)
    (hf : ∀ (i : Fin nS) (j : Fin nB) (k : Fin (2 * dim)) M, f i j k M = .ok (M + singleMat k j (g i j k))) :
    ∃ M, forUp nS (fun i b => forUp nB (fun j b => forUp (2 * dim) (fun k b => f i j k b) b) b) (SmallMat.fill _ _ 0) = .ok M ∧
      ∀ k j, toMat M k j = ∑ i, g i j k := by
  refine ⟨_, forUp_add nS _ (fun i => ∑ j, ∑ k, singleMat k j (g i j k)) (fun i M => forUp_add nB _ (fun j => ∑ k, singleMat k j (g i j k))
    (fun j M => forUp_add (2 * dim) _ (fun k => singleMat k j (g i j k)) (fun k M => hf i j k M) M) M) _, fun k j => ?_⟩
  rw [toMat_add, Matrix.add_apply, toMat_sum]
  rw [show toMat (SmallMat.fill (2 * dim) nB (0 : K)) k j = 0 from rfl, zero_add]
  refine Finset.sum_congr rfl fun i _ => ?_
  simp only [toMat_sum, toMat_singleMat]
  rw [Finset.sum_eq_single j, Finset.sum_eq_single k]
  · simp
  · intro b _ hb; rw [if_neg (fun h => hb h.1.symm)]
  · simp
  · intro a _ ha
    exact Finset.sum_eq_zero fun b _ => if_neg (fun h => ha h.2.symm)
  · simp

theorem primal_spec (m : Mode) (E : Edge dim nS K) (nB : Nat) (time : K) (c : SmallVec nS K) :
    ∃ M, primal_at_boundary m E nB c = .ok M ∧ ∀ f j, toMat M f j = (((form E nB time).psi f)ᵀ *ᵥ vecOf c) j := by
  obtain ⟨M, h1, h2⟩ := bdr_loop (nS := nS) (fun i j face (b : SmallMat (2 * dim) nB K) => do
    let x ← SmallMat.get m c i
    SmallMat.addAt m face j (x * E.bdr_phipsi i j face) b) (fun i j f => vecOf c i * E.bdr_phipsi i j f) (fun i j f M => by
      rw [vec_get_lt m c i.2, Res.ok_bind, addAt_single m M f.2 j.2]; rfl)
  exact ⟨M, h1, fun f j => by rw [h2]; simp only [form, mulVec, dotProduct, transpose_apply, Matrix.of_apply, mul_comm]⟩

theorem dual_spec (m : Mode) (E : Edge dim nS K) (nB : Nat) (time : K) (c : SmallVec nS K) :
    ∃ M, dual_at_boundary m E nB c = .ok M ∧ ∀ f j, toMat M f j = -((form E nB time).conormPsi f *ᵥ vecOf c) j := by
  obtain ⟨M, h1, h2⟩ := bdr_loop (nS := nS) (fun i j face (b : SmallMat (2 * dim) nB K) => do
    let x ← SmallMat.get m c i
    SmallMat.subAt m face j (E.bdr_nablaphipsinufunc 0 i j face * x) b) (fun i j f => -(E.bdr_nablaphipsinufunc 0 i j f * vecOf c i)) (fun i j f M => by
      rw [vec_get_lt m c i.2, Res.ok_bind, subAt_single m M f.2 j.2]; rfl)
  exact ⟨M, h1, fun f j => by rw [h2]; simp only [form, mulVec, dotProduct, Matrix.of_apply, Finset.sum_neg_distrib]⟩

theorem writeFlux_eq (m : Mode) (E : Edge dim nS K) (tau time : K) (c : SmallVec nS K) (P D : SmallMat (2 * dim) nB K)
    (hP : ∀ f j, toMat P f j = (((form E nB time).psi f)ᵀ *ᵥ vecOf c) j) (hD : ∀ f j, toMat D f j = -((form E nB time).conormPsi f *ᵥ vecOf c) j)
    (lambda out : LocDofs dim nB K) :
    writeFlux m E tau P D lambda out = .ok (offDirichlet E (faceFlux (form E nB time) tau lambda (vecOf c))) := by
  unfold writeFlux
  rw [← map_loop (fun f i _ => offDirichlet E (faceFlux (form E nB time) tau lambda (vecOf c)) f i) out]
  congr 1
  funext f o
  by_cases hdir : IsDirichlet E f
  · rw [if_pos ((is_dirichlet_iff E f).mpr hdir)]
    simp [offDirichlet, hdir]
  · rw [if_neg (by rw [is_dirichlet_iff]; exact hdir)]
    congr 1
    funext j o
    rw [at_lt m D f.2 j.2, Res.ok_bind, at_lt m P f.2 j.2, Res.ok_bind]
    refine congrArg Res.ok (congrArg _ (congrArg _ ?_))
    have h1 := hD f j
    have h2 := hP f j
    simp only [offDirichlet, hdir, if_false, faceFlux, Pi.add_apply, Pi.neg_apply, Pi.smul_apply, Pi.sub_apply, smul_eq_mul]
    rw [show toMat D ⟨f.1, f.2⟩ ⟨j.1, j.2⟩ = toMat D f j from rfl, show toMat P ⟨f.1, f.2⟩ ⟨j.1, j.2⟩ = toMat P f j from rfl, h1, h2]
    simp only [form]
    ring

end Data

section Solve
variable [Field K]

theorem solvable_iff (F : Form dim nS nB K) (tau : K) : IsUnit (locMat F tau) ↔ Solvable F tau := by
  unfold Solvable
  simp only [isSolution_iff, Pi.zero_apply, Finset.sum_const_zero, smul_zero, add_zero]
  rw [← Matrix.mulVec_injective_iff_isUnit]
  constructor
  · intro h u hu
    exact h (hu.trans (mulVec_zero _).symm)
  · intro h v w hvw
    have := h (v - w) (by rw [mulVec_sub, sub_eq_zero]; exact hvw)
    exact sub_eq_zero.mp this

/-- The data of the local problem for the two types of solution. -/
noncomputable def dataOf (E : Edge dim nS K) (time : K) (lambda : LocDofs dim nB K) (t : Nat) : (Fin (2 * dim) → Fin nS → K) × (Fin nS → K) :=
  if t = 0 then (moments (form E nB time) lambda, 0) else (moments (form E nB time) lambda + dirichletMoments E time, source E time)

theorem solve_local_problem_spec (m : Mode) (gesv : Gesv nS 1 K) (hg : GesvSpec gesv) (E : Edge dim nS K) (tau time : K) (lambda : LocDofs dim nB K)
    (t : Nat) (ht : t = 0 ∨ t = 1) :
    (Solvable (form E nB time) tau → ∃ x, solve_local_problem m gesv E tau lambda t time = .ok x ∧
      IsSolution (form E nB time) tau (dataOf E time lambda t).1 (dataOf E time lambda t).2 (vecOf x)) ∧
    (¬ Solvable (form E nB time) tau → solve_local_problem m gesv E tau lambda t time = solveFailure m) := by
  obtain ⟨A, hA1, hA2⟩ := assemble_loc_matrix_spec m E nB tau time
  obtain ⟨v, hv1, hv2⟩ := rhs_lambda_spec m E tau time lambda
  obtain ⟨w, hw1, hw2⟩ := rhs_global_spec m E tau time
  have key : ∃ rhs, vecOf rhs = tau • ∑ f, (dataOf E time lambda t).1 f + (dataOf E time lambda t).2 ∧
      solve_local_problem m gesv E tau lambda t time = catchLapack m (solve gesv rhs A) := by
    rcases ht with rfl | rfl
    · refine ⟨v, by simpa [dataOf] using hv2, ?_⟩
      simp [solve_local_problem, hv1, hA1]
    · refine ⟨v + w, ?_, ?_⟩
      · simp only [dataOf, one_ne_zero, if_false, Pi.add_apply, Finset.sum_add_distrib, smul_add]
        rw [add_assoc, ← hw2, ← hv2]
        rfl
      · simp [solve_local_problem, hv1, hA1, hw1, add_mat_spec]
  obtain ⟨rhs, hr1, hr2⟩ := key
  refine ⟨fun hs => ?_, fun hs => ?_⟩
  · obtain ⟨LU, X, x, k1, k2, k3⟩ := hg.regular A rhs (toMat A) (toMat rhs) (represents_iff.mpr rfl) (represents_iff.mpr rfl)
      (by rw [hA2, solvable_iff]; exact hs)
    rw [represents_iff] at k2
    subst k2
    refine ⟨X, ?_, ?_⟩
    · rw [hr2]
      unfold solve solve_in_place
      rw [k1]; rfl
    · rw [isSolution_iff, ← hr1, ← hA2]
      funext i
      exact congrFun (congrFun k3 i) 0
  · rw [hr2]
    unfold solve solve_in_place
    rw [hg.singular A rhs (toMat A) (represents_iff.mpr rfl) (by rw [hA2, solvable_iff]; exact hs)]
    exact catch_throw m

theorem solution_unique {F : Form dim nS nB K} {tau : K} (hs : Solvable F tau) {g : Fin (2 * dim) → Fin nS → K} {s u v : Fin nS → K}
    (hu : IsSolution F tau g s u) (hv : IsSolution F tau g s v) : u = v := by
  rw [isSolution_iff] at hu hv
  exact Matrix.mulVec_injective_iff_isUnit.mpr ((solvable_iff F tau).mpr hs) (hu.trans hv.symm)

theorem solution_comb {F : Form dim nS nB K} {tau : K} {g g' : Fin (2 * dim) → Fin nS → K} {s s' u u' : Fin nS → K} (hu : IsSolution F tau g s u)
    (hv : IsSolution F tau g' s' u') (a b : K) : IsSolution F tau (a • g + b • g') (a • s + b • s') (a • u + b • u') := by
  rw [isSolution_iff] at *
  rw [mulVec_add, mulVec_smul, mulVec_smul, hu, hv]
  simp only [Pi.add_apply, Pi.smul_apply, Finset.sum_add_distrib, ← Finset.smul_sum]
  module

theorem moments_comb (F : Form dim nS nB K) (a b : K) (x y : LocDofs dim nB K) : moments F (a • x + b • y) = a • moments F x + b • moments F y := by
  funext f
  simp only [moments, Pi.add_apply, Pi.smul_apply, mulVec_add, mulVec_smul]

theorem faceFlux_comb (F : Form dim nS nB K) (tau a b : K) (x y : LocDofs dim nB K) (u v : Fin nS → K) :
    faceFlux F tau (a • x + b • y) (a • u + b • v) = a • faceFlux F tau x u + b • faceFlux F tau y v := by
  funext f
  simp only [faceFlux, Pi.add_apply, Pi.smul_apply, mulVec_add, mulVec_smul]
  module

theorem off_comb (E : Edge dim nS K) (a b : K) (x y : LocDofs dim nB K) : offDirichlet E (a • x + b • y) = a • offDirichlet E x + b • offDirichlet E y := by
  funext f j
  simp only [offDirichlet, Pi.add_apply, Pi.smul_apply, smul_eq_mul]
  split <;> simp

/-- Testing the local problem by the function 1. -/
theorem conservation {F : Form dim nS nB K} {one : Fin nS → K} {oneF : Fin (2 * dim) → Fin nB → K} (h1 : IsOne F one oneF) (tau : K)
    {lambda : LocDofs dim nB K} {g : Fin (2 * dim) → Fin nS → K} {s u : Fin nS → K} (hu : IsSolution F tau (moments F lambda + g) s u) :
    ∑ f, oneF f ⬝ᵥ faceFlux F tau lambda u f = one ⬝ᵥ s + tau * ∑ f, one ⬝ᵥ g f := by
  have hp : ∀ f, one ᵥ* F.psi f = F.area f • oneF f := fun f => by
    rw [h1.trace f, ← vecMul_transpose, transpose_transpose]
  have h := congrArg (one ⬝ᵥ ·) hu
  simp only [dotProduct_add, dotProduct_sub, dotProduct_smul, dotProduct_sum, smul_eq_mul, dotProduct_mulVec, h1.grad_test, zero_dotProduct, Pi.add_apply, moments, h1.test_conorm,
    h1.test_bdr, hp, zero_sub] at h
  rw [← h]
  simp only [faceFlux, dotProduct_add, dotProduct_neg, dotProduct_smul, dotProduct_sub, smul_eq_mul, Finset.sum_add_distrib, Finset.sum_sub_distrib, Finset.sum_neg_distrib, ← Finset.mul_sum,
    smul_dotProduct, dotProduct_mulVec]
  ring

end Solve

section Energy
variable [Field K] [LinearOrder K] [IsStrictOrderedRing K]

/-- The trace coefficients of a function. -/
def traceOf (F : Form dim nS nB K) (u : Fin nS → K) (f : Fin (2 * dim)) : Fin nB → K := (F.area f)⁻¹ • ((F.psi f)ᵀ *ᵥ u)

/-- The energy identity. -/
theorem energy {F : Form dim nS nB K} {C : K} (hF : Laws F C) {tau : K} {lambda : LocDofs dim nB K} {u : Fin nS → K}
    (hu : IsSolution F tau (moments F lambda) 0 u) :
    ∑ f, lambda f ⬝ᵥ faceFlux F tau lambda u f =
      -(u ⬝ᵥ F.stiff *ᵥ u) + ∑ f, (traceOf F u f - lambda f) ⬝ᵥ F.conormPsi f *ᵥ u -
        tau * ∑ f, F.area f * ((traceOf F u f - lambda f) ⬝ᵥ (traceOf F u f - lambda f)) := by
  have ha : ∀ f, F.area f ≠ 0 := fun f => (hF.area_pos f).ne'
  have hpsi : ∀ f, (F.psi f)ᵀ *ᵥ u = F.area f • traceOf F u f := fun f => by rw [traceOf, smul_smul, mul_inv_cancel₀ (ha f), one_smul]
  have h1 : ∀ f, u ⬝ᵥ F.conorm f *ᵥ u = traceOf F u f ⬝ᵥ F.conormPsi f *ᵥ u := fun f => by
    have := congrArg (fun M => u ⬝ᵥ M *ᵥ u) (hF.trace_conorm f)
    simp only [smul_mulVec, dotProduct_smul, ← mulVec_mulVec, smul_eq_mul] at this
    rw [dotProduct_mulVec u (F.psi f), ← mulVec_transpose, hpsi, smul_dotProduct, smul_eq_mul] at this
    exact mul_left_cancel₀ (ha f) this
  have h2 : ∀ f, u ⬝ᵥ F.bdr f *ᵥ u = F.area f * (traceOf F u f ⬝ᵥ traceOf F u f) := fun f => by
    have := congrArg (fun M => u ⬝ᵥ M *ᵥ u) (hF.trace f)
    simp only [smul_mulVec, dotProduct_smul, ← mulVec_mulVec, smul_eq_mul] at this
    rw [dotProduct_mulVec u (F.psi f), ← mulVec_transpose, hpsi, smul_dotProduct, dotProduct_smul, smul_eq_mul, smul_eq_mul] at this
    exact mul_left_cancel₀ (ha f) this
  have h3 : ∀ f, u ⬝ᵥ moments F lambda f = F.area f * (traceOf F u f ⬝ᵥ lambda f) := fun f => by
    rw [moments, dotProduct_mulVec, ← mulVec_transpose, hpsi, smul_dotProduct, smul_eq_mul]
  have h := congrArg (u ⬝ᵥ ·) hu
  simp only [dotProduct_add, dotProduct_sub, dotProduct_smul, dotProduct_sum, smul_eq_mul, dotProduct_zero, h1, h2, h3] at h
  have h4 : ∑ f, lambda f ⬝ᵥ faceFlux F tau lambda u f =
      -(∑ f, lambda f ⬝ᵥ F.conormPsi f *ᵥ u) + tau * ∑ f, F.area f * (lambda f ⬝ᵥ traceOf F u f - lambda f ⬝ᵥ lambda f) := by
    rw [Finset.mul_sum, ← Finset.sum_neg_distrib, ← Finset.sum_add_distrib]
    refine Finset.sum_congr rfl fun f _ => ?_
    rw [faceFlux, hpsi]
    simp only [dotProduct_add, dotProduct_neg, dotProduct_smul, dotProduct_sub, smul_eq_mul]
    ring
  rw [h4]
  have h5 : ∑ f, F.area f * ((traceOf F u f - lambda f) ⬝ᵥ (traceOf F u f - lambda f)) =
      ∑ f, (F.area f * (traceOf F u f ⬝ᵥ traceOf F u f) - F.area f * (traceOf F u f ⬝ᵥ lambda f)) -
        ∑ f, F.area f * (lambda f ⬝ᵥ traceOf F u f - lambda f ⬝ᵥ lambda f) := by
    rw [← Finset.sum_sub_distrib]
    refine Finset.sum_congr rfl fun f _ => ?_
    simp only [dotProduct_sub, sub_dotProduct]
    ring
  have h6 : ∑ f, (traceOf F u f - lambda f) ⬝ᵥ F.conormPsi f *ᵥ u = ∑ f, traceOf F u f ⬝ᵥ F.conormPsi f *ᵥ u - ∑ f, lambda f ⬝ᵥ F.conormPsi f *ᵥ u := by
    rw [← Finset.sum_sub_distrib]
    exact Finset.sum_congr rfl fun f _ => sub_dotProduct _ _ _
  rw [h5, h6]
  linear_combination h

theorem gap_nonneg {F : Form dim nS nB K} {C : K} (hF : Laws F C) (w : LocDofs dim nB K) : 0 ≤ ∑ f, F.area f * (w f ⬝ᵥ w f) :=
  Finset.sum_nonneg fun f _ => mul_nonneg (hF.area_pos f).le (Finset.sum_nonneg fun _ _ => mul_self_nonneg _)

/-- The form is nonpositive if the penalty is not too small. -/
theorem form_nonpos {F : Form dim nS nB K} {C : K} (hF : Laws F C) {tau : K} (ht : 0 ≤ tau) (hC : C ≤ 4 * tau) {lambda : LocDofs dim nB K} {u : Fin nS → K}
    (hu : IsSolution F tau (moments F lambda) 0 u) : ∑ f, lambda f ⬝ᵥ faceFlux F tau lambda u f ≤ 0 := by
  rw [energy hF hu]
  set a := u ⬝ᵥ F.stiff *ᵥ u
  set b := ∑ f, F.area f * ((traceOf F u f - lambda f) ⬝ᵥ (traceOf F u f - lambda f))
  set q := ∑ f, (traceOf F u f - lambda f) ⬝ᵥ F.conormPsi f *ᵥ u
  have hq : q ^ 2 ≤ C * a * b := hF.trace_ineq u (fun f => traceOf F u f - lambda f)
  have ha : 0 ≤ a := hF.energy_nonneg u
  have hb : 0 ≤ b := gap_nonneg hF (fun f => traceOf F u f - lambda f)
  have h1 : C * a * b ≤ 4 * tau * a * b := by
    have := mul_le_mul_of_nonneg_right hC (mul_nonneg ha hb)
    linarith [mul_assoc C a b, mul_assoc (4 * tau) a b]
  have h2 : q ≤ a + tau * b := by
    refine le_of_sq_le_sq ?_ (add_nonneg ha (mul_nonneg ht hb))
    nlinarith [sq_nonneg (a - tau * b)]
  linarith

/-- Where the form vanishes. -/
theorem form_zero {F : Form dim nS nB K} {C : K} (hF : Laws F C) {tau : K} (ht : 0 < tau) (hC : C < 4 * tau) {lambda : LocDofs dim nB K} {u : Fin nS → K}
    (hu : IsSolution F tau (moments F lambda) 0 u) (h : ∑ f, lambda f ⬝ᵥ faceFlux F tau lambda u f = 0) :
    u ⬝ᵥ F.stiff *ᵥ u = 0 ∧ ∀ f, IsTrace F u f (lambda f) := by
  rw [energy hF hu] at h
  have hq := hF.trace_ineq u (fun f => traceOf F u f - lambda f)
  have ha : 0 ≤ u ⬝ᵥ F.stiff *ᵥ u := hF.energy_nonneg u
  have hb := gap_nonneg hF (fun f => traceOf F u f - lambda f)
  generalize u ⬝ᵥ F.stiff *ᵥ u = a at *
  generalize hb' : ∑ f, F.area f * ((traceOf F u f - lambda f) ⬝ᵥ (traceOf F u f - lambda f)) = b at *
  generalize ∑ f, (traceOf F u f - lambda f) ⬝ᵥ F.conormPsi f *ᵥ u = q at *
  have e : q = a + tau * b := by linarith
  have h1 : (4 * tau - C) * (a * b) ≤ 0 := by
    have := sq_nonneg (a - tau * b)
    rw [e] at hq
    nlinarith
  have hab : a * b = 0 := le_antisymm (by
    by_contra hn
    have := mul_pos (sub_pos.mpr hC) (not_le.mp hn)
    linarith) (mul_nonneg ha hb)
  have h2 : (a + tau * b) ^ 2 ≤ 0 := by
    rw [← e]
    calc q ^ 2 ≤ C * a * b := hq
      _ = C * (a * b) := by ring
      _ = 0 := by rw [hab, mul_zero]
  have h3 : a + tau * b = 0 := pow_eq_zero_iff (two_ne_zero) |>.mp (le_antisymm h2 (sq_nonneg _))
  have htb := mul_nonneg ht.le hb
  have ha0 : a = 0 := by linarith
  have hb0 : b = 0 := (mul_eq_zero.mp (show tau * b = 0 by linarith)).resolve_left ht.ne'
  refine ⟨ha0, fun f => ?_⟩
  rw [hb0] at hb'
  have h4 := (Finset.sum_eq_zero_iff_of_nonneg (fun f _ => mul_nonneg (hF.area_pos f).le (Finset.sum_nonneg fun _ _ => mul_self_nonneg _))).mp hb' f (Finset.mem_univ f)
  have h5 := (mul_eq_zero.mp h4).resolve_left (hF.area_pos f).ne'
  have h6 : traceOf F u f - lambda f = 0 := by
    funext j
    exact mul_self_eq_zero.mp ((Finset.sum_eq_zero_iff_of_nonneg (fun _ _ => mul_self_nonneg _)).mp h5 j (Finset.mem_univ j))
  rw [IsTrace, ← sub_eq_zero.mp h6, traceOf, smul_smul, mul_inv_cancel₀ (hF.area_pos f).ne', one_smul]

theorem solvable_of {F : Form dim nS nB K} {C : K} (hF : Laws F C) {tau : K} (ht : 0 < tau) (hC : C < 4 * tau) : Solvable F tau := by
  intro u hu
  have h0 : moments F (0 : LocDofs dim nB K) = 0 := by funext f; simp [moments]
  have hu' : IsSolution F tau (moments F (0 : LocDofs dim nB K)) 0 u := by rw [h0]; exact hu
  obtain ⟨h1, h2⟩ := form_zero hF ht hC hu' (by simp)
  exact hF.unisolvent u h1 fun f => by simpa [IsTrace] using (h2 f).symm

end Energy

section OneD
variable [Field K]

/-- The fluxes as a function of the trace. -/
noncomputable def fluxMap (F : Form dim nS nB K) (tau : K) (lambda : LocDofs dim nB K) : LocDofs dim nB K :=
  faceFlux F tau lambda ((locMat F tau)⁻¹ *ᵥ (tau • ∑ f, moments F lambda f))

theorem fluxMap_comb (F : Form dim nS nB K) (tau a b : K) (x y : LocDofs dim nB K) : fluxMap F tau (a • x + b • y) = a • fluxMap F tau x + b • fluxMap F tau y := by
  unfold fluxMap
  rw [← faceFlux_comb, ← mulVec_smul, ← mulVec_smul, ← mulVec_add]
  congr 2
  simp only [moments_comb, Pi.add_apply, Pi.smul_apply, Finset.sum_add_distrib, ← Finset.smul_sum]
  module

theorem fluxMap_eq {F : Form dim nS nB K} {tau : K} (hs : Solvable F tau) {lambda : LocDofs dim nB K} {u : Fin nS → K} (hu : IsSolution F tau (moments F lambda) 0 u) :
    faceFlux F tau lambda u = fluxMap F tau lambda := by
  unfold fluxMap
  rw [isSolution_iff, add_zero] at hu
  rw [← hu, mulVec_mulVec, Matrix.nonsing_inv_mul _ ((Matrix.isUnit_iff_isUnit_det _).mp ((solvable_iff F tau).mpr hs)), one_mulVec]

theorem const_solution {F : Form dim nS nB K} {one : Fin nS → K} {oneF : Fin (2 * dim) → Fin nB → K} (h1 : IsOne F one oneF) (tau : K) :
    IsSolution F tau (moments F oneF) 0 one := by
  unfold IsSolution
  simp [h1.grad, h1.conorm, h1.bdr_one, moments]

theorem const_flux {F : Form dim nS nB K} {one : Fin nS → K} {oneF : Fin (2 * dim) → Fin nB → K} (h1 : IsOne F one oneF) (tau : K) : faceFlux F tau oneF one = 0 := by
  funext f
  simp only [faceFlux, h1.conormPsi]
  rw [← h1.trace f]
  simp

/-- On hyperedges of dimension 1 the bilinear form is symmetric. -/
theorem symm_1d {F : Form 1 nS 1 K} {one : Fin nS → K} {oneF : Fin (2 * 1) → Fin 1 → K} (h1 : IsOne F one oneF) (hne : ∀ f, oneF f 0 ≠ 0) {tau : K} (hs : Solvable F tau)
    (x y : LocDofs 1 1 K) : ∑ f, x f ⬝ᵥ fluxMap F tau y f = ∑ f, y f ⬝ᵥ fluxMap F tau x f := by
  have hc : fluxMap F tau oneF = 0 := by rw [← fluxMap_eq hs (const_solution h1 tau), const_flux h1]
  have hsol : ∀ z : LocDofs 1 1 K, IsSolution F tau (moments F z + 0) 0 ((locMat F tau)⁻¹ *ᵥ (tau • ∑ f, moments F z f)) := fun z => by
    rw [isSolution_iff, mulVec_mulVec, Matrix.mul_nonsing_inv _ ((Matrix.isUnit_iff_isUnit_det _).mp ((solvable_iff F tau).mpr hs)), one_mulVec]
    simp
  have hcons : ∀ z : LocDofs 1 1 K, ∑ f, oneF f ⬝ᵥ fluxMap F tau z f = 0 := fun z => (conservation h1 tau (hsol z)).trans (by simp)
  -- the part of a trace which is not a multiple of 1
  let e : LocDofs 1 1 K := fun f _ => if f = 0 then 1 else 0
  have hdec : ∀ z : LocDofs 1 1 K, z = (z 1 0 / oneF 1 0) • oneF + (z 0 0 - z 1 0 / oneF 1 0 * oneF 0 0) • e := by
    intro z
    funext f j
    have hj : j = 0 := Subsingleton.elim _ _
    subst hj
    have hf : f = 0 ∨ f = 1 := (by decide : ∀ f : Fin (2 * 1), f = 0 ∨ f = 1) f
    rcases hf with rfl | rfl
    · simp [e]
    · simp [e, div_mul_cancel₀ _ (hne 1)]
  have hflux : ∀ z : LocDofs 1 1 K, fluxMap F tau z = (z 0 0 - z 1 0 / oneF 1 0 * oneF 0 0) • fluxMap F tau e := fun z => by
    conv_lhs => rw [hdec z]
    rw [fluxMap_comb, hc, smul_zero, zero_add]
  have hform : ∀ z w : LocDofs 1 1 K, ∑ f, z f ⬝ᵥ fluxMap F tau w f =
      (z 0 0 - z 1 0 / oneF 1 0 * oneF 0 0) * (w 0 0 - w 1 0 / oneF 1 0 * oneF 0 0) * ∑ f, e f ⬝ᵥ fluxMap F tau e f := by
    intro z w
    rw [hflux w]
    conv_lhs => rw [hdec z]
    simp only [Pi.add_apply, Pi.smul_apply, add_dotProduct, smul_dotProduct, dotProduct_smul, smul_eq_mul, Finset.sum_add_distrib, ← Finset.mul_sum, hcons]
    ring
  rw [hform x y, hform y x]
  ring

end OneD

end HyperHDG.DiffusionIP

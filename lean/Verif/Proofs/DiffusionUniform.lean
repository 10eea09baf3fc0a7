import Verif.Model.DiffusionUniform
import Verif.Spec.LocalSolver
import Verif.Spec.Lapack
import Verif.Proofs.Accumulate
import Verif.Proofs.Lapack
import Mathlib.LinearAlgebra.Matrix.NonsingularInverse
import Mathlib.LinearAlgebra.Matrix.ToLin
import Mathlib.Tactic.LinearCombination
import Mathlib.Tactic.Ring
import Mathlib.Tactic.Linarith

/-!
# Lemmas about the local solver for diffusion with unit coefficients
-/

set_option linter.unusedSectionVars false
set_option linter.unusedVariables false

namespace HyperHDG

open Spec Finset

namespace DiffusionUniform

variable {K : Type} {dim nS nB : Nat}

section Assembly

variable [CommRing K]

/-- Entries of the local matrix, by blocks. -/
def locEntry (I : Integrator K) (tau : K) (b c : Fin (dim + 1)) (i j : Nat) : K :=
  if b.1 < dim then
    if c.1 < dim then if b = c then I.vol_phiphi i j else 0
    else -I.vol_Dphiphi i j b
  else
    if c.1 < dim then -I.vol_Dphiphi i j c + I.bdr_phiphi i j (2 * c + 1) - I.bdr_phiphi i j (2 * c)
    else ∑ d : Fin dim, tau * (I.bdr_phiphi i j (2 * d) + I.bdr_phiphi i j (2 * d + 1))

/-- What one iteration over `i`, `j` adds. -/
def locAdd (I : Integrator K) (tau : K) (i j : Fin nS) : SmallMat ((dim + 1) * nS) ((dim + 1) * nS) K :=
  (∑ d : Fin dim, singleMat (ix d.castSucc i) (ix d.castSucc j) (I.vol_phiphi i j)) +
  ∑ d : Fin dim, (singleMat (ix (Fin.last dim) i) (ix d.castSucc j) (-I.vol_Dphiphi i j d) +
    singleMat (ix d.castSucc i) (ix (Fin.last dim) j) (-I.vol_Dphiphi i j d) +
    singleMat (ix (Fin.last dim) i) (ix d.castSucc j) (I.bdr_phiphi i j (2 * d + 1)) +
    singleMat (ix (Fin.last dim) i) (ix (Fin.last dim) j) (tau * I.bdr_phiphi i j (2 * d + 1)) +
    singleMat (ix (Fin.last dim) i) (ix d.castSucc j) (-I.bdr_phiphi i j (2 * d)) +
    singleMat (ix (Fin.last dim) i) (ix (Fin.last dim) j) (tau * I.bdr_phiphi i j (2 * d)))

theorem locMatrixStep_eq (m : Mode) (I : Integrator K) (tau : K) (i j : Fin nS) (M : SmallMat ((dim + 1) * nS) ((dim + 1) * nS) K) :
    locMatrixStep m I dim nS tau i j M = .ok (M + locAdd I tau i j) := by
  have hl : ∀ i : Fin nS, dim * nS + i < (dim + 1) * nS := fun i => ix_lt (Nat.lt_succ_self dim) i.2
  have hd : ∀ (d : Fin dim) (i : Fin nS), d * nS + i < (dim + 1) * nS := fun d i => ix_lt (Nat.lt_succ_of_lt d.2) i.2
  unfold locMatrixStep
  rw [forUp_add dim _ (fun d => singleMat (ix d.castSucc i) (ix d.castSucc j) (I.vol_phiphi i j))
    (fun d M => addAt_single m M (hd d i) (hd d j) _), Res.ok_bind]
  rw [forUp_add dim _ (fun d => (singleMat (ix (Fin.last dim) i) (ix d.castSucc j) (-I.vol_Dphiphi i j d) +
    singleMat (ix d.castSucc i) (ix (Fin.last dim) j) (-I.vol_Dphiphi i j d) +
    singleMat (ix (Fin.last dim) i) (ix d.castSucc j) (I.bdr_phiphi i j (2 * d + 1)) +
    singleMat (ix (Fin.last dim) i) (ix (Fin.last dim) j) (tau * I.bdr_phiphi i j (2 * d + 1)) +
    singleMat (ix (Fin.last dim) i) (ix d.castSucc j) (-I.bdr_phiphi i j (2 * d)) +
    singleMat (ix (Fin.last dim) i) (ix (Fin.last dim) j) (tau * I.bdr_phiphi i j (2 * d))))]
  · rw [add_assoc]; rfl
  · intro d M
    dsimp only
    rw [subAt_single m M (hl i) (hd d j), Res.ok_bind, subAt_single m _ (hd d i) (hl j), Res.ok_bind,
      addAt_single m _ (hl i) (hd d j), Res.ok_bind, addAt_single m _ (hl i) (hl j), Res.ok_bind,
      subAt_single m _ (hl i) (hd d j), Res.ok_bind, addAt_single m _ (hl i) (hl j)]
    refine congrArg Res.ok ?_
    simp only [← add_assoc]
    rfl

theorem sum_ite_fin {n : Nat} {V : Type} [AddCommMonoid V] (i' j' : Fin n) (g : Fin n → Fin n → V) :
    (∑ i, ∑ j, if i' = i ∧ j' = j then g i j else 0) = g i' j' := by
  rw [Finset.sum_eq_single i', Finset.sum_eq_single j']
  · simp
  · intro j _ h; rw [if_neg]; rintro ⟨_, rfl⟩; exact h rfl
  · simp
  · intro i _ h; refine Finset.sum_eq_zero fun j _ => ?_
    rw [if_neg]; rintro ⟨rfl, _⟩; exact h rfl
  · simp

theorem toMat_locAdd (I : Integrator K) (tau : K) (i j : Fin nS) (b c : Fin (dim + 1)) (i' j' : Fin nS) :
    toMat (locAdd (dim := dim) I tau i j) (ix b i') (ix c j') = if i' = i ∧ j' = j then locEntry I tau b c i j else 0 := by
  unfold locAdd
  simp only [toMat_add, Matrix.add_apply, toMat_sum, toMat_singleMat, ix_inj]
  by_cases h : i' = i ∧ j' = j
  · obtain ⟨rfl, rfl⟩ := h
    unfold locEntry
    induction b using Fin.lastCases with
    | last =>
      induction c using Fin.lastCases with
      | last =>
        have h1 : ∀ d : Fin dim, Fin.last dim ≠ d.castSucc := fun d => (Fin.castSucc_ne_last d).symm
        simp [h1]
        refine Finset.sum_congr rfl fun d _ => ?_
        ring
      | cast c =>
        have h1 : ∀ d : Fin dim, Fin.last dim ≠ d.castSucc := fun d => (Fin.castSucc_ne_last d).symm
        have h2 : ∀ d : Fin dim, d.castSucc ≠ Fin.last dim := fun d => (Fin.castSucc_ne_last d)
        simp [h1, h2, Finset.sum_add_distrib]
        ring
    | cast b =>
      induction c using Fin.lastCases with
      | last =>
        have h1 : ∀ d : Fin dim, Fin.last dim ≠ d.castSucc := fun d => (Fin.castSucc_ne_last d).symm
        have h2 : ∀ d : Fin dim, d.castSucc ≠ Fin.last dim := fun d => (Fin.castSucc_ne_last d)
        simp [h1, h2]
      | cast c =>
        have h2 : ∀ d : Fin dim, d.castSucc ≠ Fin.last dim := fun d => (Fin.castSucc_ne_last d)
        simp [h2]
        by_cases hbc : b = c
        · subst hbc; simp
        · rw [if_neg hbc]
          refine Finset.sum_eq_zero fun d _ => ?_
          rw [if_neg]; rintro ⟨rfl, rfl⟩; exact hbc rfl
  · rw [if_neg h]
    have : ∀ x y : Fin (dim + 1), ∀ x' y' : Fin (dim + 1), ¬ ((x = x' ∧ i' = i) ∧ y = y' ∧ j' = j) := fun x y x' y' hh => h ⟨hh.1.2, hh.2.2⟩
    simp [this]

theorem assemble_loc_matrix_spec (m : Mode) (I : Integrator K) (tau : K) :
    ∃ A, assemble_loc_matrix m I dim nS tau = .ok A ∧
      ∀ b i c j, toMat A (ix b i) (ix c j) = locEntry I tau b c i j := by
  refine ⟨_, forUp_add nS _ (fun i => ∑ j, locAdd I tau i j) (fun i M => forUp_add nS _ (fun j => locAdd I tau i j)
    (fun j M => locMatrixStep_eq m I tau i j M) M) _, fun b i c j => ?_⟩
  rw [toMat_add, Matrix.add_apply, toMat_sum]
  simp only [toMat_sum, toMat_locAdd]
  rw [sum_ite_fin]
  show (0 : K) + _ = _
  rw [zero_add]

/-- The right-hand side, by blocks. -/
def rhsEntry (I : Integrator K) (tau : K) (lambda : LocDofs dim nB K) (b : Fin (dim + 1)) (i : Nat) : K :=
  if h : b.1 < dim then
    ∑ j : Fin nB, (lambda (lowFace ⟨b, h⟩) j * I.bdr_phipsi i j (2 * b) - lambda (highFace ⟨b, h⟩) j * I.bdr_phipsi i j (2 * b + 1))
  else ∑ j : Fin nB, ∑ d : Fin dim, tau * (lambda (lowFace d) j * I.bdr_phipsi i j (2 * d) + lambda (highFace d) j * I.bdr_phipsi i j (2 * d + 1))

theorem assemble_rhs_spec (m : Mode) (I : Integrator K) (tau : K) (lambda : LocDofs dim nB K) :
    ∃ v, assemble_rhs m I nS tau lambda = .ok v ∧ ∀ (b : Fin (dim + 1)) (i : Fin nS), toMat v (ix b i) 0 = rhsEntry I tau lambda b i := by
  have hl : ∀ i : Fin nS, dim * nS + i < (dim + 1) * nS := fun i => ix_lt (Nat.lt_succ_self dim) i.2
  have hd : ∀ (d : Fin dim) (i : Fin nS), d * nS + i < (dim + 1) * nS := fun d i => ix_lt (Nat.lt_succ_of_lt d.2) i.2
  let G : Fin nS → Fin nB → Fin dim → SmallVec ((dim + 1) * nS) K := fun i j d =>
    singleMat (ix d.castSucc i) 0 (lambda (lowFace d) j * I.bdr_phipsi i j (2 * d)) +
    singleMat (ix (Fin.last dim) i) 0 (tau * lambda (lowFace d) j * I.bdr_phipsi i j (2 * d)) +
    singleMat (ix d.castSucc i) 0 (-(lambda (highFace d) j * I.bdr_phipsi i j (2 * d + 1))) +
    singleMat (ix (Fin.last dim) i) 0 (tau * lambda (highFace d) j * I.bdr_phipsi i j (2 * d + 1))
  refine ⟨_, forUp_add nS _ (fun i => ∑ j, ∑ d, G i j d) (fun i M => forUp_add nB _ (fun j => ∑ d, G i j d)
    (fun j M => forUp_add dim _ (fun d => G i j d) (fun d v => ?_) M) M) _, fun b i => ?_⟩
  · dsimp only
    rw [arrGet2_lt lambda (low_lt d) j.2, Res.ok_bind, addTo_single m _ (hd d i), Res.ok_bind, addTo_single m _ (hl i), Res.ok_bind,
      arrGet2_lt lambda (high_lt d) j.2, Res.ok_bind, subFrom_single m _ (hd d i), Res.ok_bind, addTo_single m _ (hl i)]
    refine congrArg Res.ok ?_
    simp only [G, ← add_assoc]
    rfl
  · rw [toMat_add, Matrix.add_apply]
    simp only [toMat_sum]
    show (0 : K) + _ = _
    rw [zero_add]
    simp only [G, toMat_add, Matrix.add_apply, toMat_singleMat, ix_inj, and_true]
    rw [Finset.sum_eq_single i]
    · unfold rhsEntry
      induction b using Fin.lastCases with
      | last =>
        have h1 : ∀ d : Fin dim, Fin.last dim ≠ d.castSucc := fun d => (Fin.castSucc_ne_last d).symm
        simp [h1]
        refine Finset.sum_congr rfl fun j _ => Finset.sum_congr rfl fun d _ => ?_
        ring
      | cast b =>
        have h2 : ∀ d : Fin dim, d.castSucc ≠ Fin.last dim := fun d => (Fin.castSucc_ne_last d)
        simp [h2]
        rw [← Finset.sum_sub_distrib]
        refine Finset.sum_congr rfl fun j _ => ?_
        simp [Finset.sum_add_distrib]
        ring
    · intro i' _ h
      refine Finset.sum_eq_zero fun j _ => Finset.sum_eq_zero fun d _ => ?_
      have : i ≠ i' := fun h' => h h'.symm
      simp [this]
    · simp

omit [CommRing K] in
theorem coeffs_get {N : Nat} (x : SmallVec N K) {i : Nat} (h : i < N) : arrGet x i = .ok (toMat x ⟨i, h⟩ 0) := by
  rw [arrGet_lt x (show i < N * 1 by omega)]
  simp [toMat, pos]

/-- Generic form of the loops of `primal_at_boundary` and `dual_at_boundary`. -/
theorem bdr_loop (lo hi : Fin nS → Fin nB → Fin dim → K) (f : Nat → Nat → Nat → LocDofs dim nB K → Res (LocDofs dim nB K))
    (hf : ∀ (i : Fin nS) (j : Fin nB) (d : Fin dim) b, f i j d b = .ok (b + single2 (lowFace d) j (lo i j d) + single2 (highFace d) j (hi i j d))) :
    ∃ b, forUp nS (fun i b => forUp nB (fun j b => forUp dim (fun d b => f i j d b) b) b) (fun _ _ => 0) = .ok b ∧
      ∀ d j, b (lowFace d) j = ∑ i, lo i j d ∧ b (highFace d) j = ∑ i, hi i j d := by
  refine ⟨_, forUp_add nS _ (fun i => ∑ j, ∑ d, (single2 (lowFace d) j (lo i j d) + single2 (highFace d) j (hi i j d)))
    (fun i M => forUp_add nB _ (fun j => ∑ d, (single2 (lowFace d) j (lo i j d) + single2 (highFace d) j (hi i j d)))
    (fun j M => forUp_add dim _ (fun d => (single2 (lowFace d) j (lo i j d) + single2 (highFace d) j (hi i j d))) (fun d v => ?_) M) M) _,
    fun d j => ?_⟩
  · rw [hf, add_assoc]
  · constructor
    · simp only [Pi.add_apply, Finset.sum_apply, single2, zero_add, lowFace_inj, low_ne_high, false_and, if_false, add_zero]
      refine Finset.sum_congr rfl fun i _ => ?_
      rw [Finset.sum_eq_single j, Finset.sum_eq_single d] <;> simp +contextual [eq_comm]
    · simp only [Pi.add_apply, Finset.sum_apply, single2, zero_add, highFace_inj, high_ne_low, false_and, if_false, zero_add]
      refine Finset.sum_congr rfl fun i _ => ?_
      rw [Finset.sum_eq_single j, Finset.sum_eq_single d] <;> simp +contextual [eq_comm]

theorem primal_spec (I : Integrator K) (x : SmallVec ((dim + 1) * nS) K) :
    ∃ b, primal_at_boundary I dim nS nB x = .ok b ∧
      ∀ (f : Fin (2 * dim)) j, b f j = ∑ i : Fin nS, toMat x (ix (Fin.last dim) i) 0 * I.bdr_phipsi i j f := by
  have hl : ∀ i : Fin nS, dim * nS + i < (dim + 1) * nS := fun i => ix_lt (Nat.lt_succ_self dim) i.2
  obtain ⟨b, h1, h2⟩ := bdr_loop (nS := nS) (nB := nB) (dim := dim) (fun i j d => toMat x (ix (Fin.last dim) i) 0 * I.bdr_phipsi i j (2 * d + 0))
    (fun i j d => toMat x (ix (Fin.last dim) i) 0 * I.bdr_phipsi i j (2 * d + 1)) (fun i j d (b : LocDofs dim nB K) => do
    let integral := I.bdr_phipsi i j (2 * d + 0)
    let x0 ← arrGet x (dim * nS + i)
    let b ← arrAdd2 (2 * d + 0) j (x0 * integral) b
    let integral := I.bdr_phipsi i j (2 * d + 1)
    let x0 ← arrGet x (dim * nS + i)
    arrAdd2 (2 * d + 1) j (x0 * integral) b) (fun i j d b => by
      dsimp only
      rw [coeffs_get x (hl i), Res.ok_bind, arrAdd2_lt _ (low_lt d) j.2, Res.ok_bind, Res.ok_bind, arrAdd2_lt _ (high_lt d) j.2]
      rfl)
  refine ⟨b, h1, fun f j => ?_⟩
  obtain ⟨d, rfl | rfl⟩ := face_cases f
  · rw [(h2 d j).1]; rfl
  · rw [(h2 d j).2]; rfl

theorem dual_spec (I : Integrator K) (x : SmallVec ((dim + 1) * nS) K) :
    ∃ b, dual_at_boundary I dim nS nB x = .ok b ∧
      ∀ (f : Fin (2 * dim)) j, b f j = ∑ i : Fin nS, normal f * (toMat x (ix (axis f).castSucc i) 0 * I.bdr_phipsi i j f) := by
  have hd : ∀ (d : Fin dim) (i : Fin nS), d * nS + i < (dim + 1) * nS := fun d i => ix_lt (Nat.lt_succ_of_lt d.2) i.2
  obtain ⟨b, h1, h2⟩ := bdr_loop (nS := nS) (nB := nB) (dim := dim) (fun i j d => -(toMat x (ix d.castSucc i) 0 * I.bdr_phipsi i j (2 * d + 0)))
    (fun i j d => toMat x (ix d.castSucc i) 0 * I.bdr_phipsi i j (2 * d + 1)) (fun i j d (b : LocDofs dim nB K) => do
    let integral := I.bdr_phipsi i j (2 * d + 0)
    let x0 ← arrGet x (d * nS + i)
    let b ← arrSub2 (2 * d + 0) j (x0 * integral) b
    let integral := I.bdr_phipsi i j (2 * d + 1)
    let x0 ← arrGet x (d * nS + i)
    arrAdd2 (2 * d + 1) j (x0 * integral) b) (fun i j d b => by
      dsimp only
      rw [coeffs_get x (hd d i), Res.ok_bind, arrSub2_lt _ (low_lt d) j.2, Res.ok_bind, Res.ok_bind, arrAdd2_lt _ (high_lt d) j.2]
      rfl)
  refine ⟨b, h1, fun f j => ?_⟩
  obtain ⟨d, rfl | rfl⟩ := face_cases f
  · rw [(h2 d j).1]
    have ha : axis (lowFace d) = d := Fin.ext (by simp [axis, lowFace])
    have hn : normal (K := K) (lowFace d) = -1 := by simp [normal, lowFace]
    rw [ha, hn]
    simp [lowFace]
  · rw [(h2 d j).2]
    have ha : axis (highFace d) = d := Fin.ext (by simp only [axis, highFace]; omega)
    have hn : normal (K := K) (highFace d) = 1 := by simp [normal, highFace, Nat.add_mod]
    rw [ha, hn]
    simp [highFace]

/-! ## The linear system is the local problem -/

theorem axis_low (d : Fin dim) : axis (lowFace d) = d := Fin.ext (by simp [axis, lowFace])
theorem axis_high (d : Fin dim) : axis (highFace d) = d := Fin.ext (by simp only [axis, highFace]; omega)
theorem normal_low (d : Fin dim) : normal (K := K) (lowFace d) = -1 := by simp [normal, lowFace]
theorem normal_high (d : Fin dim) : normal (K := K) (highFace d) = 1 := by simp [normal, highFace, Nat.add_mod]

/-- The components of a solution vector. -/
def qOf (x : Matrix (Fin ((dim + 1) * nS)) (Fin 1) K) : Fin dim → Fin nS → K := fun d j => x (ix d.castSucc j) 0
def uOf (x : Matrix (Fin ((dim + 1) * nS)) (Fin 1) K) : Fin nS → K := fun j => x (ix (Fin.last dim) j) 0

/-- The solution vector with given components. -/
def packQU (q : Fin dim → Fin nS → K) (u : Fin nS → K) : Matrix (Fin ((dim + 1) * nS)) (Fin 1) K := Matrix.of fun k _ =>
  if h : k / nS < dim then q ⟨k / nS, h⟩ ⟨k % nS, Nat.mod_lt _ (Nat.pos_of_ne_zero (by rintro rfl; simpa using k.2))⟩
  else u ⟨k % nS, Nat.mod_lt _ (Nat.pos_of_ne_zero (by rintro rfl; simpa using k.2))⟩

theorem ix_div (b : Fin (dim + 1)) (i : Fin nS) : (ix b i).1 / nS = b := by
  have hn : 0 < nS := Nat.lt_of_le_of_lt (Nat.zero_le _) i.2
  simp only [ix]
  rw [Nat.mul_comm, Nat.mul_add_div hn, Nat.div_eq_of_lt i.2, Nat.add_zero]

theorem ix_mod (b : Fin (dim + 1)) (i : Fin nS) : (ix b i).1 % nS = i := by
  simp only [ix]
  rw [Nat.mul_comm, Nat.mul_add_mod, Nat.mod_eq_of_lt i.2]

omit [CommRing K] in
theorem qOf_pack (q : Fin dim → Fin nS → K) (u : Fin nS → K) : qOf (packQU q u) = q := by
  funext d j
  simp [qOf, packQU, ix_div, ix_mod]

omit [CommRing K] in
theorem uOf_pack (q : Fin dim → Fin nS → K) (u : Fin nS → K) : uOf (packQU q u) = u := by
  funext j
  simp [uOf, packQU, ix_div, ix_mod]

omit [CommRing K] in
theorem ext_of {x y : Matrix (Fin ((dim + 1) * nS)) (Fin 1) K} (hq : qOf x = qOf y) (hu : uOf x = uOf y) : x = y := by
  funext k l
  obtain ⟨b, i, rfl⟩ := ix_surj k
  obtain rfl : l = 0 := Subsingleton.elim _ _
  induction b using Fin.lastCases with
  | last => exact congrFun hu i
  | cast d => exact congrFun (congrFun hq d) i

theorem system_iff (I : Integrator K) (tau : K) (lambda : LocDofs dim nB K)
    (A : Matrix (Fin ((dim + 1) * nS)) (Fin ((dim + 1) * nS)) K) (hA : ∀ b i c j, A (ix b i) (ix c j) = locEntry I tau b c i j)
    (v : Matrix (Fin ((dim + 1) * nS)) (Fin 1) K) (hv : ∀ b i, v (ix b i) 0 = rhsEntry I tau lambda b i)
    (x : Matrix (Fin ((dim + 1) * nS)) (Fin 1) K) :
    A * x = v ↔ IsLocalSolution I tau lambda (qOf x) (uOf x) := by
  have hrow : ∀ (b : Fin (dim + 1)) (i : Fin nS), (A * x) (ix b i) 0 = (∑ c : Fin dim, ∑ j : Fin nS, locEntry I tau b c.castSucc i j * qOf x c j) +
      ∑ j : Fin nS, locEntry I tau b (Fin.last dim) i j * uOf x j := by
    intro b i
    rw [Matrix.mul_apply, sum_ix]
    simp only [hA]
    rw [Fin.sum_univ_castSucc]
    rfl
  have hflux : ∀ (d : Fin dim) (i : Fin nS), (A * x) (ix d.castSucc i) 0 = v (ix d.castSucc i) 0 ↔
      (∑ j : Fin nS, I.vol_phiphi i j * qOf x d j) - (∑ j : Fin nS, I.vol_Dphiphi i j d * uOf x j) +
      (∑ f : Fin (2 * dim), if axis f = d then ∑ j : Fin nB, normal f * (I.bdr_phipsi i j f * lambda f j) else 0) = 0 := by
    intro d i
    rw [hrow, hv, sum_faces]
    simp only [axis_low, axis_high, normal_low, normal_high]
    have h1 : (∑ c : Fin dim, ∑ j : Fin nS, locEntry I tau d.castSucc c.castSucc i j * qOf x c j) = ∑ j : Fin nS, I.vol_phiphi i j * qOf x d j := by
      rw [Finset.sum_eq_single d]
      · simp [locEntry]
      · intro c _ hc
        refine Finset.sum_eq_zero fun j _ => ?_
        simp [locEntry, Ne.symm hc]
      · simp
    have h2 : (∑ j : Fin nS, locEntry I tau d.castSucc (Fin.last dim) i j * uOf x j) = -(∑ j : Fin nS, I.vol_Dphiphi i j d * uOf x j) := by
      simp [locEntry]
    have h3 : (∑ e : Fin dim, ((if e = d then ∑ j : Fin nB, (-1 : K) * (I.bdr_phipsi i j (lowFace e) * lambda (lowFace e) j) else 0) +
        (if e = d then ∑ j : Fin nB, (1 : K) * (I.bdr_phipsi i j (highFace e) * lambda (highFace e) j) else 0))) = - rhsEntry I tau lambda d.castSucc i := by
      rw [Finset.sum_add_distrib, Finset.sum_ite_eq', Finset.sum_ite_eq', if_pos (Finset.mem_univ _), if_pos (Finset.mem_univ _)]
      simp only [rhsEntry, Fin.val_castSucc, d.2, dif_pos]
      rw [← Finset.sum_add_distrib, ← Finset.sum_neg_distrib]
      refine Finset.sum_congr rfl fun j _ => ?_
      simp only [lowFace, highFace]
      ring_nf
    rw [h1, h2, h3, ← sub_eq_zero]
    simp only [sub_eq_add_neg]
  have hprimal : ∀ i : Fin nS, (A * x) (ix (Fin.last dim) i) 0 = v (ix (Fin.last dim) i) 0 ↔
      -(∑ d : Fin dim, ∑ j : Fin nS, I.vol_Dphiphi i j d * qOf x d j) +
      (∑ f : Fin (2 * dim), ((∑ j : Fin nS, I.bdr_phiphi i j f * (normal f * qOf x (axis f) j + tau * uOf x j)) -
        ∑ j : Fin nB, tau * (I.bdr_phipsi i j f * lambda f j))) = 0 := by
    intro i
    rw [hrow, hv, sum_faces]
    simp only [axis_low, axis_high, normal_low, normal_high]
    have h1 : (∑ c : Fin dim, ∑ j : Fin nS, locEntry I tau (Fin.last dim) c.castSucc i j * qOf x c j) +
      (∑ j : Fin nS, locEntry I tau (Fin.last dim) (Fin.last dim) i j * uOf x j) =
      -(∑ d : Fin dim, ∑ j : Fin nS, I.vol_Dphiphi i j d * qOf x d j) + ∑ d : Fin dim, (
        (∑ j : Fin nS, I.bdr_phiphi i j (lowFace d) * (-1 * qOf x d j + tau * uOf x j)) +
        (∑ j : Fin nS, I.bdr_phiphi i j (highFace d) * (1 * qOf x d j + tau * uOf x j))) := by
      have : (∑ j : Fin nS, locEntry I tau (Fin.last dim) (Fin.last dim) i j * uOf x j) =
          ∑ d : Fin dim, ∑ j : Fin nS, tau * (I.bdr_phiphi i j (2 * d) + I.bdr_phiphi i j (2 * d + 1)) * uOf x j := by
        rw [Finset.sum_comm]
        refine Finset.sum_congr rfl fun j _ => ?_
        simp [locEntry, Finset.sum_mul]
      rw [this, ← Finset.sum_neg_distrib, ← Finset.sum_add_distrib, ← Finset.sum_add_distrib]
      refine Finset.sum_congr rfl fun d _ => ?_
      rw [← Finset.sum_neg_distrib, ← Finset.sum_add_distrib, ← Finset.sum_add_distrib, ← Finset.sum_add_distrib]
      refine Finset.sum_congr rfl fun j _ => ?_
      simp [locEntry, lowFace, highFace]
      ring
    have h2 : rhsEntry I tau lambda (Fin.last dim) i = ∑ d : Fin dim, ((∑ j : Fin nB, tau * (I.bdr_phipsi i j (lowFace d) * lambda (lowFace d) j)) +
        ∑ j : Fin nB, tau * (I.bdr_phipsi i j (highFace d) * lambda (highFace d) j)) := by
      simp only [rhsEntry, Fin.val_last, lt_irrefl, dif_neg, not_false_eq_true]
      rw [Finset.sum_comm]
      refine Finset.sum_congr rfl fun d _ => ?_
      rw [← Finset.sum_add_distrib]
      refine Finset.sum_congr rfl fun j _ => ?_
      simp only [lowFace, highFace]
      ring_nf
    rw [h1, h2, ← sub_eq_zero]
    have h3 : ∀ a : K, ∀ f g f' g' : Fin dim → K, -a + ∑ d, (f d + g d) - ∑ d, (f' d + g' d) = -a + ∑ d, (f d - f' d + (g d - g' d)) := by
      intro a f g f' g'
      simp only [Finset.sum_add_distrib, Finset.sum_sub_distrib]
      ring
    rw [h3]
  constructor
  · intro h
    exact ⟨fun d i => (hflux d i).mp (congrFun (congrFun h _) _), fun i => (hprimal i).mp (congrFun (congrFun h _) _)⟩
  · rintro ⟨h1, h2⟩
    funext k l
    obtain ⟨b, i, rfl⟩ := ix_surj k
    obtain rfl : l = 0 := Subsingleton.elim _ _
    induction b using Fin.lastCases with
    | last => exact (hprimal i).mpr (h2 i)
    | cast d => exact (hflux d i).mpr (h1 d i)

end Assembly

section Solve

variable [Field K]

theorem isUnit_iff (I : Integrator K) (tau : K) (nB : Nat)
    (A : Matrix (Fin ((dim + 1) * nS)) (Fin ((dim + 1) * nS)) K) (hA : ∀ b i c j, A (ix b i) (ix c j) = locEntry I tau b c i j) :
    IsUnit A ↔ LocallySolvable I dim nS nB tau := by
  constructor
  · intro hu lambda
    obtain ⟨v, -, hv⟩ := assemble_rhs_spec (nS := nS) .release I tau lambda
    have hinv := Matrix.mul_nonsing_inv A ((Matrix.isUnit_iff_isUnit_det _).mp hu)
    have hinv' := Matrix.nonsing_inv_mul A ((Matrix.isUnit_iff_isUnit_det _).mp hu)
    refine ⟨_, _, (system_iff I tau lambda A hA (toMat v) hv (A⁻¹ * toMat v)).mp (by rw [← Matrix.mul_assoc, hinv, Matrix.one_mul]), ?_⟩
    intro q' u' h
    rw [← qOf_pack q' u', ← uOf_pack q' u'] at h
    have h' := (system_iff I tau lambda A hA (toMat v) hv (packQU q' u')).mpr (by simpa only [qOf_pack, uOf_pack] using h)
    have : packQU q' u' = A⁻¹ * toMat v := by rw [← h', ← Matrix.mul_assoc, hinv', Matrix.one_mul]
    rw [← this, qOf_pack, uOf_pack]
    exact ⟨rfl, rfl⟩
  · intro h
    rw [← Matrix.mulVec_injective_iff_isUnit]
    obtain ⟨q, u, -, huniq⟩ := h 0
    have hv : ∀ (b : Fin (dim + 1)) (i : Fin nS), (0 : Matrix (Fin ((dim + 1) * nS)) (Fin 1) K) (ix b i) 0 = rhsEntry I tau (0 : LocDofs dim nB K) b i := by
      intro b i
      simp [rhsEntry]
    have key : ∀ w : Fin ((dim + 1) * nS) → K, A.mulVec w = 0 → qOf (Matrix.of fun k (_ : Fin 1) => w k) = q ∧ uOf (Matrix.of fun k (_ : Fin 1) => w k) = u := by
      intro w hw
      refine huniq _ _ ((system_iff I tau 0 A hA 0 hv _).mp ?_)
      funext k l
      exact congrFun hw k
    intro x y hxy
    have h0 := key 0 (Matrix.mulVec_zero A)
    have h1 := key (x - y) (by rw [Matrix.mulVec_sub]; exact sub_eq_zero.mpr hxy)
    have h2 := ext_of (h1.1.trans h0.1.symm) (h1.2.trans h0.2.symm)
    have h3 : x - y = 0 := by
      funext k
      exact congrFun (congrFun h2 k) 0
    exact sub_eq_zero.mp h3

theorem forFin_set2 (g v : LocDofs dim nB K) :
    forFin (2 * dim) (fun i out => forFin nB (fun j (out : LocDofs dim nB K) => .ok (arrSet out i (arrSet (out i) j (g i j)))) out) v = .ok g := by
  have inner : ∀ (i : Fin (2 * dim)) (out : LocDofs dim nB K),
      forFin nB (fun j (out : LocDofs dim nB K) => .ok (arrSet out i (arrSet (out i) j (g i j)))) out = .ok (arrSet out i (g i)) := by
    intro i out
    obtain ⟨o, h1, h2, h3⟩ := forFin_inv nB (fun j (out : LocDofs dim nB K) => .ok (arrSet out i (arrSet (out i) j (g i j)))) out
      (fun k o => (∀ a, a ≠ i → o a = out a) ∧ ∀ j : Fin nB, j.1 < k → o i j = g i j) ⟨fun _ _ => rfl, fun j hj => absurd hj (Nat.not_lt_zero _)⟩
      (fun k o ho => ⟨_, rfl, fun a ha => by simp [arrSet, ha, ho.1 a ha], fun j hj => by
        by_cases hjk : j = k
        · subst hjk; simp [arrSet]
        · simp only [arrSet, if_true, if_neg hjk]
          exact ho.2 j (by have : j.1 ≠ k.1 := fun h => hjk (Fin.ext h); omega)⟩)
    rw [h1]
    refine congrArg Res.ok ?_
    funext a
    by_cases ha : a = i
    · subst ha; funext j; simp [arrSet, h3 j j.2]
    · simp [arrSet, ha, h2 a ha]
  obtain ⟨o, h1, h2⟩ := forFin_inv (2 * dim) (fun i out => forFin nB (fun j (out : LocDofs dim nB K) => .ok (arrSet out i (arrSet (out i) j (g i j)))) out) v
    (fun k o => ∀ a : Fin (2 * dim), a.1 < k → o a = g a) (fun a ha => absurd ha (Nat.not_lt_zero _))
    (fun k o ho => ⟨_, inner k o, fun a ha => by
      by_cases hak : a = k
      · subst hak; simp [arrSet]
      · simp only [arrSet, if_neg hak]
        exact ho a (by have : a.1 ≠ k.1 := fun h => hak (Fin.ext h); omega)⟩)
  rw [h1]
  exact congrArg Res.ok (funext fun a => h2 a a.2)

theorem solve_local_problem_spec (m : Mode) (I : Integrator K) (gesv : Gesv ((dim + 1) * nS) 1 K) (hg : GesvSpec gesv) (tau : K)
    (A : SmallMat ((dim + 1) * nS) ((dim + 1) * nS) K) (hA : ∀ b i c j, toMat A (ix b i) (ix c j) = locEntry I tau b c i j)
    (lambda : LocDofs dim nB K) :
    (LocallySolvable I dim nS nB tau → ∃ x, solve_local_problem m I gesv tau A lambda = .ok x ∧
      IsLocalSolution I tau lambda (qOf (toMat x)) (uOf (toMat x))) ∧
    (¬ LocallySolvable I dim nS nB tau → solve_local_problem m I gesv tau A lambda = match m with | .debug => .abort | .release => .throw .lapack) := by
  obtain ⟨v, h1, hv⟩ := assemble_rhs_spec (nS := nS) m I tau lambda
  unfold solve_local_problem
  rw [h1, Res.ok_bind, ← isUnit_iff I tau nB (toMat A) hA]
  constructor
  · intro hu
    obtain ⟨LU, X, x, h2, h3, h4⟩ := hg.regular A v (toMat A) (toMat v) (represents_iff.mpr rfl) (represents_iff.mpr rfl) hu
    rw [represents_iff] at h3
    subst h3
    refine ⟨X, ?_, (system_iff I tau lambda _ hA _ hv _).mp h4⟩
    unfold solve solve_in_place
    rw [h2]; rfl
  · intro hu
    have h2 := hg.singular A v (toMat A) (represents_iff.mpr rfl) hu
    unfold solve solve_in_place
    rw [h2]
    cases m <;> rfl

theorem trace_to_flux_spec (m : Mode) (I : Integrator K) (gesv : Gesv ((dim + 1) * nS) 1 K) (hg : GesvSpec gesv) (tau : K)
    (A : SmallMat ((dim + 1) * nS) ((dim + 1) * nS) K) (hA : ∀ b i c j, toMat A (ix b i) (ix c j) = locEntry I tau b c i j)
    (lambda out : LocDofs dim nB K) :
    (LocallySolvable I dim nS nB tau → ∃ q u, trace_to_flux m I gesv ⟨tau, A⟩ lambda out = .ok (numericalFlux I tau lambda q u) ∧
      IsLocalSolution (nS := nS) I tau lambda q u) ∧
    (¬ LocallySolvable I dim nS nB tau → trace_to_flux m I gesv ⟨tau, A⟩ lambda out = match m with | .debug => .abort | .release => .throw .lapack) := by
  obtain ⟨h1, h2⟩ := solve_local_problem_spec m I gesv hg tau A hA lambda
  constructor
  · intro hu
    obtain ⟨x, hx, hs⟩ := h1 hu
    refine ⟨_, _, ?_, hs⟩
    unfold trace_to_flux
    obtain ⟨p, hp1, hp2⟩ := primal_spec (nB := nB) I x
    obtain ⟨d, hd1, hd2⟩ := dual_spec (nB := nB) I x
    dsimp only
    rw [hx, Res.ok_bind, hp1, Res.ok_bind, hd1, Res.ok_bind, forFin_set2 (fun i j => d i j + tau * (p i j - lambda i j))]
    refine congrArg Res.ok (funext fun f => funext fun j => ?_)
    rw [hp2, hd2]
    simp only [numericalFlux, qOf, uOf]
    rw [mul_sub, Finset.mul_sum, ← add_sub_assoc, ← Finset.sum_add_distrib]
    refine congrArg (· - _) (Finset.sum_congr rfl fun i _ => ?_)
    ring
  · intro hu
    unfold trace_to_flux
    dsimp only
    rw [h2 hu]
    cases m <;> rfl

end Solve

/-! ## Consequences of the weak form -/

section Form

variable [Field K] [LinearOrder K] [IsStrictOrderedRing K]

/-- `(v, w)` in the bulk. -/
def mass (I : Integrator K) (v w : Fin nS → K) : K := ∑ i : Fin nS, ∑ j : Fin nS, v i * (I.vol_phiphi i j * w j)
/-- `(d_d v, w)` in the bulk. -/
def deriv (I : Integrator K) (d : Fin dim) (v w : Fin nS → K) : K := ∑ i : Fin nS, ∑ j : Fin nS, v i * (I.vol_Dphiphi i j d * w j)
/-- Scalar product of coefficients on a face. -/
def dotB (a b : Fin nB → K) : K := ∑ k, a k * b k
/-- Trace on a face. -/
def tr (I : Integrator K) (nB : Nat) (f : Fin (2 * dim)) (u : Fin nS → K) : Fin nB → K := fun k => ∑ i : Fin nS, I.bdr_phipsi i k f * u i

variable {I : Integrator K}

omit [LinearOrder K] [IsStrictOrderedRing K] in
theorem tr_dot (f : Fin (2 * dim)) (u : Fin nS → K) (a : Fin nB → K) :
    ∑ i : Fin nS, u i * ∑ j : Fin nB, I.bdr_phipsi i j f * a j = dotB (tr I nB f u) a := by
  simp only [dotB, tr, Finset.mul_sum, Finset.sum_mul]
  rw [Finset.sum_comm]
  refine Finset.sum_congr rfl fun j _ => Finset.sum_congr rfl fun i _ => ?_
  ring

theorem bdr_form (hI : Lawful I dim nS nB) (f : Fin (2 * dim)) (v w : Fin nS → K) :
    ∑ i : Fin nS, v i * ∑ j : Fin nS, I.bdr_phiphi i j f * w j = dotB (tr I nB f v) (tr I nB f w) := by
  rw [← tr_dot]
  refine Finset.sum_congr rfl fun i _ => congrArg _ ?_
  simp only [hI.trace i _ f, tr, Finset.mul_sum, Finset.sum_mul]
  rw [Finset.sum_comm]
  refine Finset.sum_congr rfl fun k _ => Finset.sum_congr rfl fun j _ => ?_
  ring

theorem mass_symm (hI : Lawful I dim nS nB) (v w : Fin nS → K) : mass I v w = mass I w v := by
  unfold mass
  rw [Finset.sum_comm]
  refine Finset.sum_congr rfl fun i _ => Finset.sum_congr rfl fun j _ => ?_
  rw [hI.vol_symm j i]; ring

theorem mass_nonneg (hI : Lawful I dim nS nB) (v : Fin nS → K) : 0 ≤ mass I v v := by
  by_cases h : v = 0
  · subst h; simp [mass]
  · exact le_of_lt (hI.vol_pos v h)

theorem mass_eq_zero (hI : Lawful I dim nS nB) {v : Fin nS → K} (h : mass I v v = 0) : v = 0 := by
  by_contra hv
  have := hI.vol_pos v hv
  unfold mass at h
  rw [h] at this
  exact lt_irrefl _ this

omit [LinearOrder K] [IsStrictOrderedRing K] in
theorem dotB_comm (a b : Fin nB → K) : dotB a b = dotB b a := by
  unfold dotB
  exact Finset.sum_congr rfl fun k _ => mul_comm _ _

theorem dotB_self_nonneg (a : Fin nB → K) : 0 ≤ dotB a a := Finset.sum_nonneg fun k _ => mul_self_nonneg _

theorem dotB_self_eq_zero {a : Fin nB → K} (h : dotB a a = 0) : a = 0 := by
  funext k
  have := (Finset.sum_eq_zero_iff_of_nonneg (fun k _ => mul_self_nonneg (a k))).mp h k (Finset.mem_univ _)
  simpa using this

/-- Integration by parts for functions. -/
theorem by_parts_form (hI : Lawful I dim nS nB) (d : Fin dim) (v w : Fin nS → K) :
    deriv I d v w + deriv I d w v = dotB (tr I nB (highFace d) v) (tr I nB (highFace d) w) - dotB (tr I nB (lowFace d) v) (tr I nB (lowFace d) w) := by
  rw [← bdr_form hI, ← bdr_form hI]
  unfold deriv
  rw [Finset.sum_comm (f := fun (i j : Fin nS) => w i * (I.vol_Dphiphi i j d * v j)), ← Finset.sum_add_distrib, ← Finset.sum_sub_distrib]
  refine Finset.sum_congr rfl fun i _ => ?_
  rw [← Finset.sum_add_distrib, ← mul_sub, ← Finset.sum_sub_distrib, Finset.mul_sum]
  refine Finset.sum_congr rfl fun j _ => ?_
  have := hI.by_parts i j d
  simp only [lowFace, highFace, add_zero]
  linear_combination v i * w j * this

variable {tau : K} {lambda mu : LocDofs dim nB K} {q q' : Fin dim → Fin nS → K} {u u' : Fin nS → K}

omit [LinearOrder K] [IsStrictOrderedRing K] in
/-- First equation tested by a function. -/
theorem flux_tested (h : IsLocalSolution I tau lambda q u) (d : Fin dim) (v : Fin nS → K) :
    mass I v (q d) - deriv I d v u + (dotB (tr I nB (highFace d) v) (lambda (highFace d)) - dotB (tr I nB (lowFace d) v) (lambda (lowFace d))) = 0 := by
  have h1 : ∑ i, v i * ((∑ j : Fin nS, I.vol_phiphi i j * q d j) - (∑ j : Fin nS, I.vol_Dphiphi i j d * u j) +
      (∑ f : Fin (2 * dim), if axis f = d then ∑ j : Fin nB, normal f * (I.bdr_phipsi i j f * lambda f j) else 0)) = 0 :=
    Finset.sum_eq_zero fun i _ => by rw [h.flux d i, mul_zero]
  rw [← h1, ← tr_dot, ← tr_dot]
  unfold mass deriv
  rw [← Finset.sum_sub_distrib, ← Finset.sum_sub_distrib, ← Finset.sum_add_distrib]
  refine Finset.sum_congr rfl fun i _ => ?_
  rw [sum_faces]
  simp only [axis_low, axis_high, normal_low, normal_high]
  rw [Finset.sum_add_distrib, Finset.sum_ite_eq', Finset.sum_ite_eq', if_pos (Finset.mem_univ _), if_pos (Finset.mem_univ _)]
  simp only [← Finset.mul_sum]
  ring

/-- Second equation tested by a function. -/
theorem primal_tested (hI : Lawful I dim nS nB) (h : IsLocalSolution I tau lambda q u) (w : Fin nS → K) :
    -(∑ d, deriv I d w (q d)) + (∑ f, (normal f * dotB (tr I nB f w) (tr I nB f (q (axis f))) +
      tau * dotB (tr I nB f w) (tr I nB f u) - tau * dotB (tr I nB f w) (lambda f))) = 0 := by
  have h1 : ∑ i, w i * (-(∑ d : Fin dim, ∑ j : Fin nS, I.vol_Dphiphi i j d * q d j) +
      (∑ f : Fin (2 * dim), ((∑ j : Fin nS, I.bdr_phiphi i j f * (normal f * q (axis f) j + tau * u j)) -
        ∑ j : Fin nB, tau * (I.bdr_phipsi i j f * lambda f j)))) = 0 :=
    Finset.sum_eq_zero fun i _ => by rw [h.primal i, mul_zero]
  rw [← h1]
  simp only [mul_add, Finset.sum_add_distrib]
  congr 1
  · simp only [mul_neg, Finset.sum_neg_distrib, Finset.mul_sum]
    rw [Finset.sum_comm]
    rfl
  · simp only [Finset.mul_sum]
    rw [Finset.sum_comm]
    refine Finset.sum_congr rfl fun f _ => ?_
    rw [← bdr_form hI, ← bdr_form hI, ← tr_dot]
    simp only [Finset.mul_sum]
    rw [← Finset.sum_add_distrib, ← Finset.sum_sub_distrib]
    refine Finset.sum_congr rfl fun i _ => ?_
    rw [mul_sub]
    simp only [mul_add, Finset.mul_sum]
    congr 1
    · congr 1
      · refine Finset.sum_congr rfl fun j _ => ?_
        ring
      · refine Finset.sum_congr rfl fun j _ => ?_
        ring
    · refine Finset.sum_congr rfl fun j _ => ?_
      ring

/-- The flux tested by a trace. -/
theorem flux_dot : ∑ f, ∑ j, mu f j * numericalFlux I tau lambda q u f j =
    ∑ f, (normal f * dotB (tr I nB f (q (axis f))) (mu f) + tau * dotB (tr I nB f u) (mu f) - tau * dotB (mu f) (lambda f)) := by
  refine Finset.sum_congr rfl fun f _ => ?_
  simp only [dotB, tr, numericalFlux, Finset.mul_sum, Finset.sum_mul, mul_sub, mul_add, Finset.sum_add_distrib, Finset.sum_sub_distrib]
  congr 1
  · congr 1
    · refine Finset.sum_congr rfl fun j _ => Finset.sum_congr rfl fun i _ => ?_
      ring
    · refine Finset.sum_congr rfl fun j _ => Finset.sum_congr rfl fun i _ => ?_
      ring
  · refine Finset.sum_congr rfl fun j _ => ?_
    ring

/-- The bilinear form of the local operator. -/
theorem flux_form (hI : Lawful I dim nS nB) (h : IsLocalSolution I tau lambda q u) (h' : IsLocalSolution I tau mu q' u') :
    ∑ f, ∑ j, mu f j * numericalFlux I tau lambda q u f j =
      -(∑ d, mass I (q d) (q' d)) + (∑ d, deriv I d (q d) u') + (∑ d, deriv I d (q' d) u) +
        tau * (∑ f : Fin (2 * dim), dotB (tr I nB f u) (tr I nB f u')) - tau * ∑ f, dotB (mu f) (lambda f) := by
  rw [flux_dot]
  have e1 : ∑ d, (mass I (q d) (q' d) - deriv I d (q d) u' + (dotB (tr I nB (highFace d) (q d)) (mu (highFace d)) -
      dotB (tr I nB (lowFace d) (q d)) (mu (lowFace d)))) = 0 := Finset.sum_eq_zero fun d _ => flux_tested h' d (q d)
  have e2 := primal_tested hI h' u
  have e3 : ∑ d, (deriv I d u (q' d) + deriv I d (q' d) u) = ∑ d, (dotB (tr I nB (highFace d) u) (tr I nB (highFace d) (q' d)) -
      dotB (tr I nB (lowFace d) u) (tr I nB (lowFace d) (q' d))) := Finset.sum_congr rfl fun d _ => by_parts_form hI d u (q' d)
  have e4 : ∑ f, normal f * dotB (tr I nB f (q (axis f))) (mu f) = ∑ d, (dotB (tr I nB (highFace d) (q d)) (mu (highFace d)) -
      dotB (tr I nB (lowFace d) (q d)) (mu (lowFace d))) := by
    rw [sum_faces]
    refine Finset.sum_congr rfl fun d _ => ?_
    simp only [axis_low, axis_high, normal_low, normal_high]
    ring
  have e5 : ∑ f, normal f * dotB (tr I nB f u) (tr I nB f (q' (axis f))) = ∑ d, (dotB (tr I nB (highFace d) u) (tr I nB (highFace d) (q' d)) -
      dotB (tr I nB (lowFace d) u) (tr I nB (lowFace d) (q' d))) := by
    rw [sum_faces]
    refine Finset.sum_congr rfl fun d _ => ?_
    simp only [axis_low, axis_high, normal_low, normal_high]
    ring
  simp only [Finset.sum_add_distrib, Finset.sum_sub_distrib, ← Finset.mul_sum] at e1 e2 e3 e4 e5 ⊢
  linear_combination e1 - e2 - e3 + e4 + e5

theorem flux_symm (hI : Lawful I dim nS nB) (h : IsLocalSolution I tau lambda q u) (h' : IsLocalSolution I tau mu q' u') :
    ∑ f, ∑ j, mu f j * numericalFlux I tau lambda q u f j = ∑ f, ∑ j, lambda f j * numericalFlux I tau mu q' u' f j := by
  rw [flux_form hI h h', flux_form hI h' h]
  have e1 : ∑ d, mass I (q d) (q' d) = ∑ d, mass I (q' d) (q d) := Finset.sum_congr rfl fun d _ => mass_symm hI _ _
  have e2 : ∑ f : Fin (2 * dim), dotB (tr I nB f u) (tr I nB f u') = ∑ f : Fin (2 * dim), dotB (tr I nB f u') (tr I nB f u) :=
    Finset.sum_congr rfl fun f _ => dotB_comm _ _
  have e3 : ∑ f, dotB (mu f) (lambda f) = ∑ f, dotB (lambda f) (mu f) := Finset.sum_congr rfl fun f _ => dotB_comm _ _
  rw [e1, e2, e3]
  ring

/-- The energy of a trace. -/
theorem flux_energy (hI : Lawful I dim nS nB) (h : IsLocalSolution I tau lambda q u) :
    ∑ f, ∑ j, lambda f j * numericalFlux I tau lambda q u f j =
      -((∑ d, mass I (q d) (q d)) + tau * ∑ f, dotB (tr I nB f u - lambda f) (tr I nB f u - lambda f)) := by
  rw [flux_form hI h h]
  have e2 := primal_tested hI h u
  have e3 : ∑ d, (deriv I d u (q d) + deriv I d (q d) u) = ∑ d, (dotB (tr I nB (highFace d) u) (tr I nB (highFace d) (q d)) -
      dotB (tr I nB (lowFace d) u) (tr I nB (lowFace d) (q d))) := Finset.sum_congr rfl fun d _ => by_parts_form hI d u (q d)
  have e5 : ∑ f, normal f * dotB (tr I nB f u) (tr I nB f (q (axis f))) = ∑ d, (dotB (tr I nB (highFace d) u) (tr I nB (highFace d) (q d)) -
      dotB (tr I nB (lowFace d) u) (tr I nB (lowFace d) (q d))) := by
    rw [sum_faces]
    refine Finset.sum_congr rfl fun d _ => ?_
    simp only [axis_low, axis_high, normal_low, normal_high]
    ring
  have e6 : ∑ f, dotB (tr I nB f u - lambda f) (tr I nB f u - lambda f) = (∑ f : Fin (2 * dim), dotB (tr I nB f u) (tr I nB f u)) -
      2 * (∑ f, dotB (tr I nB f u) (lambda f)) + ∑ f, dotB (lambda f) (lambda f) := by
    rw [Finset.mul_sum, ← Finset.sum_sub_distrib, ← Finset.sum_add_distrib]
    refine Finset.sum_congr rfl fun f _ => ?_
    simp only [dotB, Pi.sub_apply]
    rw [Finset.mul_sum, ← Finset.sum_sub_distrib, ← Finset.sum_add_distrib]
    refine Finset.sum_congr rfl fun k _ => ?_
    ring
  rw [e6]
  simp only [Finset.sum_add_distrib, Finset.sum_sub_distrib, ← Finset.mul_sum] at e2 e3 e5 ⊢
  linear_combination 2 * e2 + 2 * e3 - 2 * e5

theorem energy_nonneg (hI : Lawful I dim nS nB) (ht : 0 ≤ tau) (q : Fin dim → Fin nS → K) (u : Fin nS → K) (lambda : LocDofs dim nB K) :
    0 ≤ (∑ d, mass I (q d) (q d)) + tau * ∑ f, dotB (tr I nB f u - lambda f) (tr I nB f u - lambda f) :=
  add_nonneg (Finset.sum_nonneg fun d _ => mass_nonneg hI _) (mul_nonneg ht (Finset.sum_nonneg fun f _ => dotB_self_nonneg _))

theorem energy_zero (hI : Lawful I dim nS nB) (ht : 0 < tau)
    (h : (∑ d, mass I (q d) (q d)) + tau * ∑ f, dotB (tr I nB f u - lambda f) (tr I nB f u - lambda f) = 0) :
    q = 0 ∧ lambda = traceOf I nB u := by
  have h1 : 0 ≤ ∑ d, mass I (q d) (q d) := Finset.sum_nonneg fun d _ => mass_nonneg hI _
  have h2 : 0 ≤ ∑ f, dotB (tr I nB f u - lambda f) (tr I nB f u - lambda f) := Finset.sum_nonneg fun f _ => dotB_self_nonneg _
  have h3 := mul_nonneg (le_of_lt ht) h2
  have h4 : ∑ d, mass I (q d) (q d) = 0 := by linarith
  have h5 : tau * ∑ f, dotB (tr I nB f u - lambda f) (tr I nB f u - lambda f) = 0 := by linarith
  have h6 := (mul_eq_zero.mp h5).resolve_left (ne_of_gt ht)
  constructor
  · funext d
    exact mass_eq_zero hI ((Finset.sum_eq_zero_iff_of_nonneg (fun d _ => mass_nonneg hI _)).mp h4 d (Finset.mem_univ _))
  · funext f
    have := dotB_self_eq_zero ((Finset.sum_eq_zero_iff_of_nonneg (fun f _ => dotB_self_nonneg _)).mp h6 f (Finset.mem_univ _))
    exact (sub_eq_zero.mp this).symm

omit [LinearOrder K] [IsStrictOrderedRing K] in
theorem deriv_single (d : Fin dim) (u : Fin nS → K) (j : Fin nS) :
    deriv I d u (Pi.single j 1) = ∑ i : Fin nS, I.vol_Dphiphi i j d * u i := by
  unfold deriv
  refine Finset.sum_congr rfl fun i _ => ?_
  rw [Finset.sum_eq_single j]
  · simp; ring
  · intro b _ hb; simp [hb]
  · simp

/-- A solution without flux whose trace is the given one has no derivatives. -/
theorem constant_of (hI : Lawful I dim nS nB) (h : IsLocalSolution I tau (traceOf I nB u) (0 : Fin dim → Fin nS → K) u) : Constant I dim u := by
  intro d j
  rw [← deriv_single d u j]
  have h1 := flux_tested h d (Pi.single j 1)
  have h2 := by_parts_form hI d (Pi.single j 1) u
  have h3 : mass I (Pi.single j 1) ((0 : Fin dim → Fin nS → K) d) = 0 := by simp [mass]
  rw [h3] at h1
  have h4 : ∀ f : Fin (2 * dim), (traceOf I nB u f) = tr I nB f u := fun f => rfl
  rw [h4, h4] at h1
  linear_combination h1 + h2

/-- The trace of a constant function: the function itself is the solution. -/
theorem constant_solution (hI : Lawful I dim nS nB) (hu : Constant I dim u) (tau : K) :
    IsLocalSolution I tau (traceOf I nB u) (0 : Fin dim → Fin nS → K) u := by
  constructor
  · intro d i
    have h1 := by_parts_form hI d (Pi.single i 1) u
    have h2 : deriv I d u (Pi.single i 1) = 0 := by rw [deriv_single]; exact hu d i
    have h3 : deriv I d (Pi.single i 1) u = ∑ j : Fin nS, I.vol_Dphiphi i j d * u j := by
      unfold deriv
      rw [Finset.sum_eq_single i]
      · simp
      · intro b _ hb; simp [hb]
      · simp
    have h4 : ∀ f : Fin (2 * dim), dotB (tr I nB f (Pi.single i 1)) (tr I nB f u) = ∑ j : Fin nB, I.bdr_phipsi i j f * traceOf I nB u f j := by
      intro f
      unfold dotB
      refine Finset.sum_congr rfl fun j _ => ?_
      congr 1
      unfold tr
      rw [Finset.sum_eq_single i]
      · simp
      · intro b _ hb; simp [hb]
      · simp
    rw [sum_faces]
    simp only [axis_low, axis_high, normal_low, normal_high]
    rw [Finset.sum_add_distrib, Finset.sum_ite_eq', Finset.sum_ite_eq', if_pos (Finset.mem_univ _), if_pos (Finset.mem_univ _)]
    simp only [← Finset.mul_sum]
    rw [← h3, ← h4, ← h4]
    simp only [Pi.zero_apply, mul_zero, Finset.sum_const_zero]
    linear_combination -h1 + h2
  · intro i
    simp only [Pi.zero_apply, mul_zero, Finset.sum_const_zero, neg_zero, zero_add]
    refine Finset.sum_eq_zero fun f _ => ?_
    rw [sub_eq_zero]
    have h1 : ∀ j : Fin nS, I.bdr_phiphi i j f * (tau * u j) = ∑ k : Fin nB, tau * (I.bdr_phipsi i k f * (I.bdr_phipsi j k f * u j)) := by
      intro j
      rw [hI.trace i j f, Finset.sum_mul]
      refine Finset.sum_congr rfl fun k _ => ?_
      ring
    simp only [h1, traceOf, Finset.mul_sum]
    rw [Finset.sum_comm]

theorem constant_flux (tau : K) : numericalFlux I tau (traceOf I nB u) (0 : Fin dim → Fin nS → K) u = 0 := by
  funext f j
  simp only [numericalFlux, traceOf, Pi.zero_apply, mul_zero, zero_add, Finset.mul_sum]
  rw [sub_eq_zero]
  refine Finset.sum_congr rfl fun i _ => ?_
  ring

omit [LinearOrder K] [IsStrictOrderedRing K] in
/-- Solutions depend linearly on the trace. -/
theorem solution_linear (a b : K) (h : IsLocalSolution I tau lambda q u) (h' : IsLocalSolution I tau mu q' u') :
    IsLocalSolution I tau (fun f j => a * lambda f j + b * mu f j) (fun d j => a * q d j + b * q' d j) (fun j => a * u j + b * u' j) := by
  constructor
  · intro d i
    have e1 := h.flux d i
    have e2 := h'.flux d i
    rw [sum_faces] at e1 e2 ⊢
    simp only [axis_low, axis_high, normal_low, normal_high] at e1 e2 ⊢
    rw [Finset.sum_add_distrib, Finset.sum_ite_eq', Finset.sum_ite_eq', if_pos (Finset.mem_univ _), if_pos (Finset.mem_univ _)] at e1 e2 ⊢
    have hs : ∀ {n : Nat} (c : Fin n → K) (x y : Fin n → K), ∑ j, c j * (a * x j + b * y j) = a * ∑ j, c j * x j + b * ∑ j, c j * y j := by
      intro n c x y
      rw [Finset.mul_sum, Finset.mul_sum, ← Finset.sum_add_distrib]
      refine Finset.sum_congr rfl fun j _ => ?_
      ring
    simp only [← Finset.mul_sum, hs] at e1 e2 ⊢
    linear_combination a * e1 + b * e2
  · intro i
    have e1 := h.primal i
    have e2 := h'.primal i
    have : a * 0 + b * 0 = (0 : K) := by ring
    rw [← this]
    nth_rewrite 1 [← e1]
    rw [← e2]
    simp only [mul_add, Finset.mul_sum, mul_neg, mul_sub, Finset.sum_add_distrib, Finset.sum_sub_distrib]
    have c1 : ∀ x y z w : K, x * (y * (z * w)) = y * (x * (z * w)) := fun x y z w => by ring
    have c2 : ∀ x y z : K, x * (y * z) = y * (x * z) := fun x y z => by ring
    simp only [c2 _ a, c2 _ b]
    ring

omit [LinearOrder K] [IsStrictOrderedRing K] in
theorem flux_linear (a b : K) : numericalFlux I tau (fun f j => a * lambda f j + b * mu f j) (fun d j => a * q d j + b * q' d j) (fun j => a * u j + b * u' j) =
    fun f j => a * numericalFlux I tau lambda q u f j + b * numericalFlux I tau mu q' u' f j := by
  funext f j
  simp only [numericalFlux, mul_sub, Finset.mul_sum, mul_add, Finset.sum_add_distrib]
  have c2 : ∀ x y z : K, x * (y * z) = y * (x * z) := fun x y z => by ring
  simp only [c2 _ a, c2 _ b]
  ring

omit [IsStrictOrderedRing K] in
theorem trace_zero : traceOf I nB (0 : Fin nS → K) = (0 : Fin (2 * dim) → Fin nB → K) := by
  funext f j
  simp [traceOf]

/-- For `tau > 0` the local problem is uniquely solvable. -/
theorem solvable (hI : Lawful I dim nS nB) (ht : 0 < tau) : LocallySolvable I dim nS nB tau := by
  obtain ⟨A, -, hA⟩ := assemble_loc_matrix_spec (dim := dim) (nS := nS) .release I tau
  rw [← isUnit_iff I tau nB (toMat A) hA, ← Matrix.mulVec_injective_iff_isUnit]
  have hv : ∀ (b : Fin (dim + 1)) (i : Fin nS), (0 : Matrix (Fin ((dim + 1) * nS)) (Fin 1) K) (ix b i) 0 = rhsEntry I tau (0 : LocDofs dim nB K) b i := by
    intro b i
    simp [rhsEntry]
  have key : ∀ w : Fin ((dim + 1) * nS) → K, (toMat A).mulVec w = 0 → w = 0 := by
    intro w hw
    have hs := (system_iff I tau (0 : LocDofs dim nB K) (toMat A) hA 0 hv (Matrix.of fun k (_ : Fin 1) => w k)).mp (by
      funext k l
      exact congrFun hw k)
    generalize hq : qOf (Matrix.of fun k (_ : Fin 1) => w k) = q at hs
    generalize hu : uOf (Matrix.of fun k (_ : Fin 1) => w k) = u at hs
    have he := flux_energy hI hs
    rw [show ∑ f, ∑ j, (0 : LocDofs dim nB K) f j * numericalFlux I tau 0 q u f j = 0 by simp] at he
    obtain ⟨h1, h2⟩ := energy_zero hI ht (neg_eq_zero.mp he.symm)
    subst h1
    have hs' : IsLocalSolution I tau (traceOf I nB u) (0 : Fin dim → Fin nS → K) u := by rw [← h2]; exact hs
    have h3 := hI.unisolvent u (constant_of hI hs') h2.symm
    have h4 : (Matrix.of fun k (_ : Fin 1) => w k) = (0 : Matrix (Fin ((dim + 1) * nS)) (Fin 1) K) := ext_of hq (hu.trans h3)
    funext k
    exact congrFun (congrFun h4 k) 0
  intro x y hxy
  exact sub_eq_zero.mp (key _ (by rw [Matrix.mulVec_sub]; exact sub_eq_zero.mpr hxy))

end Form

end DiffusionUniform
end HyperHDG

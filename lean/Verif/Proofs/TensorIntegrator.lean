import Verif.Spec.TensorIntegrator
import Verif.Proofs.Accumulate
import Mathlib.Data.Fin.Tuple.Basic
import Mathlib.Logic.Equiv.Fin.Basic
import Mathlib.Algebra.Order.BigOperators.Group.Finset
import Mathlib.Tactic.Linarith

/-!
# The tensor product integrator satisfies the laws
-/

namespace HyperHDG.Spec

open Finset

variable {K : Type} {n d : Nat}

/-- The digits as a tuple. -/
abbrev digs (i : Fin (n ^ d)) : Fin d → Fin n := finFunctionFinEquiv.symm i

theorem digs_val (i : Fin (n ^ d)) (k : Fin d) : (digs i k).1 = digitOf n k i := by
  simp [digs, digitOf]

theorem digs_inj {i j : Fin (n ^ d)} (h : ∀ k, digs i k = digs j k) : i = j :=
  finFunctionFinEquiv.symm.injective (funext h)

/-- The number with given digits. -/
abbrev ofDigs (f : Fin d → Fin n) : Fin (n ^ d) := finFunctionFinEquiv f

theorem digs_ofDigs (f : Fin d → Fin n) : digs (ofDigs f) = f := by simp [digs, ofDigs]

theorem sameExcept_iff {i j : Fin (n ^ (d + 1))} {a : Fin (d + 1)} :
    SameExcept n (d + 1) a i j ↔ a.removeNth (digs i) = a.removeNth (digs j) := by
  constructor
  · intro h
    funext k
    apply Fin.ext
    rw [Fin.removeNth, Fin.removeNth, digs_val, digs_val]
    exact h _ (a.succAbove k).2 (fun hk => Fin.succAbove_ne a k (Fin.ext hk))
  · intro h k hk hka
    obtain ⟨l, hl⟩ := Fin.exists_succAbove_eq (x := ⟨k, hk⟩) (y := a) (fun h => hka (congrArg Fin.val h))
    have := congrArg Fin.val (congrFun h l)
    rw [Fin.removeNth, Fin.removeNth, digs_val, digs_val, hl] at this
    exact this

theorem sameFace_iff {i : Fin (n ^ (d + 1))} {j : Fin (n ^ d)} {a : Fin (d + 1)} :
    SameFace n (d + 1) a i j ↔ digs j = a.removeNth (digs i) := by
  have hs : ∀ k : Fin d, (a.succAbove k).1 = if k.1 < a.1 then k.1 else k.1 + 1 := by
    intro k
    simp only [Fin.succAbove, Fin.lt_def]
    split <;> simp_all
  constructor
  · intro h
    funext k
    apply Fin.ext
    rw [Fin.removeNth, digs_val, digs_val, hs]
    exact h k (by omega)
  · intro h k hk
    have := congrArg Fin.val (congrFun h ⟨k, by omega⟩)
    rw [Fin.removeNth, digs_val, digs_val, hs] at this
    exact this

theorem all_digits_iff {i j : Fin (n ^ d)} : (∀ k, k < d → digitOf n k i = digitOf n k j) ↔ i = j := by
  constructor
  · intro h
    refine digs_inj fun k => Fin.ext ?_
    rw [digs_val, digs_val]; exact h k k.2
  · rintro rfl k _; rfl

theorem axis_even (a : Nat) : (2 * a + 1) / 2 = a := by omega

theorem sum_insert [AddCommMonoid K] (g : Fin (n ^ (d + 1)) → K) :
    ∑ i, g i = ∑ a : Fin n, ∑ r : Fin d → Fin n, g (ofDigs ((0 : Fin (d + 1)).insertNth (α := fun _ => Fin n) a r)) := by
  rw [← Equiv.sum_comp ((Fin.insertNthEquiv (fun _ => Fin n) (0 : Fin (d + 1))).trans finFunctionFinEquiv),
    ← Finset.univ_product_univ, Finset.sum_product]
  rfl

variable [Field K] [LinearOrder K] [IsStrictOrderedRing K]

theorem tensor_lawful (B : Basis1D n K) (hB : B.Lawful) : Lawful (tensorIntegrator n (d + 1) B) (d + 1) (n ^ (d + 1)) (n ^ d) := by
  classical
  refine ⟨?_, ?_, ?_, ?_, ?_⟩
  · intro i j
    simp only [tensorIntegrator, all_digits_iff, eq_comm]
  · intro v hv
    simp only [tensorIntegrator, all_digits_iff]
    have : ∀ i, ∑ j, v i * ((if i = j then (1 : K) else 0) * v j) = v i * v i := by
      intro i
      rw [Finset.sum_eq_single i]
      · simp
      · intro j _ hj; simp [Ne.symm hj]
      · simp
    simp only [this]
    have hnn : ∀ i ∈ (Finset.univ : Finset (Fin (n ^ (d + 1)))), 0 ≤ v i * v i := fun i _ => mul_self_nonneg _
    refine lt_of_le_of_ne (Finset.sum_nonneg hnn) (fun h0 => hv ?_)
    funext i
    have := (Finset.sum_eq_zero_iff_of_nonneg hnn).mp h0.symm i (Finset.mem_univ _)
    simpa using this
  · intro i j a
    simp only [tensorIntegrator, axis_even, Nat.mul_div_cancel_left _ (show 0 < 2 by decide), Nat.mul_mod_right, if_true,
      show (2 * a.1 + 1) % 2 ≠ 0 by omega, if_false]
    have hs : SameExcept n (d + 1) a j i ↔ SameExcept n (d + 1) a i j := by
      rw [sameExcept_iff, sameExcept_iff, eq_comm]
    simp only [hs]
    by_cases h : SameExcept n (d + 1) a i j
    · simp only [h, if_true]
      have := hB.by_parts (digs i a) (digs j a)
      rwa [digs_val, digs_val] at this
    · simp [h]
  · intro i j f
    simp only [tensorIntegrator]
    have haf : (f : Nat) / 2 = (axis f).1 := rfl
    rw [haf]
    simp only [sameExcept_iff, sameFace_iff]
    rw [Finset.sum_eq_single (ofDigs ((axis f).removeNth (digs i)))]
    · rw [digs_ofDigs]
      simp only [if_true]
      split
      · split
        · rfl
        · rfl
      · simp
    · intro k _ hk
      have : ¬ digs k = (axis f).removeNth (digs i) := by
        intro h
        apply hk
        rw [← h]
        exact (finFunctionFinEquiv.apply_symm_apply k).symm
      simp [this]
    · simp
  · intro u hc ht
    funext k
    -- fix all digits but the first
    let r : Fin d → Fin n := (0 : Fin (d + 1)).removeNth (digs k)
    have hzero : (fun a : Fin n => u (ofDigs ((0 : Fin (d + 1)).insertNth a r))) = 0 := by
      refine hB.unisolvent _ (fun b => ?_) ?_
      · have := hc 0 (ofDigs ((0 : Fin (d + 1)).insertNth b r))
        rw [sum_insert] at this
        rw [← this]
        refine Finset.sum_congr rfl fun a _ => ?_
        rw [Finset.sum_eq_single r]
        · simp only [tensorIntegrator]
          have h1 : SameExcept n (d + 1) ((0 : Fin (d + 1)) : Nat) (ofDigs ((0 : Fin (d + 1)).insertNth (α := fun _ => Fin n) a r))
              (ofDigs ((0 : Fin (d + 1)).insertNth (α := fun _ => Fin n) b r)) := by
            rw [sameExcept_iff, digs_ofDigs, digs_ofDigs]
            simp
          rw [if_pos h1, ← digs_val, ← digs_val, digs_ofDigs, digs_ofDigs]
          simp
        · intro r' _ hr'
          simp only [tensorIntegrator]
          rw [if_neg, zero_mul]
          intro h1
          have h2 : SameExcept n (d + 1) ((0 : Fin (d + 1)) : Nat) (ofDigs ((0 : Fin (d + 1)).insertNth (α := fun _ => Fin n) a r'))
              (ofDigs ((0 : Fin (d + 1)).insertNth (α := fun _ => Fin n) b r)) := h1
          rw [sameExcept_iff, digs_ofDigs, digs_ofDigs] at h2
          apply hr'
          simpa using h2
        · simp
      · have := congrFun (congrFun ht (lowFace 0)) (ofDigs r)
        unfold traceOf at this
        rw [sum_insert] at this
        have h00 : ((lowFace (0 : Fin (d + 1))) : Nat) / 2 = ((0 : Fin (d + 1)) : Nat) := by simp [lowFace]
        have h01 : ((lowFace (0 : Fin (d + 1))) : Nat) % 2 = 0 := by simp [lowFace]
        refine Eq.trans ?_ this
        refine Finset.sum_congr rfl fun a _ => ?_
        rw [Finset.sum_eq_single r]
        · simp only [tensorIntegrator, h00, h01, if_true]
          have h1 : SameFace n (d + 1) ((0 : Fin (d + 1)) : Nat) (ofDigs ((0 : Fin (d + 1)).insertNth (α := fun _ => Fin n) a r)) (ofDigs r) := by
            rw [sameFace_iff, digs_ofDigs, digs_ofDigs]
            simp
          rw [if_pos h1, ← digs_val, digs_ofDigs]
          simp
        · intro r' _ hr'
          simp only [tensorIntegrator, h00, h01, if_true]
          rw [if_neg, zero_mul]
          intro h1
          have h2 : SameFace n (d + 1) ((0 : Fin (d + 1)) : Nat) (ofDigs ((0 : Fin (d + 1)).insertNth (α := fun _ => Fin n) a r')) (ofDigs r) := h1
          rw [sameFace_iff, digs_ofDigs, digs_ofDigs] at h2
          apply hr'
          simpa using h2.symm
        · simp
    have := congrFun hzero (digs k 0)
    have hk : ofDigs ((0 : Fin (d + 1)).insertNth (α := fun _ => Fin n) (digs k 0) r) = k := by
      have : (0 : Fin (d + 1)).insertNth (α := fun _ => Fin n) (digs k 0) r = digs k := Fin.insertNth_self_removeNth _ _
      rw [this]
      exact finFunctionFinEquiv.apply_symm_apply k
    rw [hk] at this
    exact this

end HyperHDG.Spec

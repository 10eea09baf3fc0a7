import Mathlib.Algebra.BigOperators.Fin
import Mathlib.Tactic.Ring
import Verif.Spec.Digits

/-! Helper lemmas: digits. -/

namespace HyperHDG

theorem fromDigits_digit {q : Nat} : ∀ (k : Nat) (g : Fin k → Nat), (∀ j, g j < q) →
    Spec.fromDigits q (List.ofFn g) < q ^ k ∧ ∀ j : Fin k, Spec.fromDigits q (List.ofFn g) / q ^ (j : Nat) % q = g j
  | 0, g, _ => ⟨by simp [Spec.fromDigits], fun j => j.elim0⟩
  | k + 1, g, h => by
    obtain ⟨i1, i2⟩ := fromDigits_digit k (fun j => g j.succ) (fun j => h _)
    rw [List.ofFn_succ, Spec.fromDigits]
    have h0 := h 0
    constructor
    · calc g 0 + q * Spec.fromDigits q (List.ofFn fun j => g j.succ)
          < q + q * Spec.fromDigits q (List.ofFn fun j => g j.succ) := by omega
        _ = q * (Spec.fromDigits q (List.ofFn fun j => g j.succ) + 1) := by ring
        _ ≤ q * q ^ k := Nat.mul_le_mul_left _ i1
        _ = q ^ (k + 1) := by ring
    · intro j
      refine Fin.cases ?_ (fun j => ?_) j
      · simp [Nat.add_mul_mod_self_left, Nat.mod_eq_of_lt h0]
      · rw [Fin.val_succ, Nat.pow_succ, Nat.mul_comm (q ^ j.1) q, ← Nat.div_div_eq_div_mul, Nat.add_mul_div_left _ _ (by omega),
          Nat.div_eq_of_lt h0, Nat.zero_add]
        exact i2 j

theorem fromDigits_sum {q : Nat} : ∀ (k : Nat) (g : Fin k → Nat), Spec.fromDigits q (List.ofFn g) = ∑ j : Fin k, g j * q ^ (j : Nat)
  | 0, g => by simp [Spec.fromDigits]
  | k + 1, g => by
    rw [List.ofFn_succ, Spec.fromDigits, fromDigits_sum k, Fin.sum_univ_succ, Finset.mul_sum]
    simp only [Fin.val_zero, Nat.pow_zero, Nat.mul_one, Fin.val_succ]
    congr 1
    apply Finset.sum_congr rfl
    intro j _
    ring

end HyperHDG

import Verif.Model.Outcome

/-! Helper lemmas about loops that write vectors. -/

namespace HyperHDG

variable {α : Type}

theorem vget_of_lt {v : List α} {i : Nat} (h : i < v.length) : vget v i = .ok v[i] := by
  simp [vget, h]

theorem vget_ok_iff {v : List α} {i : Nat} {a : α} : vget v i = .ok a ↔ v[i]? = some a := by
  unfold vget; split <;> simp_all

theorem vget_ub {v : List α} {i : Nat} (h : v.length ≤ i) : vget v i = .ub := by
  simp [vget, h]

theorem vset_of_lt {v : List α} {i : Nat} {a : α} (h : i < v.length) :
    vset v i a = .ok (v.set i a) := by simp [vset, h]

theorem vset_ub {v : List α} {i : Nat} {a : α} (h : v.length ≤ i) : vset v i a = .ub := by
  simp [vset, Nat.not_lt.mpr h]

/-- A loop that stores `val k` at position `base + k`, `k < n`. -/
theorem forUp_write (n base : Nat) (f : Nat → List α → Res (List α)) (g : List α)
    (w : Nat → List α → α) 
    (hf : ∀ i, i < n → ∀ t : List α, t.length = g.length → f i t = .ok (t.set (base + i) (w i t)))
    (hw : ∀ i, i < n → ∀ t : List α, t.length = g.length → (∀ k, base + i ≤ k → t[k]? = g[k]?) → w i t = w i g)
    (hlen : base + n ≤ g.length) :
    ∃ t, forUp n f g = .ok t ∧ t.length = g.length ∧
      ∀ k, t[k]? = if base ≤ k ∧ k < base + n then some (w (k - base) g) else g[k]? := by
  have := forUp_inv n f g (fun i t => t.length = g.length ∧
      ∀ k, t[k]? = if base ≤ k ∧ k < base + i then some (w (k - base) g) else g[k]?)
    ⟨rfl, fun k => by rw [if_neg]; omega⟩
    (fun i hi t ⟨hl, ht⟩ => ?_)
  · obtain ⟨t, h1, h2, h3⟩ := this
    exact ⟨t, h1, h2, h3⟩
  · refine ⟨_, hf i hi t hl, by simp [hl], fun k => ?_⟩
    have hwt : w i t = w i g := hw i hi t hl (fun k hk => by rw [ht, if_neg]; omega)
    rw [hwt, List.getElem?_set]
    by_cases hk : base + i = k
    · subst hk
      have : base + i < t.length := by omega
      simp [this]
    · rw [if_neg hk, ht]
      by_cases h : base ≤ k ∧ k < base + i
      · rw [if_pos h, if_pos (by omega)]
      · rw [if_neg h, if_neg (by omega)]

/-- The vector written by the loop as a concatenation. -/
theorem write_eq_splice (n base : Nat) (g loc t : List α) (hloc : loc.length = n)
    (hlen : base + n ≤ g.length)
    (ht1 : ∀ k, ¬ (base ≤ k ∧ k < base + n) → t[k]? = g[k]?)
    (ht2 : ∀ i, i < n → t[base + i]? = loc[i]?) :
    t = g.take base ++ loc ++ g.drop (base + n) := by
  apply List.ext_getElem?
  intro k
  rw [List.append_assoc, List.getElem?_append]
  simp only [List.length_take, Nat.min_eq_left (show base ≤ g.length by omega)]
  by_cases h1 : k < base
  · rw [ht1 _ (by omega), if_pos h1, List.getElem?_take_of_lt h1]
  · rw [if_neg h1, List.getElem?_append]
    by_cases h2 : k < base + n
    · have := ht2 (k - base) (by omega)
      rw [show base + (k - base) = k by omega] at this
      rw [this, if_pos (by omega)]
    · rw [ht1 _ (by omega), if_neg (by omega), List.getElem?_drop]
      congr 1; omega

end HyperHDG

import Verif.Model.Hypercube
import Verif.Spec.Digits
import Verif.Proofs.Loops

namespace HyperHDG.Hypercube
open HyperHDG.Spec

theorem fromDigits_append (b : Nat) (l : List Nat) (d : Nat) :
    fromDigits b (l ++ [d]) = fromDigits b l + b ^ l.length * d := by
  induction l with
  | nil => simp [fromDigits]
  | cons a l ih => simp [fromDigits, ih, Nat.mul_add, Nat.pow_succ]; ac_rfl

theorem fromDigits_lt (b : Nat) (l : List Nat) (h : ∀ d ∈ l, d < b) : fromDigits b l < b ^ l.length := by
  induction l with
  | nil => simp [fromDigits]
  | cons a l ih =>
    have h1 := ih (fun d hd => h d (by simp [hd]))
    have h2 := h a (by simp)
    simp only [fromDigits, List.length_cons, Nat.pow_succ]
    have h3 : b * (fromDigits b l + 1) ≤ b * b ^ l.length := Nat.mul_le_mul_left _ h1
    rw [Nat.mul_add] at h3
    rw [Nat.mul_comm (b ^ l.length) b]; omega

theorem fromDigits_inj (b : Nat) : ∀ (l l' : List Nat), l.length = l'.length → (∀ d ∈ l, d < b) →
    (∀ d ∈ l', d < b) → fromDigits b l = fromDigits b l' → l = l'
  | [], [], _, _, _, _ => rfl
  | [], _ :: _, h, _, _, _ => by simp at h
  | _ :: _, [], h, _, _, _ => by simp at h
  | a :: l, a' :: l', hlen, h, h', he => by
    have ha := h a (by simp)
    have ha' := h' a' (by simp)
    simp only [fromDigits] at he
    have e1 : a = a' := by
      have : (a + b * fromDigits b l) % b = (a' + b * fromDigits b l') % b := by rw [he]
      rwa [Nat.add_mul_mod_self_left, Nat.add_mul_mod_self_left, Nat.mod_eq_of_lt ha,
        Nat.mod_eq_of_lt ha'] at this
    subst e1
    have e2 : fromDigits b l = fromDigits b l' := by
      have : b * fromDigits b l = b * fromDigits b l' := by omega
      exact Nat.eq_of_mul_eq_mul_left (by omega) this
    rw [fromDigits_inj b l l' (by simpa using hlen) (fun d hd => h d (by simp [hd]))
      (fun d hd => h' d (by simp [hd])) e2]

theorem decompose_loop (n index range : Nat) (hr : 0 < range) :
    ∃ ds rest, forUp n (decomposeStep range) ([], index) = .ok (ds, rest) ∧ ds.length = n ∧
      (∀ d ∈ ds, d < range) ∧ fromDigits range ds + range ^ n * rest = index := by
  obtain ⟨⟨ds, rest⟩, h1, h2⟩ := forUp_inv n (decomposeStep range) ([], index)
    (fun i s => s.1.length = i ∧ (∀ d ∈ s.1, d < range) ∧
      fromDigits range s.1 + range ^ i * s.2 = index)
    (by simp [fromDigits])
    (fun i _ s ⟨hl, hd, hv⟩ => by
      refine ⟨(s.1 ++ [s.2 % range], s.2 / range), ?_, by simp [hl], ?_, ?_⟩
      · unfold decomposeStep; rw [if_neg (by omega)]
      · intro d hd'
        rcases List.mem_append.mp hd' with h | h
        · exact hd d h
        · simp at h; subst h; exact Nat.mod_lt _ hr
      · rw [fromDigits_append, hl, Nat.pow_succ, Nat.add_assoc, Nat.mul_assoc, ← Nat.mul_add,
          Nat.mod_add_div, hv])
  exact ⟨ds, rest, h1, h2⟩

theorem rest_zero_iff {range n rest index v : Nat} (hv : v < range ^ n)
    (h : v + range ^ n * rest = index) : rest = 0 ↔ index < range ^ n := by
  constructor
  · rintro rfl; omega
  · intro hi
    rcases Nat.eq_zero_or_pos rest with h0 | h0
    · exact h0
    · have : range ^ n * 1 ≤ range ^ n * rest := Nat.mul_le_mul_left _ h0
      omega

theorem decompose_range_zero (m : Mode) (dim index : Nat) : index_decompose m dim index 0 = .ub := by
  unfold index_decompose
  obtain ⟨k, hk⟩ := Nat.exists_eq_succ_of_ne_zero (show max dim 1 ≠ 0 by omega)
  rw [hk]
  have : ∀ k, forUp (k + 1) (decomposeStep 0) ([], index) = .ub := by
    intro k
    induction k with
    | zero => rfl
    | succ k ih => rw [forUp_succ, ih]; rfl
  rw [Nat.succ_eq_add_one, this]; rfl

theorem pow_eq (dim base : Nat) : pow dim base = (base ^ dim) % U32 := by
  unfold pow
  have := forUpP_inv dim (fun _ result => u32 (result * base)) 1
    (fun i r => r = base ^ i % U32) (by rw [Nat.pow_zero]; decide)
    (fun i _ t ht => by
      subst ht
      show u32 _ = _
      unfold u32
      rw [Nat.pow_succ, Nat.mod_mul_mod])
  exact this

theorem tensorial_loop {α : Type} (dim : Nat) (ds : List Nat) (pts : List α) (hl : dim ≤ ds.length)
    (hd : ∀ d ∈ ds, d < pts.length) :
    ∃ p, forUp dim (fun d point => do
      let k ← vget ds d
      let x ← vget pts k
      return point ++ [x]) [] = .ok p ∧ p.length = dim ∧
      p.map some = (ds.take dim).map (fun k => pts[k]?) := by
  obtain ⟨p, h1, h2, h3⟩ := forUp_inv dim (fun d point => do
      let k ← vget ds d
      let x ← vget pts k
      return point ++ [x]) [] (fun i p => p.length = i ∧ 
      p.map some = (ds.take i).map (fun k => pts[k]?)) (by simp)
    (fun i hi p ⟨hp, hp'⟩ => by
      have hi' : i < ds.length := by omega
      have hk : ds[i] < pts.length := hd _ (List.getElem_mem hi')
      refine ⟨p ++ [pts[ds[i]]], ?_, by simp [hp], ?_⟩
      · simp [vget_of_lt hi', vget_of_lt hk]
      · rw [List.map_append, hp', List.take_add_one, List.map_append]
        simp [hi', hk])
  exact ⟨p, h1, h2, h3⟩

end HyperHDG.Hypercube

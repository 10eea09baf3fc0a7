import Verif.Spec.Import

/-!
# Names of template files
-/

namespace HyperHDG.Import

open Spec.Import

theorem lower_not_upper {c : Char} (h : c.isLower = true) : c.isUpper = false := by
  simp only [Char.isLower, Char.isUpper, Bool.and_eq_true, decide_eq_true_eq, decide_eq_false_iff_not, ge_iff_le, UInt32.le_iff_toNat_le] at *
  simp only [show ('a'.val).toNat = 97 from rfl, show ('Z'.val).toNat = 90 from rfl, show ('A'.val).toNat = 65 from rfl, show ('z'.val).toNat = 122 from rfl] at *
  omega

theorem upper_not_lower {c : Char} (h : c.isUpper = true) : c.isLower = false := by
  cases h' : c.isLower with
  | false => rfl
  | true => rw [lower_not_upper h'] at h; cases h

theorem upper_not_digit {c : Char} (h : c.isUpper = true) : c.isDigit = false := by
  simp only [Char.isDigit, Char.isUpper, decide_eq_true_eq, Bool.and_eq_false_iff, decide_eq_false_iff_not, ge_iff_le, UInt32.le_iff_toNat_le] at *
  simp only [show ('A'.val).toNat = 65 from rfl, show ('9'.val).toNat = 57 from rfl, show ('0'.val).toNat = 48 from rfl, show ('Z'.val).toNat = 90 from rfl] at *
  omega

theorem lower_ne_newline {c : Char} (h : c.isLower = true) : c ≠ '\n' := by
  rintro rfl
  exact absurd h (by decide)

/-! ## The first pass -/

theorem splitWords_lower {ls : Text} (h : ∀ c ∈ ls, c.isLower = true) (v : Char) (t : Text) : splitWords true (ls ++ v :: t) = ls ++ splitWords true (v :: t) := by
  induction ls with
  | nil => rfl
  | cons c ls ih =>
    have hc := h c (by simp)
    have ih := ih (fun x hx => h x (by simp [hx]))
    cases ls with
    | nil => simp [splitWords, hc]
    | cons d ls =>
      simp only [List.cons_append] at ih ⊢
      rw [splitWords, hc]
      simp only [Bool.and_self, if_true, ih]

theorem splitWords_end {b : Bool} {ls : Text} (h : ∀ c ∈ ls, c.isLower = true) : splitWords b ls = ls := by
  induction ls generalizing b with
  | nil => rfl
  | cons c ls ih =>
    cases ls with
    | nil => rfl
    | cons d ls =>
      have hc := h c (by simp)
      have hd := h d (by simp)
      have ih := fun b => ih (b := b) (fun x hx => h x (by simp [hx]))
      rw [splitWords, ih, ih, lower_not_upper hd]
      simp

/-- Outside of a match: the end of the word before, and the next word. -/
theorem splitWords_next {ls : Text} (h : ∀ c ∈ ls, c.isLower = true) (hne : ls ≠ []) {v m : Char} (hv : v.isUpper = true) (hm : m.isLower = true) (t : Text) :
    splitWords false (ls ++ v :: m :: t) = ls ++ '_' :: v :: splitWords true (m :: t) := by
  induction ls with
  | nil => exact absurd rfl hne
  | cons c ls ih =>
    have hc := h c (by simp)
    cases ls with
    | nil => simp [splitWords, hv, hm, lower_ne_newline hc]
    | cons d ls =>
      have hd := h d (by simp)
      have ih := ih (fun x hx => h x (by simp [hx])) (by simp)
      simp only [List.cons_append] at ih ⊢
      rw [splitWords, ih, lower_not_upper hd]
      simp

theorem splitWords_upper {b : Bool} {u l : Char} (hu : u.isUpper = true) (hl : l.isLower = true) (t : Text) : splitWords b (u :: l :: t) = u :: splitWords false (l :: t) := by
  rw [splitWords, upper_not_lower hu, lower_not_upper hl]
  simp

/-- The result of the first pass: an underscore in every other place. -/
def pairs : List Text → Text
  | [] => []
  | [w] => w
  | w :: v :: ws => w ++ '_' :: v ++ pairs ws

theorem splitWords_words : ∀ (ws : List Text) (b : Bool), (∀ w ∈ ws, CamelWord w) → splitWords b ws.flatten = pairs ws
  | [], _, _ => rfl
  | [w], b, h => by
    obtain ⟨u, ls, rfl, hu, hne, hls⟩ := h w (by simp)
    cases ls with
    | nil => exact absurd rfl hne
    | cons l ls =>
      simp only [List.flatten_cons, List.flatten_nil, List.append_nil, pairs]
      rw [splitWords_upper hu (hls l (by simp)), splitWords_end hls]
  | w :: v :: ws, b, h => by
    have ih := splitWords_words ws true (fun x hx => h x (by simp [hx]))
    obtain ⟨u, ls, rfl, hu, hne, hls⟩ := h w (by simp)
    obtain ⟨u', ms, rfl, hu', hne', hms⟩ := h v (by simp)
    cases ls with
    | nil => exact absurd rfl hne
    | cons l ls =>
      cases ms with
      | nil => exact absurd rfl hne'
      | cons m ms =>
        have hm := hms m (by simp)
        have hrest : splitWords true (m :: (ms ++ ws.flatten)) = m :: (ms ++ pairs ws) := by
          rw [← List.cons_append, ← List.cons_append]
          cases ws with
          | nil => simp only [List.flatten_nil, List.append_nil, pairs]; exact splitWords_end hms
          | cons x ws =>
            obtain ⟨y, ys, rfl, hy, hne'', hys⟩ := h x (by simp)
            rw [← ih]
            exact splitWords_lower hms y _
        simp only [List.flatten_cons, List.cons_append, pairs]
        rw [splitWords_upper hu (hls l (by simp)), ← List.cons_append, splitWords_next hls (by simp) hu' hm, hrest]
        simp

/-! ## The second pass -/

theorem splitCases_underscore (t : Text) : splitCases ('_' :: t) = '_' :: splitCases t := by
  cases t with
  | nil => rfl
  | cons u t =>
    rw [splitCases, if_neg]
    rw [show ('_').isLower = false from by decide, show ('_').isDigit = false from by decide]
    simp

theorem splitCases_upper {u : Char} (hu : u.isUpper = true) (t : Text) : splitCases (u :: t) = u :: splitCases t := by
  cases t with
  | nil => rfl
  | cons v t =>
    rw [splitCases, if_neg]
    rw [upper_not_lower hu, upper_not_digit hu]
    simp

theorem splitCases_end {ls : Text} (h : ∀ c ∈ ls, c.isLower = true) : splitCases ls = ls := by
  induction ls with
  | nil => rfl
  | cons c ls ih =>
    cases ls with
    | nil => rfl
    | cons d ls =>
      have ih := ih (fun x hx => h x (by simp [hx]))
      rw [splitCases, ih, lower_not_upper (h d (by simp))]
      simp

theorem splitCases_lower_underscore {ls : Text} (h : ∀ c ∈ ls, c.isLower = true) (t : Text) : splitCases (ls ++ '_' :: t) = ls ++ '_' :: splitCases t := by
  induction ls with
  | nil => exact splitCases_underscore t
  | cons c ls ih =>
    have ih := ih (fun x hx => h x (by simp [hx]))
    cases ls with
    | nil =>
      simp only [List.cons_append, List.nil_append] at ih ⊢
      rw [splitCases, ih, show ('_').isUpper = false from by decide]
      simp
    | cons d ls =>
      simp only [List.cons_append] at ih ⊢
      rw [splitCases, ih, lower_not_upper (h d (by simp))]
      simp

theorem splitCases_lower_upper {ls : Text} (h : ∀ c ∈ ls, c.isLower = true) (hne : ls ≠ []) {v : Char} (hv : v.isUpper = true) (t : Text) :
    splitCases (ls ++ v :: t) = ls ++ '_' :: v :: splitCases t := by
  induction ls with
  | nil => exact absurd rfl hne
  | cons c ls ih =>
    cases ls with
    | nil =>
      simp only [List.cons_append, List.nil_append]
      rw [splitCases, hv, h c (by simp)]
      simp
    | cons d ls =>
      have ih := ih (fun x hx => h x (by simp [hx])) (by simp)
      simp only [List.cons_append] at ih ⊢
      rw [splitCases, ih, lower_not_upper (h d (by simp))]
      simp

theorem pairs_upper {w : Text} {ws : List Text} (h : CamelWord w) : ∃ u t, pairs (w :: ws) = u :: t ∧ u.isUpper = true := by
  obtain ⟨u, ls, rfl, hu, -, -⟩ := h
  cases ws with
  | nil => exact ⟨u, ls, rfl, hu⟩
  | cons v ws => exact ⟨u, ls ++ '_' :: v ++ pairs ws, by simp [pairs], hu⟩

theorem splitCases_pairs : ∀ (ws : List Text), (∀ w ∈ ws, CamelWord w) → splitCases (pairs ws) = List.intercalate ['_'] ws
  | [], _ => rfl
  | [w], h => by
    obtain ⟨u, ls, rfl, hu, hne, hls⟩ := h w (by simp)
    rw [pairs, splitCases_upper hu, splitCases_end hls]
    simp
  | w :: v :: ws, h => by
    have ih := splitCases_pairs ws (fun x hx => h x (by simp [hx]))
    obtain ⟨u, ls, rfl, hu, hne, hls⟩ := h w (by simp)
    obtain ⟨u', ms, rfl, hu', hne', hms⟩ := h v (by simp)
    rw [pairs]
    simp only [List.cons_append, List.append_assoc]
    rw [splitCases_upper hu, splitCases_lower_underscore hls, splitCases_upper hu']
    cases ws with
    | nil =>
      simp only [pairs, List.append_nil]
      rw [splitCases_end hms]
      simp [List.intercalate]
    | cons x ws =>
      obtain ⟨y, t, hp, hy⟩ := pairs_upper (ws := ws) (h x (by simp))
      rw [hp] at ih ⊢
      rw [splitCases_upper hy] at ih
      rw [splitCases_lower_upper hms hne' hy, ih]
      simp [List.intercalate]

theorem intercalate_map (ws : List Text) : (List.intercalate ['_'] ws).map Char.toLower = List.intercalate ['_'] (ws.map (·.map Char.toLower)) := by
  induction ws with
  | nil => rfl
  | cons w ws ih =>
    cases ws with
    | nil => simp [List.intercalate]
    | cons v ws =>
      have h1 : List.intercalate ['_'] (w :: v :: ws) = w ++ ['_'] ++ List.intercalate ['_'] (v :: ws) := by simp [List.intercalate]
      have h2 : List.intercalate ['_'] ((w :: v :: ws).map (·.map Char.toLower)) = w.map Char.toLower ++ ['_'] ++ List.intercalate ['_'] ((v :: ws).map (·.map Char.toLower)) := by
        simp [List.intercalate]
      rw [h1, h2, ← ih, List.map_append, List.map_append]
      rfl

theorem cython_from_cpp_words (ws : List Text) (h : ∀ w ∈ ws, CamelWord w) : cython_from_cpp ws.flatten = List.intercalate ['_'] (ws.map (·.map Char.toLower)) := by
  unfold cython_from_cpp
  rw [splitWords_words ws false h, splitCases_pairs ws h, intercalate_map]

/-! ## Replacements in the templates -/

theorem cy_replace_loop_spec (cfg : CyConfig) (rs : List Text) : ∀ n, match cy_replace_loop cfg rs n with
    | some l => l.length = n ∧ ∀ i < n, (∃ r, rs[i]? = some r ∧ r ≠ [] ∧ l[i]? = some r) ∨ ((rs[i]? = none ∨ rs[i]? = some []) ∧ l[i]? = cfg.replacement i ∧ cfg.replacement i ≠ none)
    | none => ∃ i < n, (rs[i]? = none ∨ rs[i]? = some []) ∧ cfg.replacement i = none := by
  intro n
  induction n with
  | zero => exact ⟨rfl, fun i hi => absurd hi (by omega)⟩
  | succ n ih =>
    unfold cy_replace_loop
    cases hl : cy_replace_loop cfg rs n with
    | none =>
      rw [hl] at ih
      obtain ⟨i, hi, h⟩ := ih
      exact ⟨i, by omega, h⟩
    | some l =>
      rw [hl] at ih
      obtain ⟨hlen, ih⟩ := ih
      -- what is appended
      have happ : ∀ r, ((∃ s, rs[n]? = some s ∧ s ≠ [] ∧ some r = some s) ∨ ((rs[n]? = none ∨ rs[n]? = some []) ∧ some r = cfg.replacement n ∧ cfg.replacement n ≠ none)) →
          (l ++ [r]).length = n + 1 ∧ ∀ i < n + 1, (∃ s, rs[i]? = some s ∧ s ≠ [] ∧ (l ++ [r])[i]? = some s) ∨
            ((rs[i]? = none ∨ rs[i]? = some []) ∧ (l ++ [r])[i]? = cfg.replacement i ∧ cfg.replacement i ≠ none) := by
        intro r hr
        refine ⟨by simp [hlen], fun i hi => ?_⟩
        by_cases hin : i < n
        · rw [List.getElem?_append_left (by omega)]
          exact ih i hin
        · obtain rfl : i = n := by omega
          rw [List.getElem?_append_right (by omega), hlen, Nat.sub_self]
          exact hr
      have hdef : (rs[n]? = none ∨ rs[n]? = some []) → match (do let r ← cfg.replacement n; some (l ++ [r]) : Option (List Text)) with
          | some l => l.length = n + 1 ∧ ∀ i < n + 1, (∃ r, rs[i]? = some r ∧ r ≠ [] ∧ l[i]? = some r) ∨
              ((rs[i]? = none ∨ rs[i]? = some []) ∧ l[i]? = cfg.replacement i ∧ cfg.replacement i ≠ none)
          | none => ∃ i < n + 1, (rs[i]? = none ∨ rs[i]? = some []) ∧ cfg.replacement i = none := by
        intro h
        cases hr : cfg.replacement n with
        | none => exact ⟨n, by omega, h, hr⟩
        | some r => exact happ r (.inr ⟨h, hr.symm, by simp [hr]⟩)
      cases hrs : rs[n]? with
      | none => exact hdef (.inl hrs)
      | some r =>
        simp only [Option.bind_eq_bind, Option.bind_some]
        by_cases hr : r.isEmpty = true
        · have : r = [] := List.isEmpty_iff.mp hr
          subst this
          exact hdef (.inr hrs)
        · rw [if_neg hr]
          exact happ r (.inl ⟨r, hrs, fun h => hr (by simp [h]), rfl⟩)

end HyperHDG.Import

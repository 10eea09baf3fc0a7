import Verif.Spec.GeoFile
import Verif.Props.DenseLA
import Mathlib.Data.List.Forall2
import Mathlib.Data.List.OfFn
import Mathlib.Data.List.Sort
import Mathlib.Data.List.TakeWhile
import Mathlib.Data.List.FinRange

/-! Helper lemmas for reading domains. -/

namespace HyperHDG

variable {d s : Nat} {K : Type}

/-! ## Sorting -/

section Sorting
variable {α : Type} {lt eq : α → α → Bool}

theorem StrictTotal.lt_of (h : StrictTotal lt eq) {a b : α} (h1 : lt b a = false) (h2 : a ≠ b) : lt a b = true := by
  cases hab : lt a b
  · exact absurd (h.total a b hab h1) h2
  · rfl

theorem noAdjacent_iff (h : StrictTotal lt eq) : ∀ l : List α, l.Pairwise (fun a b => lt b a = false) → (noAdjacent eq l = true ↔ l.Nodup)
  | [], _ => by simp [noAdjacent]
  | [a], _ => by simp [noAdjacent]
  | a :: b :: l, hp => by
      have ih := noAdjacent_iff h (b :: l) hp.of_cons
      unfold noAdjacent
      have e : (a :: b :: l).Nodup ↔ a ∉ b :: l ∧ (b :: l).Nodup := List.nodup_cons
      rw [Bool.and_eq_true, ih, e, Bool.not_eq_true', Bool.eq_false_iff, ne_eq, h.eq_iff]
      refine ⟨fun ⟨h1, h2⟩ => ⟨fun hm => ?_, h2⟩, fun ⟨h1, h2⟩ => ⟨fun hab => h1 (hab ▸ List.mem_cons_self), h2⟩⟩
      have hab : lt a b = true := h.lt_of (List.rel_of_pairwise_cons hp List.mem_cons_self) h1
      rcases List.mem_cons.mp hm with hm | hm
      · exact h1 hm
      · have hba : lt a b = false := List.rel_of_pairwise_cons hp.of_cons hm
        rw [hab] at hba
        exact absurd hba (by decide)

theorem is_unique_iff {sort : StdSort} (hs : SortSpec sort) (h : StrictTotal lt eq) (l : List α) : is_unique sort lt eq l = true ↔ l.Nodup := by
  obtain ⟨h1, h2⟩ := hs α lt eq h l
  unfold is_unique
  rw [noAdjacent_iff h _ h2, h1.nodup_iff]

theorem lexLt_irrefl : ∀ l, lexLt l l = false
  | [] => rfl
  | a :: l => by simp [lexLt, lexLt_irrefl l]

theorem lexLt_trans : ∀ a b c, lexLt a b = true → lexLt b c = true → lexLt a c = true
  | _, _, [], _, h => by simp [lexLt] at h
  | _, [], _ :: _, h, _ => by simp [lexLt] at h
  | [], _ :: _, _ :: _, _, _ => rfl
  | a :: as, b :: bs, c :: cs, h1, h2 => by
      unfold lexLt at h1 h2 ⊢
      by_cases hab : a < b
      · by_cases hbc : b < c
        · rw [if_pos (hab.trans hbc)]
        · rw [if_neg hbc] at h2
          by_cases hcb : c < b
          · rw [if_pos hcb] at h2; exact absurd h2 (by decide)
          · rw [if_pos (by omega)]
      · rw [if_neg hab] at h1
        by_cases hba : b < a
        · rw [if_pos hba] at h1; exact absurd h1 (by decide)
        · rw [if_neg hba] at h1
          have : a = b := by omega
          subst this
          by_cases hbc : a < c
          · rw [if_pos hbc]
          · rw [if_neg hbc] at h2 ⊢
            by_cases hcb : c < a
            · rw [if_pos hcb] at h2; exact absurd h2 (by decide)
            · rw [if_neg hcb] at h2 ⊢
              exact lexLt_trans as bs cs h1 h2

theorem lexLt_total : ∀ a b, a.length = b.length → lexLt a b = false → lexLt b a = false → a = b
  | [], [], _, _, _ => rfl
  | [], _ :: _, h, _, _ => by simp at h
  | _ :: _, [], h, _, _ => by simp at h
  | a :: as, b :: bs, h, h1, h2 => by
      unfold lexLt at h1 h2
      by_cases hab : a < b
      · rw [if_pos hab] at h1; exact absurd h1 (by decide)
      · by_cases hba : b < a
        · rw [if_pos hba] at h2; exact absurd h2 (by decide)
        · rw [if_neg hab, if_neg hba] at h1
          rw [if_neg hba, if_neg hab] at h2
          rw [show a = b by omega, lexLt_total as bs (by simpa using h) h1 h2]

theorem ltNat_total : StrictTotal ltNat eqNat where
  irrefl := fun a => by simp [ltNat]
  trans := fun a b c h1 h2 => by simp only [ltNat, decide_eq_true_eq] at *; omega
  total := fun a b h1 h2 => by simp only [ltNat, decide_eq_false_iff_not] at *; omega
  eq_iff := fun a b => by simp [eqNat]

theorem ltArr_total {n : Nat} : StrictTotal (ltArr (n := n)) eqArr where
  irrefl := fun a => lexLt_irrefl _
  trans := fun a b c h1 h2 => lexLt_trans _ _ _ h1 h2
  total := fun a b h1 h2 => List.ofFn_injective (lexLt_total _ _ (by simp) h1 h2)
  eq_iff := fun a b => by simp [eqArr]

theorem ltPoint_total [LinearOrder K] : StrictTotal (SmallMat.lt (r := s) (c := 1) (K := K)) SmallMat.eq where
  irrefl := fun a => (C08_strict_total_order a a a).1
  trans := fun a b c h1 h2 => (C08_strict_total_order a b c).2.1 h1 h2
  total := fun a b h1 h2 => by
    rcases (C08_strict_total_order a b a).2.2 with h | h | h
    · rw [h.1] at h1; exact absurd h1 (by decide)
    · exact ((C08_equality a b).2.1).mp h.2.1
    · rw [h.2.2] at h2; exact absurd h2 (by decide)
  eq_iff := fun a b => (C08_equality a b).2.1

end Sorting

/-- An implementation of `std::sort`. -/
def insertionSort : StdSort := fun _ lt l => l.insertionSort (fun a b => lt b a = false)

theorem insertionSort_spec : SortSpec insertionSort := fun α lt eq h l => by
  refine ⟨List.perm_insertionSort _ _, ?_⟩
  have : Std.Total (fun a b : α => lt b a = false) := ⟨fun a b => by
    cases hab : lt a b
    · exact .inr rfl
    · cases hba : lt b a
      · exact .inl rfl
      · have := h.trans a b a hab hba
        rw [h.irrefl] at this; exact absurd this (by decide)⟩
  have : IsTrans α (fun a b : α => lt b a = false) := ⟨fun a b c h1 h2 => by
    cases hca : lt c a
    · rfl
    · cases hab : lt a b
      · have : a = b := h.total a b hab h1
        subst this
        rw [h2] at hca; exact absurd hca (by decide)
      · have := h.trans c a b hca hab
        rw [h2] at this; exact absurd this (by decide)⟩
  exact List.pairwise_insertionSort _ _

/-! ## `check_consistency` -/

namespace DomainInfo

theorem checkEdge_debug {sort : StdSort} (hs : SortSpec sort) {n : Nat} (bound : Nat) (c : Bool) (a : Fin n → Nat) :
    ((Function.Injective a ∧ ∀ i, a i < bound) → ∃ c', checkEdge .debug sort bound c a = .ok c') ∧
    (¬ (Function.Injective a ∧ ∀ i, a i < bound) → checkEdge .debug sort bound c a = .abort) := by
  have h1 : is_unique sort ltNat eqNat (List.ofFn a) = true ↔ Function.Injective a := by
    rw [is_unique_iff hs ltNat_total, List.nodup_ofFn]
  have h2 : ∀ (l : List Nat) (c : Bool),
      ((∀ x ∈ l, x < bound) → ∃ c', l.foldlM (checkIndex .debug bound) c = .ok c') ∧
      (¬ (∀ x ∈ l, x < bound) → l.foldlM (checkIndex .debug bound) c = .abort) := fun l => by
    induction l with
    | nil => exact fun c => ⟨fun _ => ⟨c, rfl⟩, fun h => absurd (fun _ hx => by simp at hx) h⟩
    | cons x l ih =>
        intro c
        rw [List.foldlM_cons]
        by_cases hx : x < bound
        · have hc : checkIndex .debug bound c x = .ok (decide (x < bound)) := by
            unfold checkIndex
            rw [hyAssert_of hx]; rfl
          rw [hc]
          simp only [Res.ok_bind]
          refine ⟨fun h => (ih _).1 (fun y hy => h y (List.mem_cons_of_mem _ hy)), fun h => (ih _).2 (fun h' => h (fun y hy => ?_))⟩
          rcases List.mem_cons.mp hy with rfl | hy
          · exact hx
          · exact h' y hy
        · have hc : checkIndex .debug bound c x = .abort := by
            unfold checkIndex
            rw [hyAssert_debug_not hx]; rfl
          rw [hc]
          exact ⟨fun h => absurd (h x List.mem_cons_self) hx, fun _ => rfl⟩
  have h3 : (∀ x ∈ List.ofFn a, x < bound) ↔ ∀ i, a i < bound := by
    simp [List.mem_ofFn]
  unfold checkEdge
  by_cases hu : Function.Injective a
  · rw [hyAssert_of (h1.mpr hu), Res.ok_bind]
    have := h2 (List.ofFn a) c
    rw [h3] at this
    exact ⟨fun h => this.1 h.2, fun h => this.2 (fun h' => h ⟨hu, h'⟩)⟩
  · rw [hyAssert_debug_not (fun h => hu (h1.mp h))]
    exact ⟨fun h => absurd h.1 hu, fun _ => rfl⟩

theorem checkEdges_debug {sort : StdSort} (hs : SortSpec sort) {n : Nat} (bound : Nat) : ∀ (l : List (Fin n → Nat)) (c : Bool),
    ((∀ a ∈ l, Function.Injective a ∧ ∀ i, a i < bound) → ∃ c', l.foldlM (checkEdge .debug sort bound) c = .ok c') ∧
    (¬ (∀ a ∈ l, Function.Injective a ∧ ∀ i, a i < bound) → l.foldlM (checkEdge .debug sort bound) c = .abort)
  | [], c => ⟨fun _ => ⟨c, rfl⟩, fun h => absurd (fun _ ha => by simp at ha) h⟩
  | a :: l, c => by
      rw [List.foldlM_cons]
      obtain ⟨h1, h2⟩ := checkEdge_debug hs bound c a
      by_cases ha : Function.Injective a ∧ ∀ i, a i < bound
      · obtain ⟨c', hc⟩ := h1 ha
        rw [hc]
        simp only [Res.ok_bind]
        obtain ⟨i1, i2⟩ := checkEdges_debug hs bound l c'
        refine ⟨fun h => i1 (fun b hb => h b (List.mem_cons_of_mem _ hb)), fun h => i2 (fun h' => h (fun b hb => ?_))⟩
        rcases List.mem_cons.mp hb with rfl | hb
        · exact ha
        · exact h' b hb
      · rw [h2 ha]
        exact ⟨fun h => absurd (h a List.mem_cons_self) ha, fun _ => rfl⟩

theorem checkEdge_release (sort : StdSort) {n : Nat} (bound : Nat) (c : Bool) (a : Fin n → Nat) : ∃ c', checkEdge .release sort bound c a = .ok c' := by
  unfold checkEdge
  simp only [hyAssert_release, Res.ok_bind]
  have : ∀ (l : List Nat) (c : Bool), ∃ c', l.foldlM (checkIndex .release bound) c = .ok c' := fun l => by
    induction l with
    | nil => exact fun c => ⟨c, rfl⟩
    | cons x l ih =>
        intro c
        rw [List.foldlM_cons]
        exact ih _
  exact this _ c

theorem checkEdges_release (sort : StdSort) {n : Nat} (bound : Nat) : ∀ (l : List (Fin n → Nat)) (c : Bool),
    ∃ c', l.foldlM (checkEdge .release sort bound) c = .ok c'
  | [], c => ⟨c, rfl⟩
  | a :: l, c => by
      obtain ⟨c', hc⟩ := checkEdge_release sort bound c a
      rw [List.foldlM_cons, hc, Res.ok_bind]
      exact checkEdges_release sort bound l c'

end DomainInfo

/-! ## Words -/

theorem dropWhile_spaces {sp w rest : List Char} (h1 : ∀ c ∈ sp, isSpace c = true) (h2 : w ≠ []) (h3 : ∀ c ∈ w, isSpace c = false) :
    (sp ++ w ++ rest).dropWhile isSpace = w ++ rest := by
  rw [List.append_assoc, List.dropWhile_append_of_pos h1]
  obtain ⟨c, w, rfl⟩ := List.exists_cons_of_ne_nil h2
  rw [List.cons_append, List.dropWhile_cons_of_neg]
  rw [h3 c List.mem_cons_self]
  decide

theorem takeWhile_word {p : Char → Bool} {w rest : List Char} (h1 : ∀ c ∈ w, p c = true) (h2 : ∀ c ∈ rest.head?, p c = false) :
    (w ++ rest).takeWhile p = w ∧ (w ++ rest).dropWhile p = rest := by
  rw [List.takeWhile_append_of_pos h1, List.dropWhile_append_of_pos h1]
  cases rest with
  | nil => simp
  | cons c rest =>
      have := h2 c (by simp)
      constructor
      · rw [List.takeWhile_cons_of_neg (by simp [this]), List.append_nil]
      · rw [List.dropWhile_cons_of_neg (by simp [this])]

theorem says_total (l : List Char) : ∃ ws, Says l ws := by
  induction hn : l.length using Nat.strong_induction_on generalizing l with
  | _ n ih =>
    subst hn
    have h0 := List.takeWhile_append_dropWhile (p := isSpace) (l := l)
    cases hd : l.dropWhile isSpace with
    | nil =>
        refine ⟨[], .blank l (fun c hc => ?_)⟩
        rw [hd, List.append_nil] at h0
        rw [← h0] at hc
        exact List.mem_takeWhile_imp hc
    | cons c cs =>
        have hc : isSpace c = false := by
          have := List.head_dropWhile_not isSpace (l := l) (by rw [hd]; simp)
          simpa [hd] using this
        have h1 := List.takeWhile_append_dropWhile (p := fun c => !isSpace c) (l := c :: cs)
        have hw : (c :: cs).takeWhile (fun c => !isSpace c) ≠ [] := by
          rw [List.takeWhile_cons_of_pos (by simp [hc])]
          simp
        have hlen : ((c :: cs).dropWhile (fun c => !isSpace c)).length < l.length := by
          have e1 := congrArg List.length h0
          have e2 := congrArg List.length h1
          rw [hd] at e1
          simp only [List.length_append] at e1 e2
          have := List.length_pos_of_ne_nil hw
          omega
        obtain ⟨ws, hws⟩ := ih _ hlen _ rfl
        refine ⟨(c :: cs).takeWhile (fun c => !isSpace c) :: ws, ?_⟩
        have := Says.word (l.takeWhile isSpace) ((c :: cs).takeWhile (fun c => !isSpace c)) ((c :: cs).dropWhile (fun c => !isSpace c)) ws
          (fun c hc => List.mem_takeWhile_imp hc) hw (fun c hc => by simpa using List.mem_takeWhile_imp hc) (fun c' hc' => ?_) hws
        · rw [hd] at h0
          rw [List.append_assoc, h1, h0] at this
          exact this
        · cases hr : (c :: cs).dropWhile (fun c => !isSpace c) with
          | nil => rw [hr] at hc'; simp at hc'
          | cons x xs =>
              rw [hr] at hc'
              have := List.head_dropWhile_not (fun c => !isSpace c) (l := c :: cs) (by rw [hr]; simp)
              simp only [hr, List.head_cons] at this
              simp only [List.head?_cons, Option.mem_def, Option.some.injEq] at hc'
              rw [← hc']; simpa using this

theorem string_of_says {l w : List Char} {ws : List (List Char)} (h : Says l (w :: ws)) :
    ∃ rest, LineStream.string ⟨l, true⟩ = (⟨rest, true⟩, some w) ∧ Says rest ws := by
  cases h with
  | word sp w rest ws h1 h2 h3 h4 h5 =>
      refine ⟨rest, ?_, h5⟩
      unfold LineStream.string
      obtain ⟨t1, t2⟩ := takeWhile_word (p := fun c => !isSpace c) (w := w) (rest := rest) (fun c hc => by simp [h3 c hc]) (fun c hc => by simp [h4 c hc])
      simp only [if_true, dropWhile_spaces h1 h2 h3]
      obtain ⟨c, w, rfl⟩ := List.exists_cons_of_ne_nil h2
      simp only [List.cons_append] at t1 t2 ⊢
      rw [t1, t2]

theorem string_of_blank {l : List Char} (h : Says l []) : LineStream.string ⟨l, true⟩ = (⟨[], false⟩, none) := by
  cases h with
  | blank _ h =>
      unfold LineStream.string
      have : l.dropWhile isSpace = [] := List.dropWhile_eq_nil_iff.mpr h
      simp only [if_true, this]

theorem digit_not_space {c : Char} (h : isSpace c = true) : c.isDigit = false := by
  unfold isSpace at h
  simp only [Bool.or_eq_true, beq_iff_eq] at h
  rcases h with ((((h | h) | h) | h) | h) | h <;> subst h <;> decide

theorem unsigned_of_says {l w : List Char} {ws : List (List Char)} {n : Nat} (h : Says l (w :: ws)) (hn : IsNumber w n) :
    ∃ rest, LineStream.unsigned ⟨l, true⟩ = (⟨rest, true⟩, some n) ∧ Says rest ws := by
  cases h with
  | word sp w rest ws h1 h2 h3 h4 h5 =>
      refine ⟨rest, ?_, h5⟩
      unfold LineStream.unsigned
      obtain ⟨t1, t2⟩ := takeWhile_word (p := Char.isDigit) (w := w) (rest := rest) hn.digits (fun c hc => digit_not_space (h4 c hc))
      simp only [if_true, dropWhile_spaces h1 h2 h3]
      obtain ⟨c, w, rfl⟩ := List.exists_cons_of_ne_nil h2
      have hc := hn.digits c List.mem_cons_self
      have hc1 : (c == '-') = false := by
        rw [beq_eq_false_iff_ne]; rintro rfl; exact absurd hc (by decide)
      have hc2 : (c == '+') = false := by
        rw [beq_eq_false_iff_ne]; rintro rfl; exact absurd hc (by decide)
      simp only [List.cons_append] at t1 t2 ⊢
      simp only [hc1, hc2, Bool.or_self, Bool.false_eq_true, if_false, t1, t2, hn.value, hn.small, if_true]
      simp

theorem unsigned_of_count {l w : List Char} {ws : List (List Char)} {n : Nat} (h : Says l (w :: ws)) (hn : IsCount w n) :
    ∃ rest, LineStream.unsigned ⟨l, true⟩ = (⟨rest, true⟩, some n) := by
  obtain ⟨ds, tail, rfl, hn, ht⟩ := hn
  cases h with
  | word sp w rest ws h1 h2 h3 h4 h5 =>
      refine ⟨tail ++ rest, ?_⟩
      unfold LineStream.unsigned
      obtain ⟨t1, t2⟩ := takeWhile_word (p := Char.isDigit) (w := ds) (rest := tail ++ rest) hn.digits (fun c hc => by
        rcases ht with rfl | ⟨t, rfl⟩
        · exact digit_not_space (h4 c hc)
        · simp only [List.cons_append, List.head?_cons, Option.mem_some_iff] at hc
          subst hc; decide)
      simp only [if_true, dropWhile_spaces h1 h2 h3]
      obtain ⟨c, ds, rfl⟩ := List.exists_cons_of_ne_nil hn.nonempty
      have hc := hn.digits c List.mem_cons_self
      have hc1 : (c == '-') = false := by
        rw [beq_eq_false_iff_ne]; rintro rfl; exact absurd hc (by decide)
      have hc2 : (c == '+') = false := by
        rw [beq_eq_false_iff_ne]; rintro rfl; exact absurd hc (by decide)
      simp only [List.cons_append, List.append_assoc] at t1 t2 ⊢
      simp only [hc1, hc2, Bool.or_self, Bool.false_eq_true, if_false, t1, t2, hn.value, hn.small, if_true]
      simp

theorem real_of_blank [Zero K] {scan : Scan K} {l : List Char} (h : Says l []) : LineStream.real scan ⟨l, true⟩ = (⟨[], false⟩, none) := by
  cases h with
  | blank _ h =>
      unfold LineStream.real
      have : l.dropWhile isSpace = [] := List.dropWhile_eq_nil_iff.mpr h
      simp only [this, if_true]

theorem real_of_says [Zero K] {scan : Scan K} {l w : List Char} {ws : List (List Char)} {x : K} (h : Says l (w :: ws)) (hx : IsReal scan w x) :
    ∃ rest, LineStream.real scan ⟨l, true⟩ = (⟨rest, true⟩, some x) ∧ Says rest ws := by
  cases h with
  | word sp w rest ws h1 h2 h3 h4 h5 =>
      refine ⟨rest, ?_, h5⟩
      unfold LineStream.real
      have := hx rest h4
      simp only [if_true, dropWhile_spaces h1 h2 h3]
      obtain ⟨c, w, rfl⟩ := List.exists_cons_of_ne_nil h2
      simp only [List.cons_append] at this ⊢
      rw [this]

theorem extractAll_of_says {α : Type} {extract : LineStream → LineStream × Option α} {rel : List Char → α → Prop}
    (hex : ∀ l w ws x, Says l (w :: ws) → rel w x → ∃ rest, extract ⟨l, true⟩ = (⟨rest, true⟩, some x) ∧ Says rest ws)
    {n : Nat} (values v0 : Fin n → α) (l : List Char) (h : Row rel (List.ofFn values) l) :
    (extractAll extract ⟨l, true⟩ v0).2 = values := by
  have key : ∀ (idx : List (Fin n)) (ws : List (List Char)) (l : List Char) (extra : List (List Char)) (v : Fin n → α),
      Says l (ws ++ extra) → List.Forall₂ (fun w i => rel w (values i)) ws idx →
      ∀ i, (idx.foldl (extractAt extract) ((⟨l, true⟩ : LineStream), v)).2 i = if i ∈ idx then values i else v i := by
    intro idx
    induction idx with
    | nil => intro ws l extra v _ _ i; simp
    | cons a idx ih =>
        intro ws l extra v hl hf i
        cases hf with
        | cons hwa hf =>
            obtain ⟨rest, e1, e2⟩ := hex _ _ _ _ hl hwa
            rw [List.foldl_cons]
            have e3 : extractAt extract (⟨l, true⟩, v) a = (⟨rest, true⟩, arrSet v a (values a)) := by
              unfold extractAt
              rw [e1]
            rw [e3, ih _ rest extra _ e2 hf i]
            by_cases hi : i ∈ idx
            · rw [if_pos hi, if_pos (List.mem_cons_of_mem _ hi)]
            · rw [if_neg hi]
              by_cases hia : i = a
              · subst hia
                rw [if_pos List.mem_cons_self]
                simp [arrSet]
              · rw [if_neg (by simp [hi, hia])]
                simp [arrSet, hia]
  obtain ⟨ws, extra, h1, h2⟩ := h
  funext i
  unfold extractAll
  rw [List.ofFn_eq_map, List.forall₂_map_right_iff] at h2
  rw [key _ ws l extra v0 h1 h2 i, if_pos (List.mem_finRange i)]

theorem extract_blank [Zero K] {scan : Scan K} {n : Nat} (v : Fin n → K) : ∀ (idx : List (Fin n)) (rest : List Char),
    (idx.foldl (extractAt (LineStream.real scan)) ((⟨rest, false⟩ : LineStream), v)).2 = v
  | [], _ => rfl
  | a :: idx, rest => by
      rw [List.foldl_cons]
      exact extract_blank v idx rest

theorem extractAll_of_point [Zero K] {scan : Scan K} (prev p : SmallVec s K) (l : List Char) (h : PointRow scan prev p l) :
    (extractAll (LineStream.real scan) ⟨l, true⟩ prev).2 = p := by
  have key : ∀ (idx : List (Fin (s * 1))) (ws : List (List Char)) (l : List Char) (extra : List (List Char)) (v : SmallVec s K),
      Says l (ws ++ extra) → ws.length ≤ idx.length → (ws.length < idx.length → extra = []) → List.Forall₂ (fun w i => IsReal scan w (p i)) ws (idx.take ws.length) →
      ∀ i, (i ∈ idx.take ws.length → (idx.foldl (extractAt (LineStream.real scan)) ((⟨l, true⟩ : LineStream), v)).2 i = p i) ∧
        (i ∉ idx.take ws.length → (idx.foldl (extractAt (LineStream.real scan)) ((⟨l, true⟩ : LineStream), v)).2 i = v i) := by
    intro idx
    induction idx with
    | nil => intro ws l extra v _ _ _ _ i; simp
    | cons a idx ih =>
        intro ws l extra v hl hlen hextra hf i
        cases ws with
        | nil =>
            have he := hextra (by simp)
            subst he
            rw [List.foldl_cons]
            have e3 : extractAt (LineStream.real scan) (⟨l, true⟩, v) a = (⟨[], false⟩, v) := by
              unfold extractAt
              rw [real_of_blank hl]
            rw [e3, extract_blank]
            simp
        | cons w ws =>
            simp only [List.length_cons, List.take_succ_cons, List.forall₂_cons] at hf hlen hextra ⊢
            obtain ⟨rest, e1, e2⟩ := real_of_says hl hf.1
            rw [List.foldl_cons]
            have e3 : extractAt (LineStream.real scan) (⟨l, true⟩, v) a = (⟨rest, true⟩, arrSet v a (p a)) := by
              unfold extractAt
              rw [e1]
            rw [e3]
            obtain ⟨i1, i2⟩ := ih ws rest extra (arrSet v a (p a)) e2 (by omega) (fun h => hextra (by omega)) hf.2 i
            by_cases hi : i ∈ idx.take ws.length
            · exact ⟨fun _ => i1 hi, fun h => absurd (List.mem_cons_of_mem _ hi) h⟩
            · rw [i2 hi]
              refine ⟨fun h => ?_, fun h => ?_⟩
              · have hia : i = a := (List.mem_cons.mp h).resolve_right hi
                subst hia
                simp [arrSet]
              · have hia : i ≠ a := fun hia => h (by rw [hia]; exact List.mem_cons_self)
                simp [arrSet, hia]
  obtain ⟨ws, extra, h1, h2, h3, h4, h5⟩ := h
  funext i
  unfold extractAll
  obtain ⟨k1, k2⟩ := key (List.finRange (s * 1)) ws l extra prev h1 (by simpa using h2) (fun h => h3 (by simpa using h)) (by
    rw [List.forall₂_iff_get]
    refine ⟨by simpa using h2, fun j hj hj' => ?_⟩
    have hjs : j < s * 1 := by omega
    have := h4 ⟨j, hjs⟩ hj
    simpa using this) i
  have hmem : i ∈ (List.finRange (s * 1)).take ws.length ↔ i.val < ws.length := by
    rw [List.mem_take_iff_getElem]
    constructor
    · rintro ⟨j, hj, rfl⟩
      rw [List.getElem_finRange]
      exact (Nat.lt_min.mp hj).1
    · intro hi
      exact ⟨i.val, by rw [List.length_finRange]; exact Nat.lt_min.mpr ⟨hi, i.isLt⟩, by rw [List.getElem_finRange]; rfl⟩
  by_cases hi : i.val < ws.length
  · exact k1 (hmem.mpr hi)
  · rw [k2 (fun h => hi (hmem.mp h)), h5 i (by omega)]

/-! ## Lines -/

theorem linesOf_unlines : ∀ ls : List (List Char), (∀ l ∈ ls, '\n' ∉ l) → linesOf (ls.flatMap (fun l => l ++ ['\n'])) = ls
  | [], _ => rfl
  | l :: ls, h => by
      have ih := linesOf_unlines ls (fun l hl => h l (List.mem_cons_of_mem _ hl))
      have hl := h l List.mem_cons_self
      rw [List.flatMap_cons]
      clear h
      induction l with
      | nil => simp only [List.nil_append, List.cons_append, linesOf, if_true, ih]
      | cons c l ihl =>
          have hc : c ≠ '\n' := fun hc => hl (by rw [hc]; exact List.mem_cons_self)
          have := ihl (fun hm => hl (List.mem_cons_of_mem _ hm))
          simp only [List.cons_append] at this ⊢
          rw [linesOf, if_neg hc]
          simp only [List.append_assoc] at this
          simp only [List.append_assoc, this]

theorem seek_done (kw : List Char) (l : List (List Char)) (st : LineStream) : seek kw l kw st = ⟨l, kw, st⟩ := by
  cases l with
  | nil => rfl
  | cons a l => rw [seek, if_pos rfl]

/-- What happens to the keyword for a line which does not start with the one looked for. -/
theorem keyword_ne {kw : String} {line k : List Char} (h : ¬ StartsWith kw line) (hk : k ≠ kw.toList) :
    (LineStream.string ⟨line, true⟩).2.getD k ≠ kw.toList := by
  obtain ⟨ws, hws⟩ := says_total line
  cases ws with
  | nil =>
      rw [string_of_blank hws]; exact hk
  | cons w ws =>
      obtain ⟨rest, h1, -⟩ := string_of_says hws
      rw [h1]
      intro he
      have : w = kw.toList := he
      subst this
      exact h ⟨ws, hws⟩

theorem seek_comments {kw : String} : ∀ (comments rest : List (List Char)) (k : List Char) (st : LineStream), (∀ l ∈ comments, ¬ StartsWith kw l) → k ≠ kw.toList →
    ∃ k' st', k' ≠ kw.toList ∧ seek kw.toList (comments ++ rest) k st = seek kw.toList rest k' st'
  | [], rest, k, st, _, hk => ⟨k, st, hk, rfl⟩
  | c :: comments, rest, k, st, h, hk => by
      obtain ⟨k', st', h1, h2⟩ := seek_comments comments rest _ (LineStream.string ⟨c, true⟩).1 (fun l hl => h l (List.mem_cons_of_mem _ hl))
        (keyword_ne (h c List.mem_cons_self) hk)
      refine ⟨k', st', h1, ?_⟩
      rw [List.cons_append, seek, if_neg hk]
      exact h2

theorem seek_spec {kw : String} {comments : List (List Char)} {key : List Char} {ws : List (List Char)} (rest : List (List Char)) (k : List Char) (st : LineStream)
    (hc : ∀ l ∈ comments, ¬ StartsWith kw l) (hk : k ≠ kw.toList) (hkey : Says key (kw.toList :: ws)) :
    ∃ tail, seek kw.toList (comments ++ key :: rest) k st = ⟨rest, kw.toList, ⟨tail, true⟩⟩ ∧ Says tail ws := by
  obtain ⟨k', st', h1, h2⟩ := seek_comments comments (key :: rest) k st hc hk
  obtain ⟨tail, h3, h4⟩ := string_of_says hkey
  refine ⟨tail, ?_, h4⟩
  rw [h2, seek, if_neg h1, h3]
  exact seek_done _ _ _

theorem seek_missing {kw : String} {lines : List (List Char)} {k : List Char} {st : LineStream} (hc : ∀ l ∈ lines, ¬ StartsWith kw l) (hk : k ≠ kw.toList) :
    (seek kw.toList lines k st).keyword ≠ kw.toList := by
  obtain ⟨k', st', h1, h2⟩ := seek_comments lines [] k st hc hk
  rw [List.append_nil] at h2
  rw [h2]
  exact h1

theorem rows_inv {σ : Type} (n : Nat) (body : Nat → List Char → σ → σ) (I : Nat → σ → Prop) : ∀ (data rest : List (List Char)) (it : Nat) (t : σ),
    it + data.length = n → I it t → (∀ (k : Nat) (hk : k < data.length) (t : σ), I (it + k) t → I (it + k + 1) (body (it + k) data[k] t)) →
    ∃ t', rows n body it (data ++ rest) t = (n, rest, t') ∧ I n t'
  | [], rest, it, t, h, h0, _ => by
      have : it = n := by simpa using h
      subst this
      refine ⟨t, ?_, h0⟩
      cases rest with
      | nil => rfl
      | cons a rest => rw [List.nil_append, rows, if_neg (Nat.lt_irrefl _)]
  | l :: data, rest, it, t, h, h0, hs => by
      rw [List.length_cons] at h
      rw [List.cons_append, rows, if_pos (by omega)]
      have h1 := hs 0 (by simp) t h0
      refine rows_inv n body I data rest (it + 1) _ (by omega) h1 (fun k hk t ht => ?_)
      have := hs (k + 1) (by simpa using hk) t (by rw [show it + (k + 1) = it + 1 + k by omega]; exact ht)
      simp only [show it + (k + 1) = it + 1 + k by omega, List.getElem_cons_succ] at this
      exact this

/-- A list which is filled position by position. -/
theorem filled {α : Type} {values l : List α} (h1 : l.length = values.length) (h2 : ∀ k, k < values.length → l[k]? = values[k]?) : l = values := by
  apply List.ext_getElem? fun k => ?_
  by_cases hk : k < values.length
  · exact h2 k hk
  · rw [List.getElem?_eq_none (by omega), List.getElem?_eq_none (by omega)]

/-! ## Sections -/

theorem header_spec {kw : String} {n : Nat} {h : List (List Char)} (hh : Header kw n h) (rest : List (List Char)) (k eq0 : List Char) (st : LineStream)
    (hk : k ≠ kw.toList) : ∃ st', GeoReader.header kw.toList eq0 ⟨h ++ rest, k, st⟩ = (⟨rest, kw.toList, st'⟩, ['='], some n) := by
  obtain ⟨comments, key, rfl, hc, w, extra, hw, hn⟩ := hh
  obtain ⟨tail, h1, h2⟩ := seek_spec rest k st hc hk hw
  obtain ⟨tail2, h3, h4⟩ := string_of_says h2
  obtain ⟨tail3, h5⟩ := unsigned_of_count h4 hn
  refine ⟨⟨tail3, true⟩, ?_⟩
  have e : GeoReader.seek kw.toList ⟨comments ++ [key] ++ rest, k, st⟩ = ⟨rest, kw.toList, ⟨tail, true⟩⟩ := by
    unfold GeoReader.seek
    rw [← h1, List.append_assoc]; rfl
  unfold GeoReader.header
  simp only [e, h3, h5, Option.getD_some]

theorem forall₂_get {α β : Type} {R : α → β → Prop} {l1 : List α} {l2 : List β} (h : List.Forall₂ R l1 l2) (k : Nat) (h1 : k < l1.length) (h2 : k < l2.length) :
    R l1[k] l2[k] := List.Forall₂.get h h1 h2

theorem points_spec [Zero K] {scan : Scan K} {points p0 : List (SmallVec s K)} {sec : List (List Char)}
    (hsec : PointSection scan points sec) (n : Nat) (hn : points.length = n) (hp0 : p0.length = n)
    (rest : List (List Char)) (k : List Char) (st : LineStream) (hk : k ≠ "POINTS:".toList) :
    ∃ r' st', GeoReader.seek "POINTS:".toList ⟨sec ++ rest, k, st⟩ = r' ∧ r'.keyword = "POINTS:".toList ∧
      GeoReader.points scan n r' p0 = (n, ⟨rest, "POINTS:".toList, st'⟩, points) := by
  obtain ⟨comments, key, data, rfl, hc, ⟨ws, hkey⟩, hd⟩ := hsec
  obtain ⟨tail, h1, -⟩ := seek_spec (data ++ rest) k st hc hk hkey
  have e : GeoReader.seek "POINTS:".toList ⟨comments ++ key :: data ++ rest, k, st⟩ = ⟨data ++ rest, "POINTS:".toList, ⟨tail, true⟩⟩ := by
    unfold GeoReader.seek
    rw [← h1, List.append_assoc, List.cons_append]
  have hlen : data.length = points.length := by rw [hd.length_eq, List.length_zip, List.length_cons]; omega
  obtain ⟨t', t1, t2⟩ := rows_inv n (fun iter line (t : SmallVec s K × List (SmallVec s K) × LineStream) =>
      let x := extractAll (LineStream.real scan) ⟨line, true⟩ t.1
      (x.2, t.2.1.set iter x.2, x.1)) (fun it t => (t.2.1.length = n ∧ t.1 = ((fun _ => 0) :: points).getD it (fun _ => 0)) ∧ ∀ k, k < it → t.2.1[k]? = points[k]?) data rest 0 (SmallMat.fill s 1 0, p0, ⟨tail, true⟩)
    (by omega) ⟨⟨hp0, rfl⟩, fun k hk => absurd hk (Nat.not_lt_zero _)⟩ (fun j hj t ht => by
      rw [Nat.zero_add] at ht ⊢
      have hj' : j < points.length := by omega
      have hrow := forall₂_get hd j hj (by rw [List.length_zip, List.length_cons]; omega)
      rw [List.getElem_zip] at hrow
      have hprev : t.1 = ((fun _ => 0) :: points : List (SmallVec s K))[j]'(by rw [List.length_cons]; omega) := by
        rw [ht.1.2, List.getD_eq_getElem?_getD, List.getElem?_eq_getElem (by rw [List.length_cons]; omega), Option.getD_some]
      have hx := extractAll_of_point t.1 points[j] data[j] (by rw [hprev]; exact hrow)
      refine ⟨⟨by rw [List.length_set]; exact ht.1.1, ?_⟩, fun i hi => ?_⟩
      · simp only [hx]
        rw [List.getD_cons_succ, List.getD_eq_getElem?_getD, List.getElem?_eq_getElem hj', Option.getD_some]
      simp only [hx, List.getElem?_set]
      by_cases hij : j = i
      · subst hij
        rw [if_pos rfl, if_pos (by rw [ht.1.1]; omega), List.getElem?_eq_getElem hj']
      · rw [if_neg hij, ht.2 i (by omega)])
  refine ⟨_, t'.2.2, e, rfl, ?_⟩
  unfold GeoReader.points
  simp only [t1]
  rw [filled (values := points) (l := t'.2.1) (by rw [t2.1.1, hn]) (fun i hi => t2.2 i (by omega))]

theorem arrays_spec {n' : Nat} {kw : String} {values p0 : List (Fin n' → Nat)} {sec : List (List Char)}
    (hsec : Section kw IsNumber (values.map List.ofFn) sec) (n : Nat) (hn : values.length = n) (hp0 : p0.length = n)
    (rest : List (List Char)) (k : List Char) (st : LineStream) (hk : k ≠ kw.toList) :
    ∃ r' st', GeoReader.seek kw.toList ⟨sec ++ rest, k, st⟩ = r' ∧ r'.keyword = kw.toList ∧
      GeoReader.arrays n r' p0 = (n, ⟨rest, kw.toList, st'⟩, values) := by
  obtain ⟨comments, key, data, rfl, hc, ⟨ws, hkey⟩, hd⟩ := hsec
  obtain ⟨tail, h1, -⟩ := seek_spec (data ++ rest) k st hc hk hkey
  have e : GeoReader.seek kw.toList ⟨comments ++ key :: data ++ rest, k, st⟩ = ⟨data ++ rest, kw.toList, ⟨tail, true⟩⟩ := by
    unfold GeoReader.seek
    rw [← h1, List.append_assoc, List.cons_append]
  have hlen : data.length = values.length := by rw [hd.length_eq, List.length_map]
  obtain ⟨t', t1, t2⟩ := rows_inv n (fun iter line (t : List (Fin n' → Nat) × LineStream) =>
      let x := extractAll LineStream.unsigned ⟨line, true⟩ (t.1.getD iter (fun _ => 0))
      (t.1.set iter x.2, x.1)) (fun it t => t.1.length = n ∧ ∀ k, k < it → t.1[k]? = values[k]?) data rest 0 (p0, ⟨tail, true⟩)
    (by omega) ⟨hp0, fun k hk => absurd hk (Nat.not_lt_zero _)⟩ (fun j hj t ht => by
      rw [Nat.zero_add] at ht ⊢
      have hj' : j < values.length := by omega
      have hrow := forall₂_get hd j hj (by rw [List.length_map]; exact hj')
      rw [List.getElem_map] at hrow
      have hx := extractAll_of_says (fun l w ws x => unsigned_of_says) values[j] (t.1.getD j (fun _ => 0)) data[j] hrow
      refine ⟨by rw [List.length_set]; exact ht.1, fun i hi => ?_⟩
      simp only [hx, List.getElem?_set]
      by_cases hij : j = i
      · subst hij
        rw [if_pos rfl, if_pos (by rw [ht.1]; omega), List.getElem?_eq_getElem hj']
      · rw [if_neg hij, ht.2 i (by omega)])
  refine ⟨_, t'.2, e, rfl, ?_⟩
  unfold GeoReader.arrays
  simp only [t1]
  rw [filled (values := values) (l := t'.1) (by rw [t2.1, hn]) (fun i hi => t2.2 i (by omega))]

theorem ofFn_extract [Zero K] {scan : Scan K} {v : List K} {line : List Char} (n : Nat) (hv : v.length = n) (h : Row (IsReal scan) v line) :
    List.ofFn (extractAll (n := n) (LineStream.real scan) ⟨line, true⟩ (fun _ => 0)).2 = v := by
  subst hv
  have e : v = List.ofFn (fun i : Fin v.length => v[i]) := by simp
  have : Row (IsReal scan) (List.ofFn (fun i : Fin v.length => v[i])) line := by rw [← e]; exact h
  rw [extractAll_of_says (fun l w ws x => real_of_says) _ _ line this, ← e]

theorem properties_spec [Zero K] {scan : Scan K} {values : List (List K)} {data trailer : List (List Char)} (n nP : Nat) (hn : values.length = n)
    (hv : ∀ v ∈ values, v.length = nP) (hd : List.Forall₂ (fun l v => Row (IsReal scan) v l) data values) (k : List Char) (st : LineStream) :
    GeoReader.properties scan n nP ⟨data ++ trailer, k, st⟩ (List.replicate n []) = (n, values) := by
  have hlen : data.length = values.length := hd.length_eq
  obtain ⟨t', t1, t2⟩ := rows_inv n (fun iter line (t : List (List K)) =>
      t.set iter (List.ofFn (extractAll (n := nP) (LineStream.real scan) ⟨line, true⟩ (fun _ => 0)).2))
    (fun it t => t.length = n ∧ ∀ k, k < it → t[k]? = values[k]?) data trailer 0 (List.replicate n [])
    (by omega) ⟨List.length_replicate, fun k hk => absurd hk (Nat.not_lt_zero _)⟩ (fun j hj t ht => by
      rw [Nat.zero_add] at ht ⊢
      have hj' : j < values.length := by omega
      have hrow := forall₂_get hd j hj hj'
      have hx := ofFn_extract nP (hv _ (List.getElem_mem hj')) hrow
      refine ⟨by rw [List.length_set]; exact ht.1, fun i hi => ?_⟩
      simp only [hx, List.getElem?_set]
      by_cases hij : j = i
      · subst hij
        rw [if_pos rfl, if_pos (by rw [ht.1]; omega), List.getElem?_eq_getElem hj']
      · rw [if_neg hij, ht.2 i (by omega)])
  unfold GeoReader.properties
  simp only [t1]
  rw [filled (values := values) (l := t') (by rw [t2.1, hn]) (fun i hi => t2.2 i (by omega))]

/-! ## What is found in accepted files -/

theorem seek_found {kw : String} : ∀ (lines : List (List Char)) (k : List Char) (st : LineStream), (seek kw.toList lines k st).keyword = kw.toList → k ≠ kw.toList →
    ∃ pre l, lines = pre ++ l :: (seek kw.toList lines k st).infile ∧ StartsWith kw l
  | [], _, _, h, hk => absurd h hk
  | line :: lines, k, st, h, hk => by
      rw [seek, if_neg hk] at h ⊢
      by_cases hk' : (LineStream.string ⟨line, true⟩).2.getD k = kw.toList
      · have hw : StartsWith kw line := by
          by_contra hn
          exact keyword_ne hn hk hk'
        refine ⟨[], line, ?_, hw⟩
        simp only [hk', seek_done]
        rfl
      · obtain ⟨pre, l, h1, h2⟩ := seek_found lines _ _ h hk'
        refine ⟨line :: pre, l, ?_, h2⟩
        rw [List.cons_append, ← h1]

theorem rows_suffix {σ : Type} (n : Nat) (body : Nat → List Char → σ → σ) : ∀ (lines : List (List Char)) (it : Nat) (t : σ),
    ∃ pre, lines = pre ++ (rows n body it lines t).2.1
  | [], _, _ => ⟨[], rfl⟩
  | line :: lines, it, t => by
      rw [rows]
      by_cases h : it < n
      · rw [if_pos h]
        obtain ⟨pre, hp⟩ := rows_suffix n body lines (it + 1) (body it line t)
        exact ⟨line :: pre, by rw [List.cons_append, ← hp]⟩
      · rw [if_neg h]
        exact ⟨[], rfl⟩

theorem rows_keep {σ : Type} (n : Nat) (body : Nat → List Char → σ → σ) (I : σ → Prop) (hI : ∀ it line t, I t → I (body it line t)) :
    ∀ (lines : List (List Char)) (it : Nat) (t : σ), I t → I (rows n body it lines t).2.2
  | [], _, _, h => h
  | line :: lines, it, t, h => by
      rw [rows]
      split
      · exact rows_keep n body I hI lines _ _ (hI _ _ _ h)
      · exact h

/-- The lines `l` contain lines starting with the keywords, in this order, and `rest` follows the last of them. -/
def Finds (kws : List String) (l rest : List (List Char)) : Prop :=
  ∃ found pre, found.Sublist pre ∧ l = pre ++ rest ∧ List.Forall₂ (fun k line => StartsWith k line) kws found

theorem Finds.add {kws : List String} {l rest rest' : List (List Char)} {kw : String} {line : List Char} {pre : List (List Char)} (h : Finds kws l rest)
    (hr : rest = pre ++ line :: rest') (hw : StartsWith kw line) : Finds (kws ++ [kw]) l rest' := by
  obtain ⟨found, pre0, h1, h2, h3⟩ := h
  refine ⟨found ++ [line], pre0 ++ (pre ++ [line]), h1.append (List.sublist_append_right _ _), by rw [h2, hr]; simp, ?_⟩
  exact List.rel_append h3 (.cons hw .nil)

theorem Finds.skip {kws : List String} {l rest rest' pre : List (List Char)} (h : Finds kws l rest) (hr : rest = pre ++ rest') : Finds kws l rest' := by
  obtain ⟨found, pre0, h1, h2, h3⟩ := h
  exact ⟨found, pre0 ++ pre, h1.trans (List.sublist_append_left _ _), by rw [h2, hr, List.append_assoc], h3⟩

theorem Finds.seek {kws : List String} {l : List (List Char)} {kw : String} {r r' : GeoReader} (h : Finds kws l r.infile) (hr : r.seek kw.toList = r')
    (hk : r.keyword ≠ kw.toList) (hk' : r'.keyword = kw.toList) : Finds (kws ++ [kw]) l r'.infile := by
  subst hr
  obtain ⟨pre, line, h1, h2⟩ := seek_found r.infile r.keyword r.linestream hk' hk
  exact h.add h1 h2

theorem Finds.header {kws : List String} {l : List (List Char)} {kw : String} {r r' : GeoReader} {eq0 e : List Char} {x : Option Nat} (h : Finds kws l r.infile)
    (hr : r.header kw.toList eq0 = (r', e, x)) (hk : r.keyword ≠ kw.toList) (hk' : r'.keyword = kw.toList) : Finds (kws ++ [kw]) l r'.infile := by
  unfold GeoReader.header at hr
  injection hr with hr _
  subst hr
  exact Finds.seek (r' := r.seek kw.toList) h rfl hk hk'

/-! ## The parts of `read_domain_geo` -/

theorem assertValue_of (m : Mode) (n : Nat) : assertValue m (some n) n = .ok () := by
  cases m
  · simp [assertValue, initialised]
  · rfl

theorem readDimension_spec (m : Mode) {kw : String} {n : Nat} {h : List (List Char)} (hh : Header kw n h) (rest : List (List Char)) (k eq0 : List Char)
    (st : LineStream) (hk : k ≠ kw.toList) : ∃ st', readDimension m kw n ⟨h ++ rest, k, st⟩ eq0 = .ok (⟨rest, kw.toList, st'⟩, ['=']) := by
  obtain ⟨st', e⟩ := header_spec hh rest k eq0 st hk
  refine ⟨st', ?_⟩
  unfold readDimension
  simp only [e, assertValue_of, Res.ok_bind]
  rw [hyAssert_of trivial, hyAssert_of (by decide)]
  rfl

theorem readCount_spec (m : Mode) {kw : String} {n : Nat} {h : List (List Char)} (hh : Header kw n h) (rest : List (List Char)) (k eq0 : List Char)
    (st : LineStream) (hk : k ≠ kw.toList) (hn : n ≠ 0) : ∃ st', readCount m kw ⟨h ++ rest, k, st⟩ eq0 = .ok (⟨rest, kw.toList, st'⟩, ['='], n) := by
  obtain ⟨st', e⟩ := header_spec hh rest k eq0 st hk
  refine ⟨st', ?_⟩
  unfold readCount
  simp only [e, Option.getD_some]
  rw [hyAssert_of trivial, hyAssert_of (by decide), hyAssert_of hn]
  rfl

theorem readPoints_spec (m : Mode) [Zero K] {scan : Scan K} {points p0 : List (SmallVec s K)} {sec : List (List Char)}
    (hsec : PointSection scan points sec) (n : Nat) (hn : points.length = n) (hp0 : p0.length = n)
    (rest : List (List Char)) (k : List Char) (st : LineStream) (hk : k ≠ "POINTS:".toList) :
    ∃ st', readPoints m scan n p0 ⟨sec ++ rest, k, st⟩ = .ok (⟨rest, "POINTS:".toList, st'⟩, points) := by
  obtain ⟨r', st', e1, e2, e3⟩ := points_spec hsec n hn hp0 rest k st hk
  refine ⟨st', ?_⟩
  unfold readPoints
  simp only [e1, e2, e3, hyAssert_of, Res.ok_bind]

theorem readArrays_spec (m : Mode) {n' : Nat} {kw : String} {values p0 : List (Fin n' → Nat)} {sec : List (List Char)}
    (hsec : Section kw IsNumber (values.map List.ofFn) sec) (n : Nat) (hn : values.length = n) (hp0 : p0.length = n)
    (rest : List (List Char)) (k : List Char) (st : LineStream) (hk : k ≠ kw.toList) :
    ∃ st', readArrays m kw n p0 ⟨sec ++ rest, k, st⟩ = .ok (⟨rest, kw.toList, st'⟩, values) := by
  obtain ⟨r', st', e1, e2, e3⟩ := arrays_spec hsec n hn hp0 rest k st hk
  refine ⟨st', ?_⟩
  unfold readArrays
  simp only [e1, e2, e3, hyAssert_of, Res.ok_bind]

theorem readProperties_spec (m : Mode) [Zero K] {scan : Scan K} {values : List (List K)} {p : List (List Char)} (n nP : Nat)
    (hp : Properties scan nP values p) (hn : values = [] ∨ values.length = n) (k : List Char) (st : LineStream) (hk : k ≠ "HYPEREDGE_PROPERTIES:".toList) :
    readProperties m scan n 0 ⟨p, k, st⟩ = .ok (nP, values) := by
  unfold readProperties
  rcases hp with ⟨p1, p2, p3⟩ | ⟨p0, comments, key, w, extra, data, trailer, rfl, p1, p2, p3, p4, p5⟩
  · have hne : (GeoReader.seek "HYPEREDGE_PROPERTIES:".toList ⟨p, k, st⟩).keyword ≠ "HYPEREDGE_PROPERTIES:".toList := seek_missing p3 hk
    simp only [if_pos hne, p1, p2]
  · obtain ⟨tail, t1, t2⟩ := seek_spec (data ++ trailer) k st p1 hk p2
    obtain ⟨tail2, t3⟩ := unsigned_of_count t2 p3
    have e : GeoReader.seek "HYPEREDGE_PROPERTIES:".toList ⟨comments ++ key :: data ++ trailer, k, st⟩ =
        ⟨data ++ trailer, "HYPEREDGE_PROPERTIES:".toList, ⟨tail, true⟩⟩ := by
      unfold GeoReader.seek
      rw [← t1, List.append_assoc, List.cons_append]
    simp only [e, t3, Option.getD_some, ne_eq, not_true_eq_false, if_false]
    simp only [properties_spec n nP (hn.resolve_left p0) p4 p5, hyAssert_of, Res.ok_bind]

theorem readDimension_found {kw : String} {n : Nat} {kws : List String} {l : List (List Char)} {r : GeoReader} {eq0 : List Char} {x : GeoReader × List Char}
    (h : readDimension .debug kw n r eq0 = .ok x) (hf : Finds kws l r.infile) (hk : r.keyword ≠ kw.toList) :
    Finds (kws ++ [kw]) l x.1.infile ∧ x.1.keyword = kw.toList := by
  unfold readDimension at h
  obtain ⟨_, h1, h⟩ := Res.bind_eq_ok.mp h
  obtain ⟨_, h2, h⟩ := Res.bind_eq_ok.mp h
  obtain ⟨_, h3, h⟩ := Res.bind_eq_ok.mp h
  rw [hyAssert_debug_ok] at h1
  injection h with h
  subst h
  exact ⟨hf.header (e := (r.header kw.toList eq0).2.1) (x := (r.header kw.toList eq0).2.2) rfl hk h1, h1⟩

theorem readCount_found {kw : String} {kws : List String} {l : List (List Char)} {r : GeoReader} {eq0 : List Char} {x : GeoReader × List Char × Nat}
    (h : readCount .debug kw r eq0 = .ok x) (hf : Finds kws l r.infile) (hk : r.keyword ≠ kw.toList) :
    Finds (kws ++ [kw]) l x.1.infile ∧ x.1.keyword = kw.toList ∧ x.2.2 ≠ 0 := by
  unfold readCount at h
  obtain ⟨_, h1, h⟩ := Res.bind_eq_ok.mp h
  obtain ⟨_, h2, h⟩ := Res.bind_eq_ok.mp h
  obtain ⟨_, h3, h⟩ := Res.bind_eq_ok.mp h
  rw [hyAssert_debug_ok] at h1 h3
  injection h with h
  subst h
  exact ⟨hf.header (e := (r.header kw.toList eq0).2.1) (x := (r.header kw.toList eq0).2.2) rfl hk h1, h1, h3⟩

theorem readPoints_found [Zero K] {scan : Scan K} {kws : List String} {l : List (List Char)} {r : GeoReader} {n : Nat} {p0 : List (SmallVec s K)}
    {x : GeoReader × List (SmallVec s K)} (h : readPoints .debug scan n p0 r = .ok x) (hf : Finds kws l r.infile) (hk : r.keyword ≠ "POINTS:".toList)
    (hp0 : p0.length = n) : Finds (kws ++ ["POINTS:"]) l x.1.infile ∧ x.1.keyword = "POINTS:".toList ∧ x.2.length = n := by
  unfold readPoints at h
  obtain ⟨_, h1, h⟩ := Res.bind_eq_ok.mp h
  obtain ⟨_, h2, h⟩ := Res.bind_eq_ok.mp h
  rw [hyAssert_debug_ok] at h1 h2
  injection h with h
  subst h
  obtain ⟨pre, hp⟩ := rows_suffix n (fun iter line (t : SmallVec s K × List (SmallVec s K) × LineStream) =>
    let x := extractAll (LineStream.real scan) ⟨line, true⟩ t.1
    (x.2, t.2.1.set iter x.2, x.1)) (r.seek "POINTS:".toList).infile 0 (SmallMat.fill s 1 0, p0, (r.seek "POINTS:".toList).linestream)
  refine ⟨(hf.seek rfl hk h1).skip hp, h1, ?_⟩
  exact rows_keep n (fun iter line (t : SmallVec s K × List (SmallVec s K) × LineStream) =>
    let x := extractAll (LineStream.real scan) ⟨line, true⟩ t.1
    (x.2, t.2.1.set iter x.2, x.1)) (fun t => t.2.1.length = n) (fun it line t ht => by simpa using ht) (r.seek "POINTS:".toList).infile 0
    (SmallMat.fill s 1 0, p0, (r.seek "POINTS:".toList).linestream) hp0

theorem readArrays_found {k : Nat} {kw : String} {kws : List String} {l : List (List Char)} {r : GeoReader} {n : Nat} {p0 : List (Fin k → Nat)}
    {x : GeoReader × List (Fin k → Nat)} (h : readArrays .debug kw n p0 r = .ok x) (hf : Finds kws l r.infile) (hk : r.keyword ≠ kw.toList)
    (hp0 : p0.length = n) : Finds (kws ++ [kw]) l x.1.infile ∧ x.1.keyword = kw.toList ∧ x.2.length = n := by
  unfold readArrays at h
  obtain ⟨_, h1, h⟩ := Res.bind_eq_ok.mp h
  obtain ⟨_, h2, h⟩ := Res.bind_eq_ok.mp h
  rw [hyAssert_debug_ok] at h1 h2
  injection h with h
  subst h
  obtain ⟨pre, hp⟩ := rows_suffix n (fun iter line (t : List (Fin k → Nat) × LineStream) =>
    let x := extractAll LineStream.unsigned ⟨line, true⟩ (t.1.getD iter (fun _ => 0))
    (t.1.set iter x.2, x.1)) (r.seek kw.toList).infile 0 (p0, (r.seek kw.toList).linestream)
  refine ⟨(hf.seek rfl hk h1).skip hp, h1, ?_⟩
  exact rows_keep n (fun iter line (t : List (Fin k → Nat) × LineStream) =>
    let x := extractAll LineStream.unsigned ⟨line, true⟩ (t.1.getD iter (fun _ => 0))
    (t.1.set iter x.2, x.1)) (fun t => t.1.length = n) (fun it line t ht => by simpa using ht) (r.seek kw.toList).infile 0
    (p0, (r.seek kw.toList).linestream) hp0

theorem readProperties_length [Zero K] {m : Mode} {scan : Scan K} {n nP : Nat} {r : GeoReader} {x : Nat × List (List K)}
    (h : readProperties m scan n nP r = .ok x) : x.2 = [] ∨ x.2.length = n := by
  unfold readProperties at h
  simp only at h
  split at h
  · injection h with h
    subst h
    exact .inl rfl
  · obtain ⟨_, h1, h⟩ := Res.bind_eq_ok.mp h
    injection h with h
    subst h
    refine .inr ?_
    exact rows_keep n _ (fun t : List (List K) => t.length = n) (fun it line t ht => by rw [List.length_set]; exact ht) _ 0 _ List.length_replicate

/-- The keywords which have to be there. -/
def keywords : List String :=
  ["Space_Dim", "HyperEdge_Dim", "N_Points", "N_HyperNodes", "N_HyperEdges", "POINTS:", "HYPERNODES_OF_HYPEREDGES:", "TYPES_OF_HYPERFACES:", "POINTS_OF_HYPEREDGES:"]

theorem read_accepted [Zero K] (scan : Scan K) (content : List Char) (D : DomainInfo d s K) (h : read_domain_geo .debug scan d s content = .ok D) :
    (∃ rest, Finds keywords (linesOf content) rest) ∧ D.Sized := by
  have f0 : Finds [] (linesOf content) (linesOf content) := ⟨[], [], List.Sublist.refl _, rfl, .nil⟩
  unfold read_domain_geo at h
  obtain ⟨r1, h1, h⟩ := Res.bind_eq_ok.mp h
  obtain ⟨r2, h2, h⟩ := Res.bind_eq_ok.mp h
  obtain ⟨np, h3, h⟩ := Res.bind_eq_ok.mp h
  obtain ⟨nn, h4, h⟩ := Res.bind_eq_ok.mp h
  obtain ⟨ne, h5, h⟩ := Res.bind_eq_ok.mp h
  obtain ⟨p, h6, h⟩ := Res.bind_eq_ok.mp h
  obtain ⟨a, h7, h⟩ := Res.bind_eq_ok.mp h
  obtain ⟨b, h8, h⟩ := Res.bind_eq_ok.mp h
  obtain ⟨c, h9, h⟩ := Res.bind_eq_ok.mp h
  obtain ⟨q, h10, h⟩ := Res.bind_eq_ok.mp h
  injection h with h
  obtain ⟨f1, k1⟩ := readDimension_found h1 f0 (show ([] : List Char) ≠ _ by decide)
  obtain ⟨f2, k2⟩ := readDimension_found h2 f1 (by rw [k1]; decide)
  obtain ⟨f3, k3, n3⟩ := readCount_found h3 f2 (by rw [k2]; decide)
  obtain ⟨f4, k4, n4⟩ := readCount_found h4 f3 (by rw [k3]; decide)
  obtain ⟨f5, k5, n5⟩ := readCount_found h5 f4 (by rw [k4]; decide)
  obtain ⟨f6, k6, n6⟩ := readPoints_found h6 f5 (by rw [k5]; decide) List.length_replicate
  obtain ⟨f7, k7, n7⟩ := readArrays_found h7 f6 (by rw [k6]; decide) List.length_replicate
  obtain ⟨f8, k8, n8⟩ := readArrays_found h8 f7 (by rw [k7]; decide) List.length_replicate
  obtain ⟨f9, k9, n9⟩ := readArrays_found h9 f8 (by rw [k8]; decide) List.length_replicate
  subst h
  exact ⟨⟨_, f9⟩, n6, n7, n8, n9, readProperties_length h10, n3, n4, n5⟩

theorem read_of_lines [Zero K] (m : Mode) (scan : Scan K) (D : DomainInfo d s K) (hD : D.Sized) (content : List Char)
    (h : Describes scan D (linesOf content)) : read_domain_geo m scan d s content = .ok D := by
  obtain ⟨h1, h2, h3, h4, h5, s1, s2, s3, s4, p, he, hh1, hh2, hh3, hh4, hh5, hs1, hs2, hs3, hs4, hp⟩ := h.sections
  unfold read_domain_geo
  simp only [List.append_assoc] at he
  rw [he]
  obtain ⟨st1, e1⟩ := readDimension_spec m hh1 (h2 ++ (h3 ++ (h4 ++ (h5 ++ (s1 ++ (s2 ++ (s3 ++ (s4 ++ p)))))))) [] [] ⟨[], true⟩ (by decide)
  obtain ⟨st2, e2⟩ := readDimension_spec m hh2 (h3 ++ (h4 ++ (h5 ++ (s1 ++ (s2 ++ (s3 ++ (s4 ++ p))))))) "Space_Dim".toList ['='] st1 (by decide)
  obtain ⟨st3, e3⟩ := readCount_spec m hh3 (h4 ++ (h5 ++ (s1 ++ (s2 ++ (s3 ++ (s4 ++ p)))))) "HyperEdge_Dim".toList ['='] st2 (by decide) hD.n_points
  obtain ⟨st4, e4⟩ := readCount_spec m hh4 (h5 ++ (s1 ++ (s2 ++ (s3 ++ (s4 ++ p))))) "N_Points".toList ['='] st3 (by decide) hD.n_hyNodes
  obtain ⟨st5, e5⟩ := readCount_spec m hh5 (s1 ++ (s2 ++ (s3 ++ (s4 ++ p)))) "N_HyperNodes".toList ['='] st4 (by decide) hD.n_hyEdges
  obtain ⟨st6, e6⟩ := readPoints_spec m (p0 := (DomainInfo.make D.n_points D.n_hyEdges D.n_hyNodes D.n_points : DomainInfo d s K).points) hs1 D.n_points
    hD.points List.length_replicate (s2 ++ (s3 ++ (s4 ++ p))) "N_HyperEdges".toList st5 (by decide)
  obtain ⟨st7, e7⟩ := readArrays_spec m (p0 := (DomainInfo.make D.n_points D.n_hyEdges D.n_hyNodes D.n_points : DomainInfo d s K).hyNodes_hyEdge) hs2
    D.n_hyEdges hD.hyNodes List.length_replicate (s3 ++ (s4 ++ p)) "POINTS:".toList st6 (by decide)
  obtain ⟨st8, e8⟩ := readArrays_spec m (p0 := (DomainInfo.make D.n_points D.n_hyEdges D.n_hyNodes D.n_points : DomainInfo d s K).hyFaces_hyEdge) hs3
    D.n_hyEdges hD.hyFaces List.length_replicate (s4 ++ p) "HYPERNODES_OF_HYPEREDGES:".toList st7 (by decide)
  obtain ⟨st9, e9⟩ := readArrays_spec m (p0 := (DomainInfo.make D.n_points D.n_hyEdges D.n_hyNodes D.n_points : DomainInfo d s K).points_hyEdge) hs4
    D.n_hyEdges hD.points_hyEdge List.length_replicate p "TYPES_OF_HYPERFACES:".toList st8 (by decide)
  have e10 := readProperties_spec m D.n_hyEdges D.n_properties hp hD.properties "POINTS_OF_HYPEREDGES:".toList st9 (by decide)
  rw [e1]
  simp only [Res.ok_bind]
  rw [e2]
  simp only [Res.ok_bind]
  rw [e3]
  simp only [Res.ok_bind]
  rw [e4]
  simp only [Res.ok_bind]
  rw [e5]
  simp only [Res.ok_bind]
  rw [e6]
  simp only [Res.ok_bind]
  rw [e7]
  simp only [Res.ok_bind]
  rw [e8]
  simp only [Res.ok_bind]
  rw [e9]
  simp only [Res.ok_bind]
  rw [show (DomainInfo.make D.n_points D.n_hyEdges D.n_hyNodes D.n_points : DomainInfo d s K).n_properties = 0 from rfl, e10]
  rfl

end HyperHDG

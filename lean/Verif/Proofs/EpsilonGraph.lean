import Mathlib.Algebra.Order.Ring.Abs
import Mathlib.Algebra.Order.BigOperators.Ring.Finset
import Mathlib.Tactic.Linarith
import Verif.Spec.EpsilonGraph
import Verif.Proofs.WriteGeo
import Verif.Props.DenseLA

/-!
# Helper lemmas for the neighbourhood graph
-/

namespace HyperHDG

variable {s : Nat} {K : Type} [Field K] [LinearOrder K]

/-! ## Distances -/

section Distance
variable (m : Mode) (sqrt : K → K) (eps : K) (points : List (SmallVec (s + 1) K))

omit [LinearOrder K] in
theorem sub_mat_eq {r c : Nat} (p q : SmallMat r c K) : SmallMat.sub_mat p q = .ok (fun i => p i - q i) := arrLoop (fun i x => x - q i) p

omit [LinearOrder K] in
theorem norm_2_eq {r : Nat} (p : SmallVec r K) : SmallMat.norm_2 sqrt m p = .ok (sqrt (∑ k, p k * p k)) := by
  unfold SmallMat.norm_2 SmallMat.scalar_product
  have := sumLoop (r * 1) (fun i s => do
    let x ← p.get m i
    let y ← p.get m i
    return s + x * y) (fun i => p i * p i) (fun i s => by
      have : p.get m i.val = .ok (p i) := by
        unfold SmallMat.get
        rw [hyAssert_of i.2, Res.ok_bind, dif_pos i.2]; rfl
      rw [this]; rfl) 0
  rw [this, zero_add]; rfl

variable [IsStrictOrderedRing K]

omit m in
theorem sqrt_lt_iff (hsq : SqrtSpec sqrt) (heps : 0 < eps) {x : K} (hx : 0 ≤ x) : sqrt x < eps ↔ x < eps ^ 2 := by
  obtain ⟨h1, h2⟩ := hsq x hx
  constructor
  · intro h
    nlinarith
  · intro h
    by_contra hn
    nlinarith

theorem closeTo_eq (hsq : SqrtSpec sqrt) (heps : 0 < eps) {i j : Nat} (hi : i < points.length) (hj : j < points.length) :
    closeTo m sqrt eps points i j = .ok (decide (∑ k, (points[i] k - points[j] k) ^ 2 < eps ^ 2)) := by
  unfold closeTo vget
  rw [List.getElem?_eq_getElem hi, List.getElem?_eq_getElem hj]
  simp only [Res.ok_bind, sub_mat_eq, norm_2_eq]
  congr 1
  have h0 : ∑ k, (points[i] k - points[j] k) * (points[i] k - points[j] k) = ∑ k, (points[i] k - points[j] k) ^ 2 :=
    Finset.sum_congr rfl (fun k _ => (sq _).symm)
  rw [h0]
  exact decide_eq_decide.mpr (sqrt_lt_iff sqrt eps hsq heps (Finset.sum_nonneg (fun k _ => sq_nonneg _)))

omit [IsStrictOrderedRing K] in
theorem near_iff {i j : Nat} (hi : i < points.length) (hj : j < points.length) :
    Near eps points i j ↔ i ≠ j ∧ ∑ k, (points[i] k - points[j] k) ^ 2 < eps ^ 2 := by
  unfold Near
  rw [List.getElem?_eq_getElem hi, List.getElem?_eq_getElem hj]
  simp

omit [IsStrictOrderedRing K] in
theorem near_lt {i j : Nat} (h : Near eps points i j) : i < points.length ∧ j < points.length := by
  obtain ⟨-, p, q, hp, hq, -⟩ := h
  exact ⟨(List.getElem?_eq_some_iff.mp hp).1, (List.getElem?_eq_some_iff.mp hq).1⟩

omit [IsStrictOrderedRing K] in
theorem near_symm {i j : Nat} (h : Near eps points i j) : Near eps points j i := by
  obtain ⟨h1, p, q, hp, hq, h2⟩ := h
  refine ⟨h1.symm, q, p, hq, hp, ?_⟩
  rw [Finset.sum_congr rfl (fun k _ => show (q k - p k) ^ 2 = (p k - q k) ^ 2 by ring)]
  exact h2

omit [IsStrictOrderedRing K] in
theorem inWindow_iff {index ind : Nat} : inWindow eps points index ind = true ↔ ind < points.length ∧ |coord0 points index - coord0 points ind| < eps := by
  unfold inWindow
  simp [abs, max_lt_iff]

omit [IsStrictOrderedRing K] in
theorem coord0_eq {i : Nat} (hi : i < points.length) : coord0 points i = points[i] ⟨0, by omega⟩ := by
  unfold coord0
  rw [List.getD_eq_getElem?_getD, List.getElem?_eq_getElem hi, Option.getD_some]

theorem near_inWindow (heps : 0 < eps) {i j : Nat} (h : Near eps points i j) : inWindow eps points i j = true := by
  obtain ⟨hi, hj⟩ := near_lt eps points h
  rw [near_iff eps points hi hj] at h
  rw [inWindow_iff]
  refine ⟨hj, ?_⟩
  rw [coord0_eq points hi, coord0_eq points hj]
  apply abs_lt_of_sq_lt_sq _ heps.le
  refine lt_of_le_of_lt ?_ h.2
  exact Finset.single_le_sum (f := fun k => (points[i] k - points[j] k) ^ 2) (fun k _ => sq_nonneg _) (Finset.mem_univ (⟨0, by omega⟩ : Fin ((s + 1) * 1)))

theorem coord0_mono (hp : Increasing points) {i j : Nat} (hij : i ≤ j) (hj : j < points.length) : coord0 points i ≤ coord0 points j := by
  rcases Nat.lt_or_eq_of_le hij with h | rfl
  · obtain ⟨k, h1, h2⟩ := List.pairwise_iff_getElem.mp hp i j (by omega) hj h
    rw [coord0_eq points (by omega), coord0_eq points hj]
    by_cases hk : k = ⟨0, by omega⟩
    · rw [← hk]; exact h1.le
    · refine (h2 _ ?_).le
      rw [Fin.lt_def]
      exact Nat.pos_of_ne_zero (fun h => hk (Fin.ext h))
  · exact le_rfl

end Distance

/-! ## The windows -/

theorem takeWhile_eq_filter {α : Type} (p : α → Bool) : ∀ l : List α, l.Pairwise (fun a b => p b = true → p a = true) → l.takeWhile p = l.filter p
  | [], _ => rfl
  | a :: l, h => by
      rw [List.pairwise_cons] at h
      by_cases ha : p a = true
      · rw [List.takeWhile_cons_of_pos ha, List.filter_cons_of_pos ha, takeWhile_eq_filter p l h.2]
      · rw [List.takeWhile_cons_of_neg ha, List.filter_cons_of_neg ha]
        refine (List.filter_eq_nil_iff.mpr (fun b hb hpb => ha (h.1 b hb hpb))).symm

section Windows
variable (eps : K) (points : List (SmallVec (s + 1) K)) [IsStrictOrderedRing K] (hp : Increasing points)
include hp

theorem downIndices_eq {index : Nat} (hi : index < points.length) :
    downIndices eps points index = (List.range (index + 1)).reverse.filter (inWindow eps points index) := by
  unfold downIndices
  apply takeWhile_eq_filter
  rw [List.pairwise_reverse]
  refine List.Pairwise.imp_of_mem (R := fun a b => a < b) (fun {a b} ha hb hab h => ?_) List.pairwise_lt_range
  rw [List.mem_range] at ha hb
  rw [inWindow_iff] at h ⊢
  refine ⟨by omega, ?_⟩
  have h1 := coord0_mono points hp hab.le (show b < points.length by omega)
  have h2 := coord0_mono points hp (show b ≤ index by omega) hi
  rw [abs_lt] at h ⊢
  constructor <;> linarith [h.2.1, h.2.2]

theorem upIndices_eq {index : Nat} (hi : index < points.length) :
    upIndices eps points index = (List.range' index (points.length - index)).filter (inWindow eps points index) := by
  unfold upIndices
  apply takeWhile_eq_filter
  refine List.Pairwise.imp_of_mem (R := fun a b => a < b) (fun {a b} ha hb hab h => ?_) List.pairwise_lt_range'
  rw [List.mem_range'_1] at ha hb
  rw [inWindow_iff] at h ⊢
  refine ⟨by omega, ?_⟩
  have h1 := coord0_mono points hp hab.le h.1
  have h2 := coord0_mono points hp ha.1 (show a < points.length by omega)
  rw [abs_lt] at h ⊢
  constructor <;> linarith [h.2.1, h.2.2]

/-- The indices of both loops: exactly those in the window, and only `index` occurs twice. -/
theorem window_mem {index : Nat} (hi : index < points.length) (ind : Nat) :
    ind ∈ downIndices eps points index ++ upIndices eps points index ↔ inWindow eps points index ind = true := by
  rw [downIndices_eq eps points hp hi, upIndices_eq eps points hp hi, List.mem_append, List.mem_filter, List.mem_filter, List.mem_reverse, List.mem_range,
    List.mem_range'_1]
  constructor
  · rintro (h | h) <;> exact h.2
  · intro h
    have := (inWindow_iff eps points).mp h
    by_cases hle : ind ≤ index
    · exact .inl ⟨by omega, h⟩
    · exact .inr ⟨by omega, h⟩

theorem window_distinct {index : Nat} (hi : index < points.length) :
    (downIndices eps points index ++ upIndices eps points index).Pairwise (fun a b => a = b → a = index) := by
  rw [downIndices_eq eps points hp hi, upIndices_eq eps points hp hi, List.pairwise_append]
  refine ⟨?_, ?_, ?_⟩
  · apply List.Pairwise.filter
    rw [List.pairwise_reverse]
    exact List.pairwise_lt_range.imp (fun {a b} hab he => by omega)
  · apply List.Pairwise.filter
    exact List.Pairwise.imp (R := fun a b => a < b) (fun {a b} hab he => by omega) List.pairwise_lt_range'
  · intro a ha b hb he
    rw [List.mem_filter, List.mem_reverse, List.mem_range] at ha
    rw [List.mem_filter, List.mem_range'_1] at hb
    omega

end Windows

/-! ## One round -/

/-- The point is marked. -/
def Search.Marked (g : Search) (k : Nat) : Prop := g.visited[k]? = some true

instance (g : Search) (k : Nat) : Decidable (g.Marked k) := inferInstanceAs (Decidable (_ = _))

section Round
variable (m : Mode) (sqrt : K → K) (eps : K) (points : List (SmallVec (s + 1) K)) [IsStrictOrderedRing K]

open Classical in
theorem visit_eq (hsq : SqrtSpec sqrt) (heps : 0 < eps) {index ind : Nat} (hi : index < points.length) (hj : ind < points.length) (g : Search)
    (hv : g.visited.length = points.length) :
    visit m sqrt eps points index g ind = .ok (if Near eps points index ind ∧ (¬ g.Marked ind ∨ ind ∈ g.search) then
      ⟨if g.Marked ind then g.search else g.search ++ [ind], g.visited.set ind true, g.connections ++ [(index, ind)]⟩ else g) := by
  unfold visit
  have hv' : ind < g.visited.length := by omega
  have hm : g.Marked ind ↔ g.visited[ind] = true := by
    unfold Search.Marked
    rw [List.getElem?_eq_getElem hv']; simp
  rw [closeTo_eq m sqrt eps points hsq heps hi hj, Res.ok_bind]
  have hn := near_iff eps points hi hj
  by_cases h1 : Near eps points index ind
  · have h2 := hn.mp h1
    have hc : (decide (∑ k, (points[index] k - points[ind] k) ^ 2 < eps ^ 2) && decide (ind ≠ index)) = true := by
      simp [h2.2, h2.1.symm]
    rw [if_pos hc]
    unfold vget
    rw [List.getElem?_eq_getElem hv', Res.ok_bind]
    by_cases hvis : g.visited[ind] = true
    · simp only [hvis, hm.mpr hvis]
      by_cases hs : ind ∈ g.search
      · simp [h1, hs]
      · simp [h1, hs]
    · have hf : g.visited[ind] = false := by simpa using hvis
      have hnm : ¬ g.Marked ind := fun h => hvis (hm.mp h)
      simp only [hf, hnm]
      simp [h1]
  · have hc : ¬ (decide (∑ k, (points[index] k - points[ind] k) ^ 2 < eps ^ 2) && decide (ind ≠ index)) = true := by
      intro hc
      rw [Bool.and_eq_true, decide_eq_true_eq, decide_eq_true_eq] at hc
      exact h1 (hn.mpr ⟨hc.2.symm, hc.1⟩)
    rw [if_neg hc, if_neg (fun h => h1 h.1)]

theorem count_set_false {l : List Bool} {i : Nat} (h : l[i]? = some false) : (l.set i true).count false + 1 = l.count false := by
  induction l generalizing i with
  | nil => simp at h
  | cons a l ih =>
      cases i with
      | zero =>
          simp only [List.getElem?_cons_zero, Option.some.injEq] at h
          subst h
          simp
      | succ i =>
          simp only [List.getElem?_cons_succ] at h
          have := ih h
          simp only [List.set_cons_succ, List.count_cons]
          omega

open Classical in
/-- What the loops do to the state. -/
theorem visits_spec (hsq : SqrtSpec sqrt) (heps : 0 < eps) {index : Nat} (hi : index < points.length) : ∀ (L : List Nat) (g : Search),
    L.Pairwise (fun a b => a = b → a = index) → (∀ a ∈ L, a < points.length) → g.visited.length = points.length →
    ∃ g', L.foldlM (visit m sqrt eps points index) g = .ok g' ∧ g'.visited.length = points.length ∧
      g'.connections = g.connections ++ (L.filter (fun a => Near eps points index a ∧ (¬ g.Marked a ∨ a ∈ g.search))).map (fun a => (index, a)) ∧
      g'.search = g.search ++ L.filter (fun a => Near eps points index a ∧ ¬ g.Marked a) ∧
      (∀ k, g'.Marked k ↔ g.Marked k ∨ (k ∈ L ∧ Near eps points index k)) ∧
      g'.search.length + g'.visited.count false = g.search.length + g.visited.count false
  | [], g, _, _, hv => ⟨g, rfl, hv, by simp, by simp, by simp, rfl⟩
  | a :: L, g, hL, hlt, hv => by
      have ha : a < points.length := hlt a List.mem_cons_self
      rw [List.pairwise_cons] at hL
      rw [List.foldlM_cons, visit_eq m sqrt eps points hsq heps hi ha g hv, Res.ok_bind]
      by_cases hnear : Near eps points index a
      · have hai : a ≠ index := hnear.1.symm
        have haL : a ∉ L := fun h => hai (hL.1 a h rfl)
        by_cases hc : ¬ g.Marked a ∨ a ∈ g.search
        · rw [if_pos ⟨hnear, hc⟩]
          obtain ⟨g', h1, h2, h3, h4, h5, h6⟩ := visits_spec hsq heps hi L
            ⟨if g.Marked a then g.search else g.search ++ [a], g.visited.set a true, g.connections ++ [(index, a)]⟩ hL.2
            (fun b hb => hlt b (List.mem_cons_of_mem _ hb)) (by rw [List.length_set]; exact hv)
          have hmark : ∀ k, Search.Marked ⟨if g.Marked a then g.search else g.search ++ [a], g.visited.set a true, g.connections ++ [(index, a)]⟩ k ↔
              g.Marked k ∨ k = a := fun k => by
            unfold Search.Marked
            simp only [List.getElem?_set]
            by_cases hka : a = k
            · subst hka
              rw [if_pos rfl, if_pos (by omega)]
              simp
            · rw [if_neg hka]
              simp [Ne.symm hka]
          have hmem : ∀ b, b ≠ a → (b ∈ (if g.Marked a then g.search else g.search ++ [a]) ↔ b ∈ g.search) := fun b hb => by
            split <;> simp [hb]
          refine ⟨g', h1, h2, ?_, ?_, ?_, ?_⟩
          · rw [h3, List.filter_cons_of_pos (by simp [hnear, hc]), List.map_cons, List.append_assoc, List.singleton_append]
            congr 3
            apply List.filter_congr
            intro b hb
            have hba : b ≠ a := fun h => haL (h ▸ hb)
            simp only [hmark, hmem b hba, hba, or_false]
          · rw [h4]
            have he : L.filter (fun b => decide (Near eps points index b ∧ ¬ Search.Marked ⟨if g.Marked a then g.search else g.search ++ [a], g.visited.set a true,
                g.connections ++ [(index, a)]⟩ b)) = L.filter (fun b => decide (Near eps points index b ∧ ¬ g.Marked b)) := by
              apply List.filter_congr
              intro b hb
              have hba : b ≠ a := fun h => haL (h ▸ hb)
              simp only [hmark, hba, or_false]
            rw [he]
            by_cases hm : g.Marked a
            · rw [if_pos hm, List.filter_cons_of_neg (by simp [hm])]
            · rw [if_neg hm, List.filter_cons_of_pos (by simp [hm, hnear]), List.append_assoc, List.singleton_append]
          · intro k
            rw [h5, hmark]
            constructor
            · rintro ((h | rfl) | ⟨h, h'⟩)
              · exact .inl h
              · exact .inr ⟨List.mem_cons_self, hnear⟩
              · exact .inr ⟨List.mem_cons_of_mem _ h, h'⟩
            · rintro (h | ⟨h, h'⟩)
              · exact .inl (.inl h)
              · rcases List.mem_cons.mp h with rfl | h
                · exact .inl (.inr rfl)
                · exact .inr ⟨h, h'⟩
          · rw [h6]
            by_cases hm : g.Marked a
            · have : g.visited.set a true = g.visited := by
                unfold Search.Marked at hm
                obtain ⟨hlt', he⟩ := List.getElem?_eq_some_iff.mp hm
                rw [← he, List.set_getElem_self]
              simp only [if_pos hm, this]
            · have hf : g.visited[a]? = some false := by
                have : a < g.visited.length := by omega
                unfold Search.Marked at hm
                rw [List.getElem?_eq_getElem this] at hm ⊢
                simpa using hm
              have := count_set_false hf
              simp only [if_neg hm, List.length_append, List.length_singleton]
              omega
        · rw [if_neg (fun h => hc h.2)]
          obtain ⟨g', h1, h2, h3, h4, h5, h6⟩ := visits_spec hsq heps hi L g hL.2 (fun b hb => hlt b (List.mem_cons_of_mem _ hb)) hv
          have hm : g.Marked a := by
            by_contra h
            exact hc (.inl h)
          refine ⟨g', h1, h2, ?_, ?_, ?_, h6⟩
          · rw [h3, List.filter_cons_of_neg (by simp [hc])]
          · rw [h4, List.filter_cons_of_neg (by simp [hm])]
          · intro k
            rw [h5]
            constructor
            · rintro (h | ⟨h, h'⟩)
              · exact .inl h
              · exact .inr ⟨List.mem_cons_of_mem _ h, h'⟩
            · rintro (h | ⟨h, h'⟩)
              · exact .inl h
              · rcases List.mem_cons.mp h with rfl | h
                · exact .inl hm
                · exact .inr ⟨h, h'⟩
      · rw [if_neg (fun h => hnear h.1)]
        obtain ⟨g', h1, h2, h3, h4, h5, h6⟩ := visits_spec hsq heps hi L g hL.2 (fun b hb => hlt b (List.mem_cons_of_mem _ hb)) hv
        refine ⟨g', h1, h2, ?_, ?_, ?_, h6⟩
        · rw [h3, List.filter_cons_of_neg (by simp [hnear])]
        · rw [h4, List.filter_cons_of_neg (by simp [hnear])]
        · intro k
          rw [h5]
          constructor
          · rintro (h | ⟨h, h'⟩)
            · exact .inl h
            · exact .inr ⟨List.mem_cons_of_mem _ h, h'⟩
          · rintro (h | ⟨h, h'⟩)
            · exact .inl h
            · rcases List.mem_cons.mp h with rfl | h
              · exact absurd h' hnear
              · exact .inr ⟨h, h'⟩

theorem foldlM_two {α β : Type} (f : α → β → Res α) (a : α) : ∀ (l l' : List β),
    (l ++ l').foldlM f a = (l.foldlM f a).bind (fun b => l'.foldlM f b)
  | [], l' => rfl
  | b :: l, l' => by
      rw [List.cons_append, List.foldlM_cons, List.foldlM_cons]
      cases hb : f a b with
      | ok x =>
          have := foldlM_two f x l l'
          exact this
      | _ => rfl

/-- All edges at the points which have been removed from the queue are there, exactly once. -/
structure Search.Inv (g : Search) : Prop where
  length : g.visited.length = points.length
  root : g.Marked 0
  nodup : g.search.Nodup
  marked : ∀ k ∈ g.search, g.Marked k
  linked : ∀ k, g.Marked k → Linked eps points 0 k
  closed : ∀ i, g.Marked i → i ∉ g.search → ∀ j, Near eps points i j → g.Marked j
  edges : ∀ i j, ((Near eps points i j ∧ ((g.Marked i ∧ i ∉ g.search) ∨ (g.Marked j ∧ j ∉ g.search))) → multiplicity g.connections i j = 1) ∧
    (¬ (Near eps points i j ∧ ((g.Marked i ∧ i ∉ g.search) ∨ (g.Marked j ∧ j ∉ g.search))) → multiplicity g.connections i j = 0)

theorem Search.Marked.lt {g : Search} {k : Nat} (h : g.Marked k) : k < g.visited.length := (List.getElem?_eq_some_iff.mp h).1

theorem count_map_pair (index i j : Nat) (F : List Nat) : (F.map (fun a => (index, a))).count (i, j) = if i = index then F.count j else 0 := by
  induction F with
  | nil => simp
  | cons a F ih =>
      rw [List.map_cons, List.count_cons, ih, List.count_cons]
      by_cases hi : i = index
      · subst hi
        by_cases ha : a = j
        · simp [ha]
        · simp [ha]
      · have : ¬ (index = i) := fun h => hi h.symm
        simp [hi, this]

theorem round_inv (hsq : SqrtSpec sqrt) (heps : 0 < eps) (hp : Increasing points) {g : Search} {index : Nat} {search : List Nat} (hg : g.search = index :: search)
    (h : g.Inv eps points) :
    ∃ g', searchRound m sqrt eps points index { g with search := search } = .ok g' ∧ g'.Inv eps points ∧
      g'.search.length + g'.visited.count false + 1 = g.search.length + g.visited.count false := by
  classical
  have hmi : g.Marked index := h.marked index (by rw [hg]; exact List.mem_cons_self)
  have hi : index < points.length := by rw [← h.length]; exact hmi.lt
  obtain ⟨g', h1, h2, h3, h4, h5, h6⟩ := visits_spec m sqrt eps points hsq heps hi (downIndices eps points index ++ upIndices eps points index)
    { g with search := search } (window_distinct eps points hp hi)
    (fun a ha => ((inWindow_iff eps points).mp ((window_mem eps points hp hi a).mp ha)).1) h.length
  have hw : ∀ k, Near eps points index k → k ∈ downIndices eps points index ++ upIndices eps points index :=
    fun k hk => (window_mem eps points hp hi k).mpr (near_inWindow eps points heps hk)
  have hnd := h.nodup
  rw [hg, List.nodup_cons] at hnd
  have hself : ¬ Near eps points index index := fun h => h.1 rfl
  -- membership and marks after the round
  have hmark : ∀ k, g'.Marked k ↔ g.Marked k ∨ Near eps points index k := fun k => by
    rw [h5]
    exact ⟨fun h => h.imp id (fun h => h.2), fun h => h.imp id (fun h => ⟨hw k h, h⟩)⟩
  have hmem : ∀ k, k ∈ g'.search ↔ k ∈ search ∨ (Near eps points index k ∧ ¬ g.Marked k) := fun k => by
    rw [h4, List.mem_append, List.mem_filter, decide_eq_true_eq]
    exact ⟨fun h => h.imp id (fun h => h.2), fun h => h.imp id (fun h => ⟨hw k h.1, h⟩)⟩
  have hdone : ∀ k, (g'.Marked k ∧ k ∉ g'.search) ↔ (g.Marked k ∧ k ∉ g.search) ∨ k = index := fun k => by
    rw [hmark, hmem, hg, List.mem_cons]
    constructor
    · rintro ⟨h1, h2⟩
      by_cases hk : k = index
      · exact .inr hk
      · refine .inl ?_
        have hm : g.Marked k := by
          rcases h1 with h1 | h1
          · exact h1
          · by_contra hm
            exact h2 (.inr ⟨h1, hm⟩)
        exact ⟨hm, fun hc => hc.elim hk (fun hc => h2 (.inl hc))⟩
    · rintro (⟨h1, h2⟩ | rfl)
      · exact ⟨.inl h1, fun hc => hc.elim (fun hc => h2 (.inr hc)) (fun hc => hc.2 h1)⟩
      · exact ⟨.inl hmi, fun hc => hc.elim hnd.1 (fun hc => hself hc.1)⟩
  have hnew : ∀ k, (Near eps points index k ∧ (¬ g.Marked k ∨ k ∈ search)) ↔ Near eps points index k ∧ ¬ (g.Marked k ∧ k ∉ g.search) := fun k => by
    rw [hg, List.mem_cons]
    constructor
    · rintro ⟨a, b⟩
      exact ⟨a, fun hc => b.elim (fun b => b hc.1) (fun b => hc.2 (.inr b))⟩
    · rintro ⟨a, b⟩
      refine ⟨a, ?_⟩
      by_cases hm : g.Marked k
      · right
        by_contra hk
        exact b ⟨hm, fun hc => hc.elim (fun hc => hself (hc ▸ a)) hk⟩
      · exact .inl hm
  have hcount : ∀ i j, g'.connections.count (i, j) = g.connections.count (i, j) +
      if i = index ∧ Near eps points index j ∧ ¬ (g.Marked j ∧ j ∉ g.search) then 1 else 0 := fun i j => by
    rw [h3, List.count_append, count_map_pair]
    congr 1
    by_cases hie : i = index
    · rw [if_pos hie]
      have hnodup : ((downIndices eps points index ++ upIndices eps points index).filter
          (fun a => decide (Near eps points index a ∧ (¬ Search.Marked { g with search := search } a ∨ a ∈ search)))).Nodup := by
        have := (window_distinct eps points hp hi).filter (fun a => decide (Near eps points index a ∧ (¬ Search.Marked { g with search := search } a ∨ a ∈ search)))
        refine List.Pairwise.imp_of_mem (fun {a b} ha hb hab hne => ?_) this
        rw [List.mem_filter, decide_eq_true_eq] at ha
        have := hab hne
        subst this
        exact hself ha.2.1
      rw [hnodup.count]
      have : (j ∈ (downIndices eps points index ++ upIndices eps points index).filter
          (fun a => decide (Near eps points index a ∧ (¬ Search.Marked { g with search := search } a ∨ a ∈ search)))) ↔
          (i = index ∧ Near eps points index j ∧ ¬ (g.Marked j ∧ j ∉ g.search)) := by
        rw [List.mem_filter, decide_eq_true_eq]
        have := hnew j
        constructor
        · rintro ⟨-, hc⟩
          exact ⟨hie, this.mp hc⟩
        · rintro ⟨-, hc⟩
          exact ⟨hw j hc.1, this.mpr hc⟩
      simp only [this]
    · rw [if_neg hie, if_neg (fun h => hie h.1)]
  refine ⟨g', ?_, ?_, ?_⟩
  · unfold searchRound vget
    rw [List.getElem?_eq_getElem hi, Res.ok_bind, ← h1, foldlM_two]
    rfl
  · refine ⟨h2, (hmark 0).mpr (.inl h.root), ?_, ?_, ?_, ?_, ?_⟩
    · rw [h4, List.nodup_append]
      refine ⟨hnd.2, ?_, ?_⟩
      · have := (window_distinct eps points hp hi).filter (fun a => decide (Near eps points index a ∧ ¬ Search.Marked { g with search := search } a))
        refine List.Pairwise.imp_of_mem (fun {a b} ha hb hab hne => ?_) this
        rw [List.mem_filter, decide_eq_true_eq] at ha
        have := hab hne
        subst this
        exact hself ha.2.1
      · intro a ha b hb hab
        subst hab
        rw [List.mem_filter, decide_eq_true_eq] at hb
        exact hb.2.2 (h.marked a (by rw [hg]; exact List.mem_cons_of_mem _ ha))
    · intro k hk
      rw [hmark]
      rcases (hmem k).mp hk with hk | hk
      · exact .inl (h.marked k (by rw [hg]; exact List.mem_cons_of_mem _ hk))
      · exact .inr hk.1
    · intro k hk
      rcases (hmark k).mp hk with hk | hk
      · exact h.linked k hk
      · exact (h.linked index hmi).tail hk
    · intro i hm hs j hn
      rw [hmark]
      rcases (hdone i).mp ⟨hm, hs⟩ with hd | rfl
      · exact .inl (h.closed i hd.1 hd.2 j hn)
      · exact .inr hn
    · intro i j
      have hold := h.edges i j
      unfold multiplicity at hold ⊢
      rw [hcount i j, hcount j i, hdone i, hdone j]
      have hni : ¬ (g.Marked index ∧ index ∉ g.search) := fun hc => hc.2 (by rw [hg]; exact List.mem_cons_self)
      by_cases hn : Near eps points i j
      · have hns := near_symm eps points hn
        have hij : i ≠ j := hn.1
        by_cases hie : i = index
        · subst hie
          have hji : j ≠ i := hij.symm
          rw [if_neg (show ¬ (j = i ∧ _) from fun hc => hji hc.1)]
          by_cases hdj : g.Marked j ∧ j ∉ g.search
          · rw [if_neg (fun hc => hc.2.2 hdj)]
            refine ⟨fun _ => ?_, fun hc => absurd ⟨hn, .inl (.inr rfl)⟩ hc⟩
            have := hold.1 ⟨hn, .inr hdj⟩
            omega
          · rw [if_pos ⟨rfl, hn, hdj⟩]
            refine ⟨fun _ => ?_, fun hc => absurd ⟨hn, .inl (.inr rfl)⟩ hc⟩
            have := hold.2 (fun hc => hc.2.elim hni hdj)
            omega
        · rw [if_neg (show ¬ (i = index ∧ _) from fun hc => hie hc.1)]
          by_cases hje : j = index
          · subst hje
            by_cases hdi : g.Marked i ∧ i ∉ g.search
            · rw [if_neg (fun hc => hc.2.2 hdi)]
              refine ⟨fun _ => ?_, fun hc => absurd ⟨hn, .inr (.inr rfl)⟩ hc⟩
              have := hold.1 ⟨hn, .inl hdi⟩
              omega
            · rw [if_pos ⟨rfl, hns, hdi⟩]
              refine ⟨fun _ => ?_, fun hc => absurd ⟨hn, .inr (.inr rfl)⟩ hc⟩
              have := hold.2 (fun hc => hc.2.elim hdi hni)
              omega
          · rw [if_neg (show ¬ (j = index ∧ _) from fun hc => hje hc.1)]
            constructor
            · rintro ⟨-, hc⟩
              have := hold.1 ⟨hn, hc.imp (fun hc => hc.resolve_right hie) (fun hc => hc.resolve_right hje)⟩
              omega
            · intro hc
              have := hold.2 (fun hc' => hc ⟨hn, hc'.2.imp .inl .inl⟩)
              omega
      · have h1 : ¬ (i = index ∧ Near eps points index j ∧ ¬ (g.Marked j ∧ j ∉ g.search)) := fun hc => hn (hc.1 ▸ hc.2.1)
        have h2 : ¬ (j = index ∧ Near eps points index i ∧ ¬ (g.Marked i ∧ i ∉ g.search)) := fun hc => hn (near_symm eps points (hc.1 ▸ hc.2.1))
        rw [if_neg h1, if_neg h2]
        exact ⟨fun hc => absurd hc.1 hn, fun _ => by have := hold.2 (fun hc => hn hc.1); omega⟩
  · rw [h6, hg, List.length_cons]
    simp only
    omega

theorem loop_inv (hsq : SqrtSpec sqrt) (heps : 0 < eps) (hp : Increasing points) : ∀ (fuel : Nat) (g : Search), g.Inv eps points →
    g.search.length + g.visited.count false ≤ fuel → ∃ g', searchLoop m sqrt eps points fuel g = .ok g' ∧ g'.Inv eps points ∧ g'.search = []
  | 0, g, h, hf => ⟨g, rfl, h, List.length_eq_zero_iff.mp (by omega)⟩
  | fuel + 1, g, h, hf => by
      rw [searchLoop]
      cases hg : g.search with
      | nil => exact ⟨g, rfl, h, hg⟩
      | cons index search =>
          obtain ⟨g', h1, h2, h3⟩ := round_inv m sqrt eps points hsq heps hp hg h
          simp only [h1, Res.ok_bind]
          exact loop_inv hsq heps hp fuel g' h2 (by omega)

/-- The result of the search. -/
theorem searchGraph_spec (hsq : SqrtSpec sqrt) (heps : 0 < eps) (hp : Increasing points) (hne : points ≠ []) :
    ∃ g, searchGraph m sqrt eps points = .ok g ∧ g.search = [] ∧ g.visited.length = points.length ∧
      (∀ k, g.Marked k ↔ Linked eps points 0 k) ∧
      ∀ i j, (Near eps points i j ∧ Linked eps points 0 i → multiplicity g.connections i j = 1) ∧
        (¬ (Near eps points i j ∧ Linked eps points 0 i) → multiplicity g.connections i j = 0) := by
  have hlen : 0 < points.length := List.length_pos_iff.mpr hne
  have hvis : ∀ k, Search.Marked ⟨[0], (List.replicate points.length false).set 0 true, []⟩ k ↔ k = 0 := fun k => by
    unfold Search.Marked
    simp only [List.getElem?_set, List.length_replicate]
    by_cases hk : 0 = k
    · subst hk; simp [hlen]
    · rw [if_neg hk, List.getElem?_replicate]
      constructor
      · intro h
        split at h <;> simp at h
      · intro h; exact absurd h.symm hk
  have hinv : Search.Inv eps points ⟨[0], (List.replicate points.length false).set 0 true, []⟩ := by
    refine ⟨by simp, (hvis 0).mpr rfl, List.nodup_singleton _, fun k hk => (hvis k).mpr (List.mem_singleton.mp hk), fun k hk => ?_, fun i hi hs => ?_, fun i j => ?_⟩
    · rw [(hvis k).mp hk]; exact .refl
    · exact absurd (List.mem_singleton.mpr ((hvis i).mp hi)) hs
    · refine ⟨fun hc => ?_, fun _ => rfl⟩
      rcases hc.2 with hc | hc
      · exact absurd (List.mem_singleton.mpr ((hvis i).mp hc.1)) hc.2
      · exact absurd (List.mem_singleton.mpr ((hvis j).mp hc.1)) hc.2
  have hcount : ((List.replicate points.length false).set 0 true).count false + 1 = points.length := by
    have := count_set_false (l := List.replicate points.length false) (i := 0) (by rw [List.getElem?_replicate, if_pos hlen])
    rwa [List.count_replicate_self] at this
  obtain ⟨g, h1, h2, h3⟩ := loop_inv m sqrt eps points hsq heps hp points.length _ hinv (by simp only [List.length_singleton]; omega)
  refine ⟨g, ?_, h3, h2.length, fun k => ⟨h2.linked k, fun hk => ?_⟩, ?_⟩
  · unfold searchGraph vset
    rw [List.length_replicate, if_pos hlen, Res.ok_bind]
    exact h1
  · induction hk with
    | refl => exact h2.root
    | tail _ hn ih => exact h2.closed _ ih (by rw [h3]; exact List.not_mem_nil) _ hn
  · have hmk : ∀ k, g.Marked k ↔ Linked eps points 0 k := fun k => ⟨h2.linked k, fun hk => by
      induction hk with
      | refl => exact h2.root
      | tail _ hn ih => exact h2.closed _ ih (by rw [h3]; exact List.not_mem_nil) _ hn⟩
    intro i j
    have he := h2.edges i j
    rw [h3] at he
    simp only [List.not_mem_nil, not_false_eq_true, and_true, hmk] at he
    refine ⟨fun hc => he.1 ⟨hc.1, .inl hc.2⟩, fun hc => he.2 (fun hc' => hc ⟨hc'.1, ?_⟩)⟩
    rcases hc'.2 with h | h
    · exact h
    · exact h.tail (near_symm eps points hc'.1)

end Round

/-! ## Reading the points -/

section Read
variable {scan : Scan K}

omit [LinearOrder K] in
theorem readAllPoints_spec {s : Nat} : ∀ (data : List (List Char)) (points : List (SmallVec s K)) (pt : SmallVec s K) (acc : List (SmallVec s K)),
    List.Forall₂ (fun l p => PointRow scan p.1 p.2 l) data (List.zip (pt :: points) points) → readAllPoints scan data pt acc = acc ++ points
  | [], points, pt, acc, h => by
      have := h.length_eq
      rw [List.length_nil, List.length_zip, List.length_cons] at this
      have : points = [] := List.length_eq_zero_iff.mp (by omega)
      rw [this, List.append_nil]; rfl
  | line :: data, [], pt, acc, h => by simp at h
  | line :: data, p :: points, pt, acc, h => by
      rw [List.zip_cons_cons, List.forall₂_cons] at h
      have e := extractAll_of_point pt p line h.1
      have := readAllPoints_spec data points p (acc ++ [p]) h.2
      rw [readAllPoints]
      simp only [e]
      rw [this, List.append_assoc, List.singleton_append]

theorem readPts_spec (m : Mode) {s : Nat} {content : List Char} {epsilon : K} {points : List (SmallVec s K)} (heps : 0 < epsilon)
    (h : PtsDescribes scan epsilon points (linesOf content)) : readPts m scan s content = .ok (epsilon, points) := by
  obtain ⟨h1, h2, s1, hl, a1, ⟨comments, key, w, extra, rfl, b1, b2, b3⟩, comments', key', data, rfl, c1, ⟨ws, c2⟩, c3⟩ := h
  obtain ⟨st1, e1⟩ := readDimension_spec m a1 (comments ++ [key] ++ (comments' ++ key' :: data)) [] [] ⟨[], true⟩ (by decide)
  obtain ⟨tail, f1, f2⟩ := seek_spec (kw := "Epsilon") (comments' ++ key' :: data) "Space_Dim".toList st1 b1 (by decide) b2
  obtain ⟨tail2, f3, f4⟩ := string_of_says f2
  have hreal : ∃ st', LineStream.real scan ⟨tail2, true⟩ = (st', some epsilon) := by
    cases f4 with
    | word sp w rest ws h1 h2 h3 h4 h5 =>
        have hr := b3 rest h4
        unfold LineStream.real
        obtain ⟨c, cs, hc⟩ := List.exists_cons_of_ne_nil h2
        have hd : (sp ++ w ++ rest).dropWhile isSpace = w ++ rest := by
          rw [List.append_assoc, List.dropWhile_append_of_pos h1, hc, List.cons_append, List.dropWhile_cons_of_neg]
          rw [h3 c (by rw [hc]; exact List.mem_cons_self)]
          exact Bool.false_ne_true
        simp only [hd, if_true]
        rw [hc, List.cons_append] at hr ⊢
        simp only
        cases hs : scan (c :: (cs ++ rest)) with
        | mk x r =>
            rw [hs] at hr
            simp only at hr
            subst hr
            exact ⟨_, rfl⟩
  obtain ⟨st2, f5⟩ := hreal
  obtain ⟨tail3, g1, -⟩ := seek_spec (kw := "POINTS:") data "Epsilon".toList st2 c1 (by decide) c2
  have e2 : GeoReader.headerReal scan "Epsilon".toList ['='] ⟨comments ++ [key] ++ (comments' ++ key' :: data), "Space_Dim".toList, st1⟩ =
      (⟨comments' ++ key' :: data, "Epsilon".toList, st2⟩, ['='], some epsilon) := by
    unfold GeoReader.headerReal GeoReader.seek
    simp only [List.append_assoc, List.singleton_append] at f1 ⊢
    rw [f1]
    simp only [f3, f5, Option.getD_some]
  unfold readPts
  rw [hl, List.append_assoc, e1, Res.ok_bind]
  simp only [e2]
  rw [hyAssert_of trivial, hyAssert_of (by decide)]
  simp only [Res.ok_bind]
  rw [hyAssert_of heps]
  have e3 : GeoReader.seek "POINTS:".toList ⟨comments' ++ key' :: data, "Epsilon".toList, st2⟩ = ⟨data, "POINTS:".toList, ⟨tail3, true⟩⟩ := g1
  simp only [Res.ok_bind, e3]
  rw [hyAssert_of trivial, Res.ok_bind, readAllPoints_spec data points (SmallMat.fill s 1 0) [] c3, List.nil_append]

end Read

/-! ## Sorted points -/

/-- Sorting different points. -/
theorem increasing_of_sorted {points : List (SmallVec s K)} (h1 : points.Pairwise (fun a b => SmallMat.lt b a = false)) (h2 : points.Nodup) : Increasing points := by
  have := h1.and h2
  refine this.imp (fun {a b} hab => ?_)
  rw [← C08_lexicographic]
  rcases (C08_strict_total_order a b a).2.2 with h | h | h
  · exact h.1
  · exact absurd ((ltPoint_total.eq_iff _ _).mp h.2.1) hab.2
  · exact absurd (h.2.2.symm.trans hab.1) (by decide)

theorem all_linked {eps : K} {points : List (SmallVec s K)} {visited : List Bool} (hlen : visited.length = points.length)
    (h : ∀ k, visited[k]? = some true ↔ Linked eps points 0 k) : visited.all id = true ↔ ∀ k, k < points.length → Linked eps points 0 k := by
  rw [List.all_eq_true]
  constructor
  · intro ha k hk
    rw [← h, List.getElem?_eq_getElem (by omega)]
    exact congrArg some (ha _ (List.getElem_mem _))
  · intro ha x hx
    obtain ⟨k, hk, rfl⟩ := List.mem_iff_getElem.mp hx
    have := (h k).mpr (ha k (by omega))
    rw [List.getElem?_eq_getElem hk] at this
    exact Option.some.inj this

/-- In a sorted list all points can be reached from the first one if and only if the points are connected. -/
theorem linked_iff [IsStrictOrderedRing K] {eps : K} {points sorted : List (SmallVec (s + 1) K)} (hperm : sorted.Perm points) (hnd : sorted.Nodup) (hne : sorted ≠ []) :
    (∀ k, k < sorted.length → Linked eps sorted 0 k) ↔ Connected eps points := by
  have hlen : 0 < sorted.length := List.length_pos_iff.mpr hne
  constructor
  · intro h p hp q hq
    have hto : ∀ i j, Linked eps sorted i j → ∀ (hi : i < sorted.length), ∃ hj : j < sorted.length,
        Relation.ReflTransGen (fun p q => q ∈ points ∧ ∑ k, (p k - q k) ^ 2 < eps ^ 2) sorted[i] sorted[j] := fun i j hij hi => by
      induction hij with
      | refl => exact ⟨hi, .refl⟩
      | @tail b c _ hn ih =>
          obtain ⟨hb, hr⟩ := ih
          obtain ⟨-, x, y, hx, hy, hlt⟩ := hn
          rw [List.getElem?_eq_getElem hb] at hx
          obtain ⟨hc, hy⟩ := List.getElem?_eq_some_iff.mp hy
          have hx := Option.some.inj hx
          subst hx hy
          exact ⟨hc, hr.tail ⟨hperm.mem_iff.mp (List.getElem_mem _), hlt⟩⟩
    obtain ⟨i, hi, rfl⟩ := List.mem_iff_getElem.mp (hperm.mem_iff.mpr hp)
    obtain ⟨j, hj, rfl⟩ := List.mem_iff_getElem.mp (hperm.mem_iff.mpr hq)
    have hsymm : Linked eps sorted i 0 := by
      have : ∀ a b, Linked eps sorted a b → Linked eps sorted b a := fun a b hab => by
        induction hab with
        | refl => exact .refl
        | tail _ hn ih => exact (Relation.ReflTransGen.single (near_symm eps sorted hn)).trans ih
      exact this _ _ (h i hi)
    obtain ⟨_, hr⟩ := hto i j (hsymm.trans (h j hj)) hi
    exact hr
  · intro h k hk
    have hfrom : ∀ p q, Relation.ReflTransGen (fun p q => q ∈ points ∧ ∑ k, (p k - q k) ^ 2 < eps ^ 2) p q → ∀ (hi : 0 < sorted.length), p = sorted[0] →
        ∀ j (hj : j < sorted.length), q = sorted[j] → ∃ j', sorted[j']? = some q ∧ Linked eps sorted 0 j' := fun p q hpq hi hp => by
      intro j hj hq
      clear hq
      induction hpq with
      | refl => exact ⟨0, by rw [List.getElem?_eq_getElem hi, hp], .refl⟩
      | @tail b c _ hn ih =>
          obtain ⟨jb, h1, h2⟩ := ih
          obtain ⟨jc, hjc, rfl⟩ := List.mem_iff_getElem.mp (hperm.mem_iff.mpr hn.1)
          by_cases he : jb = jc
          · subst he
            exact ⟨jb, List.getElem?_eq_getElem hjc, h2⟩
          · exact ⟨jc, List.getElem?_eq_getElem hjc, h2.tail ⟨he, b, sorted[jc], h1, List.getElem?_eq_getElem hjc, hn.2⟩⟩
    obtain ⟨j', h1, h2⟩ := hfrom sorted[0] sorted[k] (h _ (hperm.mem_iff.mp (List.getElem_mem _)) _ (hperm.mem_iff.mp (List.getElem_mem _))) hlen rfl k hk rfl
    obtain ⟨hj', h1⟩ := List.getElem?_eq_some_iff.mp h1
    exact (hnd.getElem_inj_iff.mp h1) ▸ h2

end HyperHDG

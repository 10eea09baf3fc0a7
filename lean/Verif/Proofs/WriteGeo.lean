import Verif.Model.EpsilonGraph
import Verif.Proofs.ReadDomain

/-!
# Helper lemmas for written `.geo` files
-/

namespace HyperHDG

variable {d s : Nat} {K : Type}

theorem showNat_number {n : Nat} (hn : n < U32) : IsNumber (showNat n) n where
  nonempty := Nat.toDigits_ne_nil
  digits := fun _ hc => Nat.isDigit_of_mem_toDigits (by decide) (by decide) hc
  value := by
    have := Nat.ofDigitChars_ten_toDigits (n := n)
    rw [Nat.ofDigitChars_eq_foldl] at this
    exact this
  small := hn

theorem digit_space {c : Char} (h : c.isDigit = true) : isSpace c = false := by
  cases hc : isSpace c
  · rfl
  · rw [digit_not_space hc] at h
    exact absurd h (by decide)

theorem IsNumber.noSpace {w : List Char} {n : Nat} (h : IsNumber w n) : ∀ c ∈ w, isSpace c = false := fun c hc => digit_space (h.digits c hc)

theorem Says.space {c : Char} (hc : isSpace c = true) {l : List Char} {ws : List (List Char)} (h : Says l ws) : Says (c :: l) ws := by
  cases h with
  | blank _ h => exact .blank _ (fun c' hc' => by rcases List.mem_cons.mp hc' with rfl | h'; exacts [hc, h c' h'])
  | word sp w rest ws h1 h2 h3 h4 h5 =>
      exact .word (c :: sp) w rest ws (fun c' hc' => by rcases List.mem_cons.mp hc' with rfl | h'; exacts [hc, h1 c' h']) h2 h3 h4 h5

theorem Says.spaces {sp : List Char} (hsp : ∀ c ∈ sp, isSpace c = true) {l : List Char} {ws : List (List Char)} (h : Says l ws) : Says (sp ++ l) ws := by
  induction sp with
  | nil => exact h
  | cons c sp ih => exact (ih (fun c hc => hsp c (List.mem_cons_of_mem _ hc))).space (hsp c List.mem_cons_self)

theorem Says.one {w : List Char} (hw : w ≠ []) (hs : ∀ c ∈ w, isSpace c = false) : Says w [w] := by
  have := Says.word [] w [] [] (fun _ h => absurd h List.not_mem_nil) hw hs (fun _ h => by simp at h) (.blank [] (fun _ h => absurd h List.not_mem_nil))
  simpa using this

theorem Says.more {w : List Char} (hw : w ≠ []) (hs : ∀ c ∈ w, isSpace c = false) {c : Char} (hc : isSpace c = true) {l : List Char} {ws : List (List Char)}
    (h : Says l ws) : Says (w ++ c :: l) (w :: ws) := by
  have := Says.word [] w (c :: l) ws (fun _ h => absurd h List.not_mem_nil) hw hs (fun c' h' => by
    simp only [List.head?_cons, Option.mem_some_iff] at h'
    rw [← h']; exact hc) (h.space hc)
  simpa using this

theorem says_rowText : ∀ ws : List (List Char), (∀ w ∈ ws, w ≠ [] ∧ ∀ c ∈ w, isSpace c = false) → Says (rowText ws) ws
  | [], _ => .blank _ (fun _ h => absurd h List.not_mem_nil)
  | [w], h => .one (h w List.mem_cons_self).1 (h w List.mem_cons_self).2
  | w :: w' :: ws, h => by
      rw [rowText]
      · exact .more (h w List.mem_cons_self).1 (h w List.mem_cons_self).2 (by decide) (says_rowText (w' :: ws) (fun v hv => h v (List.mem_cons_of_mem _ hv)))
      · exact List.cons_ne_nil _ _

theorem says_padded : ∀ ws : List (List Char), (∀ w ∈ ws, w ≠ [] ∧ ∀ c ∈ w, isSpace c = false) → Says (ws.flatMap (fun w => ' ' :: (w ++ [' ']))) ws
  | [], _ => .blank _ (fun _ h => absurd h List.not_mem_nil)
  | w :: ws, h => by
      rw [List.flatMap_cons, List.cons_append, List.append_assoc]
      exact Says.space (by decide) (.more (h w List.mem_cons_self).1 (h w List.mem_cons_self).2 (by decide) (says_padded ws (fun v hv => h v (List.mem_cons_of_mem _ hv))))

theorem not_startsWith_nil (kw : String) : ¬ StartsWith kw [] := by
  rintro ⟨ws, h⟩
  generalize hl : ([] : List Char) = l at h
  cases h with
  | word sp w rest ws h1 h2 h3 h4 h5 =>
      have := congrArg List.length hl
      simp only [List.length_nil, List.length_append] at this
      exact h2 (List.length_eq_zero_iff.mp (by omega))

/-- Characters of a keyword. -/
def Wordlike (kw : String) : Prop := kw.toList ≠ [] ∧ ∀ c ∈ kw.toList, isSpace c = false

instance (kw : String) : Decidable (Wordlike kw) := inferInstanceAs (Decidable (_ ∧ _))

theorem headerText_line {kw pad : String} {n : Nat} (hkw : Wordlike kw) (hpad : (∀ c ∈ pad.toList, isSpace c = true)) (hpad' : pad.toList ≠ []) (hn : n < U32) :
    HeaderLine kw n (headerText kw pad n) := by
  refine ⟨showNat n ++ [';'], [], ?_, showNat n, [';'], rfl, showNat_number hn, .inr ⟨[], rfl⟩⟩
  have h1 : Says (showNat n ++ [';']) [showNat n ++ [';']] := by
    refine .one (by simp) (fun c hc => ?_)
    rcases List.mem_append.mp hc with h | h
    · exact (showNat_number hn).noSpace c h
    · rw [List.mem_singleton.mp h]; decide
  have h2 : Says ('=' :: ' ' :: (showNat n ++ [';'])) [['='], showNat n ++ [';']] := Says.more (w := ['=']) (by simp) (by decide) (by decide) h1
  unfold headerText
  obtain ⟨c, sp, hc⟩ := List.exists_cons_of_ne_nil hpad'
  rw [hc] at hpad ⊢
  rw [List.cons_append]
  exact .more hkw.1 hkw.2 (hpad c List.mem_cons_self) (h2.spaces (fun c' hc' => hpad c' (List.mem_cons_of_mem _ hc')))

theorem startsWith_self {kw : String} (hkw : Wordlike kw) : StartsWith kw kw.toList := ⟨[], .one hkw.1 hkw.2⟩

theorem arrayText_row {k : Nat} (a : Fin k → Nat) (ha : ∀ i, a i < U32) : Row IsNumber (List.ofFn a) (arrayText a) := by
  refine ⟨(List.ofFn a).map showNat, [], ?_, ?_⟩
  · rw [List.append_nil]
    refine says_rowText _ (fun w hw => ?_)
    obtain ⟨n, hn, rfl⟩ := List.mem_map.mp hw
    obtain ⟨i, rfl⟩ := (List.mem_ofFn' _ _).mp hn
    exact ⟨(showNat_number (ha i)).nonempty, (showNat_number (ha i)).noSpace⟩
  · rw [List.forall₂_map_left_iff, List.forall₂_same]
    intro n hn
    obtain ⟨i, rfl⟩ := (List.mem_ofFn' _ _).mp hn
    exact showNat_number (ha i)

theorem pointText_row {scan : Scan K} {print : K → List Char} {round : K → K} (hp : PrintSpec scan print round) (prev p : SmallVec s K) :
    PointRow scan prev (fun i => round (p i)) (pointText print p) := by
  refine ⟨(List.ofFn p).map print, [], ?_, by simp, fun _ => rfl, fun i h => ?_, fun i h => ?_⟩
  · rw [List.append_nil]
    have := says_padded ((List.ofFn p).map print) (fun w hw => by
      obtain ⟨x, hx, rfl⟩ := List.mem_map.mp hw
      exact ⟨hp.nonempty x, hp.noSpace x⟩)
    rw [List.flatMap_map] at this
    exact this
  · have : ((List.ofFn p).map print)[i] = print (p i) := by simp
    rw [this]
    exact hp.value _
  · simp only [List.length_map, List.length_ofFn] at h
    exact absurd i.2 (by omega)

theorem arrays_section {k : Nat} {kw : String} (hkw : Wordlike kw) (l : List (Fin k → Nat)) (hl : ∀ a ∈ l, ∀ i, a i < U32) :
    Section kw IsNumber (l.map List.ofFn) ([] :: kw.toList :: l.map arrayText) := by
  refine ⟨[[]], kw.toList, l.map arrayText, rfl, fun l hl => ?_, startsWith_self hkw, ?_⟩
  · rw [List.mem_singleton.mp hl]; exact not_startsWith_nil _
  · rw [List.forall₂_map_left_iff, List.forall₂_map_right_iff, List.forall₂_same]
    exact fun a ha => arrayText_row a (hl a ha)

theorem points_section [Zero K] {scan : Scan K} {print : K → List Char} {round : K → K} (hp : PrintSpec scan print round) (points : List (SmallVec s K)) :
    PointSection scan (points.map (fun p i => round (p i))) ([] :: "POINTS:".toList :: points.map (pointText print)) := by
  refine ⟨[[]], "POINTS:".toList, points.map (pointText print), rfl, fun l hl => ?_, startsWith_self (by decide), ?_⟩
  · rw [List.mem_singleton.mp hl]; exact not_startsWith_nil _
  · rw [List.forall₂_iff_get]
    refine ⟨by simp, fun j hj hj' => ?_⟩
    simp only [List.get_eq_getElem, List.getElem_map, List.getElem_zip]
    exact pointText_row hp _ _

theorem header_of {kw pad : String} {n : Nat} (hkw : Wordlike kw) (hpad : (∀ c ∈ pad.toList, isSpace c = true)) (hpad' : pad.toList ≠ []) (hn : n < U32)
    (blanks : List (List Char)) (hb : ∀ l ∈ blanks, l = []) : Header kw n (blanks ++ [headerText kw pad n]) :=
  ⟨blanks, _, rfl, fun l hl => by rw [hb l hl]; exact not_startsWith_nil _, headerText_line hkw hpad hpad' hn⟩

/-- The written file describes the domain (with rounded coordinates). -/
theorem writeGeo_describes [Zero K] {scan : Scan K} {print : K → List Char} {round : K → K} (hp : PrintSpec scan print round) (hs : s < U32) (hd : d + 1 < U32)
    (points : List (SmallVec s K)) (n_hyNodes : Nat) (hyNodes hyFaces : List (Fin (2 * (d + 1)) → Nat)) (pts : List (Fin (2 ^ (d + 1)) → Nat))
    (h1 : points.length < U32) (h2 : n_hyNodes < U32) (h3 : hyNodes.length < U32) (h4 : ∀ a ∈ hyNodes, ∀ i, a i < U32) (h5 : ∀ a ∈ hyFaces, ∀ i, a i < U32)
    (h6 : ∀ a ∈ pts, ∀ i, a i < U32) :
    Describes scan (⟨hyNodes.length, n_hyNodes, points.length, 0, points.map (fun p i => round (p i)), hyNodes, hyFaces, pts, []⟩ : DomainInfo d s K)
      (writeGeo print points n_hyNodes hyNodes hyFaces pts) := by
  refine ⟨⟨[headerText "Space_Dim" "     " s], [headerText "HyperEdge_Dim" " " (d + 1)], [[], headerText "N_Points" "      " points.length],
    [headerText "N_HyperNodes" "  " n_hyNodes], [headerText "N_HyperEdges" "  " hyNodes.length], [] :: "POINTS:".toList :: points.map (pointText print),
    [] :: "HYPERNODES_OF_HYPEREDGES:".toList :: hyNodes.map arrayText, [] :: "TYPES_OF_HYPERFACES:".toList :: hyFaces.map arrayText,
    [] :: "POINTS_OF_HYPEREDGES:".toList :: pts.map arrayText, [], ?_, ?_, ?_, ?_, ?_, ?_, points_section hp points,
    arrays_section (by decide) hyNodes h4, arrays_section (by decide) hyFaces h5, arrays_section (by decide) pts h6, ?_⟩⟩
  · simp [writeGeo]
  · exact header_of (by decide) (by decide) (by decide) hs [] (by simp)
  · exact header_of (by decide) (by decide) (by decide) hd [] (by simp)
  · exact header_of (by decide) (by decide) (by decide) h1 [[]] (by simp)
  · exact header_of (by decide) (by decide) (by decide) h2 [] (by simp)
  · exact header_of (by decide) (by decide) (by decide) h3 [] (by simp)
  · exact .inl ⟨rfl, rfl, fun l hl => absurd hl List.not_mem_nil⟩

/-- There are no line breaks within lines. -/
theorem writeGeo_lines {scan : Scan K} {print : K → List Char} {round : K → K} (hp : PrintSpec scan print round)
    (points : List (SmallVec s K)) (n_hyNodes : Nat) (hyNodes hyFaces : List (Fin (2 * (d + 1)) → Nat)) (pts : List (Fin (2 ^ (d + 1)) → Nat)) :
    ∀ l ∈ writeGeo print points n_hyNodes hyNodes hyFaces pts, '\n' ∉ l := by
  have hnum : ∀ n, '\n' ∉ showNat n := fun n h => absurd (Nat.isDigit_of_mem_toDigits (b := 10) (by decide) (by decide) h) (by decide)
  have hrow : ∀ ws : List (List Char), (∀ w ∈ ws, '\n' ∉ w) → '\n' ∉ rowText ws := by
    intro ws
    induction ws with
    | nil => intro _ h; exact absurd h List.not_mem_nil
    | cons w ws ih =>
        intro h
        cases ws with
        | nil => exact h w List.mem_cons_self
        | cons w' ws =>
            rw [rowText]
            · intro hm
              rcases List.mem_append.mp hm with hm | hm
              · exact h w List.mem_cons_self hm
              · rcases List.mem_cons.mp hm with hm | hm
                · exact absurd hm (by decide)
                · exact ih (fun v hv => h v (List.mem_cons_of_mem _ hv)) hm
            · exact List.cons_ne_nil _ _
  have harr : ∀ {k : Nat} (a : Fin k → Nat), '\n' ∉ arrayText a := fun a => hrow _ (fun w hw => by
    obtain ⟨n, -, rfl⟩ := List.mem_map.mp hw
    exact hnum n)
  have hpt : ∀ p : SmallVec s K, '\n' ∉ pointText print p := fun p h => by
    obtain ⟨x, -, hx⟩ := List.mem_flatMap.mp h
    rcases List.mem_cons.mp hx with hx | hx
    · exact absurd hx (by decide)
    · rcases List.mem_append.mp hx with hx | hx
      · exact absurd (hp.noSpace x _ hx) (by decide)
      · exact absurd (List.mem_singleton.mp hx) (by decide)
  have hhead : ∀ (kw pad : String) (n : Nat), '\n' ∉ kw.toList → '\n' ∉ pad.toList → '\n' ∉ headerText kw pad n := fun kw pad n h1 h2 h => by
    unfold headerText at h
    simp only [List.mem_append, List.mem_cons, List.not_mem_nil, or_false] at h
    rcases h with h | h | h | h | h | h
    · exact h1 h
    · exact h2 h
    · exact absurd h (by decide)
    · exact absurd h (by decide)
    · exact hnum n h
    · exact absurd h (by decide)
  intro l hl
  unfold writeGeo at hl
  simp only [List.mem_append, List.mem_cons, List.not_mem_nil, or_false, List.mem_map] at hl
  rcases hl with (rfl | rfl | rfl | rfl | rfl | rfl | rfl | rfl) | ⟨p, -, rfl⟩ | rfl | rfl | ⟨a, -, rfl⟩ | rfl | rfl | ⟨a, -, rfl⟩ | rfl | rfl | ⟨a, -, rfl⟩
  · exact hhead _ _ _ (by decide) (by decide)
  · exact hhead _ _ _ (by decide) (by decide)
  · decide
  · exact hhead _ _ _ (by decide) (by decide)
  · exact hhead _ _ _ (by decide) (by decide)
  · exact hhead _ _ _ (by decide) (by decide)
  · decide
  · decide
  · exact hpt p
  · decide
  · decide
  · exact harr a
  · decide
  · decide
  · exact harr a
  · decide
  · decide
  · exact harr a

end HyperHDG

import Verif.Proofs.FiberNetwork

/-!
# Helper lemmas for the files of networks of fibres
-/

namespace HyperHDG.MakeGeo

variable {K : Type}

theorem says_wideText : ∀ ws : List (List Char), (∀ w ∈ ws, w ≠ [] ∧ ∀ c ∈ w, isSpace c = false) → Says (wideText ws) ws
  | [], _ => .blank _ (fun _ h => absurd h List.not_mem_nil)
  | [w], h => .one (h w List.mem_cons_self).1 (h w List.mem_cons_self).2
  | w :: w' :: ws, h => by
      rw [wideText]
      · exact .more (h w List.mem_cons_self).1 (h w List.mem_cons_self).2 (by decide)
          (Says.space (by decide) (says_wideText (w' :: ws) (fun v hv => h v (List.mem_cons_of_mem _ hv))))
      · exact List.cons_ne_nil _ _

theorem says_numbers {scan : Scan K} {print : K → List Char} {round : K → K} (hp : PrintSpec scan print round) {n : Nat} (p : Fin n → K) :
    Says (numbersText print p) ((List.ofFn p).map print) :=
  says_wideText _ (fun w hw => by
    obtain ⟨x, -, rfl⟩ := List.mem_map.mp hw
    exact ⟨hp.nonempty x, hp.noSpace x⟩)

theorem numbers_pointRow {scan : Scan K} {print : K → List Char} {round : K → K} (hp : PrintSpec scan print round) (prev p : Point K) :
    PointRow scan prev (fun i => round (p i)) (numbersText print p) := by
  refine ⟨(List.ofFn p).map print, [], ?_, by simp, fun _ => rfl, fun i h => ?_, fun i h => ?_⟩
  · rw [List.append_nil]
    exact says_numbers hp p
  · have : ((List.ofFn p).map print)[i] = print (p i) := by simp only [Fin.getElem_fin, List.getElem_map, List.getElem_ofFn, Fin.eta]
    rw [this]
    exact hp.value _
  · simp only [List.length_map, List.length_ofFn] at h
    exact absurd i.2 (by omega)

theorem numbers_row {scan : Scan K} {print : K → List Char} {round : K → K} (hp : PrintSpec scan print round) {n : Nat} (p : Fin n → K) :
    Row (IsReal scan) (List.ofFn (fun i => round (p i))) (numbersText print p) := by
  refine ⟨(List.ofFn p).map print, [], by rw [List.append_nil]; exact says_numbers hp p, ?_⟩
  rw [show List.ofFn (fun i => round (p i)) = (List.ofFn p).map round by rw [List.map_ofFn]; rfl, List.forall₂_map_left_iff, List.forall₂_map_right_iff,
    List.forall₂_same]
  exact fun x _ => hp.value x

theorem pair_rel {a b : Nat} (ha : a < U32) (hb : b < U32) : List.Forall₂ IsNumber [showNat a, showNat b] [a, b] := .cons (showNat_number ha) (.cons (showNat_number hb) .nil)

theorem pair_words {a b : Nat} (ha : a < U32) (hb : b < U32) : ∀ w ∈ [showNat a, showNat b], w ≠ [] ∧ ∀ c ∈ w, isSpace c = false := fun w hw => by
  simp only [List.mem_cons, List.not_mem_nil, or_false] at hw
  rcases hw with rfl | rfl
  exacts [⟨(showNat_number ha).nonempty, (showNat_number ha).noSpace⟩, ⟨(showNat_number hb).nonempty, (showNat_number hb).noSpace⟩]

theorem pairText_row {e : Nat × Nat} (ha : e.1 < U32) (hb : e.2 < U32) : Row IsNumber [e.1, e.2] (pairText e) :=
  ⟨_, [], by rw [List.append_nil]; exact says_wideText _ (pair_words ha hb), pair_rel ha hb⟩

theorem typeText_row {e : Nat × Nat} (ha : e.1 < U32) (hb : e.2 < U32) : Row IsNumber [e.1, e.2] (typeText e) :=
  ⟨_, [], by rw [List.append_nil]; exact says_rowText _ (pair_words ha hb), pair_rel ha hb⟩

theorem Says.append_more {l : List Char} {ws : List (List Char)} (h : Says l ws) {c : Char} (hc : isSpace c = true) {l' : List Char} {ws' : List (List Char)} (h' : Says l' ws') :
    Says (l ++ c :: l') (ws ++ ws') := by
  induction h with
  | blank l hl => exact (h'.space hc).spaces hl
  | word sp w rest ws h1 h2 h3 h4 h5 ih =>
      have := Says.word sp w (rest ++ c :: l') (ws ++ ws') h1 h2 h3 (fun x hx => by
        cases rest with
        | nil => simp only [List.nil_append, List.head?_cons, Option.mem_some_iff] at hx; rw [← hx]; exact hc
        | cons r rest => exact h4 x (by simpa using hx)) ih
      simpa using this

/-- Any text consists of some words. -/
theorem says_some : ∀ l : List Char, ∃ ws, Says l ws ∧ ∀ c l', l = c :: l' → isSpace c = false → ∃ w ws', ws = w :: ws'
  | [] => ⟨[], .blank _ (by simp), by simp⟩
  | c :: l => by
      obtain ⟨ws, h, hw⟩ := says_some l
      cases hc : isSpace c with
      | true => exact ⟨ws, h.space hc, fun c' l' he hf => by
          rw [(List.cons.inj he).1, hf] at hc
          cases hc⟩
      | false =>
          cases l with
          | nil => exact ⟨[[c]], .one (by simp) (by simpa using hc), fun _ _ _ _ => ⟨_, _, rfl⟩⟩
          | cons b l =>
              cases hb : isSpace b with
              | true =>
                  have h2 := Says.word [] [c] (b :: l) ws (by simp) (by simp) (by simpa using hc) (by simpa using hb) h
                  exact ⟨[c] :: ws, by simpa using h2, fun _ _ _ _ => ⟨_, _, rfl⟩⟩
              | false =>
                  obtain ⟨w, ws', rfl⟩ := hw b l rfl hb
                  generalize hl : b :: l = t at h
                  generalize hv : w :: ws' = us at h
                  cases h with
                  | blank _ h => cases hv
                  | word sp w2 rest ws2 h1 h2 h3 h4 h5 =>
                      cases sp with
                      | cons x sp =>
                          simp only [List.cons_append, List.cons.injEq] at hl
                          rw [← hl.1, ] at h1
                          have := h1 b List.mem_cons_self
                          rw [hb] at this
                          cases this
                      | nil =>
                          have h6 := Says.word [] (c :: w2) rest ws2 (by simp) (by simp) (fun x hx => by
                            rcases List.mem_cons.mp hx with rfl | hx
                            exacts [hc, h3 x hx]) h4 h5
                          exact ⟨(c :: w2) :: ws2, by simpa using h6, fun _ _ _ _ => ⟨_, _, rfl⟩⟩

theorem remarkText_line {kw pad : String} {n : Nat} (remark : String) (hkw : Wordlike kw) (hpad : (∀ c ∈ pad.toList, isSpace c = true)) (hpad' : pad.toList ≠ []) (hn : n < U32) :
    HeaderLine kw n (remarkText kw pad n remark) := by
  obtain ⟨w, extra, h, hw⟩ := headerText_line hkw hpad hpad' hn
  obtain ⟨ws, hs, -⟩ := says_some remark.toList
  refine ⟨w, extra ++ ws, ?_, hw⟩
  have := Says.append_more h (c := ' ') (by decide) (Says.space (c := ' ') (by decide) hs)
  simpa [remarkText] using this

theorem remark_header {kw pad : String} {n : Nat} (remark : String) (hkw : Wordlike kw) (hpad : (∀ c ∈ pad.toList, isSpace c = true)) (hpad' : pad.toList ≠ []) (hn : n < U32)
    (comments : List (List Char)) (hb : ∀ l ∈ comments, ¬ StartsWith kw l) : Header kw n (comments ++ [remarkText kw pad n remark]) :=
  ⟨comments, _, rfl, hb, remarkText_line remark hkw hpad hpad' hn⟩

/-- A line which starts with another character than the keyword. -/
theorem not_startsWith_cons {kw : String} {c : Char} {l : List Char} (hc : isSpace c = false) (h : kw.toList.head? ≠ some c) : ¬ StartsWith kw (c :: l) := by
  rintro ⟨ws, hs⟩
  generalize hl : c :: l = t at hs
  generalize hv : kw.toList :: ws = us at hs
  cases hs with
  | blank _ _ => cases hv
  | word sp w rest ws2 h1 h2 h3 h4 h5 =>
      cases sp with
      | cons x sp =>
          simp only [List.cons_append, List.cons.injEq] at hl
          have := h1 x List.mem_cons_self
          rw [← hl.1, hc] at this
          cases this
      | nil =>
          rw [(List.cons.inj hv).1] at h
          cases w with
          | nil => exact h2 rfl
          | cons y w =>
              simp only [List.nil_append, List.cons_append, List.cons.injEq] at hl
              exact h (by simp [hl.1])

theorem number_section {kw : String} (hkw : Wordlike kw) {α : Type} (l : List α) (values : α → List Nat) (text : α → List Char) (h : ∀ a ∈ l, Row IsNumber (values a) (text a)) :
    Section kw IsNumber (l.map values) ([] :: kw.toList :: l.map text) := by
  refine ⟨[[]], kw.toList, l.map text, rfl, fun l hl => ?_, startsWith_self hkw, ?_⟩
  · rw [List.mem_singleton.mp hl]; exact not_startsWith_nil _
  · rw [List.forall₂_map_left_iff, List.forall₂_map_right_iff, List.forall₂_same]
    exact h

theorem wide_points_section [Zero K] {scan : Scan K} {print : K → List Char} {round : K → K} (hp : PrintSpec scan print round) (points : List (Point K)) :
    PointSection scan (points.map (fun p i => round (p i))) ([] :: "POINTS:".toList :: points.map (numbersText print)) := by
  refine ⟨[[]], "POINTS:".toList, points.map (numbersText print), rfl, fun l hl => ?_, startsWith_self (by decide), ?_⟩
  · rw [List.mem_singleton.mp hl]; exact not_startsWith_nil _
  · rw [List.forall₂_iff_get]
    refine ⟨by simp, fun j hj hj' => ?_⟩
    simp only [List.get_eq_getElem, List.getElem_map, List.getElem_zip]
    exact numbers_pointRow hp _ _

theorem props_section {scan : Scan K} {print : K → List Char} {round : K → K} (hp : PrintSpec scan print round) (props : List (Props K)) {n : Nat} (hn : 0 < n)
    (hn' : n ≤ props.length) :
    Properties scan 12 ((props.take n).map (fun p => List.ofFn (fun i => round (p i)))) ([] :: "HYPEREDGE_PROPERTIES: 12".toList :: props.map (numbersText print)) := by
  refine .inr ⟨fun hc => ?_, [[]], "HYPEREDGE_PROPERTIES: 12".toList, "12".toList, [], (props.take n).map (numbersText print), (props.drop n).map (numbersText print), ?_, ?_, ?_,
    ⟨"12".toList, [], rfl, ⟨by decide, by decide, by decide, by decide⟩, .inl rfl⟩, ?_, ?_⟩
  · have := congrArg List.length hc
    simp only [List.length_map, List.length_take, List.length_nil] at this
    omega
  · rw [List.singleton_append, List.cons_append, List.cons_append, ← List.map_append, List.take_append_drop]
  · intro l hl
    rw [List.mem_singleton.mp hl]; exact not_startsWith_nil _
  · have h1 := Says.more (w := "HYPEREDGE_PROPERTIES:".toList) (by decide) (by decide) (c := ' ') (by decide) (Says.one (w := "12".toList) (by decide) (by decide))
    exact h1
  · intro v hv
    obtain ⟨p, -, rfl⟩ := List.mem_map.mp hv
    simp
  · rw [List.forall₂_map_left_iff, List.forall₂_map_right_iff, List.forall₂_same]
    exact fun p _ => numbers_row hp p

/-- The text of the file describes the network. -/
theorem file_describes [Zero K] {scan : Scan K} {print : K → List Char} {round : K → K} (hp : PrintSpec scan print round) (vertices : List (Point K))
    (edges types : List (Nat × Nat)) (props : List (Props K)) (h1 : vertices.length < U32) (h2 : edges.length < U32)
    (h3 : ∀ e ∈ edges, e.1 < U32 ∧ e.2 < U32) (h4 : ∀ e ∈ types, e.1 < U32 ∧ e.2 < U32) (h5 : 0 < edges.length) (h6 : edges.length ≤ props.length) :
    Describes scan (domain round vertices edges types (props.take edges.length))
      (["# This file was auto-generated!".toList, [],
    remarkText "Space_Dim" "     " 3 "# Dimension of space indicating amount of coordinates of points.",
    remarkText "HyperEdge_Dim" " " 1 "# Dimension of hyperedge (must be uniform).",
    remarkText "N_Points" "      " vertices.length "# Number of vertices.",
    remarkText "N_HyperNodes" "  " vertices.length "# Number of hypernodes.",
    remarkText "N_HyperEdges" "  " edges.length "# Number of hyperedges."] ++
    ([] :: "POINTS:".toList :: vertices.map (numbersText print)) ++
    ([] :: "HYPERNODES_OF_HYPEREDGES:".toList :: edges.map pairText) ++
    ([] :: "TYPES_OF_HYPERFACES:".toList :: types.map typeText) ++
    ([] :: "POINTS_OF_HYPEREDGES:".toList :: edges.map pairText) ++
    ([] :: "HYPEREDGE_PROPERTIES: 12".toList :: props.map (numbersText print))) := by
  refine ⟨⟨["# This file was auto-generated!".toList, [], remarkText "Space_Dim" "     " 3 "# Dimension of space indicating amount of coordinates of points."],
    [remarkText "HyperEdge_Dim" " " 1 "# Dimension of hyperedge (must be uniform)."], [remarkText "N_Points" "      " vertices.length "# Number of vertices."],
    [remarkText "N_HyperNodes" "  " vertices.length "# Number of hypernodes."], [remarkText "N_HyperEdges" "  " edges.length "# Number of hyperedges."],
    _, _, _, _, _, rfl, ?_, ?_, ?_, ?_, ?_, wide_points_section hp vertices, ?_, ?_, ?_, props_section hp props h5 h6⟩⟩
  · refine remark_header _ (by decide) (by decide) (by decide) (by decide) ["# This file was auto-generated!".toList, []] (fun l hl => ?_)
    simp only [List.mem_cons, List.not_mem_nil, or_false] at hl
    rcases hl with rfl | rfl
    · exact not_startsWith_cons (c := '#') (l := " This file was auto-generated!".toList) (by decide) (by decide)
    · exact not_startsWith_nil _
  · exact remark_header _ (by decide) (by decide) (by decide) (by decide) [] (by simp)
  · exact remark_header _ (by decide) (by decide) (by decide) h1 [] (by simp)
  · exact remark_header _ (by decide) (by decide) (by decide) h1 [] (by simp)
  · exact remark_header _ (by decide) (by decide) (by decide) h2 [] (by simp)
  · have := number_section (kw := "HYPERNODES_OF_HYPEREDGES:") (by decide) edges (fun e => [e.1, e.2]) pairText (fun e he => pairText_row (h3 e he).1 (h3 e he).2)
    simpa [domain, Function.comp_def, List.ofFn_succ] using this
  · have := number_section (kw := "TYPES_OF_HYPERFACES:") (by decide) types (fun e => [e.1, e.2]) typeText (fun e he => typeText_row (h4 e he).1 (h4 e he).2)
    simpa [domain, Function.comp_def, List.ofFn_succ] using this
  · have := number_section (kw := "POINTS_OF_HYPEREDGES:") (by decide) edges (fun e => [e.1, e.2]) pairText (fun e he => pairText_row (h3 e he).1 (h3 e he).2)
    simpa [domain, Function.comp_def, List.ofFn_succ] using this

theorem newline_wide : ∀ ws : List (List Char), (∀ w ∈ ws, '\n' ∉ w) → '\n' ∉ wideText ws
  | [], _ => by simp [wideText]
  | [w], h => h w List.mem_cons_self
  | w :: w' :: ws, h => by
      rw [wideText]
      · intro hm
        rcases List.mem_append.mp hm with hm | hm
        · exact h w List.mem_cons_self hm
        · rcases List.mem_cons.mp hm with hm | hm
          · exact absurd hm (by decide)
          · rcases List.mem_cons.mp hm with hm | hm
            · exact absurd hm (by decide)
            · exact newline_wide (w' :: ws) (fun v hv => h v (List.mem_cons_of_mem _ hv)) hm
      · exact List.cons_ne_nil _ _

theorem newline_num (n : Nat) : '\n' ∉ showNat n := fun h => absurd (Nat.isDigit_of_mem_toDigits (b := 10) (by decide) (by decide) h) (by decide)

theorem newline_pair (e : Nat × Nat) : '\n' ∉ pairText e := newline_wide _ (fun w hw => by
  simp only [List.mem_cons, List.not_mem_nil, or_false] at hw
  rcases hw with rfl | rfl <;> exact newline_num _)

theorem newline_type (e : Nat × Nat) : '\n' ∉ typeText e := by
  unfold typeText
  simp only [rowText, List.mem_append, List.mem_cons, not_or]
  exact ⟨newline_num _, by decide, newline_num _⟩

theorem newline_numbers {scan : Scan K} {print : K → List Char} {round : K → K} (hp : PrintSpec scan print round) {n : Nat} (p : Fin n → K) : '\n' ∉ numbersText print p :=
  newline_wide _ (fun w hw h => by
    obtain ⟨x, -, rfl⟩ := List.mem_map.mp hw
    exact absurd (hp.noSpace x _ h) (by decide))

theorem newline_remark {kw pad remark : String} (n : Nat) (h1 : '\n' ∉ kw.toList) (h2 : '\n' ∉ pad.toList) (h3 : '\n' ∉ remark.toList) : '\n' ∉ remarkText kw pad n remark := by
  unfold remarkText headerText
  simp only [List.mem_append, List.mem_cons, List.not_mem_nil, or_false, not_or]
  exact ⟨⟨h1, h2, by decide, by decide, newline_num n, by decide⟩, by decide, by decide, h3⟩

theorem newline_section {α : Type} {key : String} (hk : '\n' ∉ key.toList) (l : List α) (text : α → List Char) (h : ∀ a ∈ l, '\n' ∉ text a) :
    ∀ x ∈ [] :: key.toList :: l.map text, '\n' ∉ x := fun x hx => by
  simp only [List.mem_cons, List.mem_map] at hx
  rcases hx with rfl | rfl | ⟨a, ha, rfl⟩
  · simp
  · exact hk
  · exact h a ha

/-- There are no line breaks within lines. -/
theorem fileLines_newline [Field K] [LinearOrder K] {scan : Scan K} {print : K → List Char} {round : K → K} (hp : PrintSpec scan print round) {net : Network K}
    {lines : List (List Char)} (h : fileLines print net = some lines) : ∀ l ∈ lines, '\n' ∉ l := by
  unfold fileLines at h
  obtain ⟨types, -, h⟩ := Option.bind_eq_some_iff.mp h
  rw [← Option.some.inj h]
  intro l hl
  rcases List.mem_append.mp hl with hl | hl
  · rcases List.mem_append.mp hl with hl | hl
    · rcases List.mem_append.mp hl with hl | hl
      · rcases List.mem_append.mp hl with hl | hl
        · rcases List.mem_append.mp hl with hl | hl
          · simp only [List.mem_cons, List.not_mem_nil, or_false] at hl
            rcases hl with rfl | rfl | rfl | rfl | rfl | rfl | rfl
            · decide
            · decide
            all_goals exact newline_remark _ (by decide) (by decide) (by decide)
          · exact newline_section (by decide) _ _ (fun p _ => newline_numbers hp p) l hl
        · exact newline_section (by decide) _ _ (fun p _ => newline_pair p) l hl
      · exact newline_section (by decide) _ _ (fun p _ => newline_type p) l hl
    · exact newline_section (by decide) _ _ (fun p _ => newline_pair p) l hl
  · exact newline_section (by decide) _ _ (fun p _ => newline_numbers hp p) l hl

end HyperHDG.MakeGeo

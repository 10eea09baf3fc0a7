import Verif.Proofs.WriteGeo

/-!
# Properties of reading domains (C29, C30, C31)

`sort` stands for `std::sort` and `scan` for the conversion of characters to floating point numbers.
-/

namespace HyperHDG

variable {d s : Nat} {K : Type}

/-! ## C29 -/

/-- **C29**.  `is_unique` is true if and only if no element occurs twice, for every type with a strict total order. -/
theorem C29_is_unique (sort : StdSort) (hs : SortSpec sort) {α : Type} (lt eq : α → α → Bool) (h : StrictTotal lt eq) (vec : List α) :
    is_unique sort lt eq vec = true ↔ ∀ (i j : Nat) (hi : i < vec.length) (hj : j < vec.length), i ≠ j → vec[i] ≠ vec[j] := by
  rw [is_unique_iff hs h]
  refine ⟨fun h i j hi hj hij he => hij ((h.getElem_inj_iff).mp he), fun h => List.nodup_iff_injective_getElem.mpr (fun i j hij => ?_)⟩
  by_contra hne
  exact h i j i.2 j.2 (fun h => hne (Fin.ext h)) hij

/-- The types for which it is used: indices, arrays of indices (compared lexicographically) and points. -/
theorem C29_orders [LinearOrder K] (n : Nat) :
    StrictTotal ltNat eqNat ∧ StrictTotal (ltArr (n := n)) eqArr ∧ StrictTotal (SmallMat.lt (r := s) (c := 1) (K := K)) SmallMat.eq :=
  ⟨ltNat_total, ltArr_total, ltPoint_total⟩

/-- The assumption about `std::sort` is met by insertion sort. -/
theorem C29_sort : SortSpec insertionSort := insertionSort_spec

theorem C29_example : is_unique insertionSort ltNat eqNat [3, 1, 2, 1] = false ∧ is_unique insertionSort ltNat eqNat [3, 1, 2, 0] = true := by
  constructor <;> decide +kernel

/-! ## C30 -/

section
variable [LinearOrder K] (sort : StdSort) (hs : SortSpec sort) (D : DomainInfo d s K)
include hs

/-- **C30**, builds with assertions.  `check_consistency` returns true if all indices are valid and nothing occurs twice, and otherwise aborts the program. -/
theorem C30_debug : (D.Valid → D.check_consistency .debug sort = .ok true) ∧ (¬ D.Valid → D.check_consistency .debug sort = .abort) := by
  obtain ⟨a1, a2⟩ := DomainInfo.checkEdges_debug hs D.n_hyNodes D.hyNodes_hyEdge true
  have u1 : is_unique sort SmallMat.lt SmallMat.eq D.points = true ↔ _ := is_unique_iff hs ltPoint_total D.points
  have u2 : is_unique sort ltArr eqArr D.hyNodes_hyEdge = true ↔ _ := is_unique_iff hs ltArr_total D.hyNodes_hyEdge
  have u3 : is_unique sort ltArr eqArr D.points_hyEdge = true ↔ _ := is_unique_iff hs ltArr_total D.points_hyEdge
  unfold DomainInfo.check_consistency
  by_cases h1 : ∀ a ∈ D.hyNodes_hyEdge, Function.Injective a ∧ ∀ i, a i < D.n_hyNodes
  · obtain ⟨c1, hc1⟩ := a1 h1
    obtain ⟨b1, b2⟩ := DomainInfo.checkEdges_debug hs D.n_points D.points_hyEdge c1
    rw [hc1, Res.ok_bind]
    by_cases h2 : ∀ a ∈ D.points_hyEdge, Function.Injective a ∧ ∀ i, a i < D.n_points
    · obtain ⟨c2, hc2⟩ := b1 h2
      rw [hc2, Res.ok_bind]
      simp only [u1, u2, u3]
      by_cases h3 : D.points.Nodup
      · rw [hyAssert_of h3, Res.ok_bind, u1.mpr h3]
        by_cases h4 : D.hyNodes_hyEdge.Nodup
        · rw [hyAssert_of h4, Res.ok_bind, u2.mpr h4]
          by_cases h5 : D.points_hyEdge.Nodup
          · rw [hyAssert_of h5, Res.ok_bind, u3.mpr h5]
            exact ⟨fun _ => rfl, fun h => absurd ⟨fun a ha => (h1 a ha).2, fun a ha => (h1 a ha).1, fun a ha => (h2 a ha).2, fun a ha => (h2 a ha).1, h3, h4, h5⟩ h⟩
          · rw [hyAssert_debug_not h5]
            exact ⟨fun h => absurd h.points_hyEdge h5, fun _ => rfl⟩
        · rw [hyAssert_debug_not h4]
          exact ⟨fun h => absurd h.hyNodes h4, fun _ => rfl⟩
      · rw [hyAssert_debug_not h3]
        exact ⟨fun h => absurd h.points h3, fun _ => rfl⟩
    · rw [b2 h2]
      exact ⟨fun h => absurd (fun a ha => ⟨h.point_inj a ha, h.point_lt a ha⟩) h2, fun _ => rfl⟩
  · rw [a2 h1]
    exact ⟨fun h => absurd (fun a ha => ⟨h.hyNode_inj a ha, h.hyNode_lt a ha⟩) h1, fun _ => rfl⟩

/-- **C30**, builds without assertions (what is missing of the property: the indices are not checked).  The result tells whether points, lists of hypernodes and lists of
points are free of duplicates. -/
theorem C30_release_partial : ∃ b, D.check_consistency .release sort = .ok b ∧
    (b = true ↔ D.points.Nodup ∧ D.hyNodes_hyEdge.Nodup ∧ D.points_hyEdge.Nodup) := by
  have u1 : is_unique sort SmallMat.lt SmallMat.eq D.points = true ↔ _ := is_unique_iff hs ltPoint_total D.points
  have u2 : is_unique sort ltArr eqArr D.hyNodes_hyEdge = true ↔ _ := is_unique_iff hs ltArr_total D.hyNodes_hyEdge
  have u3 : is_unique sort ltArr eqArr D.points_hyEdge = true ↔ _ := is_unique_iff hs ltArr_total D.points_hyEdge
  obtain ⟨c1, hc1⟩ := DomainInfo.checkEdges_release sort D.n_hyNodes D.hyNodes_hyEdge true
  obtain ⟨c2, hc2⟩ := DomainInfo.checkEdges_release sort D.n_points D.points_hyEdge c1
  unfold DomainInfo.check_consistency
  simp only [hc1, hc2, Res.ok_bind, hyAssert_release]
  cases h1 : is_unique sort SmallMat.lt SmallMat.eq D.points
  · exact ⟨false, rfl, by simp [← u1, h1]⟩
  · cases h2 : is_unique sort ltArr eqArr D.hyNodes_hyEdge
    · exact ⟨false, rfl, by simp [← u1, ← u2, h1, h2]⟩
    · cases h3 : is_unique sort ltArr eqArr D.points_hyEdge
      · exact ⟨false, rfl, by simp [← u1, ← u2, ← u3, h1, h2, h3]⟩
      · exact ⟨true, rfl, by simp [← u1, ← u2, ← u3, h1, h2, h3]⟩

end

/-- A domain of one hyperedge between two points of the line. -/
def lineDomain (n1 : Nat) : DomainInfo 0 1 ℤ := ⟨1, 2, 2, 0, [fun _ => 0, fun _ => 1], [![0, n1]], [![0, 0]], [![0, 1]], []⟩

/-- Without assertions an invalid hypernode is accepted. -/
theorem C30_release_witness : (lineDomain 7).check_consistency .release insertionSort = .ok true ∧ ¬ (lineDomain 7).Valid := by
  refine ⟨by decide +kernel, fun h => ?_⟩
  have := h.hyNode_lt ![0, 7] (by decide) 1
  exact absurd this (by decide)

theorem C30_example : (lineDomain 1).Valid ∧ (lineDomain 1).check_consistency .debug insertionSort = .ok true ∧
    (lineDomain 7).check_consistency .debug insertionSort = .abort := by
  have h : (lineDomain 1).check_consistency .debug insertionSort = .ok true := by decide +kernel
  refine ⟨?_, h, by decide +kernel⟩
  by_contra hv
  rw [(C30_debug insertionSort insertionSort_spec _).2 hv] at h
  exact absurd h (by decide)

/-! ## C31 -/

/-- **C31** (round trip).  If the lines of a file describe a domain, reading the file yields exactly this domain, with and without assertions. -/
theorem C31_round_trip [Zero K] (m : Mode) (scan : Scan K) (D : DomainInfo d s K) (hD : D.Sized) (lines : List (List Char)) (hl : ∀ l ∈ lines, '\n' ∉ l)
    (h : Describes scan D lines) : read_domain_geo m scan d s (lines.flatMap (fun l => l ++ ['\n'])) = .ok D :=
  read_of_lines m scan D hD _ (by rw [linesOf_unlines lines hl]; exact h)

/-- **C31** (missing parts).  With assertions, a file is only read if its lines contain lines which begin with the nine keywords, in the order of the format,
and the lists of the domain are exactly as long as announced (and not empty). -/
theorem C31_accepted [Zero K] (scan : Scan K) (content : List Char) (D : DomainInfo d s K) (h : read_domain_geo .debug scan d s content = .ok D) :
    (∃ found, found.Sublist (linesOf content) ∧ List.Forall₂ (fun k line => StartsWith k line)
      ["Space_Dim", "HyperEdge_Dim", "N_Points", "N_HyperNodes", "N_HyperEdges", "POINTS:", "HYPERNODES_OF_HYPEREDGES:", "TYPES_OF_HYPERFACES:",
        "POINTS_OF_HYPEREDGES:"] found) ∧ D.Sized := by
  obtain ⟨⟨rest, found, pre, h1, h2, h3⟩, hs⟩ := read_accepted scan content D h
  refine ⟨⟨found, ?_, h3⟩, hs⟩
  rw [h2]
  exact h1.trans (List.sublist_append_left _ _)

/-- **C31** (dimensions).  With assertions, a file which announces another dimension of the space than the program expects is rejected, whatever follows. -/
theorem C31_wrong_space_dim [Zero K] (scan : Scan K) (content : List Char) (n : Nat) (hn : n ≠ s) (h rest : List (List Char))
    (hl : linesOf content = h ++ rest) (hh : Header "Space_Dim" n h) : read_domain_geo .debug scan d s content = .abort := by
  obtain ⟨st, e⟩ := header_spec hh rest [] [] ⟨[], true⟩ (by decide)
  unfold read_domain_geo readDimension
  rw [hl]
  simp only [e]
  rw [hyAssert_of trivial, hyAssert_of (by decide)]
  simp only [Res.ok_bind, assertValue, initialised, hyAssert_debug_not hn]
  rfl

/-- **C31** (dimensions).  The same for the dimension of the hyperedges. -/
theorem C31_wrong_hyEdge_dim [Zero K] (scan : Scan K) (content : List Char) (n : Nat) (hn : n ≠ d + 1) (h1 h2 rest : List (List Char))
    (hl : linesOf content = h1 ++ (h2 ++ rest)) (hh1 : Header "Space_Dim" s h1) (hh2 : Header "HyperEdge_Dim" n h2) :
    read_domain_geo .debug scan d s content = .abort := by
  obtain ⟨st1, e1⟩ := readDimension_spec .debug hh1 (h2 ++ rest) [] [] ⟨[], true⟩ (by decide)
  obtain ⟨st2, e2⟩ := header_spec hh2 rest "Space_Dim".toList ['='] st1 (by decide)
  unfold read_domain_geo
  rw [hl, e1]
  simp only [Res.ok_bind]
  unfold readDimension
  simp only [e2]
  rw [hyAssert_of trivial, hyAssert_of (by decide)]
  simp only [Res.ok_bind, assertValue, initialised, hyAssert_debug_not hn]
  rfl

/-- **C31** (round trip for written files).  A domain without properties, written in the format of `make_epsilon_neighborhood_graph`, is read again, up to the
rounding of the coordinates by the output. -/
theorem C31_written [Zero K] (m : Mode) (scan : Scan K) (print : K → List Char) (round : K → K) (hp : PrintSpec scan print round) (D : DomainInfo d s K) (hD : D.Sized)
    (hnP : D.n_properties = 0) (hP : D.hyEdge_properties = []) (hs : s < 2 ^ 32) (hd : d + 1 < 2 ^ 32) (h1 : D.n_points < 2 ^ 32) (h2 : D.n_hyNodes < 2 ^ 32)
    (h3 : D.n_hyEdges < 2 ^ 32) (h4 : ∀ a ∈ D.hyNodes_hyEdge, ∀ i, a i < 2 ^ 32) (h5 : ∀ a ∈ D.hyFaces_hyEdge, ∀ i, a i < 2 ^ 32)
    (h6 : ∀ a ∈ D.points_hyEdge, ∀ i, a i < 2 ^ 32) :
    read_domain_geo m scan d s (unlines (writeGeo print D.points D.n_hyNodes D.hyNodes_hyEdge D.hyFaces_hyEdge D.points_hyEdge)) =
      .ok { D with points := D.points.map (fun p i => round (p i)) } := by
  obtain ⟨a1, a2, a3, a4, a5, a6, a7, a8, a9⟩ := D
  simp only at hnP hP
  subst hnP hP
  obtain ⟨b1, b2, b3, b4, -, b6, b7, b8⟩ := hD
  simp only at b1 b2 b3 b4 b6 b7 b8 h1 h2 h3 h4 h5 h6 ⊢
  subst b1 b2
  exact C31_round_trip m scan _ ⟨List.length_map _, rfl, b3, b4, .inl rfl, b6, b7, b8⟩ _ (writeGeo_lines hp _ _ _ _ _)
    (writeGeo_describes hp hs hd _ _ _ _ _ h1 h2 h3 h4 h5 h6)

/-- Output of integers. -/
def printInt (x : ℤ) : List Char := if x < 0 then '-' :: showNat x.natAbs else showNat x.natAbs

/-- Input of integers. -/
def scanInt : Scan ℤ
  | '-' :: l => if l.takeWhile Char.isDigit = [] then (none, l) else (some (-(digitsValue (l.takeWhile Char.isDigit) : ℤ)), l.dropWhile Char.isDigit)
  | l => if l.takeWhile Char.isDigit = [] then (none, l) else (some (digitsValue (l.takeWhile Char.isDigit) : ℤ), l.dropWhile Char.isDigit)

/-- The assumption about input and output of numbers is met for integers, without rounding. -/
theorem C31_print : PrintSpec scanInt printInt id := by
  have hdig : ∀ n : Nat, ∀ c ∈ showNat n, c.isDigit = true := fun n c hc => Nat.isDigit_of_mem_toDigits (by decide) (by decide) hc
  have hne : ∀ n : Nat, showNat n ≠ [] := fun n => Nat.toDigits_ne_nil
  have hval : ∀ n : Nat, digitsValue (showNat n) = n := fun n => by
    have := Nat.ofDigitChars_ten_toDigits (n := n)
    rw [Nat.ofDigitChars_eq_foldl] at this
    exact this
  refine ⟨fun x => ?_, fun x c hc => ?_, fun x rest hr => ?_⟩
  · unfold printInt
    split
    · exact List.cons_ne_nil _ _
    · exact hne _
  · unfold printInt at hc
    split at hc
    · rcases List.mem_cons.mp hc with rfl | hc
      · decide
      · exact digit_space (hdig _ c hc)
    · exact digit_space (hdig _ c hc)
  · obtain ⟨t1, t2⟩ := takeWhile_word (p := Char.isDigit) (w := showNat x.natAbs) (rest := rest) (hdig _) (fun c hc => digit_not_space (hr c hc))
    unfold printInt
    split
    · rw [List.cons_append, scanInt, t1, t2, if_neg (hne _), hval]
      have : -(x.natAbs : ℤ) = x := by omega
      rw [this]; rfl
    · obtain ⟨c, l, hc⟩ := List.exists_cons_of_ne_nil (hne x.natAbs)
      have hcd : c.isDigit = true := hdig x.natAbs c (by rw [hc]; exact List.mem_cons_self)
      rw [scanInt]
      · rw [t1, t2, if_neg (hne _), hval]
        have : (x.natAbs : ℤ) = x := by omega
        rw [this]; rfl
      · intro l' h'
        rw [hc, List.cons_append] at h'
        injection h' with h' _
        subst h'
        exact absurd hcd (by decide)

/-- A file in the style of `domains/cross.geo`: comments, semicolons, and points with fewer coordinates than the dimension of the space. -/
def exampleFile : String :=
"# File containing geometric and topological information.

Space_Dim     = 3;  # Dimension of space.
HyperEdge_Dim = 1;  # Dimension of hyperedge (must be uniform).

N_Points      = 3;
N_HyperNodes  = 3;
N_HyperEdges  = 2;  # Number of hyperedges.

# After POINTS: the coordinates of the points have to appear.
POINTS:
0 0
1 0 
-1 12
# 0 0 1

HYPERNODES_OF_HYPEREDGES:
0 1
1 2
TYPES_OF_HYPERFACES:
1 0
0 2
POINTS_OF_HYPEREDGES:
0 1
1 2
"

/-- The entries of a domain as lists. -/
def DomainInfo.entries (D : DomainInfo d s K) : List Nat × List (List K) × List (List Nat) × List (List Nat) × List (List Nat) × List (List K) :=
  ([D.n_hyEdges, D.n_hyNodes, D.n_points, D.n_properties], D.points.map List.ofFn, D.hyNodes_hyEdge.map List.ofFn, D.hyFaces_hyEdge.map List.ofFn,
    D.points_hyEdge.map List.ofFn, D.hyEdge_properties)

set_option synthInstance.maxSize 512 in
theorem C31_example : (read_domain_geo .debug scanInt 0 3 exampleFile.toList >>= fun D => Res.ok D.entries) =
    .ok ([2, 3, 3, 0], [[0, 0, 0], [1, 0, 0], [-1, 12, 0]], [[0, 1], [1, 2]], [[1, 0], [0, 2]], [[0, 1], [1, 2]], []) ∧
    read_domain_geo .debug scanInt 0 2 exampleFile.toList = .abort ∧ read_domain_geo .debug scanInt 1 3 exampleFile.toList = .abort := by
  refine ⟨?_, ?_, ?_⟩ <;> decide +kernel

set_option synthInstance.maxSize 512 in
/-- Without assertions an empty file is read as an empty domain, and missing coordinates are taken from the line before. -/
theorem C31_release_witness : (read_domain_geo .release scanInt 0 2 [] >>= fun D => Res.ok D.entries) = .ok ([0, 0, 0, 0], [], [], [], [], []) ∧
    read_domain_geo .debug scanInt 0 2 [] = .abort ∧
    (readPoints .debug scanInt 2 [(fun _ => 0 : SmallVec 2 ℤ), fun _ => 0] ⟨["POINTS:".toList, "1 5".toList, "2".toList], [], ⟨[], true⟩⟩ >>=
      fun r => Res.ok (r.2.map List.ofFn)) = .ok [[1, 5], [2, 5]] := by
  refine ⟨?_, ?_, ?_⟩ <;> decide +kernel

end HyperHDG

import Verif.Proofs.EpsilonGraph
import Verif.Props.ReadDomain
import Mathlib.Analysis.Real.Sqrt

/-!
# Properties of neighbourhood graphs (C32)

`sort` stands for `std::sort`, `scan` and `print` for the input and output of floating point numbers, and `sqrt` for the square root.
-/

namespace HyperHDG

variable {s : Nat} {K : Type} [Field K] [LinearOrder K] [IsStrictOrderedRing K]

/-- **C32** (the search).  For points in increasing order, the search ends with an empty queue, has visited exactly the points which can be reached from the first one
by steps shorter than epsilon, and has connected two of these points, exactly once, if and only if their distance is smaller than epsilon. -/
theorem C32_search (m : Mode) (sqrt : K → K) (hsq : SqrtSpec sqrt) (eps : K) (heps : 0 < eps) (points : List (SmallVec (s + 1) K)) (hp : Increasing points)
    (hne : points ≠ []) :
    ∃ g, searchGraph m sqrt eps points = .ok g ∧ g.search = [] ∧ g.visited.length = points.length ∧
      (∀ k, g.visited[k]? = some true ↔ Linked eps points 0 k) ∧
      ∀ i j, (Near eps points i j ∧ Linked eps points 0 i → multiplicity g.connections i j = 1) ∧
        (¬ (Near eps points i j ∧ Linked eps points 0 i) → multiplicity g.connections i j = 0) :=
  searchGraph_spec m sqrt eps points hsq heps hp hne

/-- **C32**.  Let the lines of a `.pts` file describe epsilon and a list of points (at least one).
* If a point occurs twice, a build with assertions aborts.
* Otherwise let `sorted` be the points in increasing order.  There are connections such that two points are connected, exactly once, if and only if their distance is below
  epsilon and they can be reached from the first point by such steps.  If all points can be reached, or in builds without assertions, a `.geo` file with the
  sorted points and these connections is written.  If not all points can be reached, builds with assertions abort. -/
theorem C32_graph (m : Mode) (sort : StdSort) (hs : SortSpec sort) (scan : Scan K) (print : K → List Char) (sqrt : K → K) (hsq : SqrtSpec sqrt) (eps : K) (heps : 0 < eps)
    (points : List (SmallVec (s + 1) K)) (hne : points ≠ []) (content : List Char) (h : PtsDescribes scan eps points (linesOf content)) :
    (¬ points.Nodup → make_epsilon_neighborhood_graph .debug sort scan print sqrt s content = .abort) ∧
    (points.Nodup → ∃ sorted connections, sorted.Perm points ∧ Increasing sorted ∧
      (∀ i j, (Near eps sorted i j ∧ Linked eps sorted 0 i → multiplicity connections i j = 1) ∧
        (¬ (Near eps sorted i j ∧ Linked eps sorted 0 i) → multiplicity connections i j = 0)) ∧
      (m = .release ∨ Connected eps points →
        make_epsilon_neighborhood_graph m sort scan print sqrt s content = .ok (unlines (writeGeo (d := 0) print sorted sorted.length
          (connections.map connectionArray) (connections.map connectionArray) (connections.map connectionArray)))) ∧
      (m = .debug ∧ ¬ Connected eps points →
        make_epsilon_neighborhood_graph m sort scan print sqrt s content = .abort)) := by
  have hread : ∀ m, readPts m scan (s + 1) content = .ok (eps, points) := fun m => readPts_spec m heps h
  obtain ⟨hperm, hsorted⟩ := hs _ SmallMat.lt SmallMat.eq (ltPoint_total (s := s + 1) (K := K)) points
  have hnd := noAdjacent_iff (ltPoint_total (s := s + 1) (K := K)) _ hsorted
  rw [hperm.nodup_iff] at hnd
  refine ⟨fun hdup => ?_, fun hnodup => ?_⟩
  · unfold make_epsilon_neighborhood_graph
    rw [hread, Res.ok_bind]
    simp only
    rw [hyAssert_debug_not (fun hc => hdup (hnd.mp hc))]
    rfl
  · have hinc := increasing_of_sorted hsorted (hperm.nodup_iff.mpr hnodup)
    have hne' : sort _ SmallMat.lt points ≠ [] := fun hc => hne (List.Perm.eq_nil (hc ▸ hperm.symm))
    obtain ⟨g, g1, -, g3, g4, g5⟩ := C32_search m sqrt hsq eps heps _ hinc hne'
    refine ⟨sort _ SmallMat.lt points, g.connections, hperm, hinc, g5, fun hc => ?_, fun hc => ?_⟩
    · unfold make_epsilon_neighborhood_graph
      rw [hread, Res.ok_bind]
      simp only
      rw [hyAssert_of (hnd.mpr hnodup), Res.ok_bind, g1, Res.ok_bind]
      rcases hc with rfl | hc
      · rfl
      · rw [hyAssert_of ((all_linked g3 g4).mpr ((linked_iff hperm (hperm.nodup_iff.mpr hnodup) hne').mpr hc))]
        rfl
    · obtain ⟨rfl, hc⟩ := hc
      unfold make_epsilon_neighborhood_graph
      rw [hread, Res.ok_bind]
      simp only
      rw [hyAssert_of (hnd.mpr hnodup), Res.ok_bind, g1, Res.ok_bind, hyAssert_debug_not (fun h => hc ((linked_iff hperm (hperm.nodup_iff.mpr hnodup) hne').mp ((all_linked g3 g4).mp h)))]
      rfl

/-- The domain of a neighbourhood graph: the hypernodes are the points, the hyperedges are the connections, and the types of the faces are the indices of the points. -/
def graphDomain {s : Nat} {K : Type} (points : List (SmallVec s K)) (connections : List (Nat × Nat)) : DomainInfo 0 s K :=
  ⟨connections.length, points.length, points.length, 0, points, connections.map connectionArray, connections.map connectionArray, connections.map connectionArray, []⟩

/-- **C32** (reading the graph).  Let a `.pts` file describe epsilon and at least two different points which are connected.  Then `read_domain` writes the file
`….pts.geo` and yields the domain whose points are the sorted points (rounded by the output) and which connects two points, exactly once, if and only if
their distance is below epsilon.  (With assertions, the points have to be different after rounding.) -/
theorem C32_read_domain (m : Mode) (sort : StdSort) (hs : SortSpec sort) (scan : Scan K) (print : K → List Char) (round : K → K) (hp : PrintSpec scan print round)
    (sqrt : K → K) (hsq : SqrtSpec sqrt) (hdim : s + 1 < 2 ^ 32) (eps : K) (heps : 0 < eps) (points : List (SmallVec (s + 1) K)) (hnodup : points.Nodup)
    (h2 : 2 ≤ points.length) (hsmall : points.length < 2 ^ 16) (hconn : Connected eps points)
    (hround : m = .release ∨ (points.map (fun p i => round (p i))).Nodup) (fs : FileSystem) (base content : List Char)
    (hfs : fs (base ++ ".pts".toList) = some content) (h : PtsDescribes scan eps points (linesOf content)) :
    ∃ sorted connections out, sorted.Perm points ∧ Increasing sorted ∧
      (∀ i j, (Near eps sorted i j → multiplicity connections i j = 1) ∧ (¬ Near eps sorted i j → multiplicity connections i j = 0)) ∧
      read_domain m sort scan print sqrt 0 s fs (base ++ ".pts".toList) =
        .ok (Function.update fs (base ++ ".pts.geo".toList) (some out), graphDomain (sorted.map (fun p i => round (p i))) connections) := by
  have hne : points ≠ [] := fun hc => by rw [hc] at h2; simp at h2
  obtain ⟨sorted, connections, hperm, hinc, hmult, hok, -⟩ := (C32_graph m sort hs scan print sqrt hsq eps heps points hne content h).2 hnodup
  have hnd := hperm.nodup_iff.mpr hnodup
  have hne' : sorted ≠ [] := fun hc => hne (List.Perm.eq_nil (hc ▸ hperm.symm))
  have hlen := hperm.length_eq
  have hlink : ∀ k, k < sorted.length → Linked eps sorted 0 k := (linked_iff hperm hnd hne').mpr hconn
  have hmult' : ∀ i j, (Near eps sorted i j → multiplicity connections i j = 1) ∧ (¬ Near eps sorted i j → multiplicity connections i j = 0) :=
    fun i j => ⟨fun hn => (hmult i j).1 ⟨hn, hlink i (near_lt eps sorted hn).1⟩, fun hn => (hmult i j).2 (fun hc => hn hc.1)⟩
  have hmem : ∀ c ∈ connections, Near eps sorted c.1 c.2 := fun c hc => by
    by_contra hn
    have := (hmult' c.1 c.2).2 hn
    unfold multiplicity at this
    have : connections.count c = 0 := by
      have e : (c.1, c.2) = c := rfl
      rw [e] at this
      omega
    exact List.count_eq_zero.mp this hc
  have hcn : connections.Nodup := List.nodup_iff_count_le_one.mpr fun c => by
    by_cases hn : Near eps sorted c.1 c.2
    · have := (hmult' c.1 c.2).1 hn
      unfold multiplicity at this
      have e : (c.1, c.2) = c := rfl
      rw [e] at this
      omega
    · have := (hmult' c.1 c.2).2 hn
      unfold multiplicity at this
      have e : (c.1, c.2) = c := rfl
      rw [e] at this
      omega
  have hcne : connections ≠ [] := fun hc => by
    have h01 := hlink 1 (by omega)
    rcases Relation.ReflTransGen.cases_head h01 with h01 | ⟨j, hj, -⟩
    · exact absurd h01 (by decide)
    · have := (hmult' 0 j).1 hj
      rw [hc] at this
      exact absurd this (by simp [multiplicity])
  have hclen : connections.length < 2 ^ 32 := by
    have hsub : connections ⊆ (List.range sorted.length) ×ˢ (List.range sorted.length) := fun c hc => by
      have := near_lt eps sorted (hmem c hc)
      exact List.mem_product.mpr ⟨List.mem_range.mpr this.1, List.mem_range.mpr this.2⟩
    have h3 := (List.subperm_of_subset hcn hsub).length_le
    rw [List.length_product, List.length_range, hlen] at h3
    calc connections.length ≤ points.length * points.length := h3
      _ < 2 ^ 16 * 2 ^ 16 := Nat.mul_lt_mul'' hsmall hsmall
      _ = 2 ^ 32 := by norm_num
  have hentry : ∀ {k : Nat} (a : Fin k → Nat), a ∈ connections.map connectionArray → ∀ i, a i < sorted.length := fun a ha i => by
    obtain ⟨c, hc, rfl⟩ := List.mem_map.mp ha
    have := near_lt eps sorted (hmem c hc)
    unfold connectionArray
    split
    · exact this.1
    · exact this.2
  have hsmall' : sorted.length < 2 ^ 32 := by rw [hlen]; exact lt_trans hsmall (by norm_num)
  have hwritten := C31_written m scan print round hp (graphDomain sorted connections)
    ⟨rfl, List.length_map _, List.length_map _, List.length_map _, .inl rfl, by simpa [graphDomain] using hne', by simpa [graphDomain] using hne',
      by simpa [graphDomain] using hcne⟩ rfl rfl hdim (by norm_num) hsmall' hsmall' hclen (fun a ha i => lt_trans (hentry a ha i) hsmall')
    (fun a ha i => lt_trans (hentry a ha i) hsmall') (fun a ha i => lt_trans (hentry a ha i) hsmall')
  have hdom : ({ graphDomain sorted connections with points := (graphDomain sorted connections).points.map (fun p i => round (p i)) } : DomainInfo 0 (s + 1) K) =
      graphDomain (sorted.map (fun p i => round (p i))) connections := by
    simp [graphDomain]
  rw [hdom] at hwritten
  have hvalid : m = .debug → (graphDomain (sorted.map (fun p i => round (p i))) connections).check_consistency .debug sort = .ok true := fun hm => by
    apply (C30_debug sort hs _).1
    have hr : (points.map (fun p i => round (p i))).Nodup := hround.resolve_left (by rw [hm]; decide)
    have hinj : ∀ {k : Nat} (hk : k = 2) (a : Fin k → Nat), a ∈ connections.map connectionArray → Function.Injective a := fun hk a ha => by
      subst hk
      obtain ⟨c, hc, rfl⟩ := List.mem_map.mp ha
      have hne := (hmem c hc).1
      intro i j hij
      unfold connectionArray at hij
      by_cases hi : i.val = 0
      · by_cases hj : j.val = 0
        · exact Fin.ext (by omega)
        · rw [if_pos hi, if_neg hj] at hij
          exact absurd hij hne
      · by_cases hj : j.val = 0
        · rw [if_neg hi, if_pos hj] at hij
          exact absurd hij.symm hne
        · exact Fin.ext (by omega)
    have hdis : ∀ {k : Nat} (hk : k = 2), (connections.map (connectionArray (k := k))).Nodup := fun hk => by
      subst hk
      refine hcn.map (fun a b hab => ?_)
      have h0 := congrFun hab 0
      have h1 := congrFun hab 1
      exact Prod.ext h0 h1
    refine ⟨fun a ha i => ?_, hinj rfl, fun a ha i => ?_, hinj rfl, ?_, hdis rfl, hdis rfl⟩
    · have := hentry a ha i
      simpa [graphDomain] using this
    · have := hentry a ha i
      simpa [graphDomain] using this
    · exact ((hperm.map _).nodup_iff).mpr hr
  refine ⟨sorted, connections, unlines (writeGeo (d := 0) print sorted sorted.length (connections.map connectionArray) (connections.map connectionArray)
    (connections.map connectionArray)), hperm, hinc, hmult', ?_⟩
  · have e1 : lastFour (base ++ ".pts".toList) = .ok ".pts".toList := by
      unfold lastFour
      have : ".pts".toList.length = 4 := rfl
      rw [List.length_append, this, if_neg (by omega), Nat.add_sub_cancel, List.drop_left]
    have e2 : lastFour (base ++ ".pts".toList ++ ".geo".toList) = .ok ".geo".toList := by
      unfold lastFour
      have : ".geo".toList.length = 4 := rfl
      rw [List.length_append, this, if_neg (by omega), Nat.add_sub_cancel, List.drop_left]
    have e3 : base ++ ".pts".toList ++ ".geo".toList = base ++ ".pts.geo".toList := by rw [List.append_assoc]; rfl
    have e4 : convertPts m sort scan print sqrt 0 s fs (base ++ ".pts".toList) ".pts".toList = .ok (Function.update fs (base ++ ".pts.geo".toList)
        (some (unlines (writeGeo (d := 0) print sorted sorted.length (connections.map connectionArray) (connections.map connectionArray)
          (connections.map connectionArray)))), base ++ ".pts.geo".toList) := by
      unfold convertPts
      rw [if_pos rfl, hyAssert_of rfl, Res.ok_bind, hfs, Option.getD_some, hok (.inr hconn), Res.ok_bind, e3]
    have e5 : assertGeo m (base ++ ".pts.geo".toList) = .ok () := by
      cases m with
      | release => rfl
      | debug =>
          unfold assertGeo
          simp only
          rw [← e3, e2, Res.ok_bind, hyAssert_of rfl]
    have e6 : assertConsistent m sort (graphDomain (sorted.map (fun p i => round (p i))) connections) = .ok () := by
      cases m with
      | release => rfl
      | debug =>
          unfold assertConsistent
          simp only
          rw [hvalid rfl, Res.ok_bind, hyAssert_of rfl]
    unfold read_domain
    rw [hfs, hyAssert_of (show (some content).isSome = true from rfl), Res.ok_bind, e1, Res.ok_bind, e4, Res.ok_bind]
    simp only
    rw [e5, Res.ok_bind, Function.update_self, Option.getD_some]
    refine (congrArg (· >>= _) hwritten).trans ?_
    rw [Res.ok_bind, e6, Res.ok_bind]

/-- The assumption about the square root is met by the square root of real numbers. -/
theorem C32_sqrt : SqrtSpec Real.sqrt := fun x hx => ⟨Real.sqrt_nonneg x, Real.mul_self_sqrt hx⟩

/-- Input of integers as rational numbers. -/
def scanRat : Scan ℚ := fun l => ((scanInt l).1.map (fun x => (x : ℚ)), (scanInt l).2)

/-- Output of rational numbers, rounded down. -/
def printRat (x : ℚ) : List Char := printInt x.floor

/-- A square root for the squares among the integers. -/
def sqrtRat (x : ℚ) : ℚ := (((List.range 100).find? (fun n => decide (x ≤ (n * n : ℚ)))).getD 0 : ℚ)

def examplePts : String :=
"Space_Dim     = 1;
Epsilon       = 4;  # Distances of neighbors.

POINTS:
7
0
3
5
"

def exampleOut : String :=
"Space_Dim     = 1;
HyperEdge_Dim = 1;

N_Points      = 4;
N_HyperNodes  = 4;
N_HyperEdges  = 3;

POINTS:
 0 
 3 
 5 
 7 

HYPERNODES_OF_HYPEREDGES:
0 1
1 2
2 3

TYPES_OF_HYPERFACES:
0 1
1 2
2 3

POINTS_OF_HYPEREDGES:
0 1
1 2
2 3
"

/-- The points 0, 3, 5, 7 and epsilon 4: 0-3, 3-5, 5-7 are connected (3-7 has distance 4). -/
theorem C32_example : (make_epsilon_neighborhood_graph .debug insertionSort scanRat printRat sqrtRat 0 examplePts.toList >>= fun out => Res.ok (out == exampleOut.toList)) =
    .ok true := by
  decide +kernel

/-- A file without points has undefined behaviour, a blank line at the end is a duplicate of the last point, a single point results in a `.geo` file without hyperedges which is
rejected by `read_domain`, and names shorter than an ending throw an exception. -/
theorem C32_witness :
    make_epsilon_neighborhood_graph .debug insertionSort scanRat printRat sqrtRat 0 "Space_Dim = 1\nEpsilon = 4\nPOINTS:\n".toList = .ub ∧
    make_epsilon_neighborhood_graph .debug insertionSort scanRat printRat sqrtRat 0 "Space_Dim = 1\nEpsilon = 4\nPOINTS:\n0\n3\n\n".toList = .abort ∧
    (∃ out, make_epsilon_neighborhood_graph .debug insertionSort scanRat printRat sqrtRat 0 "Space_Dim = 1\nEpsilon = 4\nPOINTS:\n0\n".toList = .ok out) ∧
    (read_domain .debug insertionSort scanRat printRat sqrtRat 0 0 (fun _ => some "Space_Dim = 1\nEpsilon = 4\nPOINTS:\n0\n".toList) "a.pts".toList >>=
      fun r => Res.ok r.2.n_hyEdges) = .abort ∧
    read_domain .release insertionSort scanRat printRat sqrtRat 0 0 (fun _ => some []) "geo".toList = .throw .outOfRange := by
  refine ⟨by decide +kernel, by decide +kernel, ?_, by decide +kernel, rfl⟩
  have h : (make_epsilon_neighborhood_graph .debug insertionSort scanRat printRat sqrtRat 0 "Space_Dim = 1\nEpsilon = 4\nPOINTS:\n0\n".toList >>= fun _ => Res.ok true) =
    .ok true := by decide +kernel
  obtain ⟨out, h, -⟩ := Res.bind_eq_ok.mp h
  exact ⟨out, h⟩

/-- Input of integers as real numbers. -/
noncomputable def scanReal : Scan ℝ := fun l => ((scanInt l).1.map (fun x => (x : ℝ)), (scanInt l).2)

/-- Output of real numbers, rounded down. -/
noncomputable def printReal (x : ℝ) : List Char := printInt ⌊x⌋

theorem C32_print : PrintSpec scanReal printReal (fun x => (⌊x⌋ : ℝ)) where
  nonempty := fun x => C31_print.nonempty _
  noSpace := fun x => C31_print.noSpace _
  value := fun x rest hr => by
    have := C31_print.value ⌊x⌋ rest hr
    unfold scanReal printReal
    rw [this]
    rfl

theorem isReal_int (w : List Char) (x : ℤ) (h : printInt x = w) : IsReal scanReal w (x : ℝ) := fun rest hr => by
  have := C32_print.value (x : ℝ) rest hr
  simp only [Int.floor_intCast] at this
  rw [← this, ← h]
  unfold printReal
  rw [Int.floor_intCast]

/-- The hypotheses of the theorems are met: the points 3 and 0 with epsilon 4. -/
theorem C32_hypotheses : PtsDescribes (s := 1) scanReal 4 [(fun _ => 3), fun _ => 0] (linesOf "Space_Dim = 1\nEpsilon = 4\nPOINTS:\n3\n0\n".toList) ∧
    Connected (s := 1) (4 : ℝ) [(fun _ => 3), fun _ => 0] ∧ ([(fun _ => 3), fun _ => 0] : List (SmallVec 1 ℝ)).Nodup ∧
    (([(fun _ => 3), fun _ => 0] : List (SmallVec 1 ℝ)).map (fun p i => (⌊p i⌋ : ℝ))).Nodup := by
  have says1 : ∀ w : List Char, w ≠ [] → (∀ c ∈ w, isSpace c = false) → Says w [w] := fun w h1 h2 => by
    have := Says.word [] w [] [] (by simp) h1 h2 (by simp) (.blank [] (by simp))
    simpa using this
  have says3 : ∀ a b c : List Char, a ≠ [] → (∀ x ∈ a, isSpace x = false) → b ≠ [] → (∀ x ∈ b, isSpace x = false) → c ≠ [] → (∀ x ∈ c, isSpace x = false) →
      Says (a ++ ' ' :: b ++ ' ' :: c) [a, b, c] := fun a b c ha ha' hb hb' hc hc' => by
    have h1 := Says.word [' '] c [] [] (by decide) hc hc' (by simp) (.blank [] (by simp))
    have h2 := Says.word [' '] b ([' '] ++ c ++ []) [c] (by decide) hb hb' (fun x hx => by cases hx; rfl) h1
    have h3 := Says.word [] a ([' '] ++ b ++ ([' '] ++ c ++ [])) [b, c] (by decide) ha ha' (fun x hx => by cases hx; rfl) h2
    simpa using h3
  refine ⟨⟨["Space_Dim = 1".toList], ["Epsilon = 4".toList], ["POINTS:".toList, "3".toList, "0".toList], by decide +kernel, ?_, ?_, ?_⟩, ?_, ?_, ?_⟩
  · exact ⟨[], _, rfl, by simp, "1".toList, [], says3 "Space_Dim".toList ['='] "1".toList (by decide) (by decide) (by decide) (by decide) (by decide) (by decide),
      "1".toList, [], rfl, ⟨by decide, by decide, by decide, by decide⟩, .inl rfl⟩
  · refine ⟨[], _, "4".toList, [], rfl, by simp, says3 "Epsilon".toList ['='] "4".toList (by decide) (by decide) (by decide) (by decide) (by decide) (by decide),
      fun rest hr => ?_⟩
    have := isReal_int "4".toList 4 (by decide) rest hr
    rw [this]
    norm_num
  · refine ⟨[], "POINTS:".toList, ["3".toList, "0".toList], rfl, by simp, ⟨[], says1 _ (by decide) (by decide)⟩, .cons ?_ (.cons ?_ .nil)⟩
    · refine ⟨["3".toList], [], says1 _ (by decide) (by decide), by decide, fun h => rfl, fun i h => ?_, fun i h => ?_⟩
      · have := isReal_int "3".toList 3 (by decide)
        have hi : i.val = 0 := by simpa using h
        simpa [hi] using this
      · have := i.2
        simp at h
    · refine ⟨["0".toList], [], says1 _ (by decide) (by decide), by decide, fun h => rfl, fun i h => ?_, fun i h => ?_⟩
      · have := isReal_int "0".toList 0 (by decide)
        have hi : i.val = 0 := by simpa using h
        simpa [hi] using this
      · have := i.2
        simp at h
  · intro p hp q hq
    refine .single ⟨hq, ?_⟩
    have hval : ∀ p ∈ ([(fun _ => 3), fun _ => 0] : List (SmallVec 1 ℝ)), p = (fun _ => 3) ∨ p = fun _ => 0 := fun p hp => by simpa using hp
    rcases hval p hp with rfl | rfl <;> rcases hval q hq with rfl | rfl <;> norm_num
  · rw [List.nodup_cons]
    refine ⟨fun h => ?_, List.nodup_singleton _⟩
    have := congrFun (List.mem_singleton.mp h) 0
    norm_num at this
  · simp only [List.map_cons, List.map_nil]
    rw [List.nodup_cons]
    refine ⟨fun h => ?_, List.nodup_singleton _⟩
    have := congrFun (List.mem_singleton.mp h) 0
    norm_num at this

end HyperHDG

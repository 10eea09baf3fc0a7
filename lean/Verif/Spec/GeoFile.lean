import Verif.Model.ReadDomain

/-!
# Specification: `.geo` files

When does a text describe a domain.  Written in terms of words (sequences of characters between white space) and lines.
-/

namespace HyperHDG

variable {d s : Nat} {K : Type}

/-- `lt` is a strict total order and `eq` is equality. -/
structure StrictTotal {α : Type} (lt eq : α → α → Bool) : Prop where
  irrefl : ∀ a, lt a a = false
  trans : ∀ a b c, lt a b = true → lt b c = true → lt a c = true
  total : ∀ a b, lt a b = false → lt b a = false → a = b
  eq_iff : ∀ a b, eq a b = true ↔ a = b

/-- What is assumed about `std::sort`: for a strict total order the result is sorted and contains the same elements. -/
def SortSpec (sort : StdSort) : Prop :=
  ∀ (α : Type) (lt eq : α → α → Bool), StrictTotal lt eq → ∀ l : List α, (sort α lt l).Perm l ∧ (sort α lt l).Pairwise (fun a b => lt b a = false)

/-- A line consists of the given words, separated by white space. -/
inductive Says : List Char → List (List Char) → Prop
  | blank (l : List Char) : (∀ c ∈ l, isSpace c = true) → Says l []
  | word (sp w rest : List Char) (ws : List (List Char)) : (∀ c ∈ sp, isSpace c = true) → w ≠ [] → (∀ c ∈ w, isSpace c = false) →
      (∀ c ∈ rest.head?, isSpace c = true) → Says rest ws → Says (sp ++ w ++ rest) (w :: ws)

/-- The word is a decimal representation of the number. -/
structure IsNumber (w : List Char) (n : Nat) : Prop where
  nonempty : w ≠ []
  digits : ∀ c ∈ w, c.isDigit = true
  value : digitsValue w = n
  small : n < U32

/-- The word is read as the number `x`, provided it is followed by white space or the end of the line. -/
def IsReal (scan : Scan K) (w : List Char) (x : K) : Prop :=
  ∀ rest : List Char, (∀ c ∈ rest.head?, isSpace c = true) → scan (w ++ rest) = (some x, rest)

/-- What is assumed about the output of floating point numbers: a sequence of characters without white space, which is read as the number `round x`. -/
structure PrintSpec (scan : Scan K) (print : K → List Char) (round : K → K) : Prop where
  nonempty : ∀ x, print x ≠ []
  noSpace : ∀ x, ∀ c ∈ print x, isSpace c = false
  value : ∀ x, IsReal scan (print x) (round x)

/-- The line begins with the word. -/
def StartsWith (kw : String) (line : List Char) : Prop := ∃ ws, Says line (kw.toList :: ws)

/-- The word is a number, possibly followed by a semicolon and further characters. -/
def IsCount (w : List Char) (n : Nat) : Prop := ∃ ds tail, w = ds ++ tail ∧ IsNumber ds n ∧ (tail = [] ∨ ∃ t, tail = ';' :: t)

/-- A line `keyword = n` or `keyword = n;` (what follows is ignored). -/
def HeaderLine (kw : String) (n : Nat) (line : List Char) : Prop := ∃ w extra, Says line (kw.toList :: ['='] :: w :: extra) ∧ IsCount w n

/-- A line with the given words, each in the relation to the value expected at its position (what follows is ignored). -/
def Row {α : Type} (rel : List Char → α → Prop) (values : List α) (line : List Char) : Prop :=
  ∃ ws extra, Says line (ws ++ extra) ∧ List.Forall₂ rel ws values

/-- A section: lines without the keyword, a line which starts with the keyword, and one row for each list of values. -/
def Section {α : Type} (kw : String) (rel : List Char → α → Prop) (values : List (List α)) (lines : List (List Char)) : Prop :=
  ∃ comments key data, lines = comments ++ key :: data ∧ (∀ l ∈ comments, ¬ StartsWith kw l) ∧ StartsWith kw key ∧
    List.Forall₂ (fun l v => Row rel v l) data values

/-- A line with the coordinates of a point.  Coordinates which are missing at the end of the line are those of the point `prev`. -/
def PointRow (scan : Scan K) (prev p : SmallVec s K) (line : List Char) : Prop :=
  ∃ ws extra, Says line (ws ++ extra) ∧ ws.length ≤ s * 1 ∧ (ws.length < s * 1 → extra = []) ∧
    (∀ (i : Fin (s * 1)) (h : i.val < ws.length), IsReal scan ws[i] (p i)) ∧ ∀ i : Fin (s * 1), ws.length ≤ i.val → p i = prev i

/-- The section with the points.  Missing coordinates are those of the point before; for the first point they are zero. -/
def PointSection [Zero K] (scan : Scan K) (points : List (SmallVec s K)) (lines : List (List Char)) : Prop :=
  ∃ comments key data, lines = comments ++ key :: data ∧ (∀ l ∈ comments, ¬ StartsWith "POINTS:" l) ∧ StartsWith "POINTS:" key ∧
    List.Forall₂ (fun l p => PointRow scan p.1 p.2 l) data (List.zip ((fun _ => 0) :: points) points)

/-- A line of the header, after lines without the keyword. -/
def Header (kw : String) (n : Nat) (lines : List (List Char)) : Prop :=
  ∃ comments key, lines = comments ++ [key] ∧ (∀ l ∈ comments, ¬ StartsWith kw l) ∧ HeaderLine kw n key

/-- The last, optional section: either it is missing, or the line with the keyword contains the number of properties. -/
def Properties (scan : Scan K) (n : Nat) (values : List (List K)) (lines : List (List Char)) : Prop :=
  (n = 0 ∧ values = [] ∧ ∀ l ∈ lines, ¬ StartsWith "HYPEREDGE_PROPERTIES:" l) ∨
  values ≠ [] ∧ ∃ comments key w extra data trailer, lines = comments ++ key :: data ++ trailer ∧ (∀ l ∈ comments, ¬ StartsWith "HYPEREDGE_PROPERTIES:" l) ∧
    Says key ("HYPEREDGE_PROPERTIES:".toList :: w :: extra) ∧ IsCount w n ∧ (∀ v ∈ values, v.length = n) ∧
    List.Forall₂ (fun l v => Row (IsReal scan) v l) data values

/-- The text, given by its lines, describes the domain (in the format of the files in `domains/*.geo`). -/
structure Describes [Zero K] (scan : Scan K) (D : DomainInfo d s K) (lines : List (List Char)) : Prop where
  sections : ∃ h1 h2 h3 h4 h5 s1 s2 s3 s4 p, lines = h1 ++ h2 ++ h3 ++ h4 ++ h5 ++ s1 ++ s2 ++ s3 ++ s4 ++ p ∧
    Header "Space_Dim" s h1 ∧ Header "HyperEdge_Dim" (d + 1) h2 ∧ Header "N_Points" D.n_points h3 ∧ Header "N_HyperNodes" D.n_hyNodes h4 ∧
    Header "N_HyperEdges" D.n_hyEdges h5 ∧
    PointSection scan D.points s1 ∧
    Section "HYPERNODES_OF_HYPEREDGES:" IsNumber (D.hyNodes_hyEdge.map List.ofFn) s2 ∧
    Section "TYPES_OF_HYPERFACES:" IsNumber (D.hyFaces_hyEdge.map List.ofFn) s3 ∧
    Section "POINTS_OF_HYPEREDGES:" IsNumber (D.points_hyEdge.map List.ofFn) s4 ∧
    Properties scan D.n_properties D.hyEdge_properties p

/-- The numbers of the domain fit to its lists. -/
structure DomainInfo.Sized (D : DomainInfo d s K) : Prop where
  points : D.points.length = D.n_points
  hyNodes : D.hyNodes_hyEdge.length = D.n_hyEdges
  hyFaces : D.hyFaces_hyEdge.length = D.n_hyEdges
  points_hyEdge : D.points_hyEdge.length = D.n_hyEdges
  properties : D.hyEdge_properties = [] ∨ D.hyEdge_properties.length = D.n_hyEdges
  n_points : D.n_points ≠ 0
  n_hyNodes : D.n_hyNodes ≠ 0
  n_hyEdges : D.n_hyEdges ≠ 0

/-- All indices are valid and nothing occurs twice. -/
structure DomainInfo.Valid (D : DomainInfo d s K) : Prop where
  hyNode_lt : ∀ a ∈ D.hyNodes_hyEdge, ∀ i, a i < D.n_hyNodes
  hyNode_inj : ∀ a ∈ D.hyNodes_hyEdge, Function.Injective a
  point_lt : ∀ a ∈ D.points_hyEdge, ∀ i, a i < D.n_points
  point_inj : ∀ a ∈ D.points_hyEdge, Function.Injective a
  points : D.points.Nodup
  hyNodes : D.hyNodes_hyEdge.Nodup
  points_hyEdge : D.points_hyEdge.Nodup

end HyperHDG

import Mathlib.Algebra.BigOperators.Fin
import Mathlib.Algebra.Order.Field.Basic
import Mathlib.Logic.Relation
import Verif.Spec.GeoFile

/-!
# Specification: neighbourhood graphs and `.pts` files
-/

namespace HyperHDG

variable {s : Nat} {K : Type}

/-- What is assumed about the square root of the standard library. -/
def SqrtSpec [Field K] [LinearOrder K] (sqrt : K → K) : Prop := ∀ x, 0 ≤ x → 0 ≤ sqrt x ∧ sqrt x * sqrt x = x

/-- Two different points of the list have a (Euclidean) distance below `eps`. -/
def Near [Field K] [LinearOrder K] (eps : K) (points : List (SmallVec s K)) (i j : Nat) : Prop :=
  i ≠ j ∧ ∃ p q, points[i]? = some p ∧ points[j]? = some q ∧ ∑ k, (p k - q k) ^ 2 < eps ^ 2

/-- There is a path between the two points, each step of which is shorter than `eps`. -/
def Linked [Field K] [LinearOrder K] (eps : K) (points : List (SmallVec s K)) (i j : Nat) : Prop := Relation.ReflTransGen (Near eps points) i j

/-- Between any two points there is a path of points, each step of which is shorter than `eps`. -/
def Connected [Field K] [LinearOrder K] (eps : K) (points : List (SmallVec s K)) : Prop :=
  ∀ p ∈ points, ∀ q ∈ points, Relation.ReflTransGen (fun p q => q ∈ points ∧ ∑ k, (p k - q k) ^ 2 < eps ^ 2) p q

/-- How often the two points are connected (in either direction). -/
def multiplicity (connections : List (Nat × Nat)) (i j : Nat) : Nat := connections.count (i, j) + connections.count (j, i)

/-- The points are in strictly increasing lexicographic order. -/
def Increasing [LT K] (points : List (SmallVec s K)) : Prop :=
  points.Pairwise (fun p q => ∃ i, p i < q i ∧ ∀ k, k < i → p k = q k)

/-- The text, given by its lines, of a `.pts` file: the dimension of the space, epsilon (possibly followed by a semicolon or other characters which do not belong to
a number), and the points.  All lines after the keyword contain a point. -/
def PtsDescribes [Zero K] (scan : Scan K) (epsilon : K) (points : List (SmallVec s K)) (lines : List (List Char)) : Prop :=
  ∃ h1 h2 s1, lines = h1 ++ h2 ++ s1 ∧ Header "Space_Dim" s h1 ∧
    (∃ comments key w extra, h2 = comments ++ [key] ∧ (∀ l ∈ comments, ¬ StartsWith "Epsilon" l) ∧ Says key ("Epsilon".toList :: ['='] :: w :: extra) ∧
      ∀ rest : List Char, (∀ c ∈ rest.head?, isSpace c = true) → (scan (w ++ rest)).1 = some epsilon) ∧
    PointSection scan points s1

end HyperHDG

import Verif.Model.EpsilonGraph
import Mathlib.Algebra.Order.Field.Basic
import Mathlib.Data.List.Dedup
import Mathlib.Data.List.Sort

/-!
# Model of `domains/morgan/make_geo.py`

The program joins the fibres of a network of fibres at given connections and writes a `.geo` file.

Simplifications: arithmetic is exact; distances are compared by their squares (the norm is not negative, hence the order is the same); the five `.csv` files are
given by their tables (without the column of the ids, which the program removes), whose indices are natural numbers and whose rows of properties have twelve
entries; `none` is any Python exception (`IndexError`, `ValueError`).  The plot and the messages with the time are not modelled, nor is the second file with
the coordinates of the vertices (lines 151-153), which is not used elsewhere.
-/

namespace HyperHDG.MakeGeo

variable {K : Type}

/-- A row of `nodes`: `make_geo.py` 13-14. -/
abbrev Point (K : Type) := SmallVec 3 K

/-- A row of `fibersProps` or `connectionsProp`: `make_geo.py` 37-47. -/
abbrev Props (K : Type) := Fin 12 → K

/-- A row of `connections`: `make_geo.py` 25-34. -/
structure Connection (K : Type) where
  fiber1 : Nat
  fiber2 : Nat
  a1 : K
  a2 : K

/-- The tables: `make_geo.py` 13-48. -/
structure Input (K : Type) where
  nodes : List (Point K)
  fibers : List (Nat × Nat)
  connections : List (Connection K)
  fibersProps : List (Props K)
  connectionsProp : List (Props K)

section
variable [Field K] [LinearOrder K]

/-- The square of `np.linalg.norm(p - q)`. -/
def sqDist (p q : Point K) : K := ((List.ofFn p).zipWith (fun x y => (x - y) * (x - y)) (List.ofFn q)).sum

/-- `(1.-a) * p + a * q`: `make_geo.py` 56-57 and 96-97. -/
def along (a : K) (p q : Point K) : Point K := fun i => (1 - a) * p i + a * q i

/-- `np.argmin`, the scan after the first entry. -/
def argminFrom (best : Nat) (value : K) (k : Nat) : List K → Nat
  | [] => best
  | x :: xs => if x < value then argminFrom k x (k + 1) xs else argminFrom best value (k + 1) xs

/-- `np.argmin`: the first index of the smallest entry; `ValueError` for empty arrays. -/
def argmin : List K → Option Nat
  | [] => none
  | x :: xs => some (argminFrom 0 x 1 xs)

/-- `np.argmin(np.linalg.norm(point - vertices, axis=1))`: `make_geo.py` 62, 66, 99, 101. -/
def nearest (vertices : List (Point K)) (p : Point K) : Option Nat := argmin (vertices.map (sqDist p))

/-- `np.linalg.norm(point - vertices[index]) > 1e-10`: `make_geo.py` 63, 67, 100, 102. -/
def farFrom (vertices : List (Point K)) (index : Nat) (p : Point K) : Option Bool := do
  let v ← vertices[index]?
  some (decide ((1 / 10 ^ 10) ^ 2 < sqDist p v))

/-- The vertex of a point, which is added if there is none: `make_geo.py` 62-65 and 66-69. -/
def attach (vertices : List (Point K)) (p : Point K) : Option (Nat × List (Point K)) := do
  let index ← nearest vertices p
  let far ← farFrom vertices index p
  if far then some (vertices.length, vertices ++ [p]) else some (index, vertices)

/-- `nodes[fibers[index,0]]` and `nodes[fibers[index,1]]`: `make_geo.py` 56-57 and 86-87. -/
def fiberEnds (inp : Input K) (index : Nat) : Option (Point K × Point K) := do
  let f ← inp.fibers[index]?
  let p ← inp.nodes[f.1]?
  let q ← inp.nodes[f.2]?
  some (p, q)

/-- The variables of the first loop: `make_geo.py` 54. -/
structure Joints (K : Type) where
  vertices : List (Point K)
  edges : List (Nat × Nat)
  act_fibers : List (Nat × K)

/-- `if index_a != index_b: edges.append(...)`: `make_geo.py` 71-72 and 104-105. -/
def edgeOf (a b : Nat) : List (Nat × Nat) := if a ≠ b then [(a, b)] else []

/-- The body of the first loop: `make_geo.py` 56-75. -/
def joinStep (inp : Input K) (con : Connection K) (s : Joints K) : Option (Joints K) := do
  let e1 ← fiberEnds inp con.fiber1
  let e2 ← fiberEnds inp con.fiber2
  let point_a := along con.a1 e1.1 e1.2
  let point_b := along con.a2 e2.1 e2.2
  let vertices := if s.vertices.length = 0 then [point_a, point_b] else s.vertices
  let ra ← attach vertices point_a
  let rb ← attach ra.2 point_b
  some ⟨rb.2, s.edges ++ edgeOf ra.1 rb.1, s.act_fibers ++ [(con.fiber1, con.a1), (con.fiber2, con.a2)]⟩

/-- The first loop: `make_geo.py` 55-75. -/
def joinLoop (inp : Input K) : List (Connection K) → Joints K → Option (Joints K)
  | [], s => some s
  | con :: cons, s => do
      let s ← joinStep inp con s
      joinLoop inp cons s

/-- The variables of the second loop: `make_geo.py` 80; `errors` counts the lines `Error` which are printed. -/
structure Network (K : Type) where
  vertices : List (Point K)
  edges : List (Nat × Nat)
  edges_prop : List (Props K)
  errors : Nat

/-- `if not any((point == x).all() for x in vertices): vertices = np.vstack((vertices, point))`: `make_geo.py` 88-89. -/
def addEnd (vertices : List (Point K)) (p : Point K) : List (Point K) := if p ∈ vertices then vertices else vertices ++ [p]

/-- The body of the loop over the pieces of a fibre: `make_geo.py` 96-106. -/
def pieceStep (inp : Input K) (index : Nat) (point_a point_b : Point K) (h0 h1 : K) (s : Network K) : Option (Network K) := do
  let point_ab := along h0 point_a point_b
  let point_ba := along h1 point_a point_b
  let index_a ← nearest s.vertices point_ab
  let far_a ← farFrom s.vertices index_a point_ab
  let index_b ← nearest s.vertices point_ba
  let far_b ← farFrom s.vertices index_b point_ba
  let errors := s.errors + (if far_a then 1 else 0) + (if far_b then 1 else 0)
  if index_a ≠ index_b then
    let prop ← inp.fibersProps[index]?
    some ⟨s.vertices, s.edges ++ [(index_a, index_b)], s.edges_prop ++ [prop], errors⟩
  else some ⟨s.vertices, s.edges, s.edges_prop, errors⟩

/-- The loop over the pieces of a fibre: `make_geo.py` 95-106. -/
def pieceLoop (inp : Input K) (index : Nat) (point_a point_b : Point K) : List K → Network K → Option (Network K)
  | h0 :: h1 :: helper, s => do
      let s ← pieceStep inp index point_a point_b h0 h1 s
      pieceLoop inp index point_a point_b (h1 :: helper) s
  | _, s => some s

/-- `[ x[1] for x in act_fibers if int(x[0]) == index ]`: `make_geo.py` 83. -/
def positions (act_fibers : List (Nat × K)) (index : Nat) : List K := (act_fibers.filter (fun x => decide (x.1 = index))).map Prod.snd

/-- The body of the second loop: `make_geo.py` 83-106. -/
def fiberStep (inp : Input K) (act_fibers : List (Nat × K)) (index : Nat) (s : Network K) : Option (Network K) :=
  let helper := positions act_fibers index
  if helper = [] then some s
  else do
    let e ← fiberEnds inp index
    let vertices := addEnd (addEnd s.vertices e.1) e.2
    let helper := [0] ++ helper.dedup.insertionSort (· ≤ ·) ++ [1]
    pieceLoop inp index e.1 e.2 helper ⟨vertices, s.edges, s.edges_prop, s.errors⟩

/-- The second loop: `make_geo.py` 82-106. -/
def fiberLoop (inp : Input K) (act_fibers : List (Nat × K)) : List Nat → Network K → Option (Network K)
  | [], s => some s
  | index :: rest, s => do
      let s ← fiberStep inp act_fibers index s
      fiberLoop inp act_fibers rest s

/-- The network: `make_geo.py` 54-108.  `np.vstack` fails if there is no piece of a fibre (the array has no columns then). -/
def network (inp : Input K) : Option (Network K) := do
  let s ← joinLoop inp inp.connections ⟨[], [], []⟩
  let r ← fiberLoop inp s.act_fibers (List.range inp.fibers.length) ⟨s.vertices, s.edges, [], 0⟩
  if r.edges_prop = [] then none else some ⟨r.vertices, r.edges, inp.connectionsProp ++ r.edges_prop, r.errors⟩

/-- `min_x` and the like: `make_geo.py` 110-112. -/
def minimum (vertices : List (Point K)) (i : Fin (3 * 1)) : K := vertices.foldl (fun m v => min m (v i)) (10 ^ 10)

/-- `max_x` and the like: `make_geo.py` 110-113. -/
def maximum (vertices : List (Point K)) (i : Fin (3 * 1)) : K := vertices.foldl (fun m v => max m (v i)) (-10 ^ 10)

/-- `vertex[i] - min < 1e-6 * (max - min) or max - vertex[i] < 1e-6 * (max - min)`. -/
def extremal (vertices : List (Point K)) (v : Point K) (i : Fin (3 * 1)) : Bool :=
  decide (v i - minimum vertices i < 1 / 10 ^ 6 * (maximum vertices i - minimum vertices i)) ||
    decide (maximum vertices i - v i < 1 / 10 ^ 6 * (maximum vertices i - minimum vertices i))

/-- `left` and `right`: `make_geo.py` 130-138. -/
def typeOf (vertices : List (Point K)) (index : Nat) : Option Nat := do
  let v ← vertices[index]?
  some (if extremal vertices v 0 || extremal vertices v 1 then 1 else 0)

/-- The pair `left`, `right` for an edge: `make_geo.py` 130-138. -/
def typesOf (vertices : List (Point K)) (edge : Nat × Nat) : Option (Nat × Nat) := do
  let left ← typeOf vertices edge.1
  let right ← typeOf vertices edge.2
  some (left, right)

end

/-- Words separated by two blanks: `make_geo.py` 124, 127, 142, 145-147. -/
def wideText : List (List Char) → List Char
  | [] => []
  | [w] => w
  | w :: ws => w ++ ' ' :: ' ' :: wideText ws

/-- A line `keyword = n;  # comment`: `make_geo.py` 117-121. -/
def remarkText (kw pad : String) (n : Nat) (remark : String) : List Char := headerText kw pad n ++ (' ' :: ' ' :: remark.toList)

/-- The line of a pair of indices: `make_geo.py` 127 and 142. -/
def pairText (e : Nat × Nat) : List Char := wideText [showNat e.1, showNat e.2]

/-- The line of a pair of types: `make_geo.py` 139. -/
def typeText (e : Nat × Nat) : List Char := rowText [showNat e.1, showNat e.2]

/-- The line of a vector of numbers: `make_geo.py` 124 and 145-148. -/
def numbersText (print : K → List Char) {n : Nat} (p : Fin n → K) : List Char := wideText ((List.ofFn p).map print)

/-- The lines of the file: `make_geo.py` 116-148. -/
def fileLines [Field K] [LinearOrder K] (print : K → List Char) (net : Network K) : Option (List (List Char)) := do
  let types ← net.edges.mapM (typesOf net.vertices)
  some (["# This file was auto-generated!".toList, [],
    remarkText "Space_Dim" "     " 3 "# Dimension of space indicating amount of coordinates of points.",
    remarkText "HyperEdge_Dim" " " 1 "# Dimension of hyperedge (must be uniform).",
    remarkText "N_Points" "      " net.vertices.length "# Number of vertices.",
    remarkText "N_HyperNodes" "  " net.vertices.length "# Number of hypernodes.",
    remarkText "N_HyperEdges" "  " net.edges.length "# Number of hyperedges."] ++
    ([] :: "POINTS:".toList :: net.vertices.map (numbersText print)) ++
    ([] :: "HYPERNODES_OF_HYPEREDGES:".toList :: net.edges.map pairText) ++
    ([] :: "TYPES_OF_HYPERFACES:".toList :: types.map typeText) ++
    ([] :: "POINTS_OF_HYPEREDGES:".toList :: net.edges.map pairText) ++
    ([] :: "HYPEREDGE_PROPERTIES: 12".toList :: net.edges_prop.map (numbersText print)))

/-- The name of the file and its content: `make_geo.py` 54-148. -/
def make_geo [Field K] [LinearOrder K] (print : K → List Char) (inp : Input K) : Option (List Char × List Char) := do
  let net ← network inp
  let lines ← fileLines print net
  some ("fiber_network_".toList ++ showNat net.edges.length ++ ".geo".toList, unlines lines)

end HyperHDG.MakeGeo

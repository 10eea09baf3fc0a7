import Verif.Model.FiberNetwork
import Mathlib.Algebra.BigOperators.Fin

/-!
# Specification: networks of fibres

Uses of the model only the types of the tables and of the result.
-/

namespace HyperHDG.MakeGeo

variable {K : Type} [Field K] [LinearOrder K]

/-- The square of the Euclidean distance of two points. -/
def dist2 (p q : Point K) : K := ∑ i, (p i - q i) ^ 2

/-- The distance of the points is at most 1e-10. -/
def Near (p q : Point K) : Prop := dist2 p q ≤ (1 / 10 ^ 10) ^ 2

/-- `p` is the point with the affine coordinate `a` on the fibre with the given index. -/
def OnFiber (inp : Input K) (index : Nat) (a : K) (p : Point K) : Prop :=
  ∃ f u v, inp.fibers[index]? = some f ∧ inp.nodes[f.1]? = some u ∧ inp.nodes[f.2]? = some v ∧ ∀ i, p i = (1 - a) * u i + a * v i

/-- There is a connection at the affine coordinate `a` of the fibre with the given index. -/
def Touches (inp : Input K) (index : Nat) (a : K) : Prop := ∃ con ∈ inp.connections, (con.fiber1 = index ∧ con.a1 = a) ∨ (con.fiber2 = index ∧ con.a2 = a)

/-- The points of the network: the points with connections, and the ends of fibres with connections. -/
def Relevant (inp : Input K) (p : Point K) : Prop := ∃ index a, Touches inp index a ∧ (OnFiber inp index a p ∨ OnFiber inp index 0 p ∨ OnFiber inp index 1 p)

/-- The vertex with index `i` is (up to 1e-10) the point `p`. -/
def AtVertex (vertices : List (Point K)) (i : Nat) (p : Point K) : Prop := ∃ v, vertices[i]? = some v ∧ Near p v

/-- The consecutive pairs of different indices. -/
def chain : List Nat → List (Nat × Nat)
  | i :: j :: l => (if i = j then [] else [(i, j)]) ++ chain (j :: l)
  | _ => []

/-- The edges of a connection: an edge between the vertices of its two points, and none if the vertices are the same. -/
def JoinsPoints (inp : Input K) (vertices : List (Point K)) (con : Connection K) (edges : List (Nat × Nat)) : Prop :=
  ∃ p q i j, OnFiber inp con.fiber1 con.a1 p ∧ OnFiber inp con.fiber2 con.a2 q ∧ AtVertex vertices i p ∧ AtVertex vertices j q ∧ edges = chain [i, j]

/-- The edges of a fibre with their properties.  Without connections there are none.  Otherwise the edges form a chain: from the beginning of the fibre, through
all of its points with connections in their order, to its end; and all of them have the properties of the fibre. -/
def FollowsFiber (inp : Input K) (vertices : List (Point K)) (index : Nat) (edges : List ((Nat × Nat) × Props K)) : Prop :=
  ((∀ a, ¬ Touches inp index a) ∧ edges = []) ∨
  ∃ mid : List K, ∃ indices : List Nat, mid.Pairwise (· < ·) ∧ (∀ a, a ∈ mid ↔ Touches inp index a) ∧ mid ≠ [] ∧
    List.Forall₂ (fun a i => ∃ p, OnFiber inp index a p ∧ AtVertex vertices i p) (0 :: mid ++ [1]) indices ∧
    edges.map Prod.fst = chain indices ∧ ∀ e ∈ edges, inp.fibersProps[index]? = some e.2

/-- The fibres and nodes which the tables refer to exist, and there are properties for all fibres and connections. -/
structure Complete (inp : Input K) : Prop where
  fibers : ∀ con ∈ inp.connections, con.fiber1 < inp.fibers.length ∧ con.fiber2 < inp.fibers.length
  nodes : ∀ f ∈ inp.fibers, f.1 < inp.nodes.length ∧ f.2 < inp.nodes.length
  fibersProps : inp.fibersProps.length = inp.fibers.length
  connectionsProp : inp.connectionsProp.length = inp.connections.length

/-- The two points of each connection are more than 2e-10 apart. -/
def ProperConnections (inp : Input K) : Prop :=
  ∀ con ∈ inp.connections, ∀ p q, OnFiber inp con.fiber1 con.a1 p → OnFiber inp con.fiber2 con.a2 q → (2 / 10 ^ 10) ^ 2 < dist2 p q

/-- Two points of the network are the same or more than 1e-10 apart. -/
def Separated (inp : Input K) : Prop := ∀ p q, Relevant inp p → Relevant inp q → Near p q → p = q

/-- The domain which the file describes, after reading: the coordinates and properties are rounded by the output. -/
def domain (round : K → K) (vertices : List (Point K)) (edges types : List (Nat × Nat)) (props : List (Props K)) : DomainInfo 0 3 K where
  n_hyEdges := edges.length
  n_hyNodes := vertices.length
  n_points := vertices.length
  n_properties := 12
  points := vertices.map (fun p i => round (p i))
  hyNodes_hyEdge := edges.map (fun e => fun i => if i.val = 0 then e.1 else e.2)
  hyFaces_hyEdge := types.map (fun e => fun i => if i.val = 0 then e.1 else e.2)
  points_hyEdge := edges.map (fun e => fun i => if i.val = 0 then e.1 else e.2)
  hyEdge_properties := props.map (fun p => List.ofFn (fun i => round (p i)))

/-- The coordinates are below 1e10. -/
def Bounded (vertices : List (Point K)) : Prop := ∀ v ∈ vertices, ∀ i, -10 ^ 10 ≤ v i ∧ v i ≤ 10 ^ 10

/-- A vertex lies in the boundary of the bounding box of the vertices, in the first two directions, up to the fraction 1e-6 of its size. -/
def OnBoundary (vertices : List (Point K)) (v : Point K) : Prop :=
  ∃ i : Fin (3 * 1), i.val < 2 ∧ ∃ lo ∈ vertices, ∃ hi ∈ vertices, (∀ w ∈ vertices, lo i ≤ w i ∧ w i ≤ hi i) ∧
    (v i - lo i < 1 / 10 ^ 6 * (hi i - lo i) ∨ hi i - v i < 1 / 10 ^ 6 * (hi i - lo i))

end HyperHDG.MakeGeo

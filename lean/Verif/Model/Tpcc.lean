import Mathlib.Data.Fintype.Pi
import Mathlib.Logic.Function.Basic
import Verif.Model.GlobalLoop

/-!
# Model of `include/HyperHDG/wrapper/tpcc.hxx`

The wrapped library `tpcc` (a git submodule, not part of the repository) is external.  What HyperHDG uses of
it is modelled by

* `Elem n k`: a `TPCC::Element<n, k, ...>`, i.e. a `k`-dimensional face of a lattice cube in `n` dimensions: the
  `k` directions along which it extends, in the order in which the library numbers them, and its lower
  coordinate in each direction.  `facet`, `across_direction`, `across_coordinate`, `along_coordinate` are
  defined below.
* `Complex n k`: a `TPCC::Lexicographic<n, k, bnd, ...>` object, i.e. the `k`-dimensional elements of a grid.
* `Tpcc`: the numbering of the elements (`size`, `operator[]`, `index`, `index_in_slice`) and the order of directions,
  which are parameters.  `Verif/Spec/Refinement.lean` states what is assumed about them.
-/

namespace HyperHDG

/-- `TPCC::Element<n, k>`: `wrapper/tpcc.hxx` 48-49 (external). -/
structure Elem (n k : Nat) where
  /-- `along_direction(j)`. -/
  along : Fin k → Fin n
  /-- Lower coordinate in each direction. -/
  coord : Fin n → Nat

/-- Equality of elements can be computed (needed for the concrete library in `Proofs/TpccLex.lean`). -/
instance {n k : Nat} : DecidableEq (Elem n k) := fun a b =>
  decidable_of_iff ((∀ j, a.along j = b.along j) ∧ ∀ i, a.coord i = b.coord i)
    ⟨fun h => by cases a; cases b; simp only [Elem.mk.injEq]; exact ⟨funext h.1, funext h.2⟩,
     fun h => by subst h; exact ⟨fun _ => rfl, fun _ => rfl⟩⟩

/-- `TPCC::boundaries` (`both` or `none`): `wrapper/tpcc.hxx` 41 (external). -/
inductive Bnd where
  | both
  | none
deriving DecidableEq

/-- `TPCC::Lexicographic<n, k, bnd>`: `wrapper/tpcc.hxx` 39-44 (external). -/
structure Complex (n k : Nat) where
  bnd : Bnd
  /-- Number of cells in each direction. -/
  dims : Fin n → Nat
  /-- `static_assert(space_dim >= hyEdge_dim)`: `wrapper/tpcc.hxx` 64. -/
  le : k ≤ n

/-- Behaviour of the external library: the order in which it lists directions, and its numbering of elements. -/
structure Tpcc where
  dirs : (n : Nat) → List (Fin n)
  size : {n k : Nat} → Complex n k → Nat
  elem : {n k : Nat} → Complex n k → Nat → Elem n k
  index : {n k : Nat} → Complex n k → Elem n k → Nat
  index_in_slice : {n k : Nat} → Complex n k → Elem n k → Nat

namespace Elem

variable {n k : Nat}

/-- Position among the along directions of the direction to which facet number `i` is orthogonal. -/
def facetDir (i : Fin (2 * (k + 1))) : Fin (k + 1) := ⟨i / 2, by omega⟩

/-- `TPCC::Element::facet(i)` (external): facets `2j` and `2j+1` are the lower and the upper facet orthogonal to the `j`-th along
direction. -/
def facet (e : Elem n (k + 1)) (i : Fin (2 * (k + 1))) : Elem n k where
  along := fun j => e.along ((facetDir i).succAbove j)
  coord := Function.update e.coord (e.along (facetDir i)) (e.coord (e.along (facetDir i)) + i % 2)

/-- Directions not among the along directions, in the library's order: `across_direction(0)`, `across_direction(1)`, ...
(external). -/
def across (T : Tpcc) (e : Elem n k) : List (Fin n) :=
  (T.dirs n).filter (fun i => decide (∀ j, e.along j ≠ i))

end Elem

namespace Wrapper

variable {n k : Nat}

/-- `create_tpcc`: `wrapper/tpcc.hxx` 58-67. -/
def create_tpcc (h : k ≤ n) (vec : Fin n → Nat) : Complex n k := ⟨.both, vec, h⟩

/-- `tpcc_faces<bnd>`: `wrapper/tpcc.hxx` 71-75. -/
def tpcc_faces (bnd : Bnd) (elements : Complex n (k + 1)) : Complex n k :=
  ⟨bnd, elements.dims, Nat.le_of_succ_le elements.le⟩

/-- `n_elements`: `wrapper/tpcc.hxx` 79-83; returns an `unsigned int`. -/
def n_elements (T : Tpcc) (c : Complex n k) : Nat := u32 (T.size c)

/-- `get_element`: `wrapper/tpcc.hxx` 92-97.  `operator[]` of the external library is not defined out of range. -/
def get_element (m : Mode) (T : Tpcc) (c : Complex n k) (index : Nat) : Res (Elem n k) := do
  hyAssert m (index < T.size c)
  if index < T.size c then return T.elem c index else Res.ub

/-- `get_index`: `wrapper/tpcc.hxx` 101-107; returns an `unsigned int`. -/
def get_index (m : Mode) (T : Tpcc) (c : Complex n k) (e : Elem n k) : Res Nat := do
  let index := u32 (T.index c e)
  hyAssert m (index < T.size c)
  return index

/-- `get_index_in_slice`: `wrapper/tpcc.hxx` 111-117; returns an `unsigned int`. -/
def get_index_in_slice (T : Tpcc) (c : Complex n k) (e : Elem n k) : Nat := u32 (T.index_in_slice c e)

/-- `get_face`: `wrapper/tpcc.hxx` 121-127.  `facet` of the external library is not defined out of range. -/
def get_face (m : Mode) (e : Elem n (k + 1)) (index : Nat) : Res (Elem n k) := do
  hyAssert m (index < 2 * (k + 1))
  if h : index < 2 * (k + 1) then return e.facet ⟨index, h⟩ else Res.ub

/-- `exterior_direction`: `wrapper/tpcc.hxx` 138-146. -/
def exterior_direction (m : Mode) (T : Tpcc) (e : Elem n k) (index : Nat) : Res (Fin n) := do
  hyAssert m (index < n - k)
  vget (e.across T) index

/-- `exterior_coordinate`: `wrapper/tpcc.hxx` 150-155. -/
def exterior_coordinate (m : Mode) (T : Tpcc) (e : Elem n k) (index : Nat) : Res Nat := do
  hyAssert m (index < n - k)
  let dir ← vget (e.across T) index
  return e.coord dir

/-- `interior_coordinate`: `wrapper/tpcc.hxx` 159-164. -/
def interior_coordinate (m : Mode) (e : Elem n k) (index : Nat) : Res Nat := do
  hyAssert m (index < k)
  if h : index < k then return e.coord (e.along ⟨index, h⟩) else Res.ub

end Wrapper

end HyperHDG

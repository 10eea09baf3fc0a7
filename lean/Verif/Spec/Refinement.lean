import Mathlib.Order.Monotone.Basic
import Mathlib.Algebra.BigOperators.Group.Finset.Basic
import Mathlib.Algebra.Order.Field.Rat
import Mathlib.Data.Set.Image
import Verif.Model.Topology

/-!
# Vocabulary for the theorems on refinement

First what is assumed about the external library `tpcc` (`Tpcc.Lawful`), then the geometric notions: the sub-cubes
of the reference cube which refinement creates, their faces, and the placement of a lattice cube in space.
-/

namespace HyperHDG

/-- `e` is one of the elements of the grid `c`: its directions are listed in the library's order, it lies inside the
grid, and (for boundaries `none`) not on the boundary. -/
structure Belongs {n k : Nat} (T : Tpcc) (c : Complex n k) (e : Elem n k) : Prop where
  canon : StrictMono (fun j => (T.dirs n).idxOf (e.along j))
  inside : ∀ j, e.coord (e.along j) < c.dims (e.along j)
  flat : ∀ i, (∀ j, e.along j ≠ i) →
    match c.bnd with
    | .both => e.coord i ≤ c.dims i
    | .none => 0 < e.coord i ∧ e.coord i < c.dims i

/-- What is assumed about the numbering of the external library `tpcc`. -/
structure Tpcc.Lawful (T : Tpcc) : Prop where
  dirs_nodup : ∀ n, (T.dirs n).Nodup
  dirs_mem : ∀ n (i : Fin n), i ∈ T.dirs n
  /-- `operator[]` and `index` are inverse bijections between numbers below `size` and elements. -/
  elem_belongs : ∀ {n k : Nat} (c : Complex n k) (i : Nat), i < T.size c → Belongs T c (T.elem c i)
  index_elem : ∀ {n k : Nat} (c : Complex n k) (i : Nat), i < T.size c → T.index c (T.elem c i) = i
  index_lt : ∀ {n k : Nat} (c : Complex n k) (e : Elem n k), Belongs T c e → T.index c e < T.size c
  elem_index : ∀ {n k : Nat} (c : Complex n k) (e : Elem n k), Belongs T c e →
    T.elem c (T.index c e) = e
  /-- `index_in_slice` numbers the positions inside a slice of a uniform grid, looking only at the coordinates along the
  element. -/
  slice_lt : ∀ {n k : Nat} (c : Complex n k) (N : Nat) (e : Elem n k), (∀ i, c.dims i = N) →
    (∀ j, e.coord (e.along j) < N) → T.index_in_slice c e < N ^ k
  slice_inj : ∀ {n k : Nat} (c : Complex n k) (N : Nat) (e e' : Elem n k), (∀ i, c.dims i = N) →
    (∀ j, e.coord (e.along j) < N) → (∀ j, e'.coord (e'.along j) < N) →
    T.index_in_slice c e = T.index_in_slice c e' →
    ∀ j, e.coord (e.along j) = e'.coord (e'.along j)
  slice_congr : ∀ {n k : Nat} (c : Complex n k) (N : Nat) (e e' : Elem n k), (∀ i, c.dims i = N) →
    (∀ j, e.coord (e.along j) = e'.coord (e'.along j)) →
    T.index_in_slice c e = T.index_in_slice c e'

/-- The sub-cube at position `p` of the unit cube of dimension `k` cut into `n` parts in each direction. -/
def subCube {k : Nat} (n : Nat) (p : Fin k → Nat) : Set (Fin k → ℚ) :=
  {x | ∀ j, (p j : ℚ) / n ≤ x j ∧ x j ≤ (p j + 1) / n}

/-- Face number `f` of this sub-cube: `2j` is the lower and `2j+1` the upper face in direction `j`. -/
def subFace {k : Nat} (n : Nat) (p : Fin k → Nat) (f : Fin (2 * k)) : Set (Fin k → ℚ) :=
  {x | x ∈ subCube n p ∧ x ⟨f / 2, by omega⟩ = ((p ⟨f / 2, by omega⟩ + f % 2 : Nat) : ℚ) / n}

/-- Face number `g` of the whole unit cube. -/
def cubeFace {k : Nat} (g : Fin (2 * k)) : Set (Fin k → ℚ) :=
  {x | (∀ j, 0 ≤ x j ∧ x j ≤ 1) ∧ x ⟨g / 2, by omega⟩ = ((g % 2 : Nat) : ℚ)}

/-- The lattice cube `e` in space: a point of the unit cube of dimension `k` is placed at the lower corner of `e` plus its
coordinates in the directions along `e`. -/
def Elem.place {n k : Nat} (e : Elem n k) (x : Fin k → ℚ) : Fin n → ℚ :=
  fun i => (e.coord i : ℚ) + ∑ j, if e.along j = i then x j else 0

/-- Position inside its coarse hyperedge of refined hyperedge `index`: the interior coordinates of the sub-cube with number
`index % n ^ (d + 1)`.  (The geometries use the same.) -/
def refPos (T : Tpcc) (d n index : Nat) (j : Fin (d + 1)) : Nat :=
  let r := T.elem (⟨.both, fun _ => n, Nat.le_refl _⟩ : Complex (d + 1) (d + 1)) (index % n ^ (d + 1))
  r.coord (r.along j)

/-- The refined hyperedge `index` of a cubic grid, as a set of points in space (coarse cells have size 1). -/
def cubicCell {d s : Nat} (T : Tpcc) (h : d + 1 ≤ s) (n_elements : Fin s → Nat) (n index : Nat) : Set (Fin s → ℚ) :=
  (T.elem (⟨.both, n_elements, h⟩ : Complex s (d + 1)) (index / n ^ (d + 1))).place ''
    subCube n (refPos T d n index)

/-- Its face number `f`. -/
def cubicFace {d s : Nat} (T : Tpcc) (h : d + 1 ≤ s) (n_elements : Fin s → Nat) (n index : Nat)
    (f : Fin (2 * (d + 1))) : Set (Fin s → ℚ) :=
  (T.elem (⟨.both, n_elements, h⟩ : Complex s (d + 1)) (index / n ^ (d + 1))).place ''
    subFace n (refPos T d n index) f

/-- Number of hypernodes in the interior of a hyperedge of dimension `d + 1` refined into `n` parts per direction. -/
def nInterior (d n : Nat) : Nat := (d + 1) * ((n - 1) * n ^ d)

/-- A domain as read from a file is consistent: one list of hypernodes per hyperedge, all of them existing. -/
structure DomainTopo.Consistent {d : Nat} (D : DomainTopo d) : Prop where
  nodes_length : D.hyNodes_hyEdge.length = D.n_hyEdges
  types_length : D.hyFaces_hyEdge.length = D.n_hyEdges
  nodes_lt : ∀ nodes ∈ D.hyNodes_hyEdge, ∀ i, nodes i < D.n_hyNodes

end HyperHDG

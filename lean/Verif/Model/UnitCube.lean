import Mathlib.Algebra.Order.Field.Basic
import Verif.Model.Topology

/-!
# Model of `include/HyperHDG/geometry/unit_cube.hxx`

`d + 1` is `hyEdge_dimT`, `s` is `space_dimT`, the floating point type `pt_coord_t` is an ordered field `K` (exact arithmetic).  Here a `SmallVec<n>` is the
function of its entries, a `SmallMat` is the function of its columns or entries; see `Model/DenseLA.lean` for how the library stores them.
-/

namespace HyperHDG

variable {n d s : Nat} {α : Type}

/-- `v[i]`, read access to a `SmallVec`: `dense_la.hxx` 262-269.  Undefined out of bounds, where the assertion fails. -/
def vecGet (m : Mode) (v : Fin n → α) (i : Nat) : Res α := do
  hyAssert m (i < n)
  if h : i < n then return v ⟨i, h⟩ else Res.ub

/-- `v[i] = x`, write access to a `SmallVec`: `dense_la.hxx` 276-283. -/
def vecSet (m : Mode) (v : Fin n → α) (i : Nat) (x : α) : Res (Fin n → α) := do
  hyAssert m (i < n)
  if h : i < n then return arrSet v ⟨i, h⟩ x else Res.ub

variable {K : Type} [Field K] [LinearOrder K]

/-- Division of floating point numbers.  Division by zero gives infinity or NaN, which the model does not have: such executions count as undefined. -/
def fdiv (a b : K) : Res K := if b = 0 then Res.ub else .ok (a / b)

namespace Geometry

/-- `UnitCube`: `geometry/unit_cube.hxx` 402-419. -/
structure UnitCube (d s : Nat) where
  n_elements : Fin s → Nat
  tpcc_elements : Complex s (d + 1)
  n_subintervals : Nat
  tpcc_ref_elem : Complex (d + 1) (d + 1)
  n_loc_ref_elem : Nat

namespace UnitCube

/-- Constructor from the numbers of elements: `geometry/unit_cube.hxx` 449-460. -/
def mk' (h : d + 1 ≤ s) (n_elements : Fin s → Nat) : UnitCube d s where
  n_elements := n_elements
  tpcc_elements := Wrapper.create_tpcc h n_elements
  n_subintervals := 1
  tpcc_ref_elem := Wrapper.create_tpcc (Nat.le_refl _) (fun _ => 1)
  n_loc_ref_elem := Hypercube.pow (d + 1) 1

/-- Constructor from a topology: `geometry/unit_cube.hxx` 469-480. -/
def ofTopology (h : d + 1 ≤ s) (other : Topology.Cubic d s) : UnitCube d s where
  n_elements := other.n_elements
  tpcc_elements := Wrapper.create_tpcc h other.n_elements
  n_subintervals := other.get_refinement
  tpcc_ref_elem := Wrapper.create_tpcc (Nat.le_refl _) (fun _ => other.get_refinement)
  n_loc_ref_elem := Hypercube.pow (d + 1) other.get_refinement

/-- `get_refinement`: `geometry/unit_cube.hxx` 495. -/
def get_refinement (g : UnitCube d s) : Nat := g.n_subintervals

/-- `set_refinement`: `geometry/unit_cube.hxx` 499-506. -/
def set_refinement (g : UnitCube d s) (level : Nat) : UnitCube d s :=
  { g with
    n_subintervals := level
    tpcc_ref_elem := Wrapper.create_tpcc (Nat.le_refl _) (fun _ => level)
    n_loc_ref_elem := Hypercube.pow (d + 1) level }

/-- `UnitCube::hyEdge`: `geometry/unit_cube.hxx` 54-62. -/
structure HyEdge (d s : Nat) (K : Type) where
  translation : Fin s → K
  dim_indices : Fin (d + 1) → Nat
  char_length : Fin (d + 1) → K

namespace HyEdge

/-- Values before `fill_data`: default constructors of `SmallVec` set all entries to zero. -/
def init : HyEdge d s K := ⟨fun _ => 0, fun _ => 0, fun _ => 0⟩

/-- First loop of `fill_data` at a vertex: `geometry/unit_cube.hxx` 87-94. -/
def fillTranslation (m : Mode) (T : Tpcc) (n_elements : Fin s → Nat) (elem : Elem s 0) (e : HyEdge d s K) :
    Res (HyEdge d s K) :=
  forUp s (fun dim_pt (e : HyEdge d s K) => do
    let ext_dim ← Wrapper.exterior_direction m T elem dim_pt
    let c ← Wrapper.exterior_coordinate m T elem dim_pt
    let q ← fdiv (c : K) (n_elements ext_dim : K)
    hyAssert m (0 ≤ q ∧ q ≤ 1)
    return { e with translation := arrSet e.translation ext_dim q }) e

/-- The loop `for (; dim < hyEdge_dimT && char_length[dim] != 0.; ++dim)`: `geometry/unit_cube.hxx` 95-97.  The first argument bounds the number of
iterations. -/
def firstZero (char_length : Fin n → K) : Nat → Nat → Nat
  | 0, dim => dim
  | fuel + 1, dim =>
    if h : dim < n then (if char_length ⟨dim, h⟩ ≠ 0 then firstZero char_length fuel (dim + 1) else dim) else dim

/-- The loop `geometry/unit_cube.hxx` 99-111; the flag records `break`. -/
def fillLength (m : Mode) (T : Tpcc) (n_elements : Fin s → Nat) (elem : Elem s 0) (dim : Nat) (e : HyEdge d s K) :
    Res (HyEdge d s K) := do
  let r ← forUp s (fun dim_pt (st : HyEdge d s K × Bool) =>
    if st.2 then pure st else do
      let ext_dim ← Wrapper.exterior_direction m T elem dim_pt
      let c ← Wrapper.exterior_coordinate m T elem dim_pt
      let helper ← fdiv (c : K) (n_elements ext_dim : K)
      hyAssert m (0 ≤ helper ∧ helper ≤ 1)
      if helper ≠ st.1.translation ext_dim then do
        let cl ← vecSet m st.1.char_length dim (helper - st.1.translation ext_dim)
        let di ← vecSet m st.1.dim_indices dim ext_dim
        return ({ st.1 with
          char_length := cl
          dim_indices := di }, true)
      else return st) (e, false)
  return r.1

/-- `if (index == 0)`: `geometry/unit_cube.hxx` 86-94. -/
def fillOrigin (m : Mode) (T : Tpcc) (n_elements : Fin s → Nat) (index : Nat) (elem : Elem s 0) (e : HyEdge d s K) :
    Res (HyEdge d s K) :=
  if index = 0 then fillTranslation m T n_elements elem e else pure e

/-- `fill_data` at a vertex (`hyEdge_dimTT == 0`): `geometry/unit_cube.hxx` 84-113. -/
def fillVertex (m : Mode) (T : Tpcc) (n_elements : Fin s → Nat) (index : Nat) (elem : Elem s 0) (e : HyEdge d s K) :
    Res (HyEdge d s K) := do
  let e ← fillOrigin m T n_elements index elem e
  let dim := firstZero e.char_length (d + 1) 0
  if index = 1 <<< dim then do
    let c ← vecGet m e.char_length dim
    if c = 0 then fillLength m T n_elements elem dim e else return e
  else return e

/-- `fill_data<hyEdge_dimTT>`: `geometry/unit_cube.hxx` 79-120.  Returns the new index. -/
def fill_data (m : Mode) (T : Tpcc) (n_elements : Fin s → Nat) :
    (k : Nat) → Nat → Elem s k → HyEdge d s K → Res (Nat × HyEdge d s K)
  | 0, index, elem, e => do
    let e ← fillVertex m T n_elements index elem e
    return (index + 1, e)
  | k + 1, index, elem, e => do
    let f0 ← Wrapper.get_face m elem (2 * (k + 1) - 2)
    let r ← fill_data m T n_elements k index f0 e
    let f1 ← Wrapper.get_face m elem (2 * (k + 1) - 1)
    fill_data m T n_elements k r.1 f1 r.2

/-- `adapt_data`: `geometry/unit_cube.hxx` 124-133. -/
def adapt_data (m : Mode) (n_subintervals : Nat) (elem : Elem (d + 1) (d + 1)) (e : HyEdge d s K) : Res (HyEdge d s K) :=
  forFin (d + 1) (fun dim (e : HyEdge d s K) => do
    let c ← fdiv (e.char_length dim) (n_subintervals : K)
    let x ← Wrapper.interior_coordinate m elem dim
    let t ← vecGet m e.translation (e.dim_indices dim)
    let tr ← vecSet m e.translation (e.dim_indices dim) (t + (x : K) * c)
    return { e with
      char_length := arrSet e.char_length dim c
      translation := tr }) e

/-- Constructor: `geometry/unit_cube.hxx` 150-158. -/
def make (m : Mode) (T : Tpcc) (g : UnitCube d s) (index : Nat) : Res (HyEdge d s K) := do
  let q ← udiv index g.n_loc_ref_elem
  let elem ← Wrapper.get_element m T g.tpcc_elements q
  let r ← umod index g.n_loc_ref_elem
  let loc_elem ← Wrapper.get_element m T g.tpcc_ref_elem r
  let e ← fill_data m T g.n_elements (d + 1) 0 elem init
  adapt_data m g.n_subintervals loc_elem e.2

/-- `phy_points(dim_indices[i], j) += points(i, j) * char_length[i]` for all `i`: `geometry/unit_cube.hxx` 176-177, for one column `j`. -/
def mapColumn (m : Mode) (e : HyEdge d s K) (x : Fin (d + 1) → K) : Res (Fin s → K) :=
  forFin (d + 1) (fun i (y : Fin s → K) => do
    let t ← vecGet m y (e.dim_indices i)
    vecSet m y (e.dim_indices i) (t + x i * e.char_length i)) e.translation

/-- The assertion of `map_ref_to_phys`: `geometry/unit_cube.hxx` 170-171. -/
def inReference (x : Fin n → K) : Prop := ∀ i, 0 ≤ x i ∧ x i ≤ 1

instance (x : Fin n → K) : Decidable (inReference x) := by unfold inReference; infer_instance

/-- `map_ref_to_phys(points)` (returning new points): `geometry/unit_cube.hxx` 166-180.  `points` is the family of its columns. -/
def map_ref_to_phys {n_vec : Nat} (m : Mode) (e : HyEdge d s K) (points : Fin n_vec → Fin (d + 1) → K) :
    Res (Fin n_vec → Fin s → K) := do
  hyAssert m (∀ j, inReference (points j))
  forFin n_vec (fun j (phy_points : Fin n_vec → Fin s → K) => do
    let y ← mapColumn m e (points j)
    return arrSet phy_points j y) (fun _ => e.translation)

/-- `map_ref_to_phys(points)` for a single point. -/
def mapPoint (m : Mode) (e : HyEdge d s K) (x : Fin (d + 1) → K) : Res (Fin s → K) := do
  let r ← map_ref_to_phys m e (fun _ : Fin 1 => x)
  return r 0

/-- `map_ref_to_phys(points)` (in place): `geometry/unit_cube.hxx` 187-203.  The argument has `space_dimT` rows. -/
def map_ref_to_phys_in_place {n_vec : Nat} (m : Mode) (e : HyEdge d s K) (points : Fin n_vec → Fin s → K) :
    Res (Fin n_vec → Fin s → K) := do
  hyAssert m (d + 1 = s)
  hyAssert m (∀ j, inReference (points j))
  forFin n_vec (fun j (points : Fin n_vec → Fin s → K) => do
    let y ← forFin s (fun i (x : Fin s → K) => do
      let c ← vecGet m e.char_length i
      return arrSet x i (x i * c + e.translation i)) (points j)
    return arrSet points j y) points

/-- `span_vec`: `geometry/unit_cube.hxx` 210-218. -/
def span_vec (m : Mode) (e : HyEdge d s K) (index : Nat) : Res (Fin s → K) := do
  hyAssert m (index < d + 1)
  let di ← vecGet m e.dim_indices index
  let c ← vecGet m e.char_length index
  vecSet m (fun _ => 0) di c

/-- `mat_r`: `geometry/unit_cube.hxx` 222-225 (`diagonal`, `dense_la.hxx` 515-525). -/
def mat_r (e : HyEdge d s K) : Fin (d + 1) → Fin (d + 1) → K :=
  fun i j => if i = j then e.char_length i else 0

/-- The loop `while (std::find(...) != end) ++helper`: `geometry/unit_cube.hxx` 238-239.  At most `hyEdge_dimT` values are found, so `hyEdge_dimT`
iterations are enough; the first argument bounds their number. -/
def skipFound (dims : List Nat) : Nat → Nat → Res Nat
  | 0, helper => if helper ∈ dims then Res.ub else .ok helper
  | fuel + 1, helper => if helper ∈ dims then skipFound dims fuel (helper + 1) else .ok helper

/-- `M(row, col) = x` for a matrix given by its entries: `dense_la.hxx` 252-255. -/
def matSet {r c : Nat} (m : Mode) (M : Fin r → Fin c → α) (row col : Nat) (x : α) : Res (Fin r → Fin c → α) := do
  hyAssert m (row < r)
  hyAssert m (col < c)
  if h : row < r ∧ col < c then
    return fun i j => if i = ⟨row, h.1⟩ ∧ j = ⟨col, h.2⟩ then x else M i j
  else Res.ub

/-- `mat_q`: `geometry/unit_cube.hxx` 229-245. -/
def mat_q (m : Mode) (e : HyEdge d s K) : Res (Fin s → Fin s → K) := do
  let mat ← forFin (d + 1) (fun index (mat : Fin s → Fin s → K) =>
    matSet m mat (e.dim_indices index) index 1) (fun _ _ => 0)
  let r ← forUp (s - (d + 1)) (fun i (st : (Fin s → Fin s → K) × Nat) => do
    let helper ← skipFound (List.ofFn e.dim_indices) (d + 1) st.2
    let mat ← matSet m st.1 helper (d + 1 + i) 1
    return (mat, helper + 1)) (mat, 0)
  return r.1

/-- `area`: `geometry/unit_cube.hxx` 249-255. -/
def area (e : HyEdge d s K) : Res K :=
  forFin (d + 1) (fun dim (area : K) => .ok (area * e.char_length dim)) 1

/-- `face_area`: `geometry/unit_cube.hxx` 259-267. -/
def face_area (m : Mode) (e : HyEdge d s K) (index : Nat) : Res K := do
  hyAssert m (index < 2 * (d + 1))
  forFin (d + 1) (fun dim (area : K) => if (dim : Nat) ≠ index / 2 then .ok (area * e.char_length dim) else .ok area) 1

/-- `local_normal`: `geometry/unit_cube.hxx` 276-282. -/
def local_normal (m : Mode) (_e : HyEdge d s K) (index : Nat) : Res (Fin (d + 1) → K) := do
  hyAssert m (index < 2 * (d + 1))
  vecSet m (fun _ => 0) (index / 2) (if index % 2 ≠ 0 then 1 else -1)

/-- `inner_normal`: `geometry/unit_cube.hxx` 291-297. -/
def inner_normal (m : Mode) (e : HyEdge d s K) (index : Nat) : Res (Fin s → K) := do
  hyAssert m (index < 2 * (d + 1))
  let di ← vecGet m e.dim_indices (index / 2)
  vecSet m (fun _ => 0) di (if index % 2 ≠ 0 then 1 else -1)

/-- `face_barycenter`: `geometry/unit_cube.hxx` 301-307. -/
def face_barycenter (m : Mode) (e : HyEdge d s K) (index : Nat) : Res (Fin s → K) := do
  hyAssert m (index < 2 * (d + 1))
  let local_center ← vecSet m (fun _ => 1 / 2) (index / 2) (if index % 2 ≠ 0 then 1 else 0)
  mapPoint m e local_center

/-- The loop of `outer_normal`: `geometry/unit_cube.hxx` 320-323.  The first argument bounds the number of iterations. -/
def countFree (dims : List Nat) (index : Nat) : Nat → Nat → Nat → Res Nat
  | 0, dim, cnt => if cnt < index + 1 then Res.ub else .ok dim
  | fuel + 1, dim, cnt =>
    if cnt < index + 1 then countFree dims index fuel (dim + 1) (if dim ∈ dims then cnt else cnt + 1) else .ok dim

/-- `outer_normal`: `geometry/unit_cube.hxx` 313-327.  At most `hyEdge_dimT` of the dimensions are not counted, so the loop ends after at most
`index + 1 + hyEdge_dimT` iterations. -/
def outer_normal (m : Mode) (e : HyEdge d s K) (index : Nat) : Res (Fin s → K) := do
  hyAssert m (index < s - (d + 1))
  let dim ← countFree (List.ofFn e.dim_indices) index (index + 1 + (d + 1)) 0 0
  vecSet m (fun _ => 0) (dim - 1) 1

/-- The loop of `lexicographic`: `geometry/unit_cube.hxx` 339-344 (and of `boundary_lexicographic`, 362-368): a point whose coordinates are taken from
`points_1d` by the digits of `index`. -/
def lexPoint {k n_sub_points : Nat} (m : Mode) (index : Nat) (points_1d : Fin n_sub_points → K) : Res (Fin k → K) := do
  let r ← forFin k (fun dim (st : (Fin k → K) × Nat) => do
    let j ← umod st.2 n_sub_points
    let x ← vecGet m points_1d j
    return (arrSet st.1 dim x, st.2 / n_sub_points)) (fun _ => 0, index)
  return r.1

/-- `lexicographic`: `geometry/unit_cube.hxx` 331-346. -/
def lexicographic {n_sub_points : Nat} (m : Mode) (e : HyEdge d s K) (index : Nat) (points_1d : Fin n_sub_points → K) :
    Res (Fin s → K) := do
  hyAssert m (index < n_sub_points ^ (d + 1))
  let pt ← lexPoint m index points_1d
  mapPoint m e pt

/-- The loop `geometry/unit_cube.hxx` 369-377. -/
def insertBoundary (m : Mode) (boundary_number : Nat) (boundary_scale : K) (subpt : Fin d → K) : Res (Fin (d + 1) → K) := do
  let r ← forFin (d + 1) (fun dim (st : (Fin (d + 1) → K) × Nat) =>
    if boundary_number / 2 = (dim : Nat) then
      .ok (arrSet st.1 dim (boundary_scale * (((boundary_number % 2 : Nat) : K) - 1 / 2) + 1 / 2), st.2)
    else do
      let x ← vecGet m subpt st.2
      return (arrSet st.1 dim x, st.2 + 1)) (fun _ => 0, 0)
  return r.1

/-- `boundary_lexicographic`: `geometry/unit_cube.hxx` 352-379.  The difference in line 363 is computed as a `double` and converted to `unsigned int`, which is undefined
for negative values. -/
def boundary_lexicographic {n_sub_points : Nat} (m : Mode) (e : HyEdge d s K) (index boundary_number : Nat) (boundary_scale : K)
    (points_1d : Fin n_sub_points → K) : Res (Fin s → K) := do
  hyAssert m (index < n_sub_points ^ d * (d + 1) * 2)
  if index < n_sub_points ^ d * boundary_number then Res.ub else do
    let subpt ← lexPoint m (index - n_sub_points ^ d * boundary_number) points_1d
    let pt ← insertBoundary m boundary_number boundary_scale subpt
    mapPoint m e pt

end HyEdge

end UnitCube

end Geometry

end HyperHDG

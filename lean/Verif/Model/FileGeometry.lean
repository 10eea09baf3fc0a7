import Verif.Model.Mapping
import Verif.Model.UnitCube

/-!
# Model of `include/HyperHDG/geometry/file.hxx`

`d + 1` is `hyEdge_dimT`, `s` is `space_dimT`, `pt_coord_t` is an ordered field `K` (exact arithmetic); the mapping is `Mapping::Linear`, the default.
`std::abs` is `|·|`.  The reference to the domain which the topology owns is modelled by the domain itself (the domain is constant).
-/

namespace HyperHDG

variable {d s : Nat} {K : Type}

/-- The members of `DomainInfo` which the geometry uses: `read_domain.hxx` 56-90. -/
structure DomainGeo (d s : Nat) (K : Type) where
  n_hyEdges : Nat
  points : List (SmallVec s K)
  points_hyEdge : List (Fin (2 ^ (d + 1)) → Nat)

namespace Geometry

/-- `File`: `geometry/file.hxx` 317-336. -/
structure File (d s : Nat) (K : Type) where
  domain_info : DomainGeo d s K
  n_subintervals : Nat
  tpcc_ref_elem : Complex (d + 1) (d + 1)
  n_loc_ref_elem : Nat

namespace File

/-- Constructor: `geometry/file.hxx` 362-370.  Of the topology it uses the domain and the refinement. -/
def mk' (domain_info : DomainGeo d s K) (refinement : Nat) : File d s K where
  domain_info := domain_info
  n_subintervals := refinement
  tpcc_ref_elem := Wrapper.create_tpcc (Nat.le_refl _) (fun _ => refinement)
  n_loc_ref_elem := Hypercube.pow (d + 1) refinement

/-- `get_refinement`: `geometry/file.hxx` 405. -/
def get_refinement (g : File d s K) : Nat := g.n_subintervals

/-- `set_refinement`: `geometry/file.hxx` 409-416. -/
def set_refinement (g : File d s K) (level : Nat) : File d s K :=
  { g with
    n_subintervals := level
    tpcc_ref_elem := Wrapper.create_tpcc (Nat.le_refl _) (fun _ => level)
    n_loc_ref_elem := Hypercube.pow (d + 1) level }

/-- `hyEdge::point`: `geometry/file.hxx` 94-99. -/
def point (g : File d s K) (index pt_index : Nat) : Res (SmallVec s K) := do
  let q ← udiv index g.n_loc_ref_elem
  let pts ← vget g.domain_info.points_hyEdge q
  if h : pt_index < 2 ^ (d + 1) then vget g.domain_info.points (pts ⟨pt_index, h⟩) else Res.ub

/-- `File::hyEdge`: `geometry/file.hxx` 82-90.  (The references to the geometry and the index are only used by `point` and `extra_data`.) -/
structure HyEdge (d s : Nat) (K : Type) where
  mapping : Mapping.Linear d s K

namespace HyEdge

variable [Field K] [LinearOrder K]

/-- Constructor: `geometry/file.hxx` 105-120. -/
def make (m : Mode) (T : Tpcc) (geqr2 : Geqr2All K) (g : File d s K) (index : Nat) : Res (HyEdge d s K) := do
  let translation ← point g index 0
  let matrix ← forUp (d + 1) (fun dim (matrix : SmallMat s (d + 1) K) => do
    let p ← point g index (1 <<< dim)
    let v ← SmallMat.sub_mat p translation
    matrix.set_column m dim v) (SmallMat.fill s (d + 1) 0)
  let r ← umod index g.n_loc_ref_elem
  let elem ← Wrapper.get_element m T g.tpcc_ref_elem r
  let matrix ← matrix.div_scalar (g.n_subintervals : K)
  let translation ← forUp (d + 1) (fun dim (translation : SmallVec s K) => do
    let x ← Wrapper.interior_coordinate m elem dim
    let col ← matrix.get_column m dim
    let v ← SmallMat.mul_scalar col (x : K)
    SmallMat.add_mat translation v) translation
  let mapping ← Mapping.Linear.make m geqr2 translation matrix
  return ⟨mapping⟩

/-- The assertion of `map_ref_to_phys`: `geometry/file.hxx` 131-132. -/
def inReference {r c : Nat} (points : SmallMat r c K) : Prop := ∀ i, 0 ≤ points i ∧ points i ≤ 1

instance {r c : Nat} (points : SmallMat r c K) : Decidable (inReference points) := by unfold inReference; infer_instance

/-- `map_ref_to_phys(points)` (returning new points): `geometry/file.hxx` 127-134. -/
def map_ref_to_phys {n_vec : Nat} (m : Mode) (e : HyEdge d s K) (points : SmallMat (d + 1) n_vec K) : Res (SmallMat s n_vec K) := do
  hyAssert m (inReference points)
  e.mapping.map_reference_to_physical m points

/-- `map_ref_to_phys(points)` (in place): `geometry/file.hxx` 141-149.  It compiles only if `hyEdge_dimT == space_dimT`, hence the type. -/
def map_ref_to_phys_in_place {n_vec : Nat} (m : Mode) (e : HyEdge d (d + 1) K) (points : SmallMat (d + 1) n_vec K) :
    Res (SmallMat (d + 1) n_vec K) := do
  hyAssert m (inReference points)
  e.mapping.map_reference_to_physical m points

/-- `span_vec`: `geometry/file.hxx` 156-160. -/
def span_vec (m : Mode) (e : HyEdge d s K) (index : Nat) : Res (SmallVec s K) := do
  hyAssert m (index < d + 1)
  e.mapping.matrix_column m index

/-- `mat_r`: `geometry/file.hxx` 164. -/
def mat_r (e : HyEdge d s K) : SmallMat (d + 1) (d + 1) K := e.mapping.matrix_r

/-- `mat_q`: `geometry/file.hxx` 168. -/
def mat_q (e : HyEdge d s K) : SmallMat s s K := e.mapping.matrix_q

/-- `area`: `geometry/file.hxx` 172. -/
def area (m : Mode) (e : HyEdge d s K) : Res K := do
  let x ← e.mapping.functional_determinant_hyEdge m
  return |x|

/-- `face_area`: `geometry/file.hxx` 176-180. -/
def face_area (m : Mode) (geqr2 : Geqr2All K) (e : HyEdge d s K) (index : Nat) : Res K := do
  hyAssert m (index < 2 * (d + 1))
  let x ← e.mapping.functional_determinant_hyNode m geqr2 (index / 2)
  return |x|

/-- `local_normal`: `geometry/file.hxx` 189-196. -/
def local_normal (m : Mode) (geqr2 : Geqr2All K) (e : HyEdge d s K) (index : Nat) : Res (SmallVec (d + 1) K) := do
  hyAssert m (index < 2 * (d + 1))
  let normal ← e.mapping.local_normal m geqr2 (index / 2)
  if index % 2 = 1 then SmallMat.mul_scalar normal (-1) else return normal

/-- `inner_normal`: `geometry/file.hxx` 205-212. -/
def inner_normal (m : Mode) (e : HyEdge d s K) (index : Nat) : Res (SmallVec s K) := do
  hyAssert m (index < 2 * (d + 1))
  let normal ← e.mapping.inner_normal m (index / 2)
  if index % 2 = 1 then SmallMat.mul_scalar normal (-1) else return normal

/-- `face_barycenter`: `geometry/file.hxx` 216-222. -/
def face_barycenter (m : Mode) (e : HyEdge d s K) (index : Nat) : Res (SmallVec s K) := do
  hyAssert m (index < 2 * (d + 1))
  let local_center ← SmallMat.set m (index / 2) (if index % 2 ≠ 0 then 1 else 0) (SmallMat.fill (d + 1) 1 (1 / 2 : K))
  e.map_ref_to_phys m local_center

/-- `outer_normal`: `geometry/file.hxx` 228-234. -/
def outer_normal (m : Mode) (e : HyEdge d s K) (index : Nat) : Res (SmallVec s K) := do
  hyAssert m (index < s - (d + 1))
  e.mapping.outer_normal m index

/-- The loop of `lexicographic`: `geometry/file.hxx` 246-251. -/
def lexPoint {k n_sub_points : Nat} (m : Mode) (index : Nat) (points_1d : SmallVec n_sub_points K) : Res (SmallVec k K) := do
  let r ← forUp k (fun dim (st : SmallVec k K × Nat) => do
    let j ← umod st.2 n_sub_points
    let x ← points_1d.get m j
    let pt ← SmallMat.set m dim x st.1
    return (pt, st.2 / n_sub_points)) (SmallMat.fill k 1 0, index)
  return r.1

/-- `lexicographic`: `geometry/file.hxx` 238-253.  (Other than in `UnitCube` the point is not checked to lie in the reference cube.) -/
def lexicographic {n_sub_points : Nat} (m : Mode) (e : HyEdge d s K) (index : Nat) (points_1d : SmallVec n_sub_points K) :
    Res (SmallVec s K) := do
  hyAssert m (index < n_sub_points ^ (d + 1))
  let pt ← lexPoint m index points_1d
  e.mapping.map_reference_to_physical m pt

/-- The loop `geometry/file.hxx` 275-283. -/
def insertBoundary (m : Mode) (boundary_number : Nat) (boundary_scale : K) (subpt : SmallVec d K) : Res (SmallVec (d + 1) K) := do
  let r ← forUp (d + 1) (fun dim (st : SmallVec (d + 1) K × Nat) =>
    if boundary_number / 2 = dim then do
      let pt ← SmallMat.set m dim (boundary_scale * (((boundary_number % 2 : Nat) : K) - 1 / 2) + 1 / 2) st.1
      return (pt, st.2)
    else do
      let x ← subpt.get m st.2
      let pt ← SmallMat.set m dim x st.1
      return (pt, st.2 + 1)) (SmallMat.fill (d + 1) 1 0, 0)
  return r.1

/-- `boundary_lexicographic`: `geometry/file.hxx` 258-285.  The difference in line 269 is computed as a `double` and converted to `unsigned int`, which
is undefined for negative values. -/
def boundary_lexicographic {n_sub_points : Nat} (m : Mode) (e : HyEdge d s K) (index boundary_number : Nat) (boundary_scale : K)
    (points_1d : SmallVec n_sub_points K) : Res (SmallVec s K) := do
  hyAssert m (index < n_sub_points ^ d * (d + 1) * 2)
  if index < n_sub_points ^ d * boundary_number then Res.ub else do
    let subpt ← lexPoint m (index - n_sub_points ^ d * boundary_number) points_1d
    let pt ← insertBoundary m boundary_number boundary_scale subpt
    e.mapping.map_reference_to_physical m pt

end HyEdge

/-- `get_hyEdge`: `geometry/file.hxx` 394-401. -/
def get_hyEdge [Field K] [LinearOrder K] (m : Mode) (T : Tpcc) (geqr2 : Geqr2All K) (g : File d s K) (index : Nat) : Res (HyEdge d s K) := do
  hyAssert m (index < u32 (g.domain_info.n_hyEdges * Wrapper.n_elements T g.tpcc_ref_elem))
  HyEdge.make m T geqr2 g index

end File

end Geometry

end HyperHDG

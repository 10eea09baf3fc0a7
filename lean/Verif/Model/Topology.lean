import Verif.Model.Tpcc
import Verif.Model.Hypercube

/-!
# Model of `include/HyperHDG/topology/*.hxx` and `include/HyperHDG/node_descriptor/*.hxx`

`d + 1` is `hyEdge_dimT` (the faces of hyperedges have dimension `hyEdge_dimT - 1`), `s` is `space_dimT`.  Index types are
the default `unsigned int`.
-/

namespace HyperHDG

/-- `a / b` for unsigned integers: undefined for `b = 0`. -/
def udiv (a b : Nat) : Res Nat := if b = 0 then Res.ub else .ok (a / b)

/-- `a % b` for unsigned integers: undefined for `b = 0`. -/
def umod (a b : Nat) : Res Nat := if b = 0 then Res.ub else .ok (a % b)

/-- Hypernode indices or face types of a hyperedge: an array with `2 * hyEdge_dimT` entries. -/
abbrev FaceArr (d : Nat) := Fin (2 * (d + 1)) → Nat

/-- The members of `DomainInfo` which topology and node descriptor use: `read_domain.hxx` 56-90. -/
structure DomainTopo (d : Nat) where
  n_hyEdges : Nat
  n_hyNodes : Nat
  hyNodes_hyEdge : List (FaceArr d)
  hyFaces_hyEdge : List (FaceArr d)

namespace Topology

/-- The members common to `Topology::Cubic` and `Topology::File` that describe the refinement: `topology/cubic.hxx` 134-172 and
`topology/file.hxx` 132-170. -/
structure Refined (d : Nat) where
  n_subintervals : Nat
  tpcc_ref_elem : Complex (d + 1) (d + 1)
  tpcc_ref_faces : Complex (d + 1) d
  n_elem_per_elem : Nat
  n_face_per_face : Nat
  n_face_per_elem : Nat
  n_coarse_elem : Nat
  n_coarse_face : Nat
  n_hyEdges : Nat
  n_hyNodes : Nat

variable {d s : Nat}

/-- The initialisers `topology/cubic.hxx` 194-205 and `topology/file.hxx` 194-205 (with `level` 1), the assignments `topology/cubic.hxx` 300-311 and
`topology/file.hxx` 296-305.  All products and sums are of type `unsigned int`. -/
def Refined.make (T : Tpcc) (n_coarse_elem n_coarse_face level : Nat) : Refined d :=
  let tpcc_ref_elem : Complex (d + 1) (d + 1) := Wrapper.create_tpcc (Nat.le_refl _) (fun _ => level)
  let tpcc_ref_faces : Complex (d + 1) d := Wrapper.tpcc_faces .none tpcc_ref_elem
  let n_elem_per_elem := Wrapper.n_elements T tpcc_ref_elem
  let n_face_per_face := Hypercube.pow d level
  let n_face_per_elem := Wrapper.n_elements T tpcc_ref_faces
  { n_subintervals := level
    tpcc_ref_elem := tpcc_ref_elem
    tpcc_ref_faces := tpcc_ref_faces
    n_elem_per_elem := n_elem_per_elem
    n_face_per_face := n_face_per_face
    n_face_per_elem := n_face_per_elem
    n_coarse_elem := n_coarse_elem
    n_coarse_face := n_coarse_face
    n_hyEdges := u32 (n_coarse_elem * n_elem_per_elem)
    n_hyNodes := u32 (u32 (n_coarse_face * n_face_per_face) + u32 (n_coarse_elem * n_face_per_elem)) }

/-- Loop body `topology/cubic.hxx` 78-86 and `topology/file.hxx` 85-93, for a face with number `i`. -/
def refineFace (m : Mode) (T : Tpcc) (t : Refined d) (index : Nat) (ref_elem : Elem (d + 1) (d + 1))
    (i : Fin (2 * (d + 1))) (nodes : FaceArr d) : Res (FaceArr d) := do
  let face ← Wrapper.get_face m ref_elem i
  let c ← Wrapper.exterior_coordinate m T face 0
  if c = 0 ∨ c = t.n_subintervals then
    return arrSet nodes i (u32 (u32 (t.n_face_per_face * nodes i)
      + Wrapper.get_index_in_slice T t.tpcc_ref_faces face))
  else
    let q ← udiv index t.n_elem_per_elem
    let j ← Wrapper.get_index m T t.tpcc_ref_faces face
    return arrSet nodes i (u32 (u32 (u32 (t.n_coarse_face * t.n_face_per_face)
      + u32 (t.n_face_per_elem * q)) + j))

/-- `topology/cubic.hxx` 74-87 and `topology/file.hxx` 81-94. -/
def refineNodes (m : Mode) (T : Tpcc) (t : Refined d) (index : Nat) (nodes : FaceArr d) :
    Res (FaceArr d) := do
  let r ← umod index t.n_elem_per_elem
  let ref_elem ← Wrapper.get_element m T t.tpcc_ref_elem r
  forFin (2 * (d + 1)) (refineFace m T t index ref_elem) nodes

/-- `Topology::Cubic`: `topology/cubic.hxx` 119-172. -/
structure Cubic (d s : Nat) where
  n_elements : Fin s → Nat
  tpcc_elements : Complex s (d + 1)
  tpcc_faces : Complex s d
  ref : Refined d

namespace Cubic

/-- Constructor: `topology/cubic.hxx` 188-207. -/
def mk' (T : Tpcc) (h : d + 1 ≤ s) (n_elements : Fin s → Nat) : Cubic d s :=
  let tpcc_elements : Complex s (d + 1) := Wrapper.create_tpcc h n_elements
  let tpcc_faces : Complex s d := Wrapper.tpcc_faces .both tpcc_elements
  { n_elements := n_elements
    tpcc_elements := tpcc_elements
    tpcc_faces := tpcc_faces
    ref := Refined.make T (Wrapper.n_elements T tpcc_elements)
      (Wrapper.n_elements T tpcc_faces) 1 }

/-- Copy constructor: `topology/cubic.hxx` 215-230. -/
def copy (other : Cubic d s) : Cubic d s :=
  ⟨other.n_elements, other.tpcc_elements, other.tpcc_faces, other.ref⟩

/-- `set_refinement`: `topology/cubic.hxx` 298-312. -/
def set_refinement (T : Tpcc) (t : Cubic d s) (level : Nat) : Cubic d s :=
  { t with
    ref := Refined.make T (Wrapper.n_elements T t.tpcc_elements)
      (Wrapper.n_elements T t.tpcc_faces) level }

/-- `get_refinement`, `n_hyEdges`, `n_hyNodes`: `topology/cubic.hxx` 294, 284, 290. -/
def get_refinement (t : Cubic d s) : Nat := t.ref.n_subintervals
@[inherit_doc get_refinement] def n_hyEdges (t : Cubic d s) : Nat := t.ref.n_hyEdges
@[inherit_doc get_refinement] def n_hyNodes (t : Cubic d s) : Nat := t.ref.n_hyNodes

/-- First loop of the constructor of `hyEdge`: `topology/cubic.hxx` 66-72. -/
def coarseNodes (m : Mode) (T : Tpcc) (t : Cubic d s) (index : Nat) (init : FaceArr d) : Res (FaceArr d) := do
  let q ← udiv index t.ref.n_elem_per_elem
  let elem ← Wrapper.get_element m T t.tpcc_elements q
  forFin (2 * (d + 1)) (fun i (nodes : FaceArr d) => do
    let face ← Wrapper.get_face m elem i
    let j ← Wrapper.get_index m T t.tpcc_faces face
    return arrSet nodes i j) init

/-- `operator[](index).get_hyNode_indices()`: `topology/cubic.hxx` 241-248, 64-88, 94.  The array is zero before it is filled (`SmallVec`). -/
def get_hyNode_indices (m : Mode) (T : Tpcc) (t : Cubic d s) (index : Nat) : Res (FaceArr d) := do
  hyAssert m (index < t.n_hyEdges)
  let nodes ← coarseNodes m T t index (fun _ => 0)
  refineNodes m T t.ref index nodes

end Cubic

/-- `Topology::File`: `topology/file.hxx` 120-170. -/
structure File (d : Nat) where
  domain_info : DomainTopo d
  ref : Refined d

namespace File

/-- Constructor: `topology/file.hxx` 186-207.  Its argument is the result of `read_domain`. -/
def mk' (T : Tpcc) (domain_info : DomainTopo d) : File d :=
  ⟨domain_info, Refined.make T domain_info.n_hyEdges domain_info.n_hyNodes 1⟩

/-- Copy constructor: `topology/file.hxx` 211-224. -/
def copy (other : File d) : File d := ⟨other.domain_info, other.ref⟩

/-- `set_refinement`: `topology/file.hxx` 294-306. -/
def set_refinement (T : Tpcc) (t : File d) (level : Nat) : File d :=
  { t with ref := Refined.make T t.ref.n_coarse_elem t.ref.n_coarse_face level }

/-- `get_refinement`, `n_hyEdges`, `n_hyNodes`: `topology/file.hxx` 290, 256, 262. -/
def get_refinement (t : File d) : Nat := t.ref.n_subintervals
@[inherit_doc get_refinement] def n_hyEdges (t : File d) : Nat := t.ref.n_hyEdges
@[inherit_doc get_refinement] def n_hyNodes (t : File d) : Nat := t.ref.n_hyNodes

/-- `operator[](index).get_hyNode_indices()`: `topology/file.hxx` 234-250, 75-95, 99. -/
def get_hyNode_indices (m : Mode) (T : Tpcc) (t : File d) (index : Nat) : Res (FaceArr d) := do
  hyAssert m (index < t.n_hyEdges)
  let q ← udiv index t.ref.n_elem_per_elem
  let nodes ← vget t.domain_info.hyNodes_hyEdge q
  refineNodes m T t.ref index nodes

end File

end Topology

namespace NodeDescriptor

variable {d s : Nat}

/-- Second loop of the constructors of `hyEdge`: `node_descriptor/cubic.hxx` 69-77 and `node_descriptor/file.hxx` 69-77. -/
def eraseInterior (m : Mode) (T : Tpcc) (tpcc_ref_elem : Complex (d + 1) (d + 1)) (n_subintervals index : Nat)
    (types : FaceArr d) : Res (FaceArr d) := do
  let r ← umod index (Wrapper.n_elements T tpcc_ref_elem)
  let ref_elem ← Wrapper.get_element m T tpcc_ref_elem r
  forFin (2 * (d + 1)) (fun i (types : FaceArr d) => do
    let face ← Wrapper.get_face m ref_elem i
    let c ← Wrapper.exterior_coordinate m T face 0
    if c ≠ 0 ∧ c ≠ n_subintervals then return arrSet types i 0 else return types) types

/-- `NodeDescriptor::Cubic`: `node_descriptor/cubic.hxx` 107-124. -/
structure Cubic (d s : Nat) where
  n_elements : Fin s → Nat
  tpcc_elements : Complex s (d + 1)
  n_subintervals : Nat
  tpcc_ref_elem : Complex (d + 1) (d + 1)
  n_hyEdges : Nat

namespace Cubic

/-- Constructor from the numbers of elements: `node_descriptor/cubic.hxx` 140-151. -/
def mk' (T : Tpcc) (h : d + 1 ≤ s) (n_elements : Fin s → Nat) : Cubic d s :=
  let tpcc_elements : Complex s (d + 1) := Wrapper.create_tpcc h n_elements
  { n_elements := n_elements
    tpcc_elements := tpcc_elements
    n_subintervals := 1
    tpcc_ref_elem := Wrapper.create_tpcc (Nat.le_refl _) (fun _ => 1)
    n_hyEdges := Wrapper.n_elements T tpcc_elements }

/-- Constructor from a topology: `node_descriptor/cubic.hxx` 157-164. -/
def ofTopology (other : Topology.Cubic d s) : Cubic d s where
  n_elements := other.n_elements
  tpcc_elements := other.tpcc_elements
  n_subintervals := other.get_refinement
  tpcc_ref_elem := other.ref.tpcc_ref_elem
  n_hyEdges := other.n_hyEdges

/-- `set_refinement`: `node_descriptor/cubic.hxx` 201-208. -/
def set_refinement (T : Tpcc) (t : Cubic d s) (level : Nat) : Cubic d s :=
  let tpcc_ref_elem : Complex (d + 1) (d + 1) := Wrapper.create_tpcc (Nat.le_refl _) (fun _ => level)
  { t with
    n_subintervals := level
    tpcc_ref_elem := tpcc_ref_elem
    n_hyEdges := u32 (Wrapper.n_elements T t.tpcc_elements * Wrapper.n_elements T tpcc_ref_elem) }

/-- Type of a coarse face: `node_descriptor/cubic.hxx` 59-66.  `std::pow(3, direction)` and the sum are computed as a `double` (exact for
the values that fit an `unsigned int`), and the sum is converted to `unsigned int`, which is undefined if it does not fit. -/
def coarseType (m : Mode) (T : Tpcc) (n_elements : Fin s → Nat) (face : Elem s d) : Res Nat :=
  forUp (s - (d + 1) + 1) (fun dim type => do
    let coordinate ← Wrapper.exterior_coordinate m T face dim
    let direction ← Wrapper.exterior_direction m T face dim
    if coordinate = 0 ∨ coordinate = n_elements direction then
      let sum := type + (1 + (if coordinate ≠ 0 then 1 else 0)) * 3 ^ (direction : Nat)
      if sum < U32 then return sum else Res.ub
    else return type) 0

/-- `operator[](index).get_hyFace_types()`: `node_descriptor/cubic.hxx` 174-181, 52-78, 82. -/
def get_hyFace_types (m : Mode) (T : Tpcc) (t : Cubic d s) (index : Nat) : Res (FaceArr d) := do
  hyAssert m (index < t.n_hyEdges)
  let q ← udiv index (Wrapper.n_elements T t.tpcc_ref_elem)
  let elem ← Wrapper.get_element m T t.tpcc_elements q
  let types ← forFin (2 * (d + 1)) (fun i (types : FaceArr d) => do
    let face ← Wrapper.get_face m elem i
    let type ← coarseType m T t.n_elements face
    return arrSet types i type) (fun _ => 0)
  eraseInterior m T t.tpcc_ref_elem t.n_subintervals index types

end Cubic

/-- `NodeDescriptor::File`: `node_descriptor/file.hxx` 103-122.  `domain_info` is a reference to the member of a topology, which never changes. -/
structure File (d : Nat) where
  domain_info : DomainTopo d
  n_subintervals : Nat
  tpcc_ref_elem : Complex (d + 1) (d + 1)
  n_hyEdges : Nat

namespace File

/-- Constructor from a topology: `node_descriptor/file.hxx` 138-144. -/
def ofTopology (topology : Topology.File d) : File d where
  domain_info := topology.domain_info
  n_subintervals := topology.get_refinement
  tpcc_ref_elem := topology.ref.tpcc_ref_elem
  n_hyEdges := topology.n_hyEdges

/-- Copy constructor: `node_descriptor/file.hxx` 148-162.  (It names a member `other.domain_info` that does not exist, so it compiles only as
long as nobody uses it; modelled as if it were `other.domain_info_`.) -/
def copy (other : File d) : File d where
  domain_info := other.domain_info
  n_subintervals := 1
  tpcc_ref_elem := Wrapper.create_tpcc (Nat.le_refl _) (fun _ => 1)
  n_hyEdges := other.domain_info.n_hyEdges

/-- `set_refinement`: `node_descriptor/file.hxx` 186-193. -/
def set_refinement (T : Tpcc) (t : File d) (level : Nat) : File d :=
  let tpcc_ref_elem : Complex (d + 1) (d + 1) := Wrapper.create_tpcc (Nat.le_refl _) (fun _ => level)
  { t with
    n_subintervals := level
    tpcc_ref_elem := tpcc_ref_elem
    n_hyEdges := u32 (t.domain_info.n_hyEdges * Wrapper.n_elements T tpcc_ref_elem) }

/-- `operator[](index).get_hyFaces_types()`: `node_descriptor/file.hxx` 167-178, 63-78, 82. -/
def get_hyFace_types (m : Mode) (T : Tpcc) (t : File d) (index : Nat) : Res (FaceArr d) := do
  hyAssert m (index < u32 (t.domain_info.n_hyEdges * Wrapper.n_elements T t.tpcc_ref_elem))
  let q ← udiv index (Wrapper.n_elements T t.tpcc_ref_elem)
  let types ← vget t.domain_info.hyFaces_hyEdge q
  eraseInterior m T t.tpcc_ref_elem t.n_subintervals index types

end File

end NodeDescriptor

end HyperHDG

import Mathlib.Algebra.Order.Field.Basic
import Verif.Model.Lapack

/-!
# Model of `include/HyperHDG/mapping/linear.hxx`

`d + 1` is `hyEdge_dimT`, `s` is `space_dimT`, the floating point type is an ordered field `K` (exact arithmetic).  Not modelled: the default constructor
(66) and `map_physical_to_reference` (149-154), which nothing in the library calls.
-/

namespace HyperHDG

variable {d s : Nat} {K : Type}

/-- The routine `dgeqr2` of LAPACK (with `tau`), for matrices of each shape. -/
abbrev Geqr2All (K : Type) := ∀ r c : Nat, Geqr2 r c K

namespace Mapping

/-- `Linear`: `mapping/linear.hxx` 40-60. -/
structure Linear (d s : Nat) (K : Type) where
  translation : SmallVec s K
  matrix : SmallMat s (d + 1) K
  matrix_q : SmallMat s s K
  matrix_r : SmallMat (d + 1) (d + 1) K

namespace Linear

variable [Field K] [LinearOrder K]

/-- Constructor: `mapping/linear.hxx` 73-78.  `matrix_q_` and `matrix_r_` start with all entries zero. -/
def make (m : Mode) (geqr2 : Geqr2All K) (translation : SmallVec s K) (matrix : SmallMat s (d + 1) K) : Res (Linear d s K) := do
  let res ← qr_decomp m (geqr2 s (d + 1)) matrix (SmallMat.fill (d + 1) (d + 1) 0)
  return ⟨translation, matrix, res.mat_q, res.mat_r⟩

/-- `functional_determinant_hyEdge`: `mapping/linear.hxx` 93-99. -/
def functional_determinant_hyEdge (m : Mode) (L : Linear d s K) : Res K :=
  forUp (d + 1) (fun i determinant => do
    let x ← L.matrix_r.at' m i i
    return determinant * x) 1

/-- The loop `mapping/linear.hxx` 114-117 (and 185-188): the matrix of all columns but the one with number `index`.  `i - (i > index)` is the column
number `i` or `i - 1`. -/
def otherColumns {r : Nat} (m : Mode) (M : SmallMat r (d + 1) K) (index : Nat) : Res (SmallMat r d K) :=
  forUp (d + 1) (fun i (mat : SmallMat r d K) =>
    if i ≠ index then do
      let col ← M.get_column m i
      mat.set_column m (i - (if i > index then 1 else 0)) col
    else .ok mat) (SmallMat.fill r d 0)

/-- `functional_determinant_hyNode`: `mapping/linear.hxx` 108-120. -/
def functional_determinant_hyNode (m : Mode) (geqr2 : Geqr2All K) (L : Linear d s K) (index : Nat) : Res K :=
  if d + 1 = 1 then .ok 1
  else do
    let mat_face ← otherColumns m L.matrix index
    determinant (geqr2 s d) mat_face

/-- `matrix_column`: `mapping/linear.hxx` 126-129. -/
def matrix_column (m : Mode) (L : Linear d s K) (col : Nat) : Res (SmallVec s K) := L.matrix.get_column m col

/-- `map_reference_to_physical`: `mapping/linear.hxx` 137-142.  For a single point `operator+` adds entry by entry (`dense_la.hxx` 416-418), which is the
same as the addition of a column (419-422) used here for each number of points. -/
def map_reference_to_physical {n_vec : Nat} (m : Mode) (L : Linear d s K) (points : SmallMat (d + 1) n_vec K) : Res (SmallMat s n_vec K) := do
  let P ← L.matrix.mul m points
  P.add_col m L.translation

/-- `local_normal`: `mapping/linear.hxx` 172-198. -/
def local_normal (m : Mode) (geqr2 : Geqr2All K) (L : Linear d s K) (index : Nat) : Res (SmallVec (d + 1) K) := do
  hyAssert m (index < d + 1)
  if d + 1 = 1 then do
    let x ← L.matrix_r.at' m 0 0
    if x > 0 then return SmallMat.fill (d + 1) 1 (-1) else return SmallMat.fill (d + 1) 1 1
  else do
    let other_vectors ← otherColumns m L.matrix_r index
    let q ← qr_decomp_q m (geqr2 (d + 1) d) other_vectors
    let normal ← q.get_column m (d + 1 - 1)
    let col ← L.matrix_r.get_column m index
    let scalar_pdct ← SmallMat.scalar_product m normal col
    hyAssert m (scalar_pdct ≠ 0)
    if scalar_pdct > 0 then SmallMat.mul_scalar normal (-1) else return normal

/-- `inner_normal`: `mapping/linear.hxx` 209-235. -/
def inner_normal (m : Mode) (L : Linear d s K) (index : Nat) : Res (SmallVec s K) := do
  hyAssert m (index < d + 1)
  L.matrix_q.get_column m index

/-- `outer_normal`: `mapping/linear.hxx` 243-249. -/
def outer_normal (m : Mode) (L : Linear d s K) (index : Nat) : Res (SmallVec s K) := do
  hyAssert m (index < s - (d + 1))
  L.matrix_q.get_column m (index + (d + 1))

end Linear

end Mapping

end HyperHDG

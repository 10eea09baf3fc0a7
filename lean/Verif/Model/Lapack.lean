import Verif.Model.DenseLA
import Mathlib.Algebra.Ring.Defs

/-!
# Model of `include/HyperHDG/wrapper/lapack.hxx` and of the functions of `dense_la.hxx` which use it

The LAPACK routines themselves (`dgesv_`, `sgesv_`, `dgeqr2_`, `sgeqr2_`) are external; each is a parameter.  What LAPACK documents about them is
stated in `Verif/Spec/Lapack.lean`.
-/

namespace HyperHDG

variable {r c n k : Nat} {K : Type}

/-- `lapack_qr` (`wrapper/lapack.hxx` 335-343, 357-365): the matrix overwritten by `R` and the Householder vectors, and the array `tau`; an exception
if LAPACK reports an error. -/
abbrev Geqr2 (r c : Nat) (K : Type) := SmallMat r c K → Res (SmallMat r c K × (Fin (min r c) → K))

/-- `lapack_solve` (`wrapper/lapack.hxx` 291-299, 313-321): the factors and the solution which overwrite the matrix and the right-hand side. -/
abbrev Gesv (n k : Nat) (K : Type) := SmallMat n n K → SmallMat n k K → Res (SmallMat n n K × SmallMat n k K)

/-- `operator/(b, A)` for non-constant arguments: `dense_la.hxx` 1007-1012 with `wrapper/lapack.hxx` 380-387.  Returns the value, and what `b` and `A`
contain afterwards. -/
def solve_in_place (gesv : Gesv n k K) (b : SmallMat n k K) (A : SmallMat n n K) :
    Res (SmallMat n k K × SmallMat n k K × SmallMat n n K) := do
  let (lu, x) ← gesv A b
  return (x, x, lu)

/-- `operator/(b, A)` for constant arguments: `dense_la.hxx` 1016-1023. -/
def solve (gesv : Gesv n k K) (b : SmallMat n k K) (A : SmallMat n n K) : Res (SmallMat n k K) := do
  let (x, _, _) ← solve_in_place gesv b A
  return x

/-- `lapack_det`: `wrapper/lapack.hxx` 393-404; `determinant` (`dense_la.hxx` 1146-1164) calls it (the version for constant matrices with a copy). -/
def determinant [One K] [Mul K] [Neg K] (geqr2 : Geqr2 r c K) (A : SmallMat r c K) : Res K := do
  let (F, _) ← geqr2 A
  forUp (min r c) (fun i d => do
    let x ← F.get .release (i * (r + 1))
    return d * -x) 1

/-- The loop filling the Householder vector: `wrapper/lapack.hxx` 447-453. -/
def householderVec [Zero K] [One K] (m : Mode) (F : SmallMat r c K) (i : Nat) (vec : SmallVec r K) : Res (SmallVec r K) :=
  forUp r (fun j (vec : SmallVec r K) =>
    if j < i then vec.set m j 0
    else if j = i then vec.set m j 1
    else do
      let x ← F.get .release (i * r + j)
      vec.set m j x) vec

/-- `get_q_from_lapack_qr_result`: `wrapper/lapack.hxx` 436-458 (and 475-499, which stores the same matrix in its last argument). -/
def get_q [CommRing K] (m : Mode) (F : SmallMat r c K) (tau : Fin (min r c) → K) : Res (SmallMat r r K) := do
  let unity ← SmallMat.diagonal m r r (1 : K)
  let (matQ, _) ← forFin (min r c) (fun i (s : SmallMat r r K × SmallVec r K) => do
    let vec ← householderVec m F i s.2
    let d ← SmallMat.dyadic_product m vec vec
    let td ← d.mul_scalar (tau i)
    let h ← unity.sub_mat td
    let q ← s.1.mul m h
    return (q, vec)) (unity, SmallMat.fill r 1 0)
  return matQ

/-- `get_r_from_lapack_qr_result` in place: `wrapper/lapack.hxx` 516-525. -/
def get_r [Zero K] (F : SmallMat r c K) : Res (SmallMat r c K) :=
  forUp c (fun i M => forUp r (fun j (M : SmallMat r c K) =>
    if j > i then M.set .release (i * r + j) 0 else .ok M) M) F

/-- `get_r_from_lapack_qr_result` for the reduced matrix: `wrapper/lapack.hxx` 541-553.  The indices are those of the code: `i * n_rows + j` in the
assignment of zeros, `i * n_cols + j` in the other one. -/
def get_r_reduced [Zero K] (F : SmallMat r c K) (mat_r : SmallMat c c K) : Res (SmallMat c c K) :=
  forUp c (fun i M => forUp c (fun j (M : SmallMat c c K) =>
    if j > i then M.set .release (i * r + j) 0
    else do
      let x ← F.get .release (i * r + j)
      M.set .release (i * c + j) x) M) mat_r

/-- `qr_decomp_q`: `dense_la.hxx` 1034-1049 with `wrapper/lapack.hxx` 568-576. -/
def qr_decomp_q [CommRing K] (m : Mode) (geqr2 : Geqr2 r c K) (A : SmallMat r c K) : Res (SmallMat r r K) := do
  let (F, tau) ← geqr2 A
  get_q m F tau

/-- `factors[i] *= -1.`. -/
def flipSign [One K] [Mul K] [Neg K] (m : Mode) (i : Nat) (f : SmallVec r K) : Res (SmallVec r K) := do
  let x ← f.get m i
  f.set m i (x * -1)

/-- The start of the vector `factors`: `dense_la.hxx` 1071-1082. -/
def initFactors [One K] [Mul K] [Neg K] (m : Mode) (r c : Nat) : Res (SmallVec r K) :=
  if r % 2 = 1 then
    if c = r then flipSign m 0 (SmallMat.fill r 1 1) else flipSign m (r - 1) (SmallMat.fill r 1 1)
  else .ok (SmallMat.fill r 1 1)

/-- The signs: `dense_la.hxx` 1084-1096.  State: the vector `factors` and the flag `switch_necessary`. -/
def qrFactors [Zero K] [One K] [Mul K] [Neg K] [LT K] [DecidableLT K] (m : Mode) (r c : Nat) (mat_r : SmallMat c c K) :
    Res (SmallVec r K) := do
  let factors ← initFactors m r c
  let s ← forUp (c - 1) (fun i (s : SmallVec r K × Bool) => do
    let x ← mat_r.at' m (i + 1) (i + 1)
    if x < 0 then do
      let f ← flipSign m (i + 1) s.1
      return (f, !s.2)
    else return s) (factors, false)
  if s.2 then flipSign m 0 s.1 else .ok s.1

/-- The result of `qr_decomp`: the three arguments after the call. -/
structure QR (r c : Nat) (K : Type) where
  mat : SmallMat r c K
  mat_q : SmallMat r r K
  mat_r : SmallMat c c K

/-- `qr_decomp`: `dense_la.hxx` 1064-1108 with `lapack_qr_decomp` (`wrapper/lapack.hxx` 612-624).  `mat_r` is the value before the call (`mat_q` is
overwritten completely). -/
def qr_decomp [CommRing K] [LT K] [DecidableLT K] (m : Mode) (geqr2 : Geqr2 r c K) (mat : SmallMat r c K) (mat_r : SmallMat c c K) :
    Res (QR r c K) := do
  let (F, tau) ← geqr2 mat
  let mat_q ← get_q m F tau
  let mat_r ← get_r_reduced F mat_r
  let mat ← get_r F
  let factors ← qrFactors m r c mat_r
  let mat_q ← forUp r (fun i Q => do
    let f ← factors.get m i
    if f < 0 then forUp r (fun j (Q : SmallMat r r K) => do
      let f ← factors.get m i
      let x ← Q.at' m j i
      Q.setAt m j i (x * f)) Q
    else .ok Q) mat_q
  let mat_r ← forUp c (fun i R => do
    let f ← factors.get m i
    if f < 0 then forUp c (fun j (R : SmallMat c c K) => do
      let f ← factors.get m i
      let x ← R.at' m i j
      R.setAt m i j (x * f)) R
    else .ok R) mat_r
  return ⟨mat, mat_q, mat_r⟩

end HyperHDG

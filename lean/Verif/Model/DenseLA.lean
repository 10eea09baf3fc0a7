import Verif.Model.GlobalLoop

/-!
# Model of `include/HyperHDG/dense_la.hxx` (without the functions that call LAPACK)

A `SmallMat<n_rows, n_cols, mat_entry_t>` is the array `entries_` of size `n_rows * n_cols`.  Entries belong to an exact type.
-/

namespace HyperHDG

/-- `class SmallMat`: `dense_la.hxx` 33-73. -/
abbrev SmallMat (r c : Nat) (K : Type) := Fin (r * c) → K

/-- `SmallVec`: `dense_la.hxx` 980-981. -/
abbrev SmallVec (r : Nat) (K : Type) := SmallMat r 1 K

namespace SmallMat

variable {r c : Nat} {K : Type}

/-- `loc_matrix_index`: `dense_la.hxx` 88-97. -/
def loc_matrix_index (m : Mode) (r c row column : Nat) : Res Nat := do
  hyAssert m (row < r)
  hyAssert m (column < c)
  return column * r + row

/-- `operator[]` (read): `dense_la.hxx` 262-269. -/
def get (m : Mode) (M : SmallMat r c K) (index : Nat) : Res K := do
  hyAssert m (index < r * c)
  if h : index < r * c then return M ⟨index, h⟩ else Res.ub

/-- Assignment through `operator[]`: `dense_la.hxx` 276-283. -/
def set (m : Mode) (index : Nat) (v : K) (M : SmallMat r c K) : Res (SmallMat r c K) := do
  hyAssert m (index < r * c)
  if h : index < r * c then return arrSet M ⟨index, h⟩ v else Res.ub

/-- `operator()(row, column)` (read): `dense_la.hxx` 241-244. -/
def at' (m : Mode) (M : SmallMat r c K) (row column : Nat) : Res K := do
  let i ← loc_matrix_index m r c row column
  M.get m i

/-- Assignment through `operator()(row, column)`: `dense_la.hxx` 252-255. -/
def setAt (m : Mode) (row column : Nat) (v : K) (M : SmallMat r c K) : Res (SmallMat r c K) := do
  let i ← loc_matrix_index m r c row column
  M.set m i v

/-- `mat(row, column) += v`. -/
def addAt [Add K] (m : Mode) (row column : Nat) (v : K) (M : SmallMat r c K) : Res (SmallMat r c K) := do
  let x ← M.at' m row column
  M.setAt m row column (x + v)

/-- Constructor from a value: `dense_la.hxx` 115 (and 109 for the value 0). -/
def fill (r c : Nat) (v : K) : SmallMat r c K := fun _ => v

/-- Constructor from a `std::vector`: `dense_la.hxx` 136-141. -/
def ofVector [Zero K] (m : Mode) (r c : Nat) (entries : List K) : Res (SmallMat r c K) := do
  hyAssert m (entries.length = r * c)
  forFin (r * c) (fun i M => do
    let x ← vget entries i
    return arrSet M i x) (fill r c 0)

/-- Move assignment: `dense_la.hxx` 176-181.  Returns the new values of the left and the right operand. -/
def moveAssign (M N : SmallMat r c K) : SmallMat r c K × SmallMat r c K := (N, M)

/-- `get_column`: `dense_la.hxx` 215-222. -/
def get_column [Zero K] (m : Mode) (M : SmallMat r c K) (col : Nat) : Res (SmallVec r K) := do
  hyAssert m (col < c)
  forUp r (fun i (column : SmallVec r K) => do
    let x ← M.at' m i col
    set m i x column) (fill r 1 0)

/-- `set_column`: `dense_la.hxx` 229-233. -/
def set_column (m : Mode) (M : SmallMat r c K) (col : Nat) (col_vec : SmallVec r K) : Res (SmallMat r c K) :=
  forUp r (fun i (M : SmallMat r c K) => do
    let x ← col_vec.get m i
    M.setAt m i col x) M

/-- `operator==`: `dense_la.hxx` 299-305 (loop with early return). -/
def eq [DecidableEq K] (a b : SmallMat r c K) : Bool :=
  (List.finRange (r * c)).foldr (fun i rest => if a i ≠ b i then false else rest) true

/-- `operator!=`: `dense_la.hxx` 316-322. -/
def ne [DecidableEq K] (a b : SmallMat r c K) : Bool :=
  (List.finRange (r * c)).foldr (fun i rest => if a i ≠ b i then true else rest) false

/-- `operator<`: `dense_la.hxx` 334-342. -/
def lt [LT K] [DecidableLT K] (a b : SmallMat r c K) : Bool :=
  (List.finRange (r * c)).foldr (fun i rest => if a i < b i then true else if a i > b i then false else rest) false

/-- `operator+=(scalar)`: `dense_la.hxx` 354-359. -/
def add_scalar [Add K] (M : SmallMat r c K) (s : K) : Res (SmallMat r c K) :=
  forFin (r * c) (fun i M => .ok (arrSet M i (M i + s))) M

/-- `operator-=(scalar)`: `dense_la.hxx` 366-371. -/
def sub_scalar [Sub K] (M : SmallMat r c K) (s : K) : Res (SmallMat r c K) :=
  forFin (r * c) (fun i M => .ok (arrSet M i (M i - s))) M

/-- `operator*=(scalar)`: `dense_la.hxx` 378-383. -/
def mul_scalar [Mul K] (M : SmallMat r c K) (s : K) : Res (SmallMat r c K) :=
  forFin (r * c) (fun i M => .ok (arrSet M i (M i * s))) M

/-- `operator/=(scalar)`: `dense_la.hxx` 390-397. -/
def div_scalar [Div K] [Zero K] [DecidableEq K] (M : SmallMat r c K) (s : K) : Res (SmallMat r c K) :=
  if s = 0 then .throw .smallMatDivByZero
  else forFin (r * c) (fun i M => .ok (arrSet M i (M i / s))) M

/-- `operator+=(other)` with equal shape: `dense_la.hxx` 416-418. -/
def add_mat [Add K] (M other : SmallMat r c K) : Res (SmallMat r c K) :=
  forFin (r * c) (fun i M => .ok (arrSet M i (M i + other i))) M

/-- `operator+=(other)` with a column vector: `dense_la.hxx` 419-422. -/
def add_col [Add K] (m : Mode) (M : SmallMat r c K) (other : SmallVec r K) : Res (SmallMat r c K) :=
  forUp c (fun j M => forUp r (fun i (M : SmallMat r c K) => do
    let x ← other.get m i
    M.addAt m i j x) M) M

/-- `operator-=(other)` with equal shape: `dense_la.hxx` 439-441. -/
def sub_mat [Sub K] (M other : SmallMat r c K) : Res (SmallMat r c K) :=
  forFin (r * c) (fun i M => .ok (arrSet M i (M i - other i))) M

/-- `operator-=(other)` with a column vector: `dense_la.hxx` 442-445.  (`a -= x` is `a = a + (-x)` for exact numbers.) -/
def sub_col [Add K] [Neg K] (m : Mode) (M : SmallMat r c K) (other : SmallVec r K) : Res (SmallMat r c K) :=
  forUp c (fun j M => forUp r (fun i (M : SmallMat r c K) => do
    let x ← other.get m i
    M.addAt m i j (-x)) M) M

/-- `operator*=(other)` (entrywise): `dense_la.hxx` 455-461; `hada_prod` (665-671) applies it to a copy. -/
def hada_prod [Mul K] (M other : SmallMat r c K) : Res (SmallMat r c K) :=
  forFin (r * c) (fun i M => .ok (arrSet M i (M i * other i))) M

/-- `operator/=(other)` (entrywise): `dense_la.hxx` 468-478; `hada_divi` (675-681) applies it to a copy.  The value of the left operand after an
exception is not modelled. -/
def hada_divi [Div K] [Zero K] [DecidableEq K] (M other : SmallMat r c K) : Res (SmallMat r c K) :=
  forFin (r * c) (fun i M =>
    if other i = 0 then .throw .smallMatDivByZero else .ok (arrSet M i (M i / other i))) M

/-- `diagonal(diag_value)`: `dense_la.hxx` 499-507. -/
def diagonal [Zero K] (m : Mode) (r c : Nat) (v : K) : Res (SmallMat r c K) :=
  forUp (min r c) (fun i (M : SmallMat r c K) => M.setAt m i i v) (fill r c 0)

/-- `diagonal(diag)`: `dense_la.hxx` 514-523 (`n_vec ≤ min(n_rows, n_cols)` is a `static_assert`). -/
def diagonal_vec [Zero K] {n : Nat} (m : Mode) (r c : Nat) (diag : SmallVec n K) : Res (SmallMat r c K) :=
  forUp n (fun i (M : SmallMat r c K) => do
    let x ← diag.get m i
    M.setAt m i i x) (fill r c 0)

/-- `rep_mat`: `dense_la.hxx` 530-538. -/
def rep_mat [Zero K] (m : Mode) (c : Nat) (rep_vec : SmallVec r K) : Res (SmallMat r c K) :=
  forUp c (fun j M => forUp r (fun i (M : SmallMat r c K) => do
    let x ← rep_vec.get m i
    M.setAt m i j x) M) (fill r c 0)

/-- `cross_product`: `dense_la.hxx` 546-555. -/
def cross_product [Zero K] [Mul K] [Sub K] (m : Mode) (left right : SmallVec 3 K) : Res (SmallVec 3 K) := do
  let l0 ← left.get m 0
  let l1 ← left.get m 1
  let l2 ← left.get m 2
  let r0 ← right.get m 0
  let r1 ← right.get m 1
  let r2 ← right.get m 2
  let p ← set m 0 (l1 * r2 - l2 * r1) (fill 3 1 0)
  let p ← p.set m 1 (l2 * r0 - l0 * r2)
  p.set m 2 (l0 * r1 - l1 * r0)

/-- `dyadic_product`: `dense_la.hxx` 563-572. -/
def dyadic_product [Zero K] [Mul K] (m : Mode) (left : SmallVec r K) (right : SmallVec c K) : Res (SmallMat r c K) :=
  forUp c (fun j M => forUp r (fun i (M : SmallMat r c K) => do
    let x ← left.get m i
    let y ← right.get m j
    M.setAt m i j (x * y)) M) (fill r c 0)

/-- `transposed`: `dense_la.hxx` 579-587. -/
def transposed [Zero K] (m : Mode) (mat : SmallMat r c K) : Res (SmallMat c r K) :=
  forUp c (fun j M => forUp r (fun i (M : SmallMat c r K) => do
    let x ← mat.at' m i j
    M.setAt m j i x) M) (fill c r 0)

/-- `scalar_product`: `dense_la.hxx` 596-604. -/
def scalar_product [Zero K] [Add K] [Mul K] (m : Mode) (left right : SmallMat r c K) : Res K :=
  forUp (r * c) (fun i s => do
    let x ← left.get m i
    let y ← right.get m i
    return s + x * y) 0

/-- `operator-(left, right)` where `left` is a column and `right` has several columns: `dense_la.hxx` 654-660. -/
def col_sub [Zero K] [Sub K] (m : Mode) (left : SmallVec r K) (right : SmallMat r c K) : Res (SmallMat r c K) :=
  forUp c (fun i (D : SmallMat r c K) => do
    let col ← right.get_column m i
    let d ← sub_mat left col
    D.set_column m i d) (fill r c 0)

/-- `operator*(A, B)`: `dense_la.hxx` 690-700. -/
def mul {k : Nat} [Zero K] [Add K] [Mul K] (m : Mode) (A : SmallMat r k K) (B : SmallMat k c K) : Res (SmallMat r c K) :=
  forUp c (fun colB M => forUp k (fun colA M => forUp r (fun rowA (M : SmallMat r c K) => do
    let x ← A.at' m rowA colA
    let y ← B.at' m colA colB
    M.addAt m rowA colB (x * y)) M) M) (fill r c 0)

/-- `mat_times_mat_unfit`: `dense_la.hxx` 704-720. -/
def mul_unfit {ca rb : Nat} [Zero K] [Add K] [Mul K] (m : Mode) (A : SmallMat r ca K) (B : SmallMat rb c K) :
    Res (SmallMat r c K) :=
  forUp c (fun colB M => forUp (min ca rb) (fun colA M => forUp r (fun rowA (M : SmallMat r c K) => do
    let x ← A.at' m rowA colA
    let y ← B.at' m colA colB
    M.addAt m rowA colB (x * y)) M) M) (fill r c 0)

/-- `transposed_mat_times_mat`: `dense_la.hxx` 724-735. -/
def transposed_mul {ra ca cb : Nat} [Zero K] [Add K] [Mul K] (m : Mode) (A : SmallMat ra ca K) (B : SmallMat ra cb K) :
    Res (SmallMat ca cb K) :=
  forUp cb (fun colB M => forUp ca (fun colA M => forUp ra (fun rowA (M : SmallMat ca cb K) => do
    let x ← A.at' m rowA colA
    let y ← B.at' m rowA colB
    M.addAt m colA colB (x * y)) M) M) (fill ca cb 0)

/-- `mat_times_transposed_mat`: `dense_la.hxx` 739-750.  The local variable `result` has type `SmallMat<n_colsA, n_rowsB>`, the return
type is `SmallMat<n_rowsA, n_rowsB>`, so that only instances with `n_rowsA == n_colsA` compile; therefore one number `n` for both. -/
def mul_transposed {n rb : Nat} [Zero K] [Add K] [Mul K] (m : Mode) (A : SmallMat n n K) (B : SmallMat rb n K) :
    Res (SmallMat n rb K) :=
  forUp rb (fun rowB M => forUp n (fun colA M => forUp n (fun rowA (M : SmallMat n rb K) => do
    let x ← A.at' m rowA colA
    let y ← B.at' m rowB rowA
    M.addAt m colA rowB (x * y)) M) M) (fill n rb 0)

/-- `operator-(scalar, mat)`: `dense_la.hxx` 780-787. -/
def scalar_sub [Sub K] (s : K) (M : SmallMat r c K) : Res (SmallMat r c K) :=
  forFin (r * c) (fun i D => .ok (arrSet D i (s - M i))) M

/-- `operator/(scalar, mat)`: `dense_la.hxx` 822-833. -/
def scalar_div [Div K] [Zero K] [DecidableEq K] (s : K) (M : SmallMat r c K) : Res (SmallMat r c K) :=
  forFin (r * c) (fun i D =>
    if M i = 0 then .throw .smallMatDivByZero else .ok (arrSet D i (s / M i))) M

/-- `norm_1` of a matrix with more than one column: `dense_la.hxx` 864-873.  `std::abs` is a parameter. -/
def norm_1 [Zero K] [Add K] [LT K] [DecidableLT K] (abs : K → K) (m : Mode) (M : SmallMat r c K) : Res K :=
  forUp c (fun col max_norms => do
    let norm ← forUp r (fun row norm => do
      let x ← M.at' m row col
      return norm + abs x) 0
    return if norm > max_norms then norm else max_norms) 0

/-- `norm_infty` of a matrix with more than one column: `dense_la.hxx` 900-909. -/
def norm_infty [Zero K] [Add K] [LT K] [DecidableLT K] (abs : K → K) (m : Mode) (M : SmallMat r c K) : Res K :=
  forUp r (fun row max_norms => do
    let norm ← forUp c (fun col norm => do
      let x ← M.at' m row col
      return norm + abs x) 0
    return if norm > max_norms then norm else max_norms) 0

/-- `norm_1` of a vector: `dense_la.hxx` 855-861. -/
def norm_1_vec [Zero K] [Add K] (abs : K → K) (m : Mode) (v : SmallVec r K) : Res K :=
  forUp r (fun i norm => do
    let x ← v.get m i
    return norm + abs x) 0

/-- `norm_infty` of a vector: `dense_la.hxx` 891-897. -/
def norm_infty_vec [LT K] [DecidableLT K] (abs : K → K) (m : Mode) (v : SmallVec r K) : Res K := do
  let x0 ← v.get m 0
  forUp (r - 1) (fun i norm => do
    let x ← v.get m (i + 1)
    return if norm < abs x then abs x else norm) (abs x0)

/-- `norm_2` of a vector: `dense_la.hxx` 879-884. -/
def norm_2 [Zero K] [Add K] [Mul K] (sqrt : K → K) (m : Mode) (v : SmallVec r K) : Res K := do
  let p ← scalar_product m v v
  return sqrt p

/-- `entries_product`: `dense_la.hxx` 927-934. -/
def entries_product [One K] [Mul K] (m : Mode) (M : SmallMat r c K) : Res K :=
  forUp (r * c) (fun i p => do
    let x ← M.get m i
    return p * x) 1

end SmallMat
end HyperHDG

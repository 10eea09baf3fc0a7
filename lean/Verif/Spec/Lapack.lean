import Verif.Spec.Dense
import Verif.Model.Lapack
import Mathlib.LinearAlgebra.Matrix.NonsingularInverse
import Mathlib.Data.Matrix.Mul
import Mathlib.Algebra.BigOperators.Fin

/-!
# What LAPACK documents about its routines

These predicates are the hypotheses under which the properties of the functions calling LAPACK are proved; they are the only assumptions about LAPACK.
-/

namespace HyperHDG

variable {r c n k : Nat} {K : Type}

/-- `dgesv`: "computes the solution to a real system of linear equations A * X = B"; info > 0 (here: an exception) if a factor is exactly singular. -/
structure GesvSpec [CommRing K] (gesv : Gesv n k K) : Prop where
  regular : ∀ (A : SmallMat n n K) (B : SmallMat n k K) (a : Matrix (Fin n) (Fin n) K) (b : Matrix (Fin n) (Fin k) K),
    Represents A a → Represents B b → IsUnit a → ∃ LU X x, gesv A B = .ok (LU, X) ∧ Represents X x ∧ a * x = b
  singular : ∀ (A : SmallMat n n K) (B : SmallMat n k K) (a : Matrix (Fin n) (Fin n) K),
    Represents A a → ¬ IsUnit a → gesv A B = .throw .lapack

/-- Householder vector number `i` stored by `dgeqr2` in the strictly lower part of `f`: "v(1:i-1) = 0 and v(i) = 1; v(i+1:m) is stored on exit in
A(i+1:m,i)". -/
def hhVec [Zero K] [One K] (f : Matrix (Fin r) (Fin c) K) (i : Fin (min r c)) : Fin r → K := fun j =>
  if j.1 < i.1 then 0 else if j.1 = i.1 then 1 else f j (i.castLE (Nat.min_le_right _ _))

/-- "H(i) = I - tau * v * v'". -/
def hhReflector [CommRing K] (f : Matrix (Fin r) (Fin c) K) (tau : Fin (min r c) → K) (i : Fin (min r c)) : Matrix (Fin r) (Fin r) K :=
  1 - tau i • Matrix.vecMulVec (hhVec f i) (hhVec f i)

/-- "Q = H(1) H(2) . . . H(k), where k = min(m,n)." -/
def hhQ [CommRing K] (f : Matrix (Fin r) (Fin c) K) (tau : Fin (min r c) → K) : Matrix (Fin r) (Fin r) K :=
  (List.ofFn (hhReflector f tau)).prod

/-- "On exit, the elements on and above the diagonal of the array contain the min(m,n) by n upper trapezoidal matrix R." -/
def hhR [Zero K] (f : Matrix (Fin r) (Fin c) K) : Matrix (Fin r) (Fin c) K := Matrix.of fun i j => if i.1 ≤ j.1 then f i j else 0

/-- The result `f`, `tau` of `dgeqr2` for the matrix `a`: `a = Q R`, and (`dlarfg`) each reflector is either the identity (`tau = 0`) or a reflection (`tau
|v|^2 = 2`). -/
structure IsHouseholderQR [CommRing K] (a f : Matrix (Fin r) (Fin c) K) (tau : Fin (min r c) → K) : Prop where
  reflection : ∀ i, tau i = 0 ∨ tau i * ∑ j, hhVec f i j * hhVec f i j = 2
  product : hhQ f tau * hhR f = a

/-- What happens for the last reflector of a square matrix, a vector of length one: `dlarfg` "If the elements of x are all zero, then tau = 0 and H is
taken to be the unit matrix". -/
def LastTrivial [Zero K] (tau : Fin (min r c) → K) : Prop := ∀ i, i.1 + 1 = r → tau i = 0

/-- Number of reflectors different from the identity. -/
noncomputable def nReflections [Zero K] (tau : Fin (min r c) → K) : Nat := by
  classical exact (Finset.univ.filter (fun i => tau i ≠ 0)).card

end HyperHDG

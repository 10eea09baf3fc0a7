import Verif.Model.EigenvalueProgram
import Mathlib.Algebra.Order.Ring.Abs
import Mathlib.Algebra.BigOperators.Group.List.Basic

/-!
# Specification: eigenpairs and the eigenvalue solver
-/

namespace HyperHDG.EigenvalueProgram

variable {K : Type}

/-- `v`, of length `n` and not zero, satisfies `A v = val M v`. -/
def Eigenpair [Zero K] [Mul K] (n : Nat) (A M : List K → Res (List K)) (val : K) (v : List K) : Prop :=
  v.length = n ∧ (∃ a ∈ v, a ≠ 0) ∧ ∃ a b, A v = .ok a ∧ M v = .ok b ∧ a = b.map fun x => val * x

/-- If `OPinv b` returns, then the solution `y` of `(A - sigma M) y = b`. -/
def Inverts [Mul K] [Sub K] (n : Nat) (A M OPinv : List K → Res (List K)) (sigma : K) : Prop :=
  ∀ b y, b.length = n → OPinv b = .ok y → y.length = n ∧ ∃ s t, A y = .ok s ∧ M y = .ok t ∧ List.zipWith (fun s t => s - sigma * t) s t = b

/-- The product of two vectors. -/
def dot [Zero K] [Add K] [Mul K] (v w : List K) : K := (List.zipWith (fun x y => x * y) v w).sum

/-- The operator is symmetric. -/
def Symmetric [Zero K] [Add K] [Mul K] (n : Nat) (A : List K → Res (List K)) : Prop :=
  ∀ v w a b, v.length = n → w.length = n → A v = .ok a → A w = .ok b → dot w a = dot v b

/-- The operator is positive semidefinite. -/
def Semidefinite [Zero K] [Add K] [Mul K] [LE K] (n : Nat) (M : List K → Res (List K)) : Prop :=
  ∀ v b, v.length = n → M v = .ok b → 0 ≤ dot v b

/-- What is assumed of the eigenvalue solver, in exact arithmetic: given a correct inverse it returns eigenpairs only. -/
def ExactEigsh [Zero K] [Mul K] [Sub K] (eigsh : Eigsh K) : Prop :=
  ∀ n A M OPinv sigma pairs, Inverts n A M OPinv sigma → eigsh n A M OPinv sigma = .ok pairs → ∀ p ∈ pairs, Eigenpair n A M p.1 p.2

/-- With `k=1`, and for symmetric operators with semidefinite `M`, the eigenvalue returned is one next to `sigma`. -/
def NearestEigsh [Ring K] [LinearOrder K] (eigsh : Eigsh K) : Prop :=
  ∀ n A M OPinv sigma pairs, Inverts n A M OPinv sigma → Symmetric n A → Symmetric n M → Semidefinite n M → eigsh n A M OPinv sigma = .ok pairs →
    ∀ p ∈ pairs, ∀ val v, Eigenpair n A M val v → |p.1 - sigma| ≤ |val - sigma|

/-- For such operators it returns an eigenpair if all functions it is given return and there is an eigenpair next to `sigma`. -/
def CompleteEigsh [Ring K] [LinearOrder K] (eigsh : Eigsh K) : Prop :=
  ∀ n A M OPinv sigma, Inverts n A M OPinv sigma → Symmetric n A → Symmetric n M → Semidefinite n M →
    (∀ v : List K, v.length = n → (∃ a, A v = .ok a) ∧ (∃ a, M v = .ok a) ∧ ∃ a, OPinv v = .ok a) →
    (∃ val v, Eigenpair n A M val v ∧ ∀ val' v', Eigenpair n A M val' v' → |val - sigma| ≤ |val' - sigma|) → ∃ p l, eigsh n A M OPinv sigma = .ok (p :: l)

/-- `x`, not zero, vanishes at the indices `d` and satisfies `A x + val B x = 0` in all other rows. -/
def IsEigenvector [Zero K] [Add K] [Mul K] {n : Nat} (d : List Nat) (A B : (Fin n → K) → Fin n → K) (val : K) (x : Fin n → K) : Prop :=
  x ≠ 0 ∧ (∀ k : Fin n, k.1 ∈ d → x k = 0) ∧ ∀ k : Fin n, k.1 ∉ d → A x k + val * B x k = 0

end HyperHDG.EigenvalueProgram

import Verif.Model.ParabolicProgram
import Mathlib.Algebra.Order.Field.Basic
import Mathlib.Algebra.BigOperators.Group.List.Basic

/-!
# Specification: linear solvers with a tolerance
-/

namespace HyperHDG.EllipticPython

open ParabolicProgram (LinearSolver)

variable {K : Type} [Field K] [LinearOrder K]

/-- Square of the Euclidean norm. -/
def normSq (v : List K) : K := (v.map fun x => x ^ 2).sum

/-- What is assumed of a linear solver of SciPy called with tolerance `tol`, in exact arithmetic: if it claims success, the norm of the residual of its vector is at most `tol` times the norm of the right-hand
side.  Moreover its vector vanishes wherever the right-hand side and all results of the product vanish (the solvers start with the zero vector and add right-hand sides and results of the product only). -/
def Accurate (tol : K) (s : LinearSolver K) : Prop := ∀ (A : List K → Res (List K)) (b x : List K), s A b = .ok (x, 0) →
  x.length = b.length ∧ (∃ y, A x = .ok y ∧ y.length = b.length ∧ normSq (List.zipWith (fun r s => r - s) b y) ≤ tol ^ 2 * normSq b) ∧
  ∀ i : Nat, b[i]? = some 0 → (∀ y z, y.length = b.length → A y = .ok z → z[i]? = some 0) → x[i]? = some 0

omit [Field K] [LinearOrder K] in
/-- A solver uses the product only for vectors of the length of the right-hand side. -/
def Local (s : LinearSolver K) : Prop := ∀ (A A' : List K → Res (List K)) (b : List K), (∀ x, x.length = b.length → A x = A' x) → s A b = s A' b

end HyperHDG.EllipticPython

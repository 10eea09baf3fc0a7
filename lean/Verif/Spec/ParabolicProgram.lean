import Verif.Model.ParabolicProgram

/-!
# Specification: linear solvers and time stepping
-/

namespace HyperHDG.ParabolicProgram

variable {K D : Type}

/-- `x` solves the linear system `A x = b`, in exact arithmetic, and it vanishes wherever the right-hand side and all results of `A` vanish (the solvers start with the zero vector and add right-hand sides and
results of `A` only). -/
def Solution [Zero K] (A : List K → Res (List K)) (b x : List K) : Prop :=
  A x = .ok b ∧ x.length = b.length ∧ ∀ i : Nat, b[i]? = some 0 → (∀ y z, y.length = b.length → A y = .ok z → z[i]? = some 0) → x[i]? = some 0

/-- What is assumed of a linear solver: if it claims success its vector is a solution. -/
def Exact [Zero K] (s : LinearSolver K) : Prop := ∀ (A : List K → Res (List K)) (b x : List K), s A b = .ok (x, 0) → Solution A b x

/-- It succeeds if there is a solution. -/
def Complete [Zero K] (s : LinearSolver K) : Prop := ∀ (A : List K → Res (List K)) (b x : List K), Solution A b x → ∃ y, s A b = .ok (y, 0)

/-- It passes on exceptions of the product with the matrix, but has none of its own. -/
def Total (s : LinearSolver K) : Prop := ∀ (A : List K → Res (List K)) (b : List K), (∀ y : List K, y.length = b.length → ∃ z, A y = .ok z) → ∃ r, s A b = .ok r

end HyperHDG.ParabolicProgram

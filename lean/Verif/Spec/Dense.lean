import Verif.Model.DenseLA
import Mathlib.Data.Matrix.Basic

/-!
# Specification: dense matrices

What a `SmallMat` stands for is what its public element access returns.
-/

namespace HyperHDG

/-- `M` stands for the mathematical matrix `A`: for each row and column `M(i, j)` returns `A i j`. -/
def Represents {r c : Nat} {K : Type} (M : SmallMat r c K) (A : Matrix (Fin r) (Fin c) K) : Prop :=
  ∀ (m : Mode) (i : Fin r) (j : Fin c), M.at' m i j = .ok (A i j)

/-- A call returns a `SmallMat` standing for `A`. -/
def Returns {r c : Nat} {K : Type} (x : Res (SmallMat r c K)) (A : Matrix (Fin r) (Fin c) K) : Prop :=
  ∃ M, x = .ok M ∧ Represents M A

end HyperHDG

import Mathlib.Algebra.BigOperators.Group.Finset.Basic
import Mathlib.Data.Fintype.BigOperators
import Mathlib.Algebra.BigOperators.Group.List.Basic

/-!
# Specification of the global operators

Independent of the model: a hypergraph is a map `nodes` that tells for each hyperedge `e` and each of its
faces `i` the hypernode; hypernode `v` owns the dofs `v * n, ..., v * n + n - 1`.
-/

namespace HyperHDG.Spec

open Finset

variable {E N F n : Nat} {K : Type}

/-- The `j`-th dof of hypernode `v`. -/
def dof (v : Fin N) (j : Fin n) : Fin (N * n) :=
  ⟨v * n + j, by
    have h1 := v.2; have h2 := j.2
    have : (v + 1) * n ≤ N * n := Nat.mul_le_mul_right _ h1
    rw [Nat.add_mul] at this; omega⟩

/-- The values of the global vector `x` on the faces of hyperedge `e`. -/
def faceValues (nodes : Fin E → Fin F → Fin N) (x : Fin (N * n) → K) (e : Fin E) :
    Fin F → Fin n → K :=
  fun i j => x (dof (nodes e i) j)

/-- The sum of all local contributions `y e i j` to the dof `k`. -/
def assemble [AddCommMonoid K] (nodes : Fin E → Fin F → Fin N) (y : Fin E → Fin F → Fin n → K)
    (k : Fin (N * n)) : K :=
  ∑ e, ∑ i, ∑ j, if dof (nodes e i) j = k then y e i j else 0

/-- Entry `k` of the product of a matrix, given by its triplets (row, column, value) with repetitions summed up,
with a vector `x`. -/
def tripletProduct [AddCommMonoid K] [Mul K] (rows cols : List Nat) (vals : List K) (x : Nat → K)
    (k : Nat) : K :=
  ((rows.zip (cols.zip vals)).map (fun t => if t.1 = k then t.2.2 * x t.2.1 else 0)).sum

end HyperHDG.Spec

import Verif.Spec.Assembly
import Mathlib.Logic.Equiv.Defs

/-!
# Specification: the same hypergraph with other numbers

Hyperedges and hypernodes carry numbers: the positions of the lines in a file, the numbers of points in it.  `sigma` gives for each new number of a hyperedge the old one, `pi` for each old number of a hypernode the
new one.
-/

namespace HyperHDG.Spec

variable {E N E' N' F n : Nat} {K : Type}

/-- The second hypergraph is the first one with other numbers of its hyperedges and hypernodes. -/
def Renumbered (nodes : Fin E → Fin F → Fin N) (nodes' : Fin E' → Fin F → Fin N') (sigma : Fin E' ≃ Fin E) (pi : Fin N ≃ Fin N') : Prop :=
  ∀ e f, nodes' e f = pi (nodes (sigma e) f)

/-- The vector `x'` has the same values at the hypernodes as `x`, under their new numbers. -/
def SameValues (pi : Fin N ≃ Fin N') (x : Fin (N * n) → K) (x' : Fin (N' * n) → K) : Prop :=
  ∀ v j, x' (dof (pi v) j) = x (dof v j)

end HyperHDG.Spec

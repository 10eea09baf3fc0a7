import Verif.Spec.Parabolic

/-!
# Specification: time-independent problems
-/

namespace HyperHDG.DiffusionParab

open Spec Diffusion

variable {dim nS : Nat} {K : Type}

/-- The data of a hyperedge (diffusion coefficient, source, Dirichlet values) do not depend on the time.  Nothing is said about the initial values. -/
structure Steady [CommRing K] (E : Edge dim nS K) (nB : Nat) : Prop where
  form : ∀ t t', form E.toEdge nB t = form E.toEdge nB t'
  source : ∀ t t', source E.toEdge t = source E.toEdge t'
  moments : ∀ t t', dirichletMoments E.toEdge t = dirichletMoments E.toEdge t'

/-- The square of the L2 distance, summed over the hyperedges, of the functions with coefficients `v e` and `w e`. -/
def distance [CommRing K] {n : Nat} (E : Nat → Edge dim nS K) (v w : Fin n → Fin nS → K) : K := ∑ e : Fin n, product (E e) (v e - w e) (v e - w e)

end HyperHDG.DiffusionParab

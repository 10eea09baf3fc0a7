import Verif.Spec.BilaplacianParab

/-!
# Specification: time-independent biharmonic problems
-/

namespace HyperHDG.BilaplacianParab

open Spec Bilaplacian

variable {dim nS : Nat} {K : Type}

/-- The data of a hyperedge (coefficient, source, prescribed values of `u` and of the Laplacian) do not depend on the time.  Nothing is said about the initial values. -/
structure Steady [CommRing K] (E : Edge dim nS K) : Prop where
  coupling : ∀ t t', coupling E.stat t = coupling E.stat t'
  source : ∀ t t', source E.stat t = source E.stat t'
  moments : ∀ t t', dirichletMoments E.stat t = dirichletMoments E.stat t'
  laplacian : ∀ t t', laplacianMoments E.stat t = laplacianMoments E.stat t'

/-- The stationary problem with `c` times the source. -/
def scaleSource [CommRing K] (c : K) (E : Bilaplacian.Edge dim nS K) : Bilaplacian.Edge dim nS K := { E with vol_phifunc := fun t i => c * E.vol_phifunc t i }

/-- The square of the L2 distance, summed over the hyperedges, of the functions with coefficients `v e` and `w e`. -/
def distance [CommRing K] {n : Nat} (E : Nat → Edge dim nS K) (v w : Fin n → Fin nS → K) : K := ∑ e : Fin n, product (E e) (v e - w e) (v e - w e)

end HyperHDG.BilaplacianParab

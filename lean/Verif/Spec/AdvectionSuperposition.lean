import Verif.Spec.AdvectionParab

/-!
# Specification: superposition for the advection problem
-/

namespace HyperHDG.AdvectionParab

variable {K : Type} {dim nS : Nat}

/-- The same hyperedge, velocity and types of faces, with another source, other Dirichlet data, another initial value (and another function to compare with). -/
def Edge.withData (E : Edge dim nS K) (source : K → Nat → K) (dirichlet : K → Nat → Nat → K) (initial : K → Nat → K) (initial_faces : K → Nat → Nat → K)
    (diffsquare : K → (Fin nS → K) → K) : Edge dim nS K :=
  { E with vol_phifunc := source, bdr_dirichlet := dirichlet, volUni_initial := initial, bdrUni_initial := initial_faces, vol_diffsquare := diffsquare }

/-- `E₂` and `E` are `E₁` with other data, and the data of `E` are `a` times those of `E₁` plus `b` times those of `E₂`. -/
structure Superposed [CommRing K] [LinearOrder K] (a b : K) (E₁ E₂ E : Edge dim nS K) (nB : Nat) (t0 : K) : Prop where
  same₂ : ∃ s d i l q, E₂ = E₁.withData s d i l q
  same : ∃ s d i l q, E = E₁.withData s d i l q
  source : ∀ (time : K) (i : Fin nS), E.vol_phifunc time i = a * E₁.vol_phifunc time i + b * E₂.vol_phifunc time i
  dirichlet : ∀ (time : K) (f : Fin (2 * dim)) (i : Fin nS), IsDirichlet E time f → E.bdr_dirichlet time i f = a * E₁.bdr_dirichlet time i f + b * E₂.bdr_dirichlet time i f
  initial : ∀ i : Fin nS, E.volUni_initial t0 i = a * E₁.volUni_initial t0 i + b * E₂.volUni_initial t0 i
  initial_faces : ∀ (f : Fin (2 * dim)) (j : Fin nB), E.bdrUni_initial t0 j f = a * E₁.bdrUni_initial t0 j f + b * E₂.bdrUni_initial t0 j f

end HyperHDG.AdvectionParab

import Verif.Spec.Parabolic
import Verif.Spec.Reciprocity

/-!
# Specification: superposition of initial values for the time-dependent diffusion problem
-/

namespace HyperHDG.DiffusionParab

variable {K : Type} {dim nS : Nat} [CommRing K]

/-- The initial value of `E` is `a` times that of `E₁` plus `b` times that of `E₂`: so are its integrals against the shape functions, their derivatives, their traces and the face shape functions. -/
structure InitialSuperposed (a b : K) (E₁ E₂ E : Edge dim nS K) (nB : Nat) (time : K) : Prop where
  volume : ∀ i : Fin nS, E.volUni_initial time i = a * E₁.volUni_initial time i + b * E₂.volUni_initial time i
  faces : ∀ (f : Fin (2 * dim)) (j : Fin nB), E.bdrUni_psifunc time j f = a * E₁.bdrUni_psifunc time j f + b * E₂.bdrUni_psifunc time j f
  derivatives : ∀ (d : Fin dim) (i : Fin nS), E.vol_derphi_initial time i d = a * E₁.vol_derphi_initial time i d + b * E₂.vol_derphi_initial time i d
  traces : ∀ (f : Fin (2 * dim)) (i : Fin nS), E.bdr_initial time i f = a * E₁.bdr_initial time i f + b * E₂.bdr_initial time i f

/-- Two hyperedges have the same normals. -/
def SameNormals (E E' : Edge dim nS K) : Prop := ∀ (f : Fin (2 * dim)) (d : Fin dim), E'.local_normal f d = E.local_normal f d

end HyperHDG.DiffusionParab

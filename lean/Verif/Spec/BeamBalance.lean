import Verif.Spec.Timoshenko

/-!
# Specification: balance of forces and moments in networks of beams
-/

namespace HyperHDG.Timoshenko

open Spec Matrix

variable {K : Type} {nS : Nat} [CommRing K]

/-- Displacement and rotation of the points `p0 + s t` of a beam (`s` its arc length, `t` its direction) in a rigid motion, `rigidMotion sign a r p0 + s (sign t x r, 0)`: the coefficients of their components in the frame of the beam.
`one`, `lin` are the coefficients of the functions 1 and `s`. -/
def rigidField (E : Edge nS K) (one lin : Fin nS → K) (sign : K) (a r p0 : Fin 3 → K) : Fin 6 → Fin nS → K := fun d =>
  inFrame (frame E) (rigidMotion sign a r p0) d • one + inFrame (frame E) (both (sign • (E.inner_normal 0 ⨯₃ r)) 0) d • lin

/-- The work which forces and moments at the end `f` of a beam, `q n + tau (u - trace)`, do in the displacement `v`.  `g f d` are the integrals of `trace_d phi_i`. -/
def endWork (E : Edge nS K) (tau : K) (g : Fin (2 * 1) → Fin 6 → Fin nS → K) (q u v : Fin 6 → Fin nS → K) (f : Fin (2 * 1)) : K :=
  ∑ d, v d ⬝ᵥ ((form E).bdr f *ᵥ ((form E).normal f 0 • q d + tau • u d) - tau • g f d)

/-- The work which the loads of a beam do in the displacement `v`. -/
def loadWork (E : Edge nS K) (v : Fin 6 → Fin nS → K) : K := ∑ d, v d ⬝ᵥ source E d

/-- The sum of the forces which act on a beam: the integral of the load, in space. -/
def totalForce (E : Edge nS K) (one : Fin nS → K) : Fin 3 → K := spatial E ![one ⬝ᵥ source E 0, one ⬝ᵥ source E 1, one ⬝ᵥ source E 2]

/-- The force at the end `f` of a beam, in space. -/
def endForce (E : Edge nS K) (one : Fin nS → K) (tau : K) (g : Fin (2 * 1) → Fin 6 → Fin nS → K) (q u : Fin 6 → Fin nS → K) (f : Fin (2 * 1)) : Fin 3 → K :=
  spatial E fun d => one ⬝ᵥ ((form E).bdr f *ᵥ ((form E).normal f 0 • q (d.castLE (by decide)) + tau • u (d.castLE (by decide))) - tau • g f (d.castLE (by decide)))

end HyperHDG.Timoshenko

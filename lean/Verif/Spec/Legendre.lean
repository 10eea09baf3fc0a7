import Verif.Spec.TensorIntegrator
import Mathlib.MeasureTheory.Integral.IntervalIntegral.IntegrationByParts
import Mathlib.Algebra.Polynomial.Derivative

/-!
# Orthonormal polynomials on the unit interval
-/

namespace HyperHDG.Spec

open Polynomial

/-- `P 0, ..., P p` are polynomials of degree at most `p`, orthonormal with respect to the integral over `[0, 1]` (for example the normalised
Legendre polynomials). -/
structure OrthonormalPolys (p : Nat) (P : Fin (p + 1) → ℝ[X]) : Prop where
  degree : ∀ i, (P i).natDegree ≤ p
  ortho : ∀ i j, ∫ x in (0 : ℝ)..1, (P i).eval x * (P j).eval x = if i = j then 1 else 0

/-- The integrals of these polynomials. -/
noncomputable def exactBasis {p : Nat} (P : Fin (p + 1) → ℝ[X]) : Basis1D (p + 1) ℝ where
  at0 i := if h : i < p + 1 then (P ⟨i, h⟩).eval 0 else 0
  at1 i := if h : i < p + 1 then (P ⟨i, h⟩).eval 1 else 0
  D i j := if h : i < p + 1 ∧ j < p + 1 then ∫ x in (0 : ℝ)..1, (P ⟨i, h.1⟩).derivative.eval x * (P ⟨j, h.2⟩).eval x else 0

end HyperHDG.Spec

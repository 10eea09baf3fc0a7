import Verif.Spec.Legendre
import Mathlib.MeasureTheory.Integral.Pi
import Mathlib.Algebra.MvPolynomial.Degrees
import Mathlib.Algebra.BigOperators.Fin

/-!
# Specification: functions on the reference cube

The reference cube of dimension `d` is `[0, 1]^d`; shape functions are products of polynomials of one variable.
-/

namespace HyperHDG.Spec

open Polynomial MeasureTheory

variable {p d : Nat}

/-- Shape function number `i`: the product of the one-dimensional ones whose numbers are the digits of `i`. -/
noncomputable def shape (P : Fin (p + 1) → ℝ[X]) (i : Fin ((p + 1) ^ d)) (x : Fin d → ℝ) : ℝ := ∏ k, (P (finFunctionFinEquiv.symm i k)).eval (x k)

/-- The function with coefficients `u`. -/
noncomputable def polyFun (P : Fin (p + 1) → ℝ[X]) (u : Fin ((p + 1) ^ d) → ℝ) (x : Fin d → ℝ) : ℝ := ∑ i, u i * shape P i x

/-- A polynomial whose degree in each variable is at most `p`. -/
def IsPoly (p : Nat) (f : (Fin d → ℝ) → ℝ) : Prop := ∃ F : MvPolynomial (Fin d) ℝ, (∀ k, F.degreeOf k ≤ p) ∧ ∀ x, f x = MvPolynomial.eval x F

/-- The integral over the reference cube. -/
noncomputable def cubeInt (f : (Fin d → ℝ) → ℝ) : ℝ := ∫ x in Set.univ.pi fun _ => Set.Icc 0 1, f x

/-- The point of the reference cube with coordinates `y` on face `f`. -/
def facePoint (f : Fin (2 * (d + 1))) (y : Fin d → ℝ) : Fin (d + 1) → ℝ := (axis f).insertNth (α := fun _ => ℝ) (if f.1 % 2 = 0 then 0 else 1) y

/-- `g` is the partial derivative of `f` with respect to the coordinate `a`. -/
def IsPartial (a : Fin d) (f g : (Fin d → ℝ) → ℝ) : Prop := ∀ x, HasDerivAt (fun r => f (Function.update x a r)) (g x) (x a)

end HyperHDG.Spec

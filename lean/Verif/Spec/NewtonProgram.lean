import Verif.Model.NewtonProgram
import Mathlib.Algebra.BigOperators.Fin
import Mathlib.Analysis.Calculus.ContDiff.Defs

/-!
# Specification: approximate eigenpairs, and the linear solvers of Newton's method
-/

namespace HyperHDG.NewtonProgram

open ParabolicProgram (LinearSolver)
open _root_.Topology

/-- The vector of the program for the trace `x` and the number `eig`. -/
def joined {n : Nat} (x : Fin n → ℝ) (eig : ℝ) : List ℝ := List.ofFn x ++ [eig]

/-- How far `x` is from a trace of norm one with the fluxes `y` being zero. -/
noncomputable def defect {n : Nat} (x y : Fin n → ℝ) : ℝ := √((∑ k, y k ^ 2) + ((∑ k, x k ^ 2) - 1) ^ 2)

/-- `trace_to_flux(x, eig)` returns the fluxes `y`.  (The last entry, which belongs to no hypernode, is not specified.) -/
def HasFlux (W : Wrapper) {n : Nat} (x : Fin n → ℝ) (eig : ℝ) (y : Fin n → ℝ) : Prop := ∃ last, W.trace_to_flux (joined x eig) eig = .ok (joined y last)

/-- `jacobian_of_trace_to_flux` at `(x_val, eig_val)` in direction `(x, eig)` returns `y`. -/
def HasJacobian (W : Wrapper) {n : Nat} (x_val : Fin n → ℝ) (eig_val : ℝ) (x : Fin n → ℝ) (eig : ℝ) (y : Fin n → ℝ) : Prop :=
  ∃ last, W.jacobian_of_trace_to_flux (joined x eig) eig (joined x_val eig_val) eig_val = .ok (joined y last)

/-- The vectors returned are as long as the arguments. -/
structure Lengths (W : Wrapper) : Prop where
  flux : ∀ v eig r, W.trace_to_flux v eig = .ok r → r.length = v.length
  jacobian : ∀ v eig v_val eig_val r, W.jacobian_of_trace_to_flux v eig v_val eig_val = .ok r → r.length = v.length
  initial : ∀ v r, W.make_initial v = .ok r → r.length = v.length

/-- The vectors a Krylov method can reach from the initial guess zero. -/
inductive Krylov (A : List ℝ → Res (List ℝ)) (b : List ℝ) : List ℝ → Prop
  | zero : Krylov A b (List.replicate b.length 0)
  | rhs : Krylov A b b
  | product {v w : List ℝ} : Krylov A b v → A v = .ok w → Krylov A b w
  | combination (c d : ℝ) {v w : List ℝ} : Krylov A b v → Krylov A b w → Krylov A b (List.zipWith (fun x y => c * x + d * y) v w)

/-- What is assumed of `gmres` and `bicgstab` where it is needed: the vector returned is a combination of the vectors the method has computed. -/
def KrylovSolver (s : ℝ → LinearSolver ℝ) : Prop := ∀ tol A b x, s tol A b = .ok (x, 0) → Krylov A b x

/-- For the right-hand side zero they return zero. -/
def ZeroSolver (s : ℝ → LinearSolver ℝ) : Prop := ∀ tol A k, s tol A (List.replicate k 0) = .ok (List.replicate k 0, 0)

/-- If they report success (0), the residual of the solution is at most the tolerance times the norm of the right-hand side.  (If the tolerance is not smaller than the norm of the right-hand side,
then SciPy may return zero.) -/
def AccurateSolver (s : ℝ → LinearSolver ℝ) : Prop :=
  ∀ tol A b x, 0 < norm b → tol < norm b → s tol A b = .ok (x, 0) → ∃ w, A x = .ok w ∧ norm (List.zipWith (fun a b => a - b) w b) ≤ tol * norm b

/-- Near `p`, a trace and a number, the fluxes are the continuously differentiable function `R`, and the Jacobian is its derivative. -/
structure SmoothAt (W : Wrapper) {n : Nat} (R : (Fin n → ℝ) × ℝ → Fin n → ℝ) (p : (Fin n → ℝ) × ℝ) : Prop where
  smooth : ContDiffAt ℝ 1 R p
  flux : ∀ᶠ q in 𝓝 p, HasFlux W q.1 q.2 (R q)
  jacobian : ∀ᶠ q in 𝓝 p, ∀ u : (Fin n → ℝ) × ℝ, HasJacobian W q.1 q.2 u.1 u.2 (fderiv ℝ R q u)

/-- A trace of norm one and a number for which the fluxes are zero, and which is simple: in no direction `u` which vanishes on `Z` and is orthogonal to the trace the derivative of the fluxes is zero. -/
structure SimplePair (W : Wrapper) {n : Nat} (Z : Fin n → Prop) (p : (Fin n → ℝ) × ℝ) : Prop where
  zero : HasFlux W p.1 p.2 0
  norm : ∑ k, p.1 k ^ 2 = 1
  simple : ∀ u : (Fin n → ℝ) × ℝ, (∀ k, Z k → u.1 k = 0) → HasJacobian W p.1 p.2 u.1 u.2 0 → ∑ k, p.1 k * u.1 k = 0 → u = 0

end HyperHDG.NewtonProgram

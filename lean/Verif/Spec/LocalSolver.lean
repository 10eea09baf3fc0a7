import Verif.Model.LocalSolver
import Mathlib.Algebra.BigOperators.Fin
import Mathlib.Algebra.Order.Field.Basic

/-!
# Specification: the local problem of the LDG-H method

A hyperedge is the reference cube of dimension `dim`; face `f` is orthogonal to the axis `f / 2` and its outer normal is the negative unit vector if `f` is
even, the positive unit vector if `f` is odd.  `q d j` are the coefficients of the `d`-th component of the flux, `u j` those of the primal
unknown with respect to the bulk shape functions; `lambda f j` those of the trace on face `f`.
-/

namespace HyperHDG.Spec

open Finset

variable {K : Type} {dim nS nB : Nat}

/-- The axis a face is orthogonal to. -/
def axis (f : Fin (2 * dim)) : Fin dim := ⟨f / 2, by omega⟩

/-- The component of the outer normal of a face in direction of its axis. -/
def normal [Ring K] (f : Fin (2 * dim)) : K := if f.1 % 2 = 0 then -1 else 1

/-- `q`, `u` solve the local problem for the trace `lambda`: for each test function `phi_i`

* `(q_d, phi_i) - (u, d_d phi_i) + <lambda, phi_i normal>` over the faces orthogonal to `d` vanishes,
* `- sum_d (q_d, d_d phi_i) + <q . normal + tau (u - lambda), phi_i>` over all faces vanishes. -/
structure IsLocalSolution [CommRing K] (I : Integrator K) (tau : K) (lambda : Fin (2 * dim) → Fin nB → K) (q : Fin dim → Fin nS → K)
    (u : Fin nS → K) : Prop where
  flux : ∀ (d : Fin dim) (i : Fin nS),
    (∑ j : Fin nS, I.vol_phiphi i j * q d j) - (∑ j : Fin nS, I.vol_Dphiphi i j d * u j) +
      (∑ f : Fin (2 * dim), if axis f = d then ∑ j : Fin nB, normal f * (I.bdr_phipsi i j f * lambda f j) else 0) = 0
  primal : ∀ i : Fin nS,
    -(∑ d : Fin dim, ∑ j : Fin nS, I.vol_Dphiphi i j d * q d j) +
      (∑ f : Fin (2 * dim), ((∑ j : Fin nS, I.bdr_phiphi i j f * (normal f * q (axis f) j + tau * u j)) -
        ∑ j : Fin nB, tau * (I.bdr_phipsi i j f * lambda f j))) = 0

/-- The numerical flux `q . normal + tau (u - lambda)` on the faces, tested by the (orthonormal) shape functions of the faces. -/
def numericalFlux [CommRing K] (I : Integrator K) (tau : K) (lambda : Fin (2 * dim) → Fin nB → K) (q : Fin dim → Fin nS → K)
    (u : Fin nS → K) : Fin (2 * dim) → Fin nB → K := fun f j =>
  (∑ i : Fin nS, I.bdr_phipsi i j f * (normal f * q (axis f) i + tau * u i)) - tau * lambda f j

/-- The local problem has one solution for each trace. -/
def LocallySolvable [CommRing K] (I : Integrator K) (dim nS nB : Nat) (tau : K) : Prop :=
  ∀ lambda : Fin (2 * dim) → Fin nB → K, ∃ q u, IsLocalSolution (nS := nS) I tau lambda q u ∧
    ∀ q' u', IsLocalSolution I tau lambda q' u' → q' = q ∧ u' = u

/-- A local solve that fails: the debug build aborts, the release build lets the LAPACK exception through. -/
def solveFailure {α : Type} : Mode → Res α
  | .debug => .abort
  | .release => .throw .lapack

/-- The coefficients of the trace on face `f` of the function with coefficients `u`. -/
def traceOf [CommRing K] (I : Integrator K) (nB : Nat) (u : Fin nS → K) : Fin (2 * dim) → Fin nB → K := fun f k =>
  ∑ i : Fin nS, I.bdr_phipsi i k f * u i

/-- The function with coefficients `u` has vanishing derivatives (tested by the shape functions). -/
def Constant [CommRing K] (I : Integrator K) (dim : Nat) (u : Fin nS → K) : Prop :=
  ∀ (d : Fin dim) (j : Fin nS), ∑ i : Fin nS, I.vol_Dphiphi i j d * u i = 0

/-- What the theorems use of the integrator (quadrature rules which are exact for the products of shape functions, and face shape functions
which are orthonormal and span the traces of the bulk shape functions). -/
structure Lawful [CommRing K] [LinearOrder K] (I : Integrator K) (dim nS nB : Nat) : Prop where
  /-- the mass matrix is symmetric -/
  vol_symm : ∀ i j : Fin nS, I.vol_phiphi i j = I.vol_phiphi j i
  /-- the mass matrix is positive definite -/
  vol_pos : ∀ v : Fin nS → K, v ≠ 0 → 0 < ∑ i : Fin nS, ∑ j : Fin nS, v i * (I.vol_phiphi i j * v j)
  /-- integration by parts -/
  by_parts : ∀ (i j : Fin nS) (d : Fin dim),
    I.vol_Dphiphi i j d + I.vol_Dphiphi j i d = I.bdr_phiphi i j (2 * d + 1) - I.bdr_phiphi i j (2 * d)
  /-- traces of bulk shape functions are combinations of the orthonormal face shape functions -/
  trace : ∀ (i j : Fin nS) (f : Fin (2 * dim)), I.bdr_phiphi i j f = ∑ k : Fin nB, I.bdr_phipsi i k f * I.bdr_phipsi j k f
  /-- a function without derivatives and without traces vanishes -/
  unisolvent : ∀ u : Fin nS → K, Constant I dim u → traceOf (dim := dim) I nB u = 0 → u = 0

end HyperHDG.Spec

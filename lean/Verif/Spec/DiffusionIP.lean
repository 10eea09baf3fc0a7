import Mathlib.Data.Matrix.Mul
import Mathlib.Algebra.Order.Field.Basic
import Verif.Spec.LocalSolver

/-!
# Specification: the local problem of the hybridised interior penalty method on a hyperedge

The hyperedge has dimension `dim` and `2 * dim` faces; `nS` shape functions `phi_i` on the hyperedge, `nB` shape functions `psi_j` on each face; `kappa` is the diffusion
coefficient.
-/

namespace HyperHDG.Spec.IP

open Matrix

/-- The integrals over a hyperedge and its faces. -/
structure Form (dim nS nB : Nat) (K : Type) where
  /-- integrals of `kappa grad phi_i . grad phi_j` -/
  stiff : Matrix (Fin nS) (Fin nS) K
  /-- integrals of `phi_i (kappa grad phi_j . n)` over a face, `n` its outer normal -/
  conorm : Fin (2 * dim) → Matrix (Fin nS) (Fin nS) K
  /-- integrals of `psi_i (kappa grad phi_j . n)` over a face -/
  conormPsi : Fin (2 * dim) → Matrix (Fin nB) (Fin nS) K
  /-- integrals of `phi_i phi_j` over a face -/
  bdr : Fin (2 * dim) → Matrix (Fin nS) (Fin nS) K
  /-- integrals of `phi_i psi_j` over a face -/
  psi : Fin (2 * dim) → Matrix (Fin nS) (Fin nB) K
  /-- area of a face -/
  area : Fin (2 * dim) → K

variable {dim nS nB : Nat} {K : Type} [CommRing K]

/-- `u` (vector of coefficients) solves the local problem if for all test functions `phi_i`

`(kappa grad u, grad phi_i) - <kappa grad u . n, phi_i> + tau <u - trace, phi_i> = s_i`,

the angular brackets over all faces; `g f` are the integrals of `trace * phi_i` over face `f`. -/
def IsSolution (F : Form dim nS nB K) (tau : K) (g : Fin (2 * dim) → Fin nS → K) (s u : Fin nS → K) : Prop :=
  F.stiff *ᵥ u - ∑ f, F.conorm f *ᵥ u + tau • ∑ f, (F.bdr f *ᵥ u - g f) = s

/-- The integrals of `lambda * phi_i` over face `f` for a trace with coefficients `lambda`. -/
def moments (F : Form dim nS nB K) (lambda : Fin (2 * dim) → Fin nB → K) : Fin (2 * dim) → Fin nS → K := fun f => F.psi f *ᵥ lambda f

/-- The numerical flux `- kappa grad u . n + tau (u - lambda)` on a face, tested by the face shape functions (which are orthonormal with respect to the reference face). -/
def faceFlux (F : Form dim nS nB K) (tau : K) (lambda : Fin (2 * dim) → Fin nB → K) (u : Fin nS → K) : Fin (2 * dim) → Fin nB → K := fun f =>
  -(F.conormPsi f *ᵥ u) + tau • ((F.psi f)ᵀ *ᵥ u - F.area f • lambda f)

/-- The local problem has at most one solution (equivalently, as it is a square system: exactly one). -/
def Solvable (F : Form dim nS nB K) (tau : K) : Prop := ∀ u, IsSolution F tau 0 0 u → u = 0

/-- `lambda` are the coefficients of the trace of the function with coefficients `u` on face `f`. -/
def IsTrace (F : Form dim nS nB K) (u : Fin nS → K) (f : Fin (2 * dim)) (lambda : Fin nB → K) : Prop := F.area f • lambda = (F.psi f)ᵀ *ᵥ u

/-- `one` are the coefficients of the function 1 on the hyperedge, `oneF f` those of the function 1 on face `f`. -/
structure IsOne (F : Form dim nS nB K) (one : Fin nS → K) (oneF : Fin (2 * dim) → Fin nB → K) : Prop where
  /-- the gradient of 1 vanishes -/
  grad : F.stiff *ᵥ one = 0
  grad_test : one ᵥ* F.stiff = 0
  conorm : ∀ f, F.conorm f *ᵥ one = 0
  conormPsi : ∀ f, F.conormPsi f *ᵥ one = 0
  /-- testing by 1 on the hyperedge and by 1 on the face is the same -/
  test_conorm : ∀ f, one ᵥ* F.conorm f = oneF f ᵥ* F.conormPsi f
  test_bdr : ∀ f, one ᵥ* F.bdr f = oneF f ᵥ* (F.psi f)ᵀ
  bdr_one : ∀ f, F.bdr f *ᵥ one = F.psi f *ᵥ oneF f
  trace : ∀ f, IsTrace F one f (oneF f)

/-- What is used of the integrals; `C` is the constant of the discrete trace inequality
`<kappa grad u . n, w>^2 <= C (kappa grad u, grad u) <w, w>` for functions `u` on the hyperedge and `w` on its faces. -/
structure Laws [LinearOrder K] (F : Form dim nS nB K) (C : K) : Prop where
  area_pos : ∀ f, 0 < F.area f
  /-- the face shape functions are orthogonal and span the traces of the shape functions -/
  trace : ∀ f, F.area f • F.bdr f = F.psi f * (F.psi f)ᵀ
  trace_conorm : ∀ f, F.area f • F.conorm f = F.psi f * F.conormPsi f
  energy_nonneg : ∀ u, 0 ≤ u ⬝ᵥ F.stiff *ᵥ u
  trace_ineq : ∀ u (w : Fin (2 * dim) → Fin nB → K),
    (∑ f, w f ⬝ᵥ F.conormPsi f *ᵥ u) ^ 2 ≤ C * (u ⬝ᵥ F.stiff *ᵥ u) * ∑ f, F.area f * (w f ⬝ᵥ w f)
  /-- a function without energy and without traces vanishes -/
  unisolvent : ∀ u, u ⬝ᵥ F.stiff *ᵥ u = 0 → (∀ f, (F.psi f)ᵀ *ᵥ u = 0) → u = 0

/-- A function without energy which vanishes on one face vanishes. -/
def Rigid (F : Form dim nS nB K) : Prop := ∀ (u : Fin nS → K) (f : Fin (2 * dim)), u ⬝ᵥ F.stiff *ᵥ u = 0 → (F.psi f)ᵀ *ᵥ u = 0 → u = 0

/-- The integrals over the unit cube for a constant diffusion coefficient and orthonormal shape functions, whose derivatives are combinations of the shape functions (the coefficient of
`phi_k` in the derivative of `phi_i` in direction `d` is then the integral `I.vol_Dphiphi i k d`). -/
def cubeForm (I : Integrator K) (dim nS nB : Nat) (kappa : K) : Form dim nS nB K where
  stiff := .of fun i j => kappa * ∑ d : Fin dim, ∑ k : Fin nS, I.vol_Dphiphi i k d * I.vol_Dphiphi j k d
  conorm := fun f => .of fun i j => kappa * (normal f * ∑ k : Fin nS, I.vol_Dphiphi j k (axis f) * I.bdr_phiphi i k f)
  conormPsi := fun f => .of fun i j => kappa * (normal f * ∑ k : Fin nS, I.vol_Dphiphi j k (axis f) * I.bdr_phipsi k i f)
  bdr := fun f => .of fun i j => I.bdr_phiphi i j f
  psi := fun f => .of fun i j => I.bdr_phipsi i j f
  area := fun _ => 1

/-- A constant for the discrete trace inequality on the unit cube: the sum of the squares of the traces of the shape functions. -/
def cubeTrace (I : Integrator K) (dim nS nB : Nat) : K := ∑ f : Fin (2 * dim), ∑ k : Fin nS, ∑ j : Fin nB, I.bdr_phipsi k j f ^ 2

/-- The integrals over a cube with side `h` from those over the unit cube: lengths are multiplied by `h`, gradients divided by `h`. -/
def Form.scaled {K : Type} [Field K] (F : Form dim nS nB K) (h : K) : Form dim nS nB K where
  stiff := (h ^ dim / h ^ 2) • F.stiff
  conorm := fun f => (h ^ dim / h ^ 2) • F.conorm f
  conormPsi := fun f => (h ^ dim / h ^ 2) • F.conormPsi f
  bdr := fun f => (h ^ dim / h) • F.bdr f
  psi := fun f => (h ^ dim / h) • F.psi f
  area := fun f => h ^ dim / h * F.area f

end HyperHDG.Spec.IP

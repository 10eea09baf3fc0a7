import Mathlib.Data.Matrix.Mul
import Mathlib.Algebra.Order.Field.Basic

/-!
# Specification: the local problem of the LDG-H method on a hyperedge

The hyperedge has dimension `dim` and `2 * dim` faces; `nS` shape functions `phi_i` on the hyperedge, `nB` shape functions `psi_j` on each face.
-/

namespace HyperHDG.Spec

open Matrix

/-- The integrals over a hyperedge and its faces. -/
structure Form (dim nS nB : Nat) (K : Type) where
  /-- integrals of `a phi_i phi_j`, `a` the inverse diffusion coefficient -/
  mass : Matrix (Fin nS) (Fin nS) K
  /-- integrals of `phi_i phi_j` -/
  mass0 : Matrix (Fin nS) (Fin nS) K
  /-- integrals of `(d_d phi_i) phi_j` -/
  grad : Fin dim → Matrix (Fin nS) (Fin nS) K
  /-- integrals of `phi_i phi_j` over a face -/
  bdr : Fin (2 * dim) → Matrix (Fin nS) (Fin nS) K
  /-- integrals of `phi_i psi_j` over a face -/
  psi : Fin (2 * dim) → Matrix (Fin nS) (Fin nB) K
  /-- outer normal of a face -/
  normal : Fin (2 * dim) → Fin dim → K
  /-- area of a face -/
  area : Fin (2 * dim) → K

variable {dim nS nB : Nat} {K : Type}

/-- `q`, `u` (vectors of coefficients) solve the local problem if for all test functions `phi_i`

* `(a q_d, phi_i) - (u, d_d phi_i) + <trace, phi_i n_d> = 0` for each direction `d`,
* `rho (u, phi_i) + sigma [ - (q, grad phi_i) + <q . n + tau (u - trace), phi_i> ] = s_i`.

`g f` are the integrals of `trace * phi_i` over face `f`.  (`rho = 0`, `sigma = 1`: stationary problem; `rho = 1`, `sigma = theta dt`: time step.) -/
structure IsSolution [CommRing K] (F : Form dim nS nB K) (tau rho sigma : K) (g : Fin (2 * dim) → Fin nS → K) (s : Fin nS → K)
    (q : Fin dim → Fin nS → K) (u : Fin nS → K) : Prop where
  flux : ∀ d, F.mass *ᵥ q d - F.grad d *ᵥ u + ∑ f, F.normal f d • g f = 0
  primal : rho • F.mass0 *ᵥ u + sigma • (-(∑ d, F.grad d *ᵥ q d) + ∑ f, (F.bdr f *ᵥ (∑ d, F.normal f d • q d + tau • u) - tau • g f)) = s

/-- The integrals of `lambda * phi_i` over face `f` for a trace with coefficients `lambda`. -/
def moments [CommRing K] (F : Form dim nS nB K) (lambda : Fin (2 * dim) → Fin nB → K) : Fin (2 * dim) → Fin nS → K := fun f => F.psi f *ᵥ lambda f

/-- The numerical flux `q . n + tau (u - lambda)` on a face, tested by the face shape functions (which are orthonormal with respect to the reference face). -/
def faceFlux [CommRing K] (F : Form dim nS nB K) (tau : K) (lambda : Fin (2 * dim) → Fin nB → K) (q : Fin dim → Fin nS → K) (u : Fin nS → K) :
    Fin (2 * dim) → Fin nB → K := fun f =>
  (F.psi f)ᵀ *ᵥ (∑ d, F.normal f d • q d + tau • u) - (tau * F.area f) • lambda f

/-- The local problem has at most one solution (equivalently, as it is a square system: exactly one). -/
def Solvable [CommRing K] (F : Form dim nS nB K) (tau rho sigma : K) : Prop :=
  ∀ q u, IsSolution F tau rho sigma 0 0 q u → q = 0 ∧ u = 0

/-- The function with coefficients `u` has no derivatives. -/
def IsConst [CommRing K] (F : Form dim nS nB K) (u : Fin nS → K) : Prop := ∀ d, (F.grad d)ᵀ *ᵥ u = 0

/-- `lambda` are the coefficients of the trace of the function with coefficients `u` on face `f`. -/
def IsTrace [CommRing K] (F : Form dim nS nB K) (u : Fin nS → K) (f : Fin (2 * dim)) (lambda : Fin nB → K) : Prop := F.area f • lambda = (F.psi f)ᵀ *ᵥ u

/-- What is used of the integrals. -/
structure FormLaws [CommRing K] [LinearOrder K] (F : Form dim nS nB K) : Prop where
  mass_symm : F.massᵀ = F.mass
  mass_pos : ∀ v, v ≠ 0 → 0 < v ⬝ᵥ F.mass *ᵥ v
  mass0_symm : F.mass0ᵀ = F.mass0
  mass0_pos : ∀ v, v ≠ 0 → 0 < v ⬝ᵥ F.mass0 *ᵥ v
  /-- divergence theorem -/
  by_parts : ∀ d, F.grad d + (F.grad d)ᵀ = ∑ f, F.normal f d • F.bdr f
  area_pos : ∀ f, 0 < F.area f
  /-- the face shape functions are orthogonal and span the traces of the shape functions -/
  trace : ∀ f, F.area f • F.bdr f = F.psi f * (F.psi f)ᵀ
  /-- a function without derivatives and without traces vanishes -/
  unisolvent : ∀ u, IsConst F u → (∀ f, (F.psi f)ᵀ *ᵥ u = 0) → u = 0

end HyperHDG.Spec

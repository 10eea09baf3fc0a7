import Verif.Spec.LDG
import Mathlib.Order.Defs.LinearOrder

/-!
# Specification: the local problem of the LDG-H method for diffusion, advection and reaction

The equation is `div q + r u = s` with the total flux `q = - kappa grad u + b u`.  The integrals of the shape functions are those of `Spec.Form`; in addition
there are integrals with the velocity and the reaction rate.
-/

namespace HyperHDG.Spec.DAR

open Matrix

/-- The integrals with the coefficients of the lower order terms. -/
structure Coeffs (dim nS : Nat) (K : Type) where
  /-- integrals of `(b_d / kappa) phi_i phi_j`: velocity over diffusion coefficient -/
  advect : Fin dim → Matrix (Fin nS) (Fin nS) K
  /-- integrals of `r phi_i phi_j` -/
  react : Matrix (Fin nS) (Fin nS) K

variable {dim nS nB : Nat} {K : Type} [CommRing K]

/-- `q`, `u` (vectors of coefficients) solve the local problem if for all test functions `phi_i`

* `(kappa^-1 q_d, phi_i) - (u, d_d phi_i) - (kappa^-1 b_d u, phi_i) + <trace, phi_i n_d> = 0` for each direction `d`,
* `(r u, phi_i) - (q, grad phi_i) + <q . n + tau (u - trace), phi_i> = s_i`.

`g f` are the integrals of `trace * phi_i` over face `f`. -/
structure IsSolution (F : Form dim nS nB K) (C : Coeffs dim nS K) (tau : K) (g : Fin (2 * dim) → Fin nS → K) (s : Fin nS → K)
    (q : Fin dim → Fin nS → K) (u : Fin nS → K) : Prop where
  flux : ∀ d, F.mass *ᵥ q d - F.grad d *ᵥ u - C.advect d *ᵥ u + ∑ f, F.normal f d • g f = 0
  primal : C.react *ᵥ u - ∑ d, F.grad d *ᵥ q d + ∑ f, (F.bdr f *ᵥ (∑ d, F.normal f d • q d + tau • u) - tau • g f) = s

/-- The local problem has at most one solution (equivalently, as it is a square system: exactly one). -/
def Solvable (F : Form dim nS nB K) (C : Coeffs dim nS K) (tau : K) : Prop := ∀ q u, IsSolution F C tau 0 0 q u → q = 0 ∧ u = 0

/-- Reaction dominates: `(kappa^-1 b u, q) < (kappa^-1 q, q) + (r u, u)` for all functions but `q = 0`, `u = 0`. -/
def Dominated [LinearOrder K] (F : Form dim nS nB K) (C : Coeffs dim nS K) : Prop := ∀ (q : Fin dim → Fin nS → K) (u : Fin nS → K), ¬ (q = 0 ∧ u = 0) →
  ∑ d, q d ⬝ᵥ C.advect d *ᵥ u < ∑ d, q d ⬝ᵥ F.mass *ᵥ q d + u ⬝ᵥ C.react *ᵥ u

/-- The velocity is the constant `b` on the hyperedge and the reaction rate is nonnegative. -/
structure ConstantVelocity [LinearOrder K] (F : Form dim nS nB K) (C : Coeffs dim nS K) (b : Fin dim → K) : Prop where
  advect : ∀ d, C.advect d = b d • F.mass
  react : ∀ u, 0 ≤ u ⬝ᵥ C.react *ᵥ u

/-- The velocity in direction of the outer normal of a face. -/
def normalVelocity (F : Form dim nS nB K) (b : Fin dim → K) (f : Fin (2 * dim)) : K := ∑ d, F.normal f d * b d

/-- Kirchhoff's law for a flow on a hypergraph, `w e f` being what flows out of hyperedge `e` through its face `f`: at each hypernode outside `D` what flows in from the hyperedges is at most
what flows out to them. -/
def Balanced [LinearOrder K] {E N F : Nat} (nodes : Fin E → Fin F → Fin N) (w : Fin E → Fin F → K) (D : Fin N → Prop) : Prop :=
  ∀ v, ¬ D v → ∑ e, ∑ f, (if nodes e f = v then w e f else 0) ≤ 0

end HyperHDG.Spec.DAR

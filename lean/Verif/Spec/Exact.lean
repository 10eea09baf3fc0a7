import Verif.Spec.Diffusion
import Verif.Spec.Assembly

/-!
# Specification: problems whose exact solution belongs to the discrete spaces

No boundary terms, no penalty, no unknowns of the method: the differential equations on the hyperedges, continuity at the hypernodes, balance of fluxes at the hypernodes, Dirichlet values.
-/

namespace HyperHDG.Spec

open Matrix

variable {dim nS nB : Nat} {K : Type}

/-- The functions with coefficients `q`, `u` solve `a q + grad u = 0`, `rho u + sigma div q = s` on the hyperedge, tested by the shape functions (`F.grad d` contains the integrals of `(d_d phi_i) phi_j`, so its
transpose applied to coefficients tests the derivative of the function). -/
structure SolvesEquation [CommRing K] (F : Form dim nS nB K) (rho sigma : K) (s : Fin nS → K) (q : Fin dim → Fin nS → K) (u : Fin nS → K) : Prop where
  flux : ∀ d, F.mass *ᵥ q d + (F.grad d)ᵀ *ᵥ u = 0
  primal : rho • F.mass0 *ᵥ u + sigma • ∑ d, (F.grad d)ᵀ *ᵥ q d = s

/-- The integrals of `(q . normal) psi_j` over a face. -/
def normalFlux [CommRing K] (F : Form dim nS nB K) (q : Fin dim → Fin nS → K) (f : Fin (2 * dim)) : Fin nB → K := (F.psi f)ᵀ *ᵥ ∑ d, F.normal f d • q d

end HyperHDG.Spec

namespace HyperHDG.Diffusion

open Spec Matrix HyGraph

variable {dim nS nB : Nat} {K : Type}

/-- The functions with coefficients `q e`, `u e` on the hyperedges solve the problem; `x` are the coefficients of the values of `u` at the hypernodes which are not Dirichlet nodes. -/
structure IsExact [CommRing K] (E : Nat → Edge dim nS K) (time : K) {nE nN : Nat} (nodes : Fin nE → Fin (2 * dim) → Fin nN) (D : Fin nN → Prop)
    (q : Fin nE → Fin dim → Fin nS → K) (u : Fin nE → Fin nS → K) (x : Fin (nN * nB) → K) : Prop where
  /-- the differential equation -/
  equation : ∀ e : Fin nE, SolvesEquation (form (E e) nB time) 0 1 (source (E e) time) (q e) (u e)
  /-- `u` is continuous: its values on the faces of all hyperedges at a node are those of `x` -/
  continuous : ∀ e f, ¬ D (nodes e f) → IsTrace (form (E e) nB time) (u e) f (faceValues nodes x e f)
  /-- at a Dirichlet node, `u` has the Dirichlet values -/
  dirichlet : ∀ e f, D (nodes e f) → ∀ i : Fin nS, (E e).bdr_phifunc time i f = ((form (E e) nB time).bdr f *ᵥ u e) i
  /-- the fluxes of the hyperedges at a node cancel -/
  balance : ∀ v, ¬ D v → ∀ j, ∑ e, ∑ f, (if nodes e f = v then normalFlux (form (E e) nB time) (q e) f j else 0) = 0
  /-- `x` contains no values for the Dirichlet nodes -/
  zero : ∀ v, D v → ∀ j, x (dof v j) = 0

end HyperHDG.Diffusion

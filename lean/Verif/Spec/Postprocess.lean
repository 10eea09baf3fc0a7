import Mathlib.Data.Matrix.Mul
import Mathlib.Algebra.Order.Ring.Defs

/-!
# Specification: local postprocessing

`Phi_i` (`i < nP`) are shape functions of degree `k + 1`, `phi_j` (`j < nS`) those of degree `k`.
-/

namespace HyperHDG.Spec

open Matrix

variable {dim nS nP : Nat} {K : Type}

/-- Integrals over a hyperedge. -/
structure PostForm (dim nS nP : Nat) (K : Type) where
  /-- integrals of `kappa grad Phi_i . grad Phi_j`, `kappa` the diffusion coefficient -/
  stiff : Matrix (Fin nP) (Fin nP) K
  /-- integrals of `(d_d Phi_i) phi_j` -/
  grad : Fin dim → Matrix (Fin nP) (Fin nS) K
  /-- integrals of `c Phi_i`, `c` a constant function -/
  meanP : Fin nP → K
  /-- integrals of `c phi_j`, the same constant function `c` -/
  mean : Fin nS → K

/-- `w` is the postprocessed solution belonging to the flux `q` and the primal solution `u`: `(kappa grad w, grad Phi) = - (q, grad Phi)` for all `Phi`, and `w` and `u` have
the same mean value. -/
structure IsPostprocessed [CommRing K] (F : PostForm dim nS nP K) (q : Fin dim → Fin nS → K) (u : Fin nS → K) (w : Fin nP → K) : Prop where
  flux : F.stiff *ᵥ w = -∑ d, F.grad d *ᵥ q d
  mean : F.meanP ⬝ᵥ w = F.mean ⬝ᵥ u

/-- A function whose gradient is orthogonal to all gradients and whose mean value vanishes, vanishes. -/
def Postprocessable [CommRing K] (F : PostForm dim nS nP K) : Prop := ∀ w, F.stiff *ᵥ w = 0 → F.meanP ⬝ᵥ w = 0 → w = 0

end HyperHDG.Spec

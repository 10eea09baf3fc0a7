import Verif.Spec.LDG
import Verif.Spec.LocalSolver

/-!
# Specification: the mixed method for the bilaplacian on a hyperedge

The problem `- div (grad u) = b w`, `- div (grad w) = s` is a pair of diffusion problems, the second of which is the source of the first.  A face carries
`2 * nB` coefficients: those of the trace of `u`, then those of the trace of `w`.
-/

namespace HyperHDG.Spec

open Matrix

variable {dim nS nB : Nat} {K : Type}

/-- The first half of the coefficients on each face: the trace of the primal unknown. -/
def upper (lambda : Fin (2 * dim) → Fin (2 * nB) → K) : Fin (2 * dim) → Fin nB → K := fun f j => lambda f ⟨j, by omega⟩

/-- The second half of the coefficients on each face: the trace of the Laplacian. -/
def lower (lambda : Fin (2 * dim) → Fin (2 * nB) → K) : Fin (2 * dim) → Fin nB → K := fun f j => lambda f ⟨nB + j, by omega⟩

/-- Coefficients with given halves. -/
def halves (a b : Fin (2 * dim) → Fin nB → K) : Fin (2 * dim) → Fin (2 * nB) → K := fun f j =>
  if h : j.1 < nB then a f ⟨j, h⟩ else b f ⟨j - nB, by omega⟩

/-- `q`, `u`, `p`, `w` solve the local problem: `(q, u)` that of diffusion with data `g` and source `s` plus `b w` (`B` the matrix of the integrals of
`b phi_i phi_j`), and `(p, w)` that of diffusion with data `h` and source `t` minus `c u` (stationary problem: `C = 0`, `sigma = 1`; time step: `C` the matrix
of the integrals of `phi_i phi_j`, `sigma = theta dt`). -/
structure IsMixedSolution [CommRing K] (F : Form dim nS nB K) (B C : Matrix (Fin nS) (Fin nS) K) (tau sigma : K) (g h : Fin (2 * dim) → Fin nS → K)
    (s t : Fin nS → K) (q : Fin dim → Fin nS → K) (u : Fin nS → K) (p : Fin dim → Fin nS → K) (w : Fin nS → K) : Prop where
  first : IsSolution F tau 0 1 g (s + B *ᵥ w) q u
  second : IsSolution F tau 0 sigma h (t - C *ᵥ u) p w

/-- The local problem has at most one solution (equivalently, as it is a square system: exactly one). -/
def MixedSolvable [CommRing K] (F : Form dim nS nB K) (B C : Matrix (Fin nS) (Fin nS) K) (tau sigma : K) : Prop :=
  ∀ q u p w, IsMixedSolution F B C tau sigma 0 0 0 0 q u p w → q = 0 ∧ u = 0 ∧ p = 0 ∧ w = 0

/-- The integrals over the reference cube: unit coefficient, the normals of the cube, faces of area one. -/
def cubeForm [CommRing K] (I : Integrator K) (dim nS nB : Nat) : Form dim nS nB K where
  mass := .of fun i j => I.vol_phiphi i j
  mass0 := .of fun i j => I.vol_phiphi i j
  grad := fun d => .of fun i j => I.vol_Dphiphi i j d
  bdr := fun f => .of fun i j => I.bdr_phiphi i j f
  psi := fun f => .of fun i j => I.bdr_phipsi i j f
  normal := fun f d => if axis f = d then normal f else 0
  area := fun _ => 1

end HyperHDG.Spec

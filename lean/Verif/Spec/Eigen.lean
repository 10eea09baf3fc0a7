import Verif.Model.DiffusionEigs
import Verif.Model.GlobalClasses
import Verif.Spec.Diffusion
import Verif.Spec.Assembly

/-!
# Specification: nonlinear eigenvalue problems condensed to the skeleton

The local problem for an eigenvalue `eig` is `IsSolution F tau (-eig) 1` (see `Verif/Spec/LDG.lean`): in the second equation `- eig (u, phi_i)` is added.  A trace
`x` and a number `eig` are an eigenpair if the fluxes of the local solutions for `x` add up to zero on each hypernode.
-/

namespace HyperHDG.DiffusionEigs

open Spec Matrix Diffusion

variable {K : Type} {dim nS nB : Nat}

/-- The coefficient does not depend on the eigenvalue (which the code passes to it as its time). -/
def FixedCoefficient (E : Edge dim nS K) : Prop := ∀ t t' : K, ∀ i j : Fin nS, E.vol_phiphifunc t i j = E.vol_phiphifunc t' i j

/-- The shape functions are orthogonal and of the same size: their mass matrix is the volume of the hyperedge times the identity. -/
def Orthonormal [Zero K] (E : Edge dim nS K) : Prop := ∀ i j : Fin nS, E.vol_phiphi i j = if i = j then E.area else 0

/-- The energy `(a q, q) + tau |u - lambda|^2` of a local solution, the last term over the faces. -/
def energy [Field K] (F : Form dim nS nB K) (tau : K) (q : Fin dim → Fin nS → K) (u : Fin nS → K) (lambda : Fin (2 * dim) → Fin nB → K) : K :=
  (∑ d, q d ⬝ᵥ F.mass *ᵥ q d) +
    tau * ∑ f, (F.area f)⁻¹ * (((F.psi f)ᵀ *ᵥ u - F.area f • lambda f) ⬝ᵥ ((F.psi f)ᵀ *ᵥ u - F.area f • lambda f))

variable [CommRing K]

/-- The function handed to the global loop; `E e` is hyperedge `e`. -/
def localOperator (m : Mode) (gesv : Gesv ((dim + 1) * nS) 1 K) (tau : K) (E : Nat → Edge dim nS K) (eig : K) : HyGraph.LocalFun dim nB K :=
  fun e lambda out => trace_to_flux m gesv tau lambda out (E e) eig

/-- The same for the Jacobian. -/
def localJacobian (m : Mode) (gesv : Gesv ((dim + 1) * nS) 1 K) (tau : K) (E : Nat → Edge dim nS K) (eig eig_val : K) :
    Nat → LocDofs dim nB K → LocDofs dim nB K → LocDofs dim nB K → Res (LocDofs dim nB K) :=
  fun e lambda vals out => jacobian_of_trace_to_flux m gesv tau lambda out eig vals eig_val (E e)

/-- A trace `x` which is not zero and vanishes on the faces of Dirichlet type, and a number for which the global loop returns the zero vector. -/
def IsEigenpair (m : Mode) (gesv : Gesv ((dim + 1) * nS) 1 K) (tau : K) (E : Nat → Edge dim nS K) (G : HyGraph dim nB) (nodes : Fin G.n_hyEdges → Fin (2 * dim) → Fin G.n_hyNodes)
    (old0 new0 : LocDofs dim nB K) (x : Fin (G.n_hyNodes * nB) → K) (eig : K) : Prop :=
  x ≠ 0 ∧ (∀ (e : Fin G.n_hyEdges) (f : Fin (2 * dim)), (E e).node_descriptor f ∈ (E e).dirichlet_nodes → ∀ j, faceValues nodes x e f j = 0) ∧
    G.mat_vec_multiply m (localOperator m gesv tau E eig) old0 new0 (List.ofFn x) = .ok (List.replicate (G.n_hyNodes * nB) 0)

/-- `q e`, `u e` are the solutions of the local problems on the hyperedges `e` for the trace `x`. -/
def LocalSolutions (tau : K) (E : Nat → Edge dim nS K) (G : HyGraph dim nB) (nodes : Fin G.n_hyEdges → Fin (2 * dim) → Fin G.n_hyNodes) (x : Fin (G.n_hyNodes * nB) → K) (eig : K)
    (q : Fin G.n_hyEdges → Fin dim → Fin nS → K) (u : Fin G.n_hyEdges → Fin nS → K) : Prop :=
  ∀ e : Fin G.n_hyEdges, IsSolution (form (E e).toEdge nB eig) tau (-eig) 1 (moments (form (E e).toEdge nB eig) (faceValues nodes x e)) 0 (q e) (u e)

end HyperHDG.DiffusionEigs

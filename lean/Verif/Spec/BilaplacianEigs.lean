import Verif.Model.BilaplacianEigs
import Verif.Model.GlobalClasses
import Verif.Spec.Bilaplacian
import Verif.Spec.Assembly

/-!
# Specification: eigenvalue problems for the bilaplacian condensed to the skeleton

The local problem for an eigenvalue `eig` is the mixed problem of `Verif/Spec/Mixed.lean` with `eig (u, phi_i)` as source of the second equation: `- div (grad u) = b w`, `- div (grad w) = eig u`.  A
trace `x` and a number `eig` are an eigenpair if the fluxes of the local solutions for `x` add up to zero on each hypernode.
-/

namespace HyperHDG.BilaplacianEigs

open Spec Matrix Bilaplacian

variable {K : Type} {dim nS nB : Nat}

/-- The coefficient does not depend on the eigenvalue (which the code passes to it as its time). -/
def FixedCoefficient (E : Edge dim nS K) : Prop := ∀ t t' : K, coupling E.stat t = coupling E.stat t'

/-- The shape functions are orthogonal and of the same size: their mass matrix is the volume of the hyperedge times the identity. -/
def Orthonormal [Zero K] (E : Edge dim nS K) : Prop := ∀ i j : Fin nS, E.vol_phiphi i j = if i = j then E.area else 0

variable [CommRing K]

/-- The local problem for an eigenvalue: `(q, u)` solves the diffusion problem with boundary integrals `g` and source `b w`, `(p, w)` that with boundary integrals `h` and source `eig u + t`. -/
def EigSolution (E : Edge dim nS K) (nB : Nat) (tau eig : K) (g h : Fin (2 * dim) → Fin nS → K) (t : Fin nS → K) (q : Fin dim → Fin nS → K) (u : Fin nS → K)
    (p : Fin dim → Fin nS → K) (w : Fin nS → K) : Prop :=
  IsSolution (form E.stat nB) tau 0 1 g (coupling E.stat eig *ᵥ w) q u ∧ IsSolution (form E.stat nB) tau 0 1 h (eig • ((form E.stat nB).mass0 *ᵥ u) + t) p w

/-- The local problem without data has only the zero solution (equivalently, as it is a square system: it is uniquely solvable for all data). -/
def EigSolvable (E : Edge dim nS K) (nB : Nat) (tau eig : K) : Prop := ∀ q u p w, EigSolution E nB tau eig 0 0 0 q u p w → q = 0 ∧ u = 0 ∧ p = 0 ∧ w = 0

/-- The result of the operator for a local solution with trace `lambda`: first the flux of `w` (zero where `u` is prescribed), then the flux of `u` (zero where the Laplacian is prescribed). -/
noncomputable def fluxes (E : Edge dim nS K) (tau : K) (lambda : Fin (2 * dim) → Fin (2 * nB) → K) (q : Fin dim → Fin nS → K) (u : Fin nS → K) (p : Fin dim → Fin nS → K)
    (w : Fin nS → K) : Fin (2 * dim) → Fin (2 * nB) → K :=
  offDirichlet E.stat (faceFlux (form E.stat nB) tau (lower lambda) p w) (faceFlux (form E.stat nB) tau (upper lambda) q u)

/-- The function handed to the global loop; `E e` is hyperedge `e`. -/
def localOperator (m : Mode) (gesv : Gesv (n_loc_dofs dim nS) 1 K) (tau : K) (E : Nat → Edge dim nS K) (eig : K) : HyGraph.LocalFun dim (2 * nB) K :=
  fun e lambda out => trace_to_flux m gesv tau lambda out (E e) eig

/-- The same for the Jacobian. -/
def localJacobian (m : Mode) (gesv : Gesv (n_loc_dofs dim nS) 1 K) (tau : K) (E : Nat → Edge dim nS K) (eig eig_val : K) :
    Nat → LocDofs dim (2 * nB) K → LocDofs dim (2 * nB) K → LocDofs dim (2 * nB) K → Res (LocDofs dim (2 * nB) K) :=
  fun e lambda vals out => jacobian_of_trace_to_flux m gesv tau lambda out eig vals eig_val (E e)

/-- A trace `x` which is not zero and vanishes where it is prescribed, and a number for which the global loop returns the zero vector. -/
def IsEigenpair (m : Mode) (gesv : Gesv (n_loc_dofs dim nS) 1 K) (tau : K) (E : Nat → Edge dim nS K) (G : HyGraph dim (2 * nB)) (nodes : Fin G.n_hyEdges → Fin (2 * dim) → Fin G.n_hyNodes)
    (old0 new0 : LocDofs dim (2 * nB) K) (x : Fin (G.n_hyNodes * (2 * nB)) → K) (eig : K) : Prop :=
  x ≠ 0 ∧ (∀ e : Fin G.n_hyEdges, VanishesOnDirichlet (E e).stat (faceValues nodes x e)) ∧
    G.mat_vec_multiply m (localOperator m gesv tau E eig) old0 new0 (List.ofFn x) = .ok (List.replicate (G.n_hyNodes * (2 * nB)) 0)

/-- `q e`, `u e`, `p e`, `w e` are the solutions of the local problems on the hyperedges `e` for the trace `x`. -/
def LocalSolutions (tau : K) (E : Nat → Edge dim nS K) (G : HyGraph dim (2 * nB)) (nodes : Fin G.n_hyEdges → Fin (2 * dim) → Fin G.n_hyNodes) (x : Fin (G.n_hyNodes * (2 * nB)) → K) (eig : K)
    (q : Fin G.n_hyEdges → Fin dim → Fin nS → K) (u : Fin G.n_hyEdges → Fin nS → K) (p : Fin G.n_hyEdges → Fin dim → Fin nS → K) (w : Fin G.n_hyEdges → Fin nS → K) : Prop :=
  ∀ e : Fin G.n_hyEdges, EigSolution (E e) nB tau eig (moments (form (E e).stat nB) (upper (faceValues nodes x e))) (moments (form (E e).stat nB) (lower (faceValues nodes x e))) 0
    (q e) (u e) (p e) (w e)

end HyperHDG.BilaplacianEigs

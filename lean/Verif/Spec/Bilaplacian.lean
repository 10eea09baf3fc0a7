import Verif.Model.Bilaplacian
import Verif.Spec.Mixed

/-!
# Specification of the local solver for the bilaplacian
-/

namespace HyperHDG.Bilaplacian

open Spec Matrix

variable {K : Type} {dim nS nB : Nat}

/-- The integrals over the hyperedge. -/
def form (E : Edge dim nS K) (nB : Nat) : Form dim nS nB K where
  mass := .of fun i j => E.vol_phiphi i j
  mass0 := .of fun i j => E.vol_phiphi i j
  grad := fun d => .of fun i j => E.vol_nablaphiphi i j d
  bdr := fun f => .of fun i j => E.bdr_phiphi i j f
  psi := fun f => .of fun i j => E.bdr_phipsi i j f
  normal := fun f d => E.local_normal f d
  area := fun f => E.face_area f

/-- The integrals of `b phi_i phi_j`, `b` the inverse of the coefficient. -/
def coupling (E : Edge dim nS K) (time : K) : Matrix (Fin nS) (Fin nS) K := .of fun i j => E.vol_phiphifunc time i j

/-- The primal unknown is prescribed on the face. -/
def IsDirichlet (E : Edge dim nS K) (f : Nat) : Prop := E.node_descriptor f ∈ E.dirichlet_nodes

/-- The Laplacian is prescribed on the face. -/
def IsDirichletLaplacian (E : Edge dim nS K) (f : Nat) : Prop := E.node_descriptor f ∈ E.dirichlet_laplacian_nodes

/-- The integrals of the prescribed values of the primal unknown times the shape functions over the faces (zero on other faces). -/
noncomputable def dirichletMoments [Zero K] (E : Edge dim nS K) (time : K) : Fin (2 * dim) → Fin nS → K := fun f i => by
  classical exact if IsDirichlet E f then E.bdr_phifunc time i f else 0

/-- The same for the prescribed values of the Laplacian. -/
noncomputable def laplacianMoments [Zero K] (E : Edge dim nS K) (time : K) : Fin (2 * dim) → Fin nS → K := fun f i => by
  classical exact if IsDirichletLaplacian E f then E.bdr_phifunc_laplace time i f else 0

/-- The integrals of the right-hand side times the shape functions. -/
def source (E : Edge dim nS K) (time : K) : Fin nS → K := fun i => E.vol_phifunc time i

/-- The first half is set to zero on the faces where the primal unknown is prescribed, the second half on those where the Laplacian is. -/
noncomputable def offDirichlet [Zero K] (E : Edge dim nS K) (y z : Fin (2 * dim) → Fin nB → K) : Fin (2 * dim) → Fin (2 * nB) → K := by
  classical exact halves (fun f j => if IsDirichlet E f then 0 else y f j) (fun f j => if IsDirichletLaplacian E f then 0 else z f j)

/-- The trace vanishes where it is prescribed. -/
def VanishesOnDirichlet [Zero K] (E : Edge dim nS K) (lambda : Fin (2 * dim) → Fin (2 * nB) → K) : Prop :=
  ∀ f : Fin (2 * dim), (IsDirichlet E f → ∀ j, upper lambda f j = 0) ∧ (IsDirichletLaplacian E f → ∀ j, lower lambda f j = 0)

end HyperHDG.Bilaplacian

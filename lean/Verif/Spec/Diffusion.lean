import Verif.Model.Diffusion
import Verif.Spec.LDG
import Verif.Spec.LocalSolver
import Verif.Spec.FileGeometry
import Mathlib.LinearAlgebra.Matrix.NonsingularInverse

/-!
# Specification of the local solver for diffusion

The integrals of a hyperedge, as `Form` (see `Verif/Spec/LDG.lean`), and the data of the problem.
-/

namespace HyperHDG.Diffusion

open Spec Matrix

variable {K : Type} {dim nS nB : Nat}

/-- The integrals over the hyperedge at a time. -/
def form (E : Edge dim nS K) (nB : Nat) (time : K) : Form dim nS nB K where
  mass := .of fun i j => E.vol_phiphifunc time i j
  mass0 := .of fun i j => E.vol_phiphi i j
  grad := fun d => .of fun i j => E.vol_nablaphiphi i j d
  bdr := fun f => .of fun i j => E.bdr_phiphi i j f
  psi := fun f => .of fun i j => E.bdr_phipsi i j f
  normal := fun f d => E.local_normal f d
  area := fun f => E.face_area f

/-- The face belongs to the Dirichlet boundary: the type of its node is one of the types declared as Dirichlet types. -/
def IsDirichlet (E : Edge dim nS K) (f : Nat) : Prop := E.node_descriptor f ∈ E.dirichlet_nodes

/-- The integrals of the Dirichlet data times the shape functions over the faces (zero on other faces). -/
noncomputable def dirichletMoments [Zero K] (E : Edge dim nS K) (time : K) : Fin (2 * dim) → Fin nS → K := fun f i => by
  classical exact if IsDirichlet E f then E.bdr_phifunc time i f else 0

/-- The integrals of the right-hand side times the shape functions. -/
def source (E : Edge dim nS K) (time : K) : Fin nS → K := fun i => E.vol_phifunc time i

/-- An array which is `y` on all faces but those of the Dirichlet boundary, where it vanishes. -/
noncomputable def offDirichlet [Zero K] (E : Edge dim nS K) (y : Fin (2 * dim) → Fin nB → K) : Fin (2 * dim) → Fin nB → K := fun f j => by
  classical exact if IsDirichlet E f then 0 else y f j

/-- The integrals are those of the shape functions transformed to hyperedge `e` of a file geometry, `I` those over the reference cube: volumes scale by
`area`, gradients transform by the inverse of the Jacobian (in the local coordinates of the hyperedge), integrals over faces scale by `face_area`. -/
structure UsesGeometry {d s : Nat} [Field K] [LinearOrder K] (m : Mode) (geqr2 : Geqr2All K) (e : Geometry.File.HyEdge d s K) (I : Integrator K)
    (E : Edge (d + 1) nS K) : Prop where
  vol : ∀ a, e.area m = .ok a → ∀ i j, E.vol_phiphi i j = a * I.vol_phiphi i j
  grad : ∀ a R, e.area m = .ok a → Represents e.mat_r R → ∀ i j k, E.vol_nablaphiphi i j k = a * ∑ l : Fin (d + 1), R⁻¹ l k * I.vol_Dphiphi i j l
  bdr : ∀ f a, e.face_area m geqr2 f = .ok a → ∀ i j, E.bdr_phiphi i j f = a * I.bdr_phiphi i j f
  psi : ∀ f a, e.face_area m geqr2 f = .ok a → ∀ i j, E.bdr_phipsi i j f = a * I.bdr_phipsi i j f
  normal : ∀ f N, Returns (e.local_normal m geqr2 f) N → ∀ k, E.local_normal f k = N k 0
  area : ∀ f a, e.face_area m geqr2 f = .ok a → E.face_area f = a

end HyperHDG.Diffusion

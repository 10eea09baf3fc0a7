import Verif.Spec.LDG
import Verif.Spec.LocalSolver
import Mathlib.LinearAlgebra.Matrix.NonsingularInverse

/-!
# Specification: the integrals over an affine hyperedge

The hyperedge is the image of the reference cube under an affine map with matrix `J` (an invertible square matrix, in local coordinates of the hyperedge).
-/

namespace HyperHDG.Spec

open Matrix

variable {dim nS nB : Nat} {K : Type}

/-- The data of an affine map used to transform integrals. -/
structure Affine (dim : Nat) (K : Type) where
  /-- volume of the hyperedge -/
  vol : K
  /-- `cof a d` is `vol` times the derivative of the `a`-th reference coordinate with respect to the `d`-th coordinate: the cofactor matrix of `J` -/
  cof : Matrix (Fin dim) (Fin dim) K
  /-- areas of the faces -/
  area : Fin (2 * dim) → K
  /-- outer unit normals of the faces -/
  normal : Fin (2 * dim) → Fin dim → K

structure AffineLaws [CommRing K] [LinearOrder K] (A : Affine dim K) : Prop where
  vol_pos : 0 < A.vol
  cof_inv : IsUnit A.cof
  area_pos : ∀ f, 0 < A.area f
  /-- the area vectors of the faces are the images of those of the reference cube under the cofactor matrix -/
  piola : ∀ f d, A.normal f d * A.area f = Spec.normal f * A.cof (axis f) d

/-- The integrals, from those over the reference cube; `mass` are the integrals with the inverse diffusion coefficient as weight. -/
def affineForm [CommRing K] (I : Integrator K) (A : Affine dim K) (mass : Matrix (Fin nS) (Fin nS) K) : Form dim nS nB K where
  mass := mass
  mass0 := .of fun i j => A.vol * I.vol_phiphi i j
  grad := fun d => .of fun i j => ∑ a : Fin dim, A.cof a d * I.vol_Dphiphi i j a
  bdr := fun f => .of fun i j => A.area f * I.bdr_phiphi i j f
  psi := fun f => .of fun i j => A.area f * I.bdr_phipsi i j f
  normal := A.normal
  area := A.area

end HyperHDG.Spec

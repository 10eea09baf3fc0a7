import Verif.Spec.Bilaplacian
import Verif.Spec.ErrorEstimate

/-!
# Specification: classical solutions of the bilaplacian

The problem `- div (grad u) = b w`, `- div (grad w) = f`: a pair of diffusion problems with unit coefficient.  All functions on a hyperedge are functions of the coordinates of the reference cube.
-/

namespace HyperHDG.Bilaplacian

open Spec HyGraph Polynomial

variable {p d : Nat}

/-- The data of the problem on a hyperedge. -/
structure Data (d : Nat) where
  /-- the affine map -/
  A : Affine (d + 1) ℝ
  /-- inverse of the coefficient -/
  b : (Fin (d + 1) → ℝ) → ℝ
  /-- right-hand side -/
  f : (Fin (d + 1) → ℝ) → ℝ
  /-- prescribed values of `u` -/
  g : (Fin (d + 1) → ℝ) → ℝ
  /-- prescribed values of `w` -/
  h : (Fin (d + 1) → ℝ) → ℝ

/-- The problem `- div (grad w) = f`. -/
def Data.laplacian (B : Data d) : Diffusion.Data d := ⟨B.A, fun _ => 1, B.f, B.h, fun _ => 0⟩

/-- The problem `- div (grad u) = b w`. -/
def Data.primal (B : Data d) (w : (Fin (d + 1) → ℝ) → ℝ) : Diffusion.Data d := ⟨B.A, fun _ => 1, fun z => B.b z * w z, B.g, fun _ => 0⟩

/-- What the local solver asks about the hyperedge are the integrals of the data and of the shape functions made from the polynomials `P`. -/
structure ExactIntegrals (P : Fin (p + 1) → ℝ[X]) (B : Data d) (time : ℝ) (E : Edge (d + 1) ((p + 1) ^ (d + 1)) ℝ) : Prop where
  form : form E ((p + 1) ^ d) = affineForm (tensorIntegrator (p + 1) (d + 1) (exactBasis P)) B.A (.of fun i j => B.A.vol * cubeInt fun x => shape P i x * shape P j x)
  coupling : ∀ i j : Fin ((p + 1) ^ (d + 1)), E.vol_phiphifunc time i j = B.A.vol * cubeInt fun x => B.b x * (shape P i x * shape P j x)
  source : ∀ i : Fin ((p + 1) ^ (d + 1)), E.vol_phifunc time i = B.A.vol * cubeInt fun x => B.f x * shape P i x
  dirichlet : ∀ (i : Fin ((p + 1) ^ (d + 1))) (f : Fin (2 * (d + 1))), E.bdr_phifunc time i f = B.A.area f * cubeInt fun y => B.g (facePoint f y) * shape P i (facePoint f y)
  laplacian : ∀ (i : Fin ((p + 1) ^ (d + 1))) (f : Fin (2 * (d + 1))), E.bdr_phifunc_laplace time i f = B.A.area f * cubeInt fun y => B.h (facePoint f y) * shape P i (facePoint f y)

/-- The functions `u e`, `w e` on the hyperedges, with fluxes `q e`, `r e`, solve the problem; both are prescribed at the hypernodes `D`; `U v`, `W v` are their values at hypernode `v`. -/
structure IsClassicalSolution {nE nN : Nat} (B : Fin nE → Data d) (nodes : Fin nE → Fin (2 * (d + 1)) → Fin nN) (D : Fin nN → Prop)
    (q : Fin nE → Fin (d + 1) → (Fin (d + 1) → ℝ) → ℝ) (u : Fin nE → (Fin (d + 1) → ℝ) → ℝ) (U : Fin nN → (Fin d → ℝ) → ℝ)
    (r : Fin nE → Fin (d + 1) → (Fin (d + 1) → ℝ) → ℝ) (w : Fin nE → (Fin (d + 1) → ℝ) → ℝ) (W : Fin nN → (Fin d → ℝ) → ℝ) : Prop where
  primal : Diffusion.IsClassicalSolution (fun e => (B e).primal (w e)) nodes D q u U
  laplacian : Diffusion.IsClassicalSolution (fun e => (B e).laplacian) nodes D r w W

end HyperHDG.Bilaplacian

import Verif.Spec.Exact
import Verif.Spec.AffineForm
import Verif.Spec.Polynomials

/-!
# Specification: diffusion problems with polynomial solutions

All functions on a hyperedge are functions of the coordinates of the reference cube `[0, 1]^(d+1)`; `A` describes the affine map to the hyperedge.  No coefficients: functions and derivatives.
-/

namespace HyperHDG.Diffusion

open Spec HyGraph MeasureTheory Polynomial

variable {p d : Nat}

/-- The reference cube. -/
def cube (d : Nat) : Set (Fin d → ℝ) := Set.univ.pi fun _ => Set.Icc 0 1

/-- The data of the problem on a hyperedge. -/
structure Data (d : Nat) where
  /-- the affine map -/
  A : Affine (d + 1) ℝ
  /-- inverse diffusion coefficient -/
  a : (Fin (d + 1) → ℝ) → ℝ
  /-- right-hand side -/
  f : (Fin (d + 1) → ℝ) → ℝ
  /-- Dirichlet values -/
  g : (Fin (d + 1) → ℝ) → ℝ
  /-- analytic result -/
  w : (Fin (d + 1) → ℝ) → ℝ

/-- An admissible affine map and a continuous positive coefficient. -/
structure Data.Admissible (B : Data d) : Prop where
  affine : AffineLaws B.A
  cont : Continuous B.a
  pos : ∀ x, 0 < B.a x

/-- What the local solver asks about the hyperedge are the integrals of the data and of the shape functions made from the polynomials `P`. -/
structure ExactIntegrals (P : Fin (p + 1) → ℝ[X]) (B : Data d) (time : ℝ) (E : Edge (d + 1) ((p + 1) ^ (d + 1)) ℝ) : Prop where
  form : form E ((p + 1) ^ d) time = affineForm (tensorIntegrator (p + 1) (d + 1) (exactBasis P)) B.A
    (.of fun i j => B.A.vol * cubeInt fun x => B.a x * (shape P i x * shape P j x))
  source : ∀ i : Fin ((p + 1) ^ (d + 1)), E.vol_phifunc time i = B.A.vol * cubeInt fun x => B.f x * shape P i x
  dirichlet : ∀ (i : Fin ((p + 1) ^ (d + 1))) (f : Fin (2 * (d + 1))), E.bdr_phifunc time i f = B.A.area f * cubeInt fun y => B.g (facePoint f y) * shape P i (facePoint f y)
  diff : ∀ u, E.vol_diffsquare time u = B.A.vol * cubeInt fun x => (polyFun P u x - B.w x) ^ 2

/-- The functions `u` and `q` solve `a q + grad u = 0`, `div q = f` on the cube.  The derivative with respect to the `k`-th coordinate of the hyperedge is the sum of the derivatives with respect to the coordinates `l`
of the cube times `cof l k / vol`; both equations are multiplied by `vol`. -/
def Solves (B : Data d) (q : Fin (d + 1) → (Fin (d + 1) → ℝ) → ℝ) (u : (Fin (d + 1) → ℝ) → ℝ) : Prop :=
  ∃ (du : Fin (d + 1) → (Fin (d + 1) → ℝ) → ℝ) (dq : Fin (d + 1) → Fin (d + 1) → (Fin (d + 1) → ℝ) → ℝ),
    (∀ l, IsPartial l u (du l)) ∧ (∀ k l, IsPartial l (q k) (dq k l)) ∧
    ∀ x ∈ cube (d + 1), (∀ k, B.A.vol * (B.a x * q k x) + ∑ l, B.A.cof l k * du l x = 0) ∧ ∑ k, ∑ l, B.A.cof l k * dq k l x = B.A.vol * B.f x

/-- The functions `q e`, `u e` on the hyperedges are polynomials of degree at most `p` in each variable and solve the problem; `w v` is the value of the solution at hypernode `v`. -/
structure IsPolynomialSolution (p : Nat) {nE nN : Nat} (B : Fin nE → Data d) (nodes : Fin nE → Fin (2 * (d + 1)) → Fin nN) (D : Fin nN → Prop)
    (q : Fin nE → Fin (d + 1) → (Fin (d + 1) → ℝ) → ℝ) (u : Fin nE → (Fin (d + 1) → ℝ) → ℝ) (w : Fin nN → (Fin d → ℝ) → ℝ) : Prop where
  poly_q : ∀ e k, IsPoly p (q e k)
  poly_u : ∀ e, IsPoly p (u e)
  /-- the differential equation -/
  equation : ∀ e, Solves (B e) (q e) (u e)
  /-- the values on the faces of all hyperedges at a node agree -/
  continuous : ∀ e f, ¬ D (nodes e f) → ∀ y ∈ cube d, u e (facePoint f y) = w (nodes e f) y
  /-- the Dirichlet values -/
  dirichlet : ∀ e f, D (nodes e f) → ∀ y ∈ cube d, u e (facePoint f y) = (B e).g (facePoint f y)
  /-- the fluxes of the hyperedges at a node cancel (`area f` times the normal flux: flux per unit of the reference face) -/
  balance : ∀ v, ¬ D v → ∀ y ∈ cube d, ∑ e, ∑ f, (if nodes e f = v then (B e).A.area f * ∑ k, (B e).A.normal f k * q e k (facePoint f y) else 0) = 0

end HyperHDG.Diffusion

import Verif.Spec.PolynomialProblem

/-!
# Specification: classical solutions of diffusion problems, and how well polynomials approximate them
-/

namespace HyperHDG.Diffusion

open Spec HyGraph MeasureTheory

variable {d : Nat}

/-- The functions `u` and `q` are continuously differentiable and solve `a q + grad u = 0`, `div q = f` on the cube (see `Solves`). -/
def SolvesClassically (B : Data d) (q : Fin (d + 1) → (Fin (d + 1) → ℝ) → ℝ) (u : (Fin (d + 1) → ℝ) → ℝ) : Prop :=
  ∃ (du : Fin (d + 1) → (Fin (d + 1) → ℝ) → ℝ) (dq : Fin (d + 1) → Fin (d + 1) → (Fin (d + 1) → ℝ) → ℝ),
    (∀ l, IsPartial l u (du l) ∧ Continuous (du l)) ∧ (∀ k l, IsPartial l (q k) (dq k l) ∧ Continuous (dq k l)) ∧ Continuous u ∧ (∀ k, Continuous (q k)) ∧
    ∀ x ∈ cube (d + 1), (∀ k, B.A.vol * (B.a x * q k x) + ∑ l, B.A.cof l k * du l x = 0) ∧ ∑ k, ∑ l, B.A.cof l k * dq k l x = B.A.vol * B.f x

/-- The functions `q e`, `u e` on the hyperedges solve the problem; `w v` is the value of the solution at hypernode `v`. -/
structure IsClassicalSolution {nE nN : Nat} (B : Fin nE → Data d) (nodes : Fin nE → Fin (2 * (d + 1)) → Fin nN) (D : Fin nN → Prop)
    (q : Fin nE → Fin (d + 1) → (Fin (d + 1) → ℝ) → ℝ) (u : Fin nE → (Fin (d + 1) → ℝ) → ℝ) (w : Fin nN → (Fin d → ℝ) → ℝ) : Prop where
  /-- the differential equation -/
  equation : ∀ e, SolvesClassically (B e) (q e) (u e)
  /-- the values on the faces of all hyperedges at a node agree -/
  continuous : ∀ e f, ¬ D (nodes e f) → ∀ y ∈ cube d, u e (facePoint f y) = w (nodes e f) y
  /-- the Dirichlet values -/
  dirichlet : ∀ e f, D (nodes e f) → ∀ y ∈ cube d, u e (facePoint f y) = (B e).g (facePoint f y)
  /-- the fluxes of the hyperedges at a node cancel (`area f` times the normal flux: flux per unit of the reference face) -/
  balance : ∀ v, ¬ D v → ∀ y ∈ cube d, ∑ e, ∑ f, (if nodes e f = v then (B e).A.area f * ∑ k, (B e).A.normal f k * q e k (facePoint f y) else 0) = 0

/-- Some polynomial of degree at most `p` in each variable differs from `g` by at most `eps` on the cube. -/
def ApproxBy (p : Nat) (eps : ℝ) (g : (Fin d → ℝ) → ℝ) : Prop := ∃ r, IsPoly p r ∧ ∀ x ∈ cube d, |g x - r x| ≤ eps

end HyperHDG.Diffusion

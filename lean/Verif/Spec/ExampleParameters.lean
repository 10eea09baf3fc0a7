import Verif.Model.ExampleParameters
import Verif.Spec.Polynomials

/-!
# Specification: functions which solve the differential equations on a hyperedge of the space
-/

namespace HyperHDG.Spec

open Parameters

variable {d s : Nat}

/-- A flat hyperedge of dimension `d` in a space of dimension `s`, with orthonormal directions: `r` are arc length coordinates. -/
structure Plane (d s : Nat) where
  origin : Pt s
  dir : Fin d → Pt s
  orthonormal : ∀ k l, ∑ i, dir k i * dir l i = if k = l then 1 else 0

/-- The point with coordinates `r`. -/
def Plane.point (H : Plane d s) (r : Fin d → ℝ) : Pt s := fun i => H.origin i + ∑ k, r k * H.dir k i

/-- The flux `q` with `a q + grad u - v u = 0`, where gradient and velocity are taken along the hyperedge, has the divergence `g` at the points of the hyperedge with coordinates in `S`. -/
def HasDivergence (H : Plane d s) (S : Set (Fin d → ℝ)) (a : Pt s → ℝ) (v : Pt s → Pt s) (u g : Pt s → ℝ) : Prop :=
  ∃ du q dq : Fin d → (Fin d → ℝ) → ℝ, (∀ k, IsPartial k (fun r => u (H.point r)) (du k)) ∧ (∀ k, IsPartial k (q k) (dq k)) ∧
    ∀ r ∈ S, (∀ k, a (H.point r) * q k r + du k r - (∑ i, v (H.point r) i * H.dir k i) * u (H.point r) = 0) ∧ ∑ k, dq k r = g (H.point r)

/-- The analytic result solves the stationary diffusion equation on the hyperedge and agrees with the Dirichlet values. -/
def Fits (H : Plane d s) (D : Parameters.Diffusion s) : Prop :=
  HasDivergence H Set.univ (D.inverse_diffusion_coeff · 0) 0 (D.analytic_result · 0) (D.right_hand_side · 0) ∧ D.dirichlet_value = D.analytic_result

/-- The analytic result solves the parabolic equation on the hyperedge for all times. -/
def FitsParabolic (H : Plane d s) (D : Parameters.Diffusion s) : Prop :=
  (∀ t, ∃ ut : Pt s → ℝ, (∀ x, HasDerivAt (fun t => D.analytic_result x t) (ut x) t) ∧
    HasDivergence H Set.univ (D.inverse_diffusion_coeff · t) 0 (D.analytic_result · t) (fun x => D.right_hand_side x t - ut x)) ∧ D.dirichlet_value = D.analytic_result

/-- The analytic result `u` and the Laplacian given by `dirichlet_laplace_value`, `w`, solve `- Laplace u = b w`, `ut - Laplace w = f` at time `t`. -/
def FitsBilaplacian (H : Plane d s) (D : Parameters.Bilaplacian s) (ut : Pt s → ℝ) (t : ℝ) : Prop :=
  HasDivergence H Set.univ 1 0 (D.analytic_result · t) (fun x => D.inverse_bilaplacian_coefficient x t * D.dirichlet_laplace_value x t) ∧
    HasDivergence H Set.univ 1 0 (D.dirichlet_laplace_value · t) (fun x => D.right_hand_side x t - ut x) ∧ D.dirichlet_value = D.analytic_result

/-- The analytic result solves the stationary equation with advection and reaction at the points with coordinates in `S`. -/
def FitsADR (H : Plane d s) (S : Set (Fin d → ℝ)) (D : Parameters.AdvectionReaction s) : Prop :=
  HasDivergence H S (D.inverse_diffusion_coeff · 0) (D.advective_velocity · 0) (D.analytic_result · 0) (fun x => D.right_hand_side x 0 - D.reaction_rate x 0 * D.analytic_result x 0) ∧
    D.dirichlet_value = D.analytic_result

/-- The analytic result solves the transport equation `ut + div (v u) = f` on the hyperedge for all times. -/
def FitsAdvection (H : Plane d s) (D : Parameters.Advection s) : Prop :=
  (∀ t, ∃ (ut : Pt s → ℝ) (dq : Fin d → (Fin d → ℝ) → ℝ), (∀ x, HasDerivAt (fun t => D.analytic_result x t) (ut x) t) ∧
    (∀ k, IsPartial k (fun r => (∑ i, D.velocity (H.point r) t i * H.dir k i) * D.analytic_result (H.point r) t) (dq k)) ∧
    ∀ r, ut (H.point r) + ∑ k, dq k r = D.right_hand_side (H.point r) t) ∧ D.dirichlet_value = D.analytic_result

/-- The hyperedge contains the direction of the coordinate `i` of the space. -/
def Plane.Contains (H : Plane d s) (i : Fin s) : Prop := ∑ k, H.dir k i * H.dir k i = 1

/-- `u` is constant along the paths of the particles which move with the velocity `v`. -/
def Transported (v : Pt s → ℝ → Pt s) (u : Pt s → ℝ → ℝ) : Prop :=
  ∀ path : ℝ → Pt s, (∀ t i, HasDerivAt (fun t => path t i) (v (path t) t i) t) → ∀ t, u (path t) t = u (path 0) 0

end HyperHDG.Spec

import Mathlib.Analysis.SpecialFunctions.Trigonometric.Basic
import Mathlib.Data.Fin.VecNotation

/-!
# Model of the parameter structures of the examples

`reproducibles_python/parameters/*.hxx`: the functions handed to the local solvers.  `point` is `Point<space_dimT>`, real numbers are exact, `M_PI`, `sin` and `cos` are the real number and functions, and
`norm_2` is the square root of the sum of squares.  Not modelled: the lists of node types, `neumann_value`, `initial` (the analytic result in all structures modelled, except for `initial_laplace`), the structures
for eigenvalue problems (constant data and random initial values), and `LeVequeHG`, `HyperGraphMovie` and `injection`, which are used for pictures.
-/

namespace HyperHDG.Parameters

open Real

/-- `Point<space_dimT>` or `SmallVec<space_dimT>`. -/
abbrev Pt (s : Nat) := Fin s → ℝ

/-- A diffusion problem. -/
structure Diffusion (s : Nat) where
  inverse_diffusion_coeff : Pt s → ℝ → ℝ
  right_hand_side : Pt s → ℝ → ℝ
  dirichlet_value : Pt s → ℝ → ℝ
  analytic_result : Pt s → ℝ → ℝ

/-- A fourth order problem. -/
structure Bilaplacian (s : Nat) where
  inverse_bilaplacian_coefficient : Pt s → ℝ → ℝ
  right_hand_side : Pt s → ℝ → ℝ
  dirichlet_value : Pt s → ℝ → ℝ
  dirichlet_laplace_value : Pt s → ℝ → ℝ
  initial_laplace : Pt s → ℝ → ℝ
  analytic_result : Pt s → ℝ → ℝ

/-- A problem with diffusion, advection and reaction. -/
structure AdvectionReaction (s : Nat) where
  inverse_diffusion_coeff : Pt s → ℝ → ℝ
  advective_velocity : Pt s → ℝ → Pt s
  reaction_rate : Pt s → ℝ → ℝ
  right_hand_side : Pt s → ℝ → ℝ
  dirichlet_value : Pt s → ℝ → ℝ
  analytic_result : Pt s → ℝ → ℝ

/-- A transport problem. -/
structure Advection (s : Nat) where
  velocity : Pt s → ℝ → Pt s
  right_hand_side : Pt s → ℝ → ℝ
  dirichlet_value : Pt s → ℝ → ℝ
  analytic_result : Pt s → ℝ → ℝ

variable {s : Nat}

/-- `TestParametersSinEllipt`: `diffusion.hxx` 7-50. -/
noncomputable def sinEllipt : Diffusion (s + 1) where
  inverse_diffusion_coeff _ _ := 0.5 * π
  right_hand_side point _ := 0.5 * π * sin (0.5 * π * point 0)
  dirichlet_value point _ := sin (0.5 * π * point 0)
  analytic_result point _ := sin (0.5 * π * point 0)

/-- `HG<hyEdge_dimT>::TestParametersQuadEllipt`: `diffusion.hxx` 56-103 (also `DiffusionElliptic` in `examples/parameters/diffusion.hxx` 16-63). -/
noncomputable def quadEllipt (hyEdge_dim : Nat) : Diffusion s where
  inverse_diffusion_coeff _ _ := 1
  right_hand_side _ _ := 2 * hyEdge_dim
  dirichlet_value point _ := (List.finRange s).foldl (fun result dim => result - point dim * point dim) 0
  analytic_result point _ := (List.finRange s).foldl (fun result dim => result - point dim * point dim) 0

/-- `HG<hyEdge_dimT>::TestParametersQuadElliptHO`: `diffusion.hxx` 105-152. -/
noncomputable def quadElliptHO : Diffusion s where
  inverse_diffusion_coeff _ _ := 4 * π * π
  right_hand_side point _ := (List.finRange s).foldl (fun result dim => result + sin (2 * π * point dim)) 0
  dirichlet_value point _ := (List.finRange s).foldl (fun result dim => result + sin (2 * π * point dim)) 0
  analytic_result point _ := (List.finRange s).foldl (fun result dim => result + sin (2 * π * point dim)) 0

/-- `TestParametersSinParab`: `diffusion.hxx` 156-194. -/
noncomputable def sinParab : Diffusion (s + 1) where
  inverse_diffusion_coeff _ _ := π
  right_hand_side point time := π * (sin (π * (point 0 + time)) + cos (π * (point 0 + time)))
  dirichlet_value point time := sin (π * (point 0 + time))
  analytic_result point time := sin (π * (point 0 + time))

/-- `TestParametersSinEllipt`: `bilaplacian.hxx` 7-66. -/
noncomputable def sinBilaplacian : Bilaplacian (s + 1) where
  inverse_bilaplacian_coefficient _ _ := π
  right_hand_side point _ := π * π * π * sin (π * point 0)
  dirichlet_value point _ := sin (π * point 0)
  dirichlet_laplace_value point _ := π * sin (π * point 0)
  initial_laplace point _ := sin (π * point 0)
  analytic_result point _ := sin (π * point 0)

/-- `HG<hyEdge_dimT>::TestParametersQuadEllipt`: `bilaplacian.hxx` 72-136. -/
noncomputable def quadBilaplacian (hyEdge_dim : Nat) : Bilaplacian s where
  inverse_bilaplacian_coefficient _ _ := 1
  right_hand_side _ _ := 0
  dirichlet_value point _ := (List.finRange s).foldl (fun result dim => result + point dim * point dim) 0
  dirichlet_laplace_value _ _ := -2 * hyEdge_dim
  initial_laplace point _ := (List.finRange s).foldl (fun result dim => result + point dim * point dim) 0
  analytic_result point _ := (List.finRange s).foldl (fun result dim => result + point dim * point dim) 0

/-- `TestParametersSinParab`: `bilaplacian.hxx` 140-200. -/
noncomputable def sinBilaplacianParab : Bilaplacian (s + 1) where
  inverse_bilaplacian_coefficient _ _ := π
  right_hand_side point time := π * π * π * sin (π * (point 0 + time)) + π * cos (π * (point 0 + time))
  dirichlet_value point time := sin (π * (point 0 + time))
  dirichlet_laplace_value point time := π * sin (π * (point 0 + time))
  initial_laplace point time := π * sin (π * (point 0 + time))
  analytic_result point time := sin (π * (point 0 + time))

/-- `TestParametersSinEllipt`: `diffusion_advection_reaction.hxx` 7-57.  `advection` is zero but for entry 0 (constructor of `SmallVec`). -/
noncomputable def sinADR : AdvectionReaction (s + 1) where
  inverse_diffusion_coeff point _ := 1 / cos (0.25 * π * point 0)
  advective_velocity point _ := fun i => 1 / cos (0.25 * π * point 0) * (if i = 0 then -0.25 * π * sin (0.25 * π * point 0) + 1 else 0)
  reaction_rate _ _ := 1
  right_hand_side point _ := sin (0.25 * π * point 0) + 0.25 * π * cos (0.25 * π * point 0)
  dirichlet_value point _ := sin (0.25 * π * point 0)
  analytic_result point _ := sin (0.25 * π * point 0)

/-- `analytic_result`: `diffusion_advection_reaction.hxx` 88-95. -/
noncomputable def shiftedQuad (point : Pt s) : ℝ := (List.finRange s).foldl (fun result dim => result - (point dim - 2) * (point dim - 2)) 0

/-- `HG<hyEdge_dimT>::TestParametersQuadEllipt`: `diffusion_advection_reaction.hxx` 63-116. -/
noncomputable def quadADR (hyEdge_dim : Nat) : AdvectionReaction s where
  inverse_diffusion_coeff _ _ := 1
  advective_velocity point _ := fun dim => 1 * ((point dim - 2) / shiftedQuad point)
  reaction_rate _ _ := 1
  right_hand_side point _ := 3 * hyEdge_dim + shiftedQuad point
  dirichlet_value point _ := shiftedQuad point
  analytic_result point _ := shiftedQuad point

/-- `TestParametersSinParab`: `advection.hxx` 7-47.  `velocity` is zero but for entry 0. -/
noncomputable def sinAdvection : Advection (s + 1) where
  velocity _ _ := fun i => if i = 0 then 1 / π else 0
  right_hand_side point time := (1 + π) * cos (π * (point 0 + time))
  dirichlet_value point time := sin (π * (point 0 + time))
  analytic_result point time := sin (π * (point 0 + time))

/-- `norm_2(point - center)`. -/
noncomputable def dist2 (point center : Pt 2) : ℝ := sqrt ((point 0 - center 0) * (point 0 - center 0) + (point 1 - center 1) * (point 1 - center 1))

open Classical in
/-- `LeVeque::analytic_result`: `advection.hxx` 66-86. -/
noncomputable def leVequeResult (point : Pt 2) : ℝ :=
  if dist2 point ![0.5, 0.75] ≤ 0.15 ∧ (point 0 ≤ 0.475 ∨ 0.525 ≤ point 0 ∨ 0.85 ≤ point 1) then 1
  else if dist2 point ![0.5, 0.25] ≤ 0.15 then 1 - dist2 point ![0.5, 0.25] / 0.15
  else if dist2 point ![0.25, 0.5] ≤ 0.15 then 0.25 * (1 + cos (π * dist2 point ![0.25, 0.5] / 0.15))
  else 0

/-- `LeVeque`: `advection.hxx` 50-109. -/
noncomputable def leVeque : Advection 2 where
  velocity point _ := ![0.5 - point 1, point 0 - 0.5]
  right_hand_side _ _ := 0
  dirichlet_value point _ := leVequeResult point
  analytic_result point _ := leVequeResult point

end HyperHDG.Parameters

import Mathlib.Analysis.SpecialFunctions.Trigonometric.Basic

/-!
# Model of the data of the interior penalty programs

`reproducibles_python/diffusion_convergence_elliptic_ip.py` and `diffusion_hypergraph_convergence_elliptic_ip.py`: the arguments they hand to the constructor of the C++ object, and the parameters of
`reproducibles_python/parameters/diffusion.hxx` their local solver uses.  The calls which follow are `EllipticPython.program`.
-/

namespace HyperHDG.InteriorPenaltyPrograms

/-- The entries of the first argument, `[2 ** iteration] * dimension` or `[2 ** iteration] * 3`: line 38 of both programs. -/
def n_elements (s iteration : Nat) : Fin s → Nat := fun _ => 2 ^ iteration

/-- `lsol_constr`: line 39 of both programs. -/
def lsol_constr (dimension poly_degree iteration : Nat) : Nat := 5 * (dimension + 1) * poly_degree ^ 3 * 2 ^ iteration

/-- `dirichlet_nodes` of `TestParametersSinEllipt` and `TestParametersQuadEllipt`: `diffusion.hxx` 9-10, 61-63. -/
def dirichlet_nodes : List Nat :=
  [1, 2, 3, 4, 5, 6, 7, 8, 9, 10, 11, 12, 13, 14, 15, 16, 17, 18, 19, 20, 21, 22, 23, 24, 25, 26]

/-- `TestParametersSinEllipt::diffusion_coeff`: `diffusion.hxx` 12-16. -/
noncomputable def sin_diffusion_coeff : ℝ := 2 / Real.pi

/-- `HG<hyEdge_dimT>::TestParametersQuadEllipt::diffusion_coeff`: `diffusion.hxx` 65-69. -/
def quad_diffusion_coeff : ℝ := 1

end HyperHDG.InteriorPenaltyPrograms

import Verif.Model.NewtonProgram
import Verif.Model.GlobalClasses

/-!
# Model of the object the Newton programs use
-/

namespace HyperHDG.NewtonProgram

variable {dim nB : Nat}

/-- `NonlinearEigenvalue` with the functions `loc eig` (`trace_to_flux`), `jac eig eig_val` (`jacobian_of_trace_to_flux`) and `init` (`make_initial`, at 0: the programs do not give the second argument) of
its local solver: `nonlinear_eigenvalue.hxx` 142-194 (`trace_to_flux`), 207-274 (`jacobian_of_trace_to_flux`), 282-332 (`make_initial`), 345 (`size_of_system`).  The arrays which are not initialised
contain the same in all calls (no result depends on them). -/
def ofLoops (m : Mode) (G : HyGraph dim nB) (loc : ℝ → HyGraph.LocalFun dim nB ℝ) (jac : ℝ → ℝ → Nat → LocDofs dim nB ℝ → LocDofs dim nB ℝ → LocDofs dim nB ℝ → Res (LocDofs dim nB ℝ))
    (init : Nat → LocDofs dim nB ℝ → Res (LocDofs dim nB ℝ)) (old0 vals0 new0 : LocDofs dim nB ℝ) : Wrapper where
  size_of_system := G.n_hyNodes * nB
  trace_to_flux v eig := G.mat_vec_multiply m (loc eig) old0 new0 v
  jacobian_of_trace_to_flux v eig v_val eig_val := G.jacobian m (jac eig eig_val) old0 vals0 new0 v v_val
  make_initial v := G.make_initial_gather m init old0 v

end HyperHDG.NewtonProgram

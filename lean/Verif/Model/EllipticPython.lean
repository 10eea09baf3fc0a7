import Verif.Model.ParabolicProgram
import Verif.Model.GlobalClasses

/-!
# Model of the Python programs which solve elliptic problems

`reproducibles_python/*_elliptic*.py`, `timoshenko_convergence_cross.py` and `fiber_network_*.py`: the same sequence of calls, with differences which are parameters here (`solvers`,
`Setup`).  `diffusion_convergence_elliptic.py` is cited.  Not modelled: output on the screen and to files, plots, and the preconditioner of `fiber_network_*.py` (it is part of the solver).
-/

namespace HyperHDG.EllipticPython

open ParabolicProgram (LinearSolver negated solve)

variable {K : Type}

/-- The object `HDG_wrapper` (class `Elliptic`, `cython/elliptic.pyx` 24-57) after its construction and, in some programs, `refine`: its functions, called without a time. -/
structure Wrapper (K : Type) where
  size_of_system : Nat
  trace_to_flux : List K → Res (List K)
  residual_flux : List K → Res (List K)
  /-- columns, rows and values: `elliptic.pyx` 54-56 -/
  sparse_stiff_mat : Res (List Nat × List Nat × List K)
  errors : List K → Res (List K)

/-- `HDG_wrapper.zero_vector()`: `elliptic.hxx` 185. -/
def Wrapper.zero_vector [Zero K] (W : Wrapper K) : List K := List.replicate W.size_of_system 0

/-- One triplet of a sparse matrix is applied to `x`: its contribution is added to the result. -/
def addTriplet [Zero K] [Add K] [Mul K] (x result : List K) (t : Nat × Nat × K) : List K := result.set t.1 (result.getD t.1 0 + t.2.2 * x.getD t.2.1 0)

/-- `sp.csr_matrix((vals, (row_ind, col_ind)), shape=(n, n))`, as the function which multiplies vectors by it.  SciPy raises `ValueError` (here `.throw .invalidArgument`) for index and value arrays
of different length, for indices which do not fit to the shape, and for vectors of wrong length; triplets with the same position are added. -/
def csr_matrix [Zero K] [Add K] [Mul K] (n : Nat) (vals : List K) (row_ind col_ind : List Nat) : Res (List K → Res (List K)) :=
  if row_ind.length = vals.length ∧ col_ind.length = vals.length ∧ (∀ i ∈ row_ind, i < n) ∧ (∀ i ∈ col_ind, i < n) then
    .ok fun x => if x.length = n then .ok ((row_ind.zip (col_ind.zip vals)).foldl (addTriplet x) (List.replicate n 0)) else .throw .invalidArgument
  else .throw .invalidArgument

/-- How the program sets up the linear system: by a `LinearOperator`, or by the assembled matrix. -/
inductive Setup where
  | operator
  | matrix

/-- `A`: with a `LinearOperator` as in `diffusion_convergence_elliptic_postprocess.py` 41, with the matrix as in `diffusion_convergence_elliptic.py` 46-47. -/
def Setup.system [Zero K] [Add K] [Mul K] (W : Wrapper K) : Setup → Res (List K → Res (List K))
  | .operator => .ok W.trace_to_flux
  | .matrix => do
    let (col_ind, row_ind, vals) ← W.sparse_stiff_mat
    csr_matrix W.size_of_system vals row_ind col_ind

/-- `diffusion_convergence_elliptic.py` 41-57: right-hand side, system, solvers one after the other until one succeeds, error.  Returns `vectorSolution` and `error`.  Further programs: `solvers` are CG and GMRES in
`diffusion_convergence_elliptic{,_ip,_postprocess}.py`, `bilaplacian_convergence_elliptic.py`, `advection_diffusion_reaction_{,hypergraph_}convergence_elliptic.py`, `fiber_network_diffusion.py`;
CG alone in `diffusion_hypergraph_convergence_elliptic{,_postprocess}.py`, `diffusion_convergence_hypergraph_elliptic*.py`, `bilaplacian_hypergraph_convergence_elliptic.py`, `timoshenko_convergence_cross.py`,
`fiber_network_elastic.py`; GMRES alone in `diffusion_hypergraph_convergence_elliptic_ip.py`. -/
def program [One K] [Zero K] [Add K] [Mul K] [Neg K] (W : Wrapper K) (setup : Setup) (solvers : List (LinearSolver K)) : Res (List K × K) := do
  let flux ← W.residual_flux W.zero_vector
  let vectorRHS := negated flux
  let A ← setup.system W
  let vectorSolution ← solve solvers A vectorRHS
  let errors ← W.errors vectorSolution
  match errors with
  | error :: _ => return (vectorSolution, error)
  | [] => .throw .outOfRange

/-- The `error_def` of the local solvers with `N` errors: `local_solver/diffusion_ldgh.hxx` 135-163. -/
def arrayErrorDef [Zero K] [Add K] (N : Nat) (sqrt : K → K) : HyGraph.ErrorDef (Fin N → K) := ⟨fun _ => 0, fun a b i => a i + b i, fun a i => sqrt (a i)⟩

/-- The object for the class `GlobalLoop::Elliptic` with hypergraph `G` and a local solver with functions `ttf` (`trace_to_flux`), `res` (`residual_flux`) and `err` (`errors`): `elliptic.hxx`
199-235, 251-283 (the array of errors is copied to a vector, 281), 297. -/
def wrapper [Zero K] [One K] [Add K] {dim n N : Nat} (m : Mode) (G : HyGraph dim n) (ttf res : HyGraph.LocalFun dim n K) (err : Nat → LocDofs dim n K → Res (Fin N → K)) (sqrt : K → K)
    (old0 new0 : LocDofs dim n K) : Wrapper K where
  size_of_system := G.n_global_dofs
  trace_to_flux := (HyGraph.Elliptic.mk' G).apply m ttf old0 new0
  residual_flux := (HyGraph.Elliptic.mk' G).apply m res old0 new0
  sparse_stiff_mat := do
    let mat ← (HyGraph.Elliptic.mk' G).trace_to_flux_mat m ttf old0 new0
    return (mat.col_vec, mat.row_vec, mat.value_vec)
  errors := fun x => do
    let result ← G.errors m (arrayErrorDef N sqrt) err old0 x
    return List.ofFn result

end HyperHDG.EllipticPython

import Verif.Model.Outcome

/-!
# Model of the Python programs which solve time-dependent problems

`reproducibles_python/diffusion_convergence_parabolic.py`, `bilaplacian_convergence_parabolic.py`, `advection_convergence_parabolic.py`, `advection_convergence_rotation.py`,
`advection_convergence_leVeque_hypergraph.py`, `advection_hypergraph.py`, `movie_advection_hypergraph.py`: the same sequence of calls.  Not modelled: output on the screen and to files, plots.
-/

namespace HyperHDG.ParabolicProgram

variable {K D : Type}

/-- The object `HDG_wrapper` (class `Parabolic`, `cython/parabolic.pyx` 26-37): its functions as functions of their arguments - vector and time - and of the data `D` kept by the hyperedges,
which only `make_initial` and `set_data` change. -/
structure Wrapper (K D : Type) where
  size_of_system : Nat
  make_initial : List K → K → D → Res (List K × D)
  trace_to_flux : List K → K → D → Res (List K)
  residual_flux : List K → K → D → Res (List K)
  set_data : List K → K → D → Res D

/-- A solver of SciPy (`cg`, `gmres`, `bicgstab`): from the product with the matrix and the right-hand side it computes a vector and the number `info`, which is zero if it claims success; exceptions of the
product are passed on. -/
abbrev LinearSolver (K : Type) := (List K → Res (List K)) → List K → Res (List K × Int)

/-- `HDG_wrapper.zero_vector()`: `parabolic.hxx` 157. -/
def Wrapper.zero_vector [Zero K] (W : Wrapper K D) : List K := List.replicate W.size_of_system 0

/-- `np.multiply(vector, -1.)`. -/
def negated [One K] [Mul K] [Neg K] (vector : List K) : List K := vector.map fun x => x * -1

/-- One solver after the other until one succeeds, otherwise `RuntimeError` (here `.throw .solve`): `diffusion_convergence_parabolic.py` 55-65, `bilaplacian_convergence_parabolic.py` 57-64, `advection_convergence_parabolic.py` 55-61. -/
def solve : List (LinearSolver K) → (List K → Res (List K)) → List K → Res (List K)
  | [], _, _ => .throw .solve
  | s :: rest, A, b => do
    let r ← s A b
    if r.2 = 0 then .ok r.1 else solve rest A b

variable [One K] [Zero K] [Mul K] [Neg K] [NatCast K]

/-- One pass of the loop: right-hand side `diffusion_convergence_parabolic.py` 52-53, linear system 55-65 with the operator of line 48, whose `trace_to_flux` is called without a time,
so that `cython/parabolic.pyx` 28 sets it to `0`. -/
def next (W : Wrapper K D) (solvers : List (LinearSolver K)) (delta_time : K) (time_step : Nat) (data : D) : Res (List K) := do
  let flux ← W.residual_flux W.zero_vector ((time_step + 1 : Nat) * delta_time) data
  solve solvers (fun x => W.trace_to_flux x 0 data) (negated flux)

/-- The loop over the first `time_steps` steps: `diffusion_convergence_parabolic.py` 50-67, `advection_convergence_parabolic.py` 50-63.  Returns `vectorSolution` and the data. -/
def time_loop (W : Wrapper K D) (solvers : List (LinearSolver K)) (delta_time : K) (start : List K × D) : (time_steps : Nat) → Res (List K × D)
  | 0 => .ok start
  | k + 1 => do
    let s ← time_loop W solvers delta_time start k
    let vectorSolution ← next W solvers delta_time k s.2
    let data ← W.set_data vectorSolution ((k + 1 : Nat) * delta_time) s.2
    return (vectorSolution, data)

/-- The program: `diffusion_convergence_parabolic.py` 45-67, `advection_convergence_parabolic.py` 45-63 and the other programs for advection.  Returns `vectorSolution` and the data with which `errors` is called. -/
def program (W : Wrapper K D) (solvers : List (LinearSolver K)) (time_steps : Nat) (delta_time : K) (data : D) : Res (List K × D) := do
  let start ← W.make_initial W.zero_vector 0 data
  time_loop W solvers delta_time start time_steps

/-- The loop in which the data is set at the beginning of a pass: `bilaplacian_convergence_parabolic.py` 49-64. -/
def time_loop_late (W : Wrapper K D) (solvers : List (LinearSolver K)) (delta_time : K) (start : List K × D) : (time_steps : Nat) → Res (List K × D)
  | 0 => .ok start
  | k + 1 => do
    let s ← time_loop_late W solvers delta_time start k
    let data ← (if k > 0 then W.set_data s.1 ((k : Nat) * delta_time) s.2 else .ok s.2 : Res D)
    let vectorSolution ← next W solvers delta_time k data
    return (vectorSolution, data)

/-- `bilaplacian_convergence_parabolic.py` 44-64. -/
def program_late (W : Wrapper K D) (solvers : List (LinearSolver K)) (time_steps : Nat) (delta_time : K) (data : D) : Res (List K × D) := do
  let start ← W.make_initial W.zero_vector 0 data
  time_loop_late W solvers delta_time start time_steps

end HyperHDG.ParabolicProgram

import Verif.Model.EigenvalueProgram
import Mathlib.Analysis.Real.Sqrt
import Mathlib.Tactic.NormNum

/-!
# Model of the Python programs which approximate eigenvalues with Newton's method

`reproducibles_python/*_eigenvalue_newt*.py` (five programs with the same class `helper_ev_newt`; line numbers of `diffusion_convergence_eigenvalue_newt.py` unless said otherwise).  The vectors have one entry
more than the system: the last entry is the eigenvalue.  Floating point numbers are real numbers; NaN, which arises from the division by a norm which is zero, is the outcome `.ub`.  Not modelled: output on the
screen and to files.  An `IndexError` is `.throw .outOfRange`, a `ValueError` `.throw .invalidArgument`; the exceptions the programs themselves raise are values of `Raised`.
-/

namespace HyperHDG.NewtonProgram

open EigenvalueProgram (pyGet pySet npMultiply npSubtract)
open ParabolicProgram (LinearSolver)

/-- The object `HDG_wrapper` (`cython/nonlinear_eigenvalue.pyx`): what its functions return. -/
structure Wrapper where
  size_of_system : Nat
  trace_to_flux : List ℝ → ℝ → Res (List ℝ)
  jacobian_of_trace_to_flux : List ℝ → ℝ → List ℝ → ℝ → Res (List ℝ)
  make_initial : List ℝ → Res (List ℝ)

/-- `np.linalg.norm(vector)`. -/
noncomputable def norm (vector : List ℝ) : ℝ := √((vector.map fun x => x * x).sum)

/-- `np.dot(a, b)`. -/
def npDot (a b : List ℝ) : Res ℝ := if a.length = b.length then .ok (List.zipWith (fun x y => x * y) a b).sum else .throw .invalidArgument

/-- `eval_residual`: 22-28.  Returns `vec` and what `vector`, which belongs to the caller, contains afterwards. -/
noncomputable def eval_residual (W : Wrapper) (vector : List ℝ) : Res (List ℝ × List ℝ) := do
  let eig ← pyGet vector ((vector.length : Int) - 1)
  let vec ← W.trace_to_flux vector eig
  let temp ← pyGet vector ((vector.length : Int) - 1)
  let vector ← pySet vector (vector.length - 1) 0
  let vec ← pySet vec (vec.length - 1) (norm vector ^ 2 - 1)
  let vector ← pySet vector (vector.length - 1) temp
  return (vec, vector)

/-- `eval_jacobian`: 29-36, with `val` for `self.val`.  Returns `vec` and `self.val` afterwards. -/
def eval_jacobian (W : Wrapper) (val vector : List ℝ) : Res (List ℝ × List ℝ) := do
  let eig ← pyGet vector ((vector.length : Int) - 1)
  let eig_val ← pyGet val ((val.length : Int) - 1)
  let vec ← W.jacobian_of_trace_to_flux vector eig val eig_val
  let temp ← pyGet val ((val.length : Int) - 1)
  let val ← pySet val (val.length - 1) 0
  let dot ← npDot vector val
  let vec ← pySet vec (vec.length - 1) (2 * dot)
  let val ← pySet val (val.length - 1) temp
  return (vec, val)

/-- The operator `A`: 76.  (That `self.val` is the same after each product is part of property C91.) -/
def jacobian (W : Wrapper) (val : List ℝ) (vector : List ℝ) : Res (List ℝ) := do
  let r ← eval_jacobian W val vector
  return r.1

/-- The exceptions raised by the programs: `RuntimeError("Linear solvers did not converge!")` (105), the `AttributeError` of line 102 (SciPy has no function `bicgsatb`),
`RuntimeError("Newton step is too small!")` (113) and `RuntimeError("Newton solver did not converge!")` (126). -/
inductive Raised
  | linearSolvers
  | noAttribute
  | stepTooSmall
  | notConverged
deriving DecidableEq

/-- `except RuntimeError`: 157 (and in `*_eigenvalue_comb.py`). -/
def Raised.isRuntimeError : Raised → Bool
  | noAttribute => false
  | _ => true

/-- Solving for the update, with the norm of the residual: `(A, residual)` to `vectorUpdate`. -/
abbrev Update := ℝ → (List ℝ → Res (List ℝ)) → List ℝ → Res (Except Raised (List ℝ))

/-- `scaling_fac`: 48. -/
noncomputable def scaling_fac : ℝ := 1 / 100
/-- `norm_exact`: 49. -/
noncomputable def norm_exact : ℝ := 1 / 1000000000
/-- `alpha`: 50. -/
noncomputable def alpha : ℝ := 1 / 10
/-- `beta`: 51. -/
noncomputable def beta : ℝ := 1 / 2

/-- `diffusion_*`: 99-105.  The solvers are given the relative tolerance. -/
noncomputable def diffusion_update (gmres : ℝ → LinearSolver ℝ) : Update := fun norm_res A residual => do
  let r ← gmres (scaling_fac * norm_res) A residual
  if r.2 = 0 then return .ok r.1
  else return .error .noAttribute

/-- `bilaplacian_*`: `bilaplacian_convergence_eigenvalue_newt.py` 99-105. -/
noncomputable def bilaplacian_update (bicgstab gmres : ℝ → LinearSolver ℝ) : Update := fun norm_res A residual => do
  let r ← bicgstab (min (1 / 1000000000) (scaling_fac * norm_res)) A residual
  if r.2 = 0 then return .ok r.1
  else do
    let r ← gmres (min (1 / 1000000000) (scaling_fac * norm_res)) A residual
    if r.2 = 0 then return .ok r.1
    else return .error .linearSolvers

/-- `gamma` after `k` passes of the loop 111-117. -/
noncomputable def gamma (k : Nat) : ℝ := beta ^ k

theorem lt_of_gamma {k : Nat} (h : ¬ gamma k < 1 / 10000) : k < 14 := by
  by_contra hk
  refine h (lt_of_le_of_lt (pow_le_pow_of_le_one ?_ ?_ (not_lt.mp hk)) ?_) <;> norm_num [beta]

/-- The loop `while`: 111-117, after `k` passes.  `none`: "Newton step is too small!" (113). -/
noncomputable def line_search (W : Wrapper) (vectorSolution vectorUpdate : List ℝ) (norm_old : ℝ) (k : Nat) (vectorHelper residual : List ℝ) (norm_res : ℝ) :
    Res (Option (List ℝ × List ℝ × ℝ)) :=
  if norm_res > (1 - alpha * gamma k) * norm_old then
    if _h : gamma k < 1 / 10000 then .ok none
    else do
      let vectorHelper ← npSubtract vectorSolution (npMultiply vectorUpdate (gamma (k + 1)))
      let r ← eval_residual W vectorHelper
      line_search W vectorSolution vectorUpdate norm_old (k + 1) r.2 r.1 (norm r.1)
  else .ok (some (vectorHelper, residual, norm_res))
termination_by 14 - k
decreasing_by
  have := lt_of_gamma _h
  omega

/-- One pass of the loop `for newton_step`: 95-119 (without the test whether to leave the loop).  The new `vectorSolution`, `residual` and `norm_res`. -/
noncomputable def newton_step (W : Wrapper) (update : Update) (vectorSolution residual : List ℝ) (norm_res : ℝ) : Res (Except Raised (List ℝ × List ℝ × ℝ)) := do
  let u ← update norm_res (jacobian W vectorSolution) residual
  match u with
  | .error e => return .error e
  | .ok vectorUpdate => do
    let vectorHelper ← npSubtract vectorSolution vectorUpdate
    let r ← eval_residual W vectorHelper
    let s ← line_search W vectorSolution vectorUpdate norm_res 0 r.2 r.1 (norm r.1)
    match s with
    | none => return .error .stepTooSmall
    | some s => return .ok s

/-- The loop `for newton_step` with `break`: 93-123, for the steps which are left. -/
noncomputable def newton_loop (W : Wrapper) (update : Update) : (steps : Nat) → (vectorSolution residual : List ℝ) → (norm_res : ℝ) → Res (Except Raised (List ℝ × ℝ))
  | 0, vectorSolution, _, norm_res => .ok (.ok (vectorSolution, norm_res))
  | steps + 1, vectorSolution, residual, norm_res => do
    let s ← newton_step W update vectorSolution residual norm_res
    match s with
    | .error e => return .error e
    | .ok s => if s.2.2 < norm_exact then return .ok (s.1, s.2.2) else newton_loop W update steps s.1 s.2.1 s.2.2

/-- `np.multiply(vectorSolution, 1./np.linalg.norm(vectorSolution))`: 81, 87. -/
noncomputable def normalise (vector : List ℝ) : Res (List ℝ) := if norm vector = 0 then .ub else .ok (npMultiply vector (1 / norm vector))

/-- `initial == "default"`: 78-82.  `guess` is the number of line 82. -/
noncomputable def start_default (W : Wrapper) (guess : ℝ) : Res (List ℝ) := do
  let vectorSolution ← W.make_initial (List.replicate (W.size_of_system + 1) 0)
  let vectorSolution ← normalise vectorSolution
  pySet vectorSolution W.size_of_system guess

/-- The other branch: 83-88.  Returns `vectorSolution` and what the list `initial` of the caller contains afterwards. -/
noncomputable def start_initial (initial : List ℝ) : Res (List ℝ × List ℝ) := do
  let temp ← pyGet initial ((initial.length : Int) - 1)
  let initial ← pySet initial (initial.length - 1) 0
  let vectorSolution ← normalise initial
  let vectorSolution ← pySet vectorSolution (vectorSolution.length - 1) temp
  return (vectorSolution, initial)

/-- `eigenvalue_newt` from line 90 on.  Returns the eigenvalue and the vector. -/
noncomputable def newton (W : Wrapper) (update : Update) (n_newton_steps : Nat) (vectorSolution : List ℝ) : Res (Except Raised (ℝ × List ℝ)) := do
  let r ← eval_residual W vectorSolution
  let s ← newton_loop W update n_newton_steps r.2 r.1 (norm r.1)
  match s with
  | .error e => return .error e
  | .ok s =>
    if s.2 ≥ norm_exact then return .error .notConverged
    else do
      let val ← pyGet s.1 W.size_of_system
      return .ok (val, s.1)

/-- `eigenvalue_newt(.., "default", ..)`. -/
noncomputable def program_default (W : Wrapper) (update : Update) (n_newton_steps : Nat) (guess : ℝ) : Res (Except Raised (ℝ × List ℝ)) := do
  let vectorSolution ← start_default W guess
  newton W update n_newton_steps vectorSolution

/-- `eigenvalue_newt(.., initial, ..)`: the result and what `initial` contains afterwards. -/
noncomputable def program_initial (W : Wrapper) (update : Update) (n_newton_steps : Nat) (initial : List ℝ) : Res (Except Raised (ℝ × List ℝ) × List ℝ) := do
  let s ← start_initial initial
  let r ← newton W update n_newton_steps s.1
  return (r, s.2)

/-- `*_eigenvalue_comb.py` 21-27: `vector` and `value` are what one of the programs of `Verif/Model/EigenvalueProgram.lean` returned. -/
noncomputable def combined (W : Wrapper) (update : Update) (n_newton_steps : Nat) (value : ℝ) (vector : List ℝ) : Res (Except Raised (ℝ × List ℝ)) := do
  let r ← program_initial W update n_newton_steps (vector ++ [value])
  return r.1

end HyperHDG.NewtonProgram

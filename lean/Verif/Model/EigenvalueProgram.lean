import Verif.Model.ParabolicProgram

/-!
# Model of the Python programs which approximate eigenvalues

`reproducibles_python/*_eigenvalue_approx.py` (four programs with the same class `helper_ev_approx`, line numbers of `diffusion_convergence_eigenvalue_approx.py`) and
`reproducibles_python/*_eigenvalue_shifted_inverse*.py` (five programs with the same class, line numbers of `diffusion_convergence_eigenvalue_shifted_inverse.py`).  Not modelled: output on the screen and
to files.  Lists and one-dimensional arrays are lists; an `IndexError` is `.throw .outOfRange`, a `ValueError` `.throw .invalidArgument`, an `AssertionError` `.abort`.
-/

namespace HyperHDG.EigenvalueProgram

open ParabolicProgram (LinearSolver)

variable {K α β : Type}

/-- The object `HDG_wrapper` (`cython/mass_approx_eigenvalue.pyx`, `shifted_inverse_eigenvalue.pyx`): what its functions return, for a vector and a time or shift.  The class
`ShiftedInverseEigenvalue` has no `trace_to_mass_flux`; the programs for it do not call it. -/
structure Wrapper (K : Type) where
  size_of_system : Nat
  dirichlet_indices : List Nat
  trace_to_flux : List K → K → Res (List K)
  trace_to_mass_flux : List K → K → Res (List K)

/-- `vector[x]` of Python: negative numbers count from the end. -/
def pyGet (vector : List α) (x : Int) : Res α :=
  if 0 ≤ x then (match vector[x.toNat]? with | some a => .ok a | none => .throw .outOfRange)
  else if 0 ≤ x + vector.length then (match vector[(x + vector.length).toNat]? with | some a => .ok a | none => .throw .outOfRange)
  else .throw .outOfRange

/-- `vector[k] = a` of Python for `k >= 0`. -/
def pySet (vector : List α) (k : Nat) (a : α) : Res (List α) := if k < vector.length then .ok (vector.set k a) else .throw .outOfRange

/-- A list comprehension `[f(x) for x in l]`. -/
def comprehension (f : α → Res β) : List α → Res (List β)
  | [] => .ok []
  | x :: l => do
    let y ← f x
    let r ← comprehension f l
    return y :: r

/-- `np.multiply(vector, c)`. -/
def npMultiply [Mul K] (vector : List K) (c : K) : List K := vector.map fun x => x * c

/-- `np.subtract(a, b)` (vectors of length one, which NumPy repeats, are not treated specially). -/
def npSubtract [Sub K] (a b : List K) : Res (List K) := if a.length = b.length then .ok (List.zipWith (fun x y => x - y) a b) else .throw .invalidArgument

/-- Members of `helper_ev_approx`. -/
structure Helper (K : Type) where
  hdg_wrapper : Wrapper K
  sigma : K
  dirichlet_inidces : List Nat
  index_vector : List Int
  vector_index : List Int

/-- The loop `while`: 24-26. -/
def skip (dirichlet_inidces : List Nat) (i n_indices : Nat) : Nat :=
  if _h : n_indices < dirichlet_inidces.length then
    if i + n_indices = dirichlet_inidces[n_indices] then skip dirichlet_inidces i (n_indices + 1) else n_indices
  else n_indices
termination_by dirichlet_inidces.length - n_indices

/-- The loop of the constructor: 22-28. -/
def fill (dirichlet_inidces : List Nat) (index_vector vector_index : List Int) : Res (Nat × List Int × List Int) :=
  forUp index_vector.length (fun i s => do
    let n_indices := skip dirichlet_inidces i s.1
    let index_vector ← pySet s.2.1 i ((i + n_indices : Nat) : Int)
    let vector_index ← pySet s.2.2 (i + n_indices) (i : Int)
    return (n_indices, index_vector, vector_index)) (0, index_vector, vector_index)

/-- `__init__`: 16-29, with `long_vector_size` (30-31) and `short_vector_size` (32-33).  `[-1] * n` is the empty list for a negative `n`. -/
def Helper.init (W : Wrapper K) (sigma : K) : Res (Helper K) := do
  let s ← fill W.dirichlet_indices (List.replicate (W.size_of_system - W.dirichlet_indices.length) (-1)) (List.replicate W.size_of_system (-1))
  if (-1 : Int) ∈ s.2.1 then .abort
  else return { hdg_wrapper := W, sigma := sigma, dirichlet_inidces := W.dirichlet_indices, index_vector := s.2.1, vector_index := s.2.2 }

/-- `short_vector_size`: 32-33 (a negative size, which SciPy rejects, is zero here). -/
def Helper.short_vector_size (h : Helper K) : Nat := h.hdg_wrapper.size_of_system - h.dirichlet_inidces.length

/-- `long_vector`: 34-35. -/
def Helper.long_vector [Zero K] (h : Helper K) (vector : List K) : Res (List K) :=
  comprehension (fun x : Int => if x > -1 then pyGet vector x else .ok 0) h.vector_index

/-- `short_vector`: 36-37. -/
def Helper.short_vector (h : Helper K) (vector : List K) : Res (List K) := comprehension (fun x => pyGet vector x) h.index_vector

/-- `shifted_inverse`: 49-55 (`*_eigenvalue_approx.py`), 51-57 (`*_shifted_inverse.py`); `shifted_mult` is the operator `ShiftOp`. -/
def shifted_inverse (cg : LinearSolver K) (shifted_mult : List K → Res (List K)) (vector : List K) : Res (List K) := do
  let r ← cg shifted_mult vector
  if r.2 = 0 then .ok r.1 else .abort

/-- `scipy.sparse.linalg.eigsh(A, k=.., M=M, sigma=sigma, which='LM', OPinv=OPinv)` for operators of size `n`: the eigenvalues and eigenvectors (the columns of the array returned); exceptions of the
operators are passed on. -/
abbrev Eigsh (K : Type) := (n : Nat) → (A M OPinv : List K → Res (List K)) → (sigma : K) → Res (List (K × List K))

namespace MassApprox

variable [Zero K] [One K] [Mul K] [Neg K] [Sub K]

/-- `multiply_stiff`: 38-41. -/
def multiply_stiff (h : Helper K) (vector : List K) : Res (List K) := do
  let long ← h.long_vector vector
  let vec ← h.hdg_wrapper.trace_to_flux long 0
  h.short_vector (npMultiply vec (-1))

omit [One K] [Mul K] [Neg K] [Sub K] in
/-- `multiply_mass`: 42-44. -/
def multiply_mass (h : Helper K) (vector : List K) : Res (List K) := do
  let long ← h.long_vector vector
  let vec ← h.hdg_wrapper.trace_to_mass_flux long 0
  h.short_vector vec

/-- `shifted_mult`: 45-48. -/
def shifted_mult (h : Helper K) (vector : List K) : Res (List K) := do
  let mass ← multiply_mass h vector
  let vec := npMultiply mass h.sigma
  let stiff ← multiply_stiff h vector
  npSubtract stiff vec

/-- `eigenvalue_approx_MA`: 87-115.  Returns the eigenvalue and the vector `solution`. -/
def program (W : Wrapper K) (sigma : K) (cg : LinearSolver K) (eigsh : Eigsh K) : Res (K × List K) := do
  let h ← Helper.init W sigma
  let pairs ← eigsh h.short_vector_size (multiply_stiff h) (multiply_mass h) (shifted_inverse cg (shifted_mult h)) sigma
  let first ← pyGet pairs 0
  let solution ← h.long_vector first.2
  return (first.1, solution)

/-- The vector which is plotted by `bilaplacian_convergence_eigenvalue_approx.py` 110 and `bilaplacian_hypergraph_convergence_eigenvalue_approx.py` 110. -/
def plotted_bilaplacian (W : Wrapper K) (sigma : K) (cg : LinearSolver K) (eigsh : Eigsh K) : Res (List K) := do
  let h ← Helper.init W sigma
  let r ← program W sigma cg eigsh
  h.long_vector r.2

end MassApprox

namespace ShiftedInverse

variable [Zero K] [One K] [Mul K] [Neg K] [Sub K] [Div K]

omit [Sub K] [Div K] in
/-- `multiply_stiff`: 38-41. -/
def multiply_stiff (h : Helper K) (vector : List K) : Res (List K) := do
  let long ← h.long_vector vector
  let vec ← h.hdg_wrapper.trace_to_flux long 0
  let short ← h.short_vector vec
  return npMultiply short (-1)

omit [Sub K] [Div K] in
/-- `shifted_mult`: 42-45. -/
def shifted_mult (h : Helper K) (vector : List K) : Res (List K) := do
  let long ← h.long_vector vector
  let vec ← h.hdg_wrapper.trace_to_flux long h.sigma
  let short ← h.short_vector vec
  return npMultiply short (-1)

/-- `multiply_mass`: 46-50. -/
def multiply_mass (h : Helper K) (vector : List K) : Res (List K) := do
  let long ← h.long_vector vector
  let vec ← h.hdg_wrapper.trace_to_flux long h.sigma
  let vec0 ← h.hdg_wrapper.trace_to_flux long 0
  let vec ← npSubtract vec0 vec
  let short ← h.short_vector vec
  return npMultiply short (-1 / h.sigma)

/-- `eigenvalue_approx_SI`: 89-117.  Returns the eigenvalue and the vector `solution`. -/
def program (W : Wrapper K) (sigma : K) (cg : LinearSolver K) (eigsh : Eigsh K) : Res (K × List K) := do
  let h ← Helper.init W sigma
  let pairs ← eigsh h.short_vector_size (multiply_stiff h) (multiply_mass h) (shifted_inverse cg (shifted_mult h)) sigma
  let first ← pyGet pairs 0
  let solution ← h.long_vector first.2
  return (first.1, solution)

/-- `eigenvalue_approx_SI` of `diffusion_convergence_eigenvalue_shifted_inverse_cross.py` 89-120, which uses two eigenpairs.  Returns the eigenvalue and the vector `solution`. -/
def program_cross (W : Wrapper K) (sigma : K) (cg : LinearSolver K) (eigsh : Eigsh K) : Res (K × List K) := do
  let h ← Helper.init W sigma
  let pairs ← eigsh h.short_vector_size (multiply_stiff h) (multiply_mass h) (shifted_inverse cg (shifted_mult h)) sigma
  let first ← pyGet pairs 0
  let second ← pyGet pairs 1
  let solution ← h.long_vector second.2
  return (first.1, solution)

end ShiftedInverse

end HyperHDG.EigenvalueProgram

import Verif.Model.GlobalClasses
import Verif.Model.SparseLA

/-!
# Model of the programs which solve elliptic problems

The sequences of calls in `tests_c++/diffusion_dimensions.cxx` (and, with the same calls, in the other elliptic examples of `tests_c++/` and `examples/`).
-/

namespace HyperHDG.EllipticProgram

open HyGraph

variable {K : Type} {dim n : Nat}

/-- The loop `for (i = 0; i < v.size(); ++i) v[i] *= -1`: `tests_c++/diffusion_dimensions.cxx` 40-41, 240-241. -/
def negate [One K] [Mul K] [Neg K] (v : List K) : Res (List K) :=
  forUp v.length (fun i v => do
    let x ← vget v i
    vset v i (x * -1)) v

/-- `problem.trace_to_flux` as it is called by `conjugate_gradient` (`sparse_la.hxx` 183): the object is not changed. -/
def operator [Zero K] [Add K] (m : Mode) (ttf : LocalFun dim n K) (old0 new0 : LocDofs dim n K) (problem : Elliptic dim n) (x : List K) :
    Res (List K × Elliptic dim n) := do
  let y ← problem.apply m ttf old0 new0 x
  return (y, problem)

/-- A problem whose local solver knows the Dirichlet boundary: `tests_c++/diffusion_dimensions.cxx` 231-246.  `ttf` and `res` are `trace_to_flux` and `residual_flux` of the local
solver.  The `catch` block (247-251) is not modelled, the exception is the result. -/
def solve [One K] [Zero K] [Add K] [Mul K] [Neg K] [LT K] [DecidableLT K] (m : Mode) (div : K → K → K) (G : HyGraph dim n) (ttf res : LocalFun dim n K)
    (old0 new0 : LocDofs dim n K) (tolerance : K) : Res (List K) := do
  let problem := Elliptic.mk' G
  let vectorRHS ← problem.apply m res old0 new0 (zero_vector G)
  let vectorRHS ← negate vectorRHS
  let solution ← SparseLA.conjugate_gradient m div (operator m ttf old0 new0) vectorRHS problem 0 tolerance
  return solution.1

/-- A problem for which the user declares Dirichlet indices and gives the Dirichlet values in a vector: `tests_c++/diffusion_dimensions.cxx` 26-54. -/
def solveDeclared [One K] [Zero K] [Add K] [Mul K] [Neg K] [LT K] [DecidableLT K] (m : Mode) (div : K → K → K) (G : HyGraph dim n) (ttf : LocalFun dim n K)
    (old0 new0 : LocDofs dim n K) (index_vector : List Nat) (vectorDirichlet : List K) (tolerance : K) : Res (List K) := do
  let problem ← (Elliptic.mk' G).read_dirichlet_indices m index_vector
  let vectorRHS ← problem.apply m ttf old0 new0 vectorDirichlet
  let vectorRHS ← negate vectorRHS
  let solution ← SparseLA.conjugate_gradient m div (operator m ttf old0 new0) vectorRHS problem 0 tolerance
  SparseLA.linear_combination m 1 solution.1 1 vectorDirichlet

end HyperHDG.EllipticProgram

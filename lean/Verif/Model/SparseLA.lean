import Verif.Model.Outcome

/-!
# Model of `include/HyperHDG/sparse_la.hxx`

Large vectors are lists of numbers of an exact type `K`.  Functions with reference parameters work on a store: a list of
vectors, in which a reference is a position.  Two references to the same object are equal positions.
-/

namespace HyperHDG.SparseLA

variable {K : Type}

/-- `inner_product`: `sparse_la.hxx` 47-56. -/
def inner_product [Zero K] [Add K] [Mul K] (m : Mode) (left right : List K) : Res K := do
  hyAssert m (left.length = right.length)
  forUp left.length (fun i product => do
    let l ← vget left i
    let r ← vget right i
    return product + l * r) 0

/-- `norm_2`: `sparse_la.hxx` 70-74.  The square root of the standard library is a parameter. -/
def norm_2 [Zero K] [Add K] [Mul K] (sqrt : K → K) (m : Mode) (vec : List K) : Res K := do
  let p ← inner_product m vec vec
  return sqrt p

/-- `linear_combination` returning a new vector: `sparse_la.hxx` 92-104. -/
def linear_combination [Zero K] [Add K] [Mul K] (m : Mode) (leftFac : K) (leftVec : List K) (rightFac : K)
    (rightVec : List K) : Res (List K) := do
  hyAssert m (leftVec.length = rightVec.length)
  forUp leftVec.length (fun i lin_comb => do
    let l ← vget leftVec i
    let r ← vget rightVec i
    vset lin_comb i (leftFac * l + rightFac * r)) (List.replicate leftVec.length 0)

/-- `linear_combination` storing into `result`: `sparse_la.hxx` 123-135.  `leftV`, `rightV`, `result` are references, i.e. positions in
the store `st`, and every iteration reads the current content. -/
def linear_combination_into [Add K] [Mul K] (m : Mode) (leftFac : K) (leftV : Nat) (rightFac : K)
    (rightV result : Nat) (st : List (List K)) : Res (List (List K)) := do
  let l0 ← vget st leftV
  let r0 ← vget st rightV
  let res0 ← vget st result
  hyAssert m (l0.length = r0.length ∧ l0.length = res0.length)
  forUp res0.length (fun i st => do
    let lv ← vget st leftV
    let l ← vget lv i
    let rv ← vget st rightV
    let r ← vget rv i
    let res ← vget st result
    let res' ← vset res i (leftFac * l + rightFac * r)
    vset st result res') st

/-- The variables of the conjugate gradient loop: the store with `x` (position 0), `r` (1), `d` (2), `z` (3), the number
`r_square_new`, and the state of the object `problem`. -/
structure CGState (K σ : Type) where
  st : List (List K)
  r_square_new : K
  problem : σ

/-- One iteration of the loop without the final test: `sparse_la.hxx` 181-193.  `problem.trace_to_flux` may change the object `problem`.  The division is
a parameter `div`, of which nothing is known if the divisor is zero (in floating-point arithmetic it gives an infinite value or NaN). -/
def cgStep [One K] [Zero K] [Add K] [Mul K] [Neg K] {σ : Type} (m : Mode) (div : K → K → K)
    (trace_to_flux : σ → List K → Res (List K × σ)) (s : CGState K σ) : Res (CGState K σ) := do
  let d ← vget s.st 2
  let (z, problem) ← trace_to_flux s.problem d
  let st ← vset s.st 3 z
  let r_square_old := s.r_square_new
  let dz ← inner_product m d z
  let alpha := div r_square_old dz
  let st ← linear_combination_into m 1 0 alpha 2 0 st
  let st ← linear_combination_into m 1 1 (-alpha) 3 1 st
  let r ← vget st 1
  let r_square_new ← inner_product m r r
  let beta := div r_square_new r_square_old
  let st ← linear_combination_into m 1 1 beta 2 2 st
  return ⟨st, r_square_new, problem⟩

/-- The loop `for (k = 0; k < n_iterations; ++k)` of `sparse_la.hxx` 179-200 with `n` iterations left; after the last one the exception is thrown
(202). -/
def cgLoop [One K] [Zero K] [Add K] [Mul K] [Neg K] [LT K] [DecidableLT K] {σ : Type} (m : Mode) (div : K → K → K)
    (trace_to_flux : σ → List K → Res (List K × σ)) (tolerance : K) : Nat → CGState K σ → Res (List K × σ)
  | 0, _ => .throw .solve
  | n + 1, s => do
    let s ← cgStep m div trace_to_flux s
    if s.r_square_new < tolerance * tolerance then do
      let x ← vget s.st 0
      return (x, s.problem)
    else cgLoop m div trace_to_flux tolerance n s

/-- `conjugate_gradient`: `sparse_la.hxx` 156-205.  Returns the solution and the object `problem` after the call.  The parameter `n_iterations` is passed by
value, so that the assignments 171 and 197 have no effect. -/
def conjugate_gradient [One K] [Zero K] [Add K] [Mul K] [Neg K] [LT K] [DecidableLT K] {σ : Type} (m : Mode)
    (div : K → K → K) (trace_to_flux : σ → List K → Res (List K × σ)) (b : List K) (problem : σ)
    (n_iterations : Nat) (tolerance : K) : Res (List K × σ) := do
  let x := List.replicate b.length (0 : K)
  let r := b
  let d := r
  let r_square_new ← inner_product m r r
  if r_square_new < tolerance * tolerance then return (x, problem)
  else do
    let n_iterations := if n_iterations = 0 then u32 b.length else n_iterations
    hyAssert m (n_iterations > 0)
    cgLoop m div trace_to_flux tolerance n_iterations ⟨[x, r, d, []], r_square_new, problem⟩

end HyperHDG.SparseLA

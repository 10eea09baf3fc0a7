import Verif.Model.Outcome

/-!
# Model of `include/HyperHDG/hypercube.hxx`
-/

namespace HyperHDG.Hypercube

/-- `Hypercube<dimT>::n_faces()`: `hypercube.hxx` 17. -/
def n_faces (dim : Nat) : Nat := 2 * dim

/-- `Hypercube<dimT>::n_vertices()`: `hypercube.hxx` 21 (`1 << dimT`; template parameter, small). -/
def n_vertices (dim : Nat) : Nat := 1 <<< dim

/-- `Hypercube<dimT>::pow(base)`: `hypercube.hxx` 25-32.  Multiplication in `unsigned int`. -/
def pow (dim base : Nat) : Nat :=
  forUpP dim (fun _ result => u32 (result * base)) 1

/-- Body of the loop of `index_decompose`: `hypercube.hxx` 45-49.  State: decomposition written so far
(in order), remaining index. -/
def decomposeStep (range : Nat) (_dim : Nat) (s : List Nat × Nat) : Res (List Nat × Nat) :=
  if range = 0 then .ub                      -- `%` and `/` by zero
  else .ok (s.1 ++ [s.2 % range], s.2 / range)

/-- `Hypercube<dimT>::index_decompose(index, range)`: `hypercube.hxx` 40-52.  The returned array has
`std::max(dimT, 1)` entries; entry `dim` is written in iteration `dim`, so writing is appending. -/
def index_decompose (m : Mode) (dim index range : Nat) : Res (List Nat) := do
  let s ← forUp (max dim 1) (decomposeStep range) ([], index)
  hyAssert m (s.2 = 0)
  return s.1

/-- `Hypercube<dimT>::tensorial_pt(index, points)`: `hypercube.hxx` 60-73.  `points` is an array of one-dimensional
coordinates, the result a point with `dimT` coordinates (written in order).  Reading `points[...]`
out of bounds is undefined. -/
def tensorial_pt {α : Type} (m : Mode) (dim index : Nat) (points : List α) : Res (List α) :=
  if dim = 0 then .ok []
  else do
    let decomp ← index_decompose m dim index points.length
    forUp dim (fun d point => do
      let k ← vget decomp d
      let x ← vget points k
      return point ++ [x]) []

end HyperHDG.Hypercube

import Verif.Model.GlobalLoop

/-!
# Model of the classes in `include/HyperHDG/global_loop/`

`Elliptic`, `Parabolic`, `MassApproxEigenvalue`, `ShiftedInverseEigenvalue`, `NonlinearEigenvalue`: the parts that are not pure
assembly loops.
-/

namespace HyperHDG

/-- `std::unique` followed by `erase`: removes all but the first of every group of consecutive equal elements
(`elliptic.hxx` 174-175, `shifted_inverse_eigenvalue.hxx` 161-162). -/
def uniqueErase : List Nat → List Nat
  | [] => []
  | [a] => [a]
  | a :: b :: l => if a = b then uniqueErase (b :: l) else a :: uniqueErase (b :: l)

/-- Inserting a number into a sorted list. -/
def insertIdx (a : Nat) : List Nat → List Nat
  | [] => [a]
  | b :: l => if a ≤ b then a :: b :: l else b :: insertIdx a l

/-- `std::sort` of a vector of indices (standard library; every sorting algorithm gives the same list, here it is insertion sort). -/
def sortIdx : List Nat → List Nat
  | [] => []
  | a :: l => insertIdx a (sortIdx l)

namespace HyGraph

variable {dim n : Nat} {K : Type}

/-! ### `Elliptic` -/

/-- The members of `GlobalLoop::Elliptic` that matter here: `elliptic.hxx` 66-75.  (The local solver is an argument of the
functions, the plot options are modelled separately.) -/
structure Elliptic (dim n : Nat) where
  G : HyGraph dim n
  dirichlet_indices : List Nat

/-- The constructors: `elliptic.hxx` 96-145, `dirichlet_indices_` is default-constructed. -/
def Elliptic.mk' (G : HyGraph dim n) : Elliptic dim n := ⟨G, []⟩

/-- `hyper_graph_.n_global_dofs()`: `hdg_hypergraph.hxx` 513-517. -/
def n_global_dofs (G : HyGraph dim n) : Nat := G.factory.n_global_dofs

/-- `read_dirichlet_indices`: `elliptic.hxx` 160-176.  After `resize` every entry is overwritten in order, which is modelled by
appending. -/
def Elliptic.read_dirichlet_indices (m : Mode) (E : Elliptic dim n) (indices : List Nat) :
    Res (Elliptic dim n) := do
  let d ← forUp indices.length (fun i (d : List Nat) => do
    let x ← vget indices i
    hyAssert m (x < E.G.n_global_dofs)
    return d ++ [x]) []
  return { E with dirichlet_indices := uniqueErase (sortIdx d) }

/-- Zeroing loop: `elliptic.hxx` 205-213 and 257-265. -/
def Elliptic.zeroDirichlet [Zero K] (m : Mode) (E : Elliptic dim n) (ax : List K) : Res (List K) :=
  forUp E.dirichlet_indices.length (fun i ax => do
    let d ← vget E.dirichlet_indices i
    hyAssert m (d < E.G.n_global_dofs)
    vset ax d 0) ax

/-- `trace_to_flux` (`elliptic.hxx` 199-216) and `residual_flux` (251-268): the same code with another member function `loc` of the
local solver. -/
def Elliptic.apply [Zero K] [Add K] (m : Mode) (E : Elliptic dim n) (loc : LocalFun dim n K)
    (old0 new0 : LocDofs dim n K) (x : List K) : Res (List K) := do
  let ax ← E.G.mat_vec_multiply m loc old0 new0 x
  E.zeroDirichlet m ax

/-- `trace_to_flux_mat`: `elliptic.hxx` 231-235 - the Dirichlet indices are not looked at. -/
def Elliptic.trace_to_flux_mat [Zero K] [One K] (m : Mode) (E : Elliptic dim n)
    (loc : LocalFun dim n K) (old0 new0 : LocDofs dim n K) : Res (SparseMat K) :=
  E.G.mat_generate m loc old0 new0

/-- `zero_vector`: `elliptic.hxx` 185, `parabolic.hxx` 157. -/
def zero_vector [Zero K] (G : HyGraph dim n) : List K := List.replicate G.n_global_dofs 0

/-- `set_refinement`: `elliptic.hxx` 329.  Only the hypergraph is changed (to `G'`). -/
def Elliptic.set_refinement (E : Elliptic dim n) (G' : HyGraph dim n) : Elliptic dim n :=
  { E with G := G' }

/-! ### `dirichlet_indices` of the eigenvalue loops -/

/-- Members of `ShiftedInverseEigenvalue` / `MassApproxEigenvalue`: hypergraph, the node types the local solver reports
for the faces of each hyperedge, and the member vector `dirichlet_indices_` (`shifted_inverse_eigenvalue.hxx` 58,
`mass_approx_eigenvalue.hxx` 62). -/
structure Eigen (dim n : Nat) where
  G : HyGraph dim n
  node_types : Nat → Fin (2 * dim) → Nat
  dirichlet_indices : List Nat

/-- `dirichlet_indices()`: `shifted_inverse_eigenvalue.hxx` 136-165, `mass_approx_eigenvalue.hxx` 140-169.  Returns the new object; the
returned vector is its member `dirichlet_indices`. -/
def Eigen.dirichlet_indices_call (m : Mode) (E : Eigen dim n) : Res (Eigen dim n) := do
  let d ← E.G.for_each (fun edge d =>
    forFin (2 * dim) (fun i (d : List Nat) =>
      if E.node_types edge i = 1 then do
        let dof_indices ← E.G.factory.get_dof_indices m (E.G.hyNodes edge i) (List.replicate n 0)
        forUp dof_indices.length (fun j (d : List Nat) => do
          let x ← vget dof_indices j
          return d ++ [x]) d
      else .ok d) d) E.dirichlet_indices
  return { E with dirichlet_indices := uniqueErase (sortIdx d) }

/-- `set_refinement`: `shifted_inverse_eigenvalue.hxx` 274, `mass_approx_eigenvalue.hxx` 350: only the hypergraph (and with it the node types)
changes. -/
def Eigen.set_refinement (E : Eigen dim n) (G' : HyGraph dim n) (types' : Nat → Fin (2 * dim) → Nat) :
    Eigen dim n :=
  { E with G := G', node_types := types' }

/-! ### `make_initial`, `set_data`, `errors` -/

/-- Scattering loop of `make_initial`: `parabolic.hxx` 390-392, `nonlinear_eigenvalue.hxx` 326-328. -/
def scatterSet (m : Mode) (G : HyGraph dim n) (hyNodes : Fin (2 * dim) → Nat)
    (new : LocDofs dim n K) (ax : List K) : Res (List K) :=
  forFin (2 * dim) (fun node ax =>
    G.factory.set_dof_values m (hyNodes node) ax (List.ofFn (new node))) ax

/-- Conversion of the argument `time` (a `double`, here a rational number `num / den`) to the parameter type
`dof_index_t` = `unsigned int` of `make_initial` (`parabolic.hxx` 348): truncation towards zero, undefined if the result is not representable. -/
def truncTime (num : Int) (den : Nat) : Res Nat :=
  if 0 ≤ num then if (num.toNat / den) < U32 then .ok (num.toNat / den) else .ub
  else if num.natAbs < den then .ok 0 else .ub

/-- Body and loop of `Parabolic::make_initial`: `parabolic.hxx` 347-396.  The local function gets the (already truncated) time as
a natural number. -/
def make_initial [Zero K] (m : Mode) (G : HyGraph dim n)
    (loc : Nat → Nat → LocDofs dim n K → Res (LocDofs dim n K)) (x : List K) (time : Nat) : Res (List K) :=
  G.for_each (fun edge ax => do
    let new ← loc time edge (fun _ _ => 0)
    G.scatterSet m (G.hyNodes edge) new ax) (List.replicate x.length 0)

/-- `Parabolic::make_initial` as called with a `double`. -/
def make_initial_at [Zero K] (m : Mode) (G : HyGraph dim n)
    (loc : Nat → Nat → LocDofs dim n K → Res (LocDofs dim n K)) (x : List K) (num : Int) (den : Nat) :
    Res (List K) := do
  let t ← truncTime num den
  G.make_initial m loc x t

/-- Gathering loop without reset of a second array: `parabolic.hxx` 317-319, `prototype.hxx` 174-176, `nonlinear_eigenvalue.hxx` 299-301. -/
def gather1 (m : Mode) (G : HyGraph dim n) (x : List K) (hyNodes : Fin (2 * dim) → Nat)
    (buf : LocDofs dim n K) : Res (LocDofs dim n K) :=
  forFin (2 * dim) (fun node (s : LocDofs dim n K) => do
    let old ← onArray (s node) (G.factory.get_dof_values m (hyNodes node) x)
    return arrSet s node old) buf

/-- `NonlinearEigenvalue::make_initial`: `nonlinear_eigenvalue.hxx` 282-332.  Here the local values are gathered from `x_vec` before the
local solver modifies them. -/
def make_initial_gather [Zero K] (m : Mode) (G : HyGraph dim n)
    (loc : Nat → LocDofs dim n K → Res (LocDofs dim n K)) (buf0 : LocDofs dim n K) (x : List K) : Res (List K) := do
  let s ← G.for_each (fun edge (s : List K × LocDofs dim n K) => do
    let buf ← G.gather1 m x (G.hyNodes edge) s.2
    let new ← loc edge buf
    let ax ← G.scatterSet m (G.hyNodes edge) new s.1
    return (ax, new)) (List.replicate x.length 0, buf0)
  return s.1

/-- `NonlinearEigenvalue::jacobian_of_trace_to_flux`: `nonlinear_eigenvalue.hxx` 207-274.  Gathers from two global vectors. -/
def jacobian [Zero K] [Add K] (m : Mode) (G : HyGraph dim n)
    (loc : Nat → LocDofs dim n K → LocDofs dim n K → LocDofs dim n K → Res (LocDofs dim n K))
    (old0 vals0 new0 : LocDofs dim n K) (x x_val : List K) : Res (List K) := do
  let s ← G.for_each (fun edge (s : List K × LocDofs dim n K × LocDofs dim n K × LocDofs dim n K) => do
    let b ← forFin (2 * dim) (fun node (b : LocDofs dim n K × LocDofs dim n K × LocDofs dim n K) => do
      let old ← onArray (b.1 node) (G.factory.get_dof_values m (G.hyNodes edge node) x)
      let vals ← onArray (b.2.1 node) (G.factory.get_dof_values m (G.hyNodes edge node) x_val)
      return (arrSet b.1 node old, arrSet b.2.1 node vals, arrSet b.2.2 node (fun _ => 0))) s.2
    let new ← loc edge b.1 b.2.1 b.2.2
    let ax ← G.scatterAdd m (G.hyNodes edge) new s.1
    return (ax, b.1, b.2.1, new)) (List.replicate x.length 0, old0, vals0, new0)
  return s.1

/-- `Parabolic::set_data`: `parabolic.hxx` 301-339.  `data` is the content of the `HyDataContainer` (`hy_data_container.hxx` 23-67); the local
function replaces the data of its hyperedge, given the gathered dofs.  Access as in `get_hyEdge` (60-67). -/
def set_data {D : Type} (m : Mode) (G : HyGraph dim n) (loc : Nat → LocDofs dim n K → D → Res D)
    (buf0 : LocDofs dim n K) (x : List K) (data : List D) : Res (List D) := do
  let s ← G.for_each (fun edge (s : List D × LocDofs dim n K) => do
    hyAssert m (edge < s.1.length)
    let buf ← G.gather1 m x (G.hyNodes edge) s.2
    let d ← vget s.1 edge
    let d' ← loc edge buf d
    let data ← vset s.1 edge d'
    return (data, buf)) (data, buf0)
  return s.1

/-- `Parabolic::make_initial`, `parabolic.hxx` 347-396, for a local solver whose `make_initial` also changes the data of the hyperedge
(371-381).  The time is built into the local function. -/
def make_initial_data {D : Type} [Zero K] (m : Mode) (G : HyGraph dim n) (loc : Nat → LocDofs dim n K → D → Res (LocDofs dim n K × D))
    (x : List K) (data : List D) : Res (List K × List D) :=
  G.for_each (fun edge (s : List K × List D) => do
    hyAssert m (edge < s.2.length)
    let d ← vget s.2 edge
    let r ← loc edge (fun _ _ => 0) d
    let data ← vset s.2 edge r.2
    let ax ← G.scatterSet m (G.hyNodes edge) r.1 s.1
    return (ax, data)) (List.replicate x.length 0, data)

/-- `error_def` of a local solver: `local_solver/diffusion_ldgh.hxx` 130-163 and the same in the other solvers. -/
structure ErrorDef (Err : Type) where
  initial_error : Err
  sum_error : Err → Err → Err
  postprocess_error : Err → Err

/-- `prototype_errors`: `global_loop/prototype.hxx` 164-198. -/
def errors {Err : Type} (m : Mode) (G : HyGraph dim n) (ed : ErrorDef Err)
    (loc : Nat → LocDofs dim n K → Res Err) (buf0 : LocDofs dim n K) (x : List K) : Res Err := do
  let s ← G.for_each (fun edge (s : Err × LocDofs dim n K) => do
    let buf ← G.gather1 m x (G.hyNodes edge) s.2
    let e ← loc edge buf
    return (ed.sum_error s.1 e, buf)) (ed.initial_error, buf0)
  return ed.postprocess_error s.1

/-- The `error_def` of the diffusion solvers (`local_solver/diffusion_ldgh.hxx` 135-163, `diffusion_uniform_ldgh.hxx` 66-94): one number, summed, square root at the
end. -/
def l2ErrorDef [Zero K] [Add K] (sqrt : K → K) : ErrorDef K := ⟨0, fun a b => a + b, sqrt⟩

end HyGraph

/-! ### Iterators -/

/-- `HDGHyperGraph::iterator`: `hdg_hypergraph.hxx` 114-235.  Reference to the hypergraph (its address) and index. -/
structure HyIterator where
  graph : Nat
  index : Nat
deriving DecidableEq, Repr

namespace HyIterator

/-- `operator++`: `hdg_hypergraph.hxx` 171-175; `unsigned int` increment. -/
def incr (it : HyIterator) : HyIterator := { it with index := u32 (it.index + 1) }

/-- `operator--`: `hdg_hypergraph.hxx` 186-190; `unsigned int` decrement. -/
def decr (it : HyIterator) : HyIterator := { it with index := u32 (it.index + (U32 - 1)) }

/-- `operator==`: `hdg_hypergraph.hxx` 231-234. -/
def beq (a b : HyIterator) : Bool := a.index == b.index && a.graph == b.graph

/-- `begin()`: `hdg_hypergraph.hxx` 416-421. -/
def begin (graph : Nat) : HyIterator := ⟨graph, 0⟩

/-- `end()`: `hdg_hypergraph.hxx` 432-437. -/
def «end» (graph n_hyEdges : Nat) : HyIterator := ⟨graph, n_hyEdges⟩

/-- `std::for_each(first, last, f)` of the standard library: `for (; !(first == last); ++first) f(*first);` with at most `fuel` steps; `none` if
the loop has not ended by then.  `f` gets the index of the dereferenced hyperedge (`operator*`, 220). -/
def forEach {σ : Type} (f : Nat → σ → Res σ) (last : HyIterator) : (fuel : Nat) → HyIterator → σ → Option (Res σ)
  | 0, _, _ => none
  | fuel + 1, first, s =>
    if first.beq last then some (.ok s)
    else match f first.index s with
      | .ok s' => forEach f last fuel first.incr s'
      | .abort => some .abort
      | .throw e => some (.throw e)
      | .ub => some .ub

end HyIterator
end HyperHDG

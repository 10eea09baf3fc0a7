import Verif.Model.HyperNodeFactory

/-!
# Model of `include/HyperHDG/global_loop/*.hxx` (assembly loops)

`dim` is the dimension of the hyperedges, `n` the number of dofs per hypernode.  Arrays
`std::array<std::array<dof_value_t, n>, 2 * dim>` are functions of two bounded indices.
-/

namespace HyperHDG

/-- A loop `for (i = 0; i < n; ++i)` over the positions of an array of fixed size. -/
def forFin {σ : Type} : (n : Nat) → (Fin n → σ → Res σ) → σ → Res σ
  | 0, _, s => .ok s
  | n + 1, f, s => forFin n (fun i => f i.castSucc) s >>= f (Fin.last n)

/-- `a[i] = x` for an array of fixed size and an index known to be in range. -/
def arrSet {n : Nat} {α : Type} (a : Fin n → α) (i : Fin n) (x : α) : Fin n → α :=
  fun j => if j = i then x else a j

/-- Calling a function that modifies a vector argument with a `std::array` of size `n`. -/
def onArray {n : Nat} {α : Type} (a : Fin n → α) (f : List α → Res (List α)) : Res (Fin n → α) := do
  let l ← f (List.ofFn a)
  if h : l.length = n then return fun i => l[i] else Res.ub

/-- `std::array<std::array<dof_value_t, n_dofs_per_node>, 2 * hyEdge_dim>`: `global_loop/prototype.hxx` 23. -/
abbrev LocDofs (dim n : Nat) (K : Type) := Fin (2 * dim) → Fin n → K

/-- What the global loops use of `HDGHyperGraph` (`hdg_hypergraph.hxx`): the number of hyperedges (500), the indices of the
hypernodes of a hyperedge (`topology.get_hyNode_indices()`), and the hypernode factory (446) with its
number of hypernodes. -/
structure HyGraph (dim n : Nat) where
  n_hyEdges : Nat
  n_hyNodes : Nat
  hyNodes : Nat → Fin (2 * dim) → Nat

namespace HyGraph

variable {dim n : Nat} {K : Type}

/-- `hyNode_factory()`: `hdg_hypergraph.hxx` 446-449. -/
def factory (G : HyGraph dim n) : HyperNodeFactory := ⟨n, G.n_hyNodes⟩

/-- `std::for_each(hyper_graph_.begin(), hyper_graph_.end(), f)`: `global_loop/prototype.hxx` 25.  That the iterator loop visits
`0, 1, ..., n_hyEdges - 1` is property C38. -/
def for_each {σ : Type} (G : HyGraph dim n) (f : Nat → σ → Res σ) (s : σ) : Res σ :=
  forUp G.n_hyEdges f s

/-- Gathering loop: `global_loop/prototype.hxx` 30-34 (also `parabolic.hxx` 189-194).  `buf` are the arrays `dofs_old`, `dofs_new` with
whatever the previous iteration left there. -/
def gather [Zero K] (m : Mode) (G : HyGraph dim n) (x : List K) (hyNodes : Fin (2 * dim) → Nat)
    (buf : LocDofs dim n K × LocDofs dim n K) : Res (LocDofs dim n K × LocDofs dim n K) :=
  forFin (2 * dim) (fun node (s : LocDofs dim n K × LocDofs dim n K) => do
    let old ← onArray (s.1 node) (G.factory.get_dof_values m (hyNodes node) x)
    return (arrSet s.1 node old, arrSet s.2 node (fun _ => 0))) buf

/-- Scattering loop: `global_loop/prototype.hxx` 53-54 (also `parabolic.hxx` 217-219). -/
def scatterAdd [Add K] (m : Mode) (G : HyGraph dim n) (hyNodes : Fin (2 * dim) → Nat)
    (new : LocDofs dim n K) (ax : List K) : Res (List K) :=
  forFin (2 * dim) (fun node ax =>
    G.factory.add_to_dof_values m (hyNodes node) ax (List.ofFn (new node))) ax

/-- A member function `fun(dofs_old, dofs_new, hyper_edge, time)` of a local solver which fills `dofs_new`:
`edge`, `dofs_old`, `dofs_new` before the call, giving `dofs_new` after the call.  (The time is fixed, `dofs_old` is
not modified by any of the solvers.) -/
abbrev LocalFun (dim n : Nat) (K : Type) :=
  Nat → LocDofs dim n K → LocDofs dim n K → Res (LocDofs dim n K)

/-- State of the assembly loop: `vec_Ax`, `dofs_old`, `dofs_new`. -/
structure LoopState (dim n : Nat) (K : Type) where
  ax : List K
  old : LocDofs dim n K
  new : LocDofs dim n K

/-- Body of the loop over the hyperedges: `global_loop/prototype.hxx` 27-55. -/
def matVecStep [Zero K] [Add K] (m : Mode) (G : HyGraph dim n) (loc : LocalFun dim n K)
    (x : List K) (edge : Nat) (s : LoopState dim n K) : Res (LoopState dim n K) := do
  let hyNodes := G.hyNodes edge
  let buf ← G.gather m x hyNodes (s.old, s.new)
  let new ← loc edge buf.1 buf.2
  let ax ← G.scatterAdd m hyNodes new s.ax
  return ⟨ax, buf.1, new⟩

/-- `prototype_mat_vec_multiply`: `global_loop/prototype.hxx` 18-58.  The same loop is written out in `parabolic.hxx` 172-223
(`trace_to_flux`) and 238-294 (`residual_flux`), `mass_approx_eigenvalue.hxx` 184-235 and 248-303,
`shifted_inverse_eigenvalue.hxx` 176-227, `nonlinear_eigenvalue.hxx` `trace_to_flux`.  `old0`, `new0` are the (uninitialised) arrays of
line 23. -/
def mat_vec_multiply [Zero K] [Add K] (m : Mode) (G : HyGraph dim n) (loc : LocalFun dim n K)
    (old0 new0 : LocDofs dim n K) (x : List K) : Res (List K) := do
  let s ← G.for_each (G.matVecStep m loc x) ⟨List.replicate x.length 0, old0, new0⟩
  return s.ax

/-- `struct sparse_mat`: `global_loop/prototype.hxx` 60-70. -/
structure SparseMat (K : Type) where
  row_vec : List Nat
  col_vec : List Nat
  value_vec : List K

/-- State of the matrix generation: the matrix, the common position of the three iterators (`prototype.hxx` 93-94, 138-140: they are
always incremented together), the local arrays. -/
structure GenState (dim n : Nat) (K : Type) where
  mat : SparseMat K
  pos : Nat
  old : LocDofs dim n K
  new : LocDofs dim n K

/-- Innermost statement: `global_loop/prototype.hxx` 138-140.  Writing through an iterator past the end is undefined. -/
def writeTriplet (r c : Nat) (v : K) (mat : SparseMat K) (pos : Nat) : Res (SparseMat K × Nat) := do
  let rows ← vset mat.row_vec pos r
  let cols ← vset mat.col_vec pos c
  let vals ← vset mat.value_vec pos v
  return (⟨rows, cols, vals⟩, pos + 1)

/-- Loop over `node_j`, `dof_j`: `global_loop/prototype.hxx` 105-142. -/
def genColumn [Zero K] [One K] (loc : LocalFun dim n K) (edge : Nat)
    (dof_indices : Fin (2 * dim) → Fin n → Nat) (node_j : Fin (2 * dim)) (dof_j : Fin n)
    (s : GenState dim n K) : Res (GenState dim n K) := do
  let zero : LocDofs dim n K := fun _ _ => 0
  let old := arrSet zero node_j (arrSet (zero node_j) dof_j 1)
  let new ← loc edge old zero
  let (mat, pos) ← forFin (2 * dim) (fun node_i (t : SparseMat K × Nat) =>
    forFin n (fun dof_i (t : SparseMat K × Nat) =>
      writeTriplet (dof_indices node_i dof_i) (dof_indices node_j dof_j) (new node_i dof_i) t.1 t.2) t)
    (s.mat, s.pos)
  return ⟨mat, pos, old, new⟩

/-- Body of the loop over the hyperedges: `global_loop/prototype.hxx` 103-143.  `idx0` stands for the array `dof_indices`, overwritten
completely by `get_dof_indices` in each iteration. -/
def genStep [Zero K] [One K] (m : Mode) (G : HyGraph dim n) (loc : LocalFun dim n K)
    (edge : Nat) (s : GenState dim n K) : Res (GenState dim n K) := do
  let hyNodes := G.hyNodes edge
  let dof_indices ← forFin (2 * dim) (fun node (d : Fin (2 * dim) → Fin n → Nat) => do
    let row ← onArray (d node) (G.factory.get_dof_indices m (hyNodes node))
    return arrSet d node row) (fun _ _ => 0)
  forFin (2 * dim) (fun node_j s =>
    forFin n (fun dof_j s => genColumn loc edge dof_indices node_j dof_j s) s) s

/-- `prototype_mat_generate`: `global_loop/prototype.hxx` 87-147.  The length passed to the constructor of `sparse_mat` is
an `unsigned int` product (90-91). -/
def mat_generate [Zero K] [One K] (m : Mode) (G : HyGraph dim n) (loc : LocalFun dim n K)
    (old0 new0 : LocDofs dim n K) : Res (SparseMat K) := do
  let length := u32 (G.n_hyEdges * 4 * dim * dim * n * n)
  let s ← G.for_each (G.genStep m loc)
    ⟨⟨List.replicate length 0, List.replicate length 0, List.replicate length 0⟩, 0, old0, new0⟩
  return s.mat

end HyGraph
end HyperHDG

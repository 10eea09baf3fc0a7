import Verif.Model.Outcome

/-!
# Model of `include/HyperHDG/hypernodefactory.hxx`

All index types are `unsigned int` (the defaults of the templates); global vectors are lists whose
length is a `size_t` (not reduced).
-/

namespace HyperHDG

/-- `class HyperNodeFactory<n_dofs_per_nodeT>`: `hypernodefactory.hxx` 20-280.  The template parameter is the
field `n`, the member `n_hyNodes_` (39) the field `n_hyNodes`. -/
structure HyperNodeFactory where
  n : Nat
  n_hyNodes : Nat
deriving DecidableEq, Repr

namespace HyperNodeFactory

variable {α : Type}

/-- `n_global_dofs()`: `hypernodefactory.hxx` 88-92, product of two `unsigned int`. -/
def n_global_dofs (F : HyperNodeFactory) : Nat := u32 (F.n_hyNodes * F.n)

/-- `initial_dof_index = hyNode_index * n_dofs_per_nodeT`: `hypernodefactory.hxx` 106, 157, 194, 236, 268. -/
def initial (F : HyperNodeFactory) (hyNode : Nat) : Nat := u32 (hyNode * F.n)

/-- `get_dof_indices`: `hypernodefactory.hxx` 103-116.  `dof_indices` is the array to be filled. -/
def get_dof_indices (m : Mode) (F : HyperNodeFactory) (hyNode : Nat) (dof_indices : List Nat) :
    Res (List Nat) := do
  hyAssert m (dof_indices.length = F.n)
  forUp F.n (fun i d => vset d i (u32 (F.initial hyNode + i))) dof_indices

/-- `get_hyNode_from_dof_index`: `hypernodefactory.hxx` 124-129.  Division by `n_dofs_per_nodeT = 0` is undefined. -/
def get_hyNode_from_dof_index (m : Mode) (F : HyperNodeFactory) (dof : Nat) : Res Nat := do
  hyAssert m (dof < F.n_global_dofs)
  if F.n = 0 then Res.ub else return dof / F.n

/-- Condition of the second assertion: `hypernodefactory.hxx` 158-159, 199-200, 241-242, 269-270.  The sum is computed
in `unsigned int`. -/
def fits (F : HyperNodeFactory) (hyNode : Nat) (size : Nat) : Prop :=
  u32 (F.initial hyNode + F.n) ≤ size

instance (F : HyperNodeFactory) (hyNode size : Nat) : Decidable (F.fits hyNode size) :=
  inferInstanceAs (Decidable (_ ≤ _))

/-- `get_dof_values`: `hypernodefactory.hxx` 144-168. -/
def get_dof_values (m : Mode) (F : HyperNodeFactory) (hyNode : Nat) (global loc : List α) :
    Res (List α) := do
  hyAssert m (loc.length = F.n)
  hyAssert m (F.fits hyNode global.length)
  forUp F.n (fun i l => do
    let x ← vget global (u32 (F.initial hyNode + i))
    vset l i x) loc

/-- `add_to_dof_values`: `hypernodefactory.hxx` 186-210. -/
def add_to_dof_values [Add α] (m : Mode) (F : HyperNodeFactory) (hyNode : Nat)
    (global loc : List α) : Res (List α) := do
  hyAssert m (loc.length = F.n)
  hyAssert m (F.fits hyNode global.length)
  forUp F.n (fun i g => do
    let x ← vget loc i
    let y ← vget g (u32 (F.initial hyNode + i))
    vset g (u32 (F.initial hyNode + i)) (y + x)) global

/-- `set_dof_values` (vector of values): `hypernodefactory.hxx` 228-251. -/
def set_dof_values (m : Mode) (F : HyperNodeFactory) (hyNode : Nat) (global loc : List α) :
    Res (List α) := do
  hyAssert m (loc.length = F.n)
  hyAssert m (F.fits hyNode global.length)
  forUp F.n (fun i g => do
    let x ← vget loc i
    vset g (u32 (F.initial hyNode + i)) x) global

/-- `set_dof_values` (single value): `hypernodefactory.hxx` 263-279. -/
def set_dof_values_const (m : Mode) (F : HyperNodeFactory) (hyNode : Nat) (global : List α) (value : α) :
    Res (List α) := do
  hyAssert m (F.fits hyNode global.length)
  forUp F.n (fun i g => vset g (u32 (F.initial hyNode + i)) value) global

end HyperNodeFactory
end HyperHDG

import Verif.Model.Outcome

/-!
# The Python classes

Model of the wrappers `cython/*.pyx` with the declarations in `cython/*.pxd`; `elliptic.pyx` is cited, the others have the same constructor and the same shape of methods.
The C++ class is a parameter.
-/

namespace HyperHDG.Wrapper

/-- The possible ends of a call from Python: it returns a value, a Python exception is raised, the process ends (`abort()`, `std::terminate()`), or the behaviour is
undefined. -/
inductive PyRes (α : Type) where
  | value (a : α)
  | exception
  | killed
  | ub
deriving DecidableEq

/-- The constructors of the C++ class: `elliptic.pxd` 16-18. -/
structure Constructors (T G L Obj : Type) where
  new1 : T → Res Obj
  new2 : T → L → Res Obj
  new3 : T → G → L → Res Obj

/-- A C++ function declared with `except +`. -/
def exceptPlus {α : Type} : Res α → PyRes α
  | .ok a => .value a
  | .throw _ => .exception
  | .abort => .killed
  | .ub => .ub

/-- A C++ function declared without `except`: an exception leaves a function from which none may be thrown. -/
def noExcept {α : Type} : Res α → PyRes α
  | .ok a => .value a
  | .throw _ => .killed
  | .abort => .killed
  | .ub => .ub

/-- `self.thisptr = new …` -/
def store {α : Type} : PyRes α → PyRes (Option α)
  | .value a => .value (some a)
  | .exception => .exception
  | .killed => .killed
  | .ub => .ub

/-- `__cinit__`: `elliptic.pyx` 5-22; `none` stands for `'default'`.  The result is `thisptr`, `none` for the null pointer which it is before. -/
def cinit {T G L Obj : Type} (C : Constructors T G L Obj) (topo_constr : T) (geom_constr : Option G) (lsol_constr : Option L) : PyRes (Option Obj) :=
  match geom_constr with
  | none =>
    match lsol_constr with
    | none => store (exceptPlus (C.new1 topo_constr))
    | some l => store (exceptPlus (C.new2 topo_constr l))
  | some g =>
    match lsol_constr with
    | none => .value none
    | some l => store (exceptPlus (C.new3 topo_constr g l))

/-- `self.thisptr.method (..)`: `elliptic.pyx` 25-60.  The C++ method takes the object to a new state and returns a value. -/
def call {Obj α : Type} (thisptr : Option Obj) (method : Obj → Res (Obj × α)) : PyRes (Option Obj × α) :=
  match thisptr with
  | none => .ub
  | some obj =>
    match noExcept (method obj) with
    | .value r => .value (some r.1, r.2)
    | .exception => .exception
    | .killed => .killed
    | .ub => .ub

/-- The conversion of an unsigned number to `int` with 32 bits. -/
def toInt (n : Nat) : Int := if n % 2 ^ 32 < 2 ^ 31 then (n % 2 ^ 32 : Nat) else (n % 2 ^ 32 : Nat) - 2 ^ 32

/-- `size_of_system`: `elliptic.pyx` 35-36 with `int size_of_system ()`, `elliptic.pxd` 24. -/
def size_of_system {Obj : Type} (thisptr : Option Obj) (method : Obj → Res Nat) : PyRes Int :=
  match thisptr with
  | none => .ub
  | some obj =>
    match noExcept (method obj) with
    | .value n => .value (toInt n)
    | .exception => .exception
    | .killed => .killed
    | .ub => .ub

/-- `refine`: `elliptic.pyx` 48-53; `none` stands for `'default'`.  A number which is not an `unsigned int` raises `OverflowError`. -/
def refine {Obj : Type} (thisptr : Option Obj) (get_refinement : Obj → Res Nat) (set_refinement : Nat → Obj → Res Obj) (n_ref : Option Int) : PyRes (Option Obj × Int) :=
  match n_ref with
  | none => call thisptr fun obj => (get_refinement obj >>= fun n => .ok (obj, (n : Int)))
  | some n =>
    if 0 ≤ n ∧ n < 2 ^ 32 then call thisptr fun obj => (set_refinement n.toNat obj >>= fun obj => .ok (obj, n)) else .exception

end HyperHDG.Wrapper

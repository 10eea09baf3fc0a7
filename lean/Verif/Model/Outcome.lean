/-!
# Outcomes of C++ calls

Model of `include/HyperHDG/hy_assert.hxx` and of the ways a C++ call can end.
-/

namespace HyperHDG

universe u v

/-- Build mode: `hy_assert.hxx` 28-87.  Without `NDEBUG` (`debug`) a failed `hy_assert` prints a message and
calls `abort()` (55-68); with `NDEBUG` (`release`) the macro is empty (73-76). -/
inductive Mode where
  | debug
  | release
deriving DecidableEq, Repr

/-- Exceptions of the library: `LAPACKexception` (`wrapper/lapack.hxx`), `SmallMatDivByZeroException`
(`dense_la.hxx`), `SolveException` (`sparse_la.hxx`).  `invalidArgument` stands for what
`std::stoi`/`std::stof` throw, `outOfRange` for what `std::string::substr` throws. -/
inductive Exc where
  | lapack
  | smallMatDivByZero
  | solve
  | invalidArgument
  | outOfRange
deriving DecidableEq, Repr

/-- The possible ends of a C++ call: it returns a value, a `hy_assert` aborts the program, an exception
is thrown, or the behaviour is undefined. -/
inductive Res (α : Type u) where
  | ok (a : α)
  | abort
  | throw (e : Exc)
  | ub
deriving DecidableEq, Repr

namespace Res

/-- Sequencing: only a returning call is followed by the next statement. -/
def bind {α : Type u} {β : Type v} (x : Res α) (f : α → Res β) : Res β :=
  match x with
  | ok a => f a
  | abort => abort
  | throw e => throw e
  | ub => ub

instance : Monad Res where
  pure := ok
  bind := bind

@[simp] theorem pure_eq {α : Type u} (a : α) : (pure a : Res α) = ok a := rfl
@[simp] theorem ok_bind {α β : Type u} (a : α) (f : α → Res β) : (ok a >>= f) = f a := rfl
@[simp] theorem abort_bind {α β : Type u} (f : α → Res β) : ((abort : Res α) >>= f) = abort := rfl
@[simp] theorem throw_bind {α β : Type u} (e : Exc) (f : α → Res β) :
    ((throw e : Res α) >>= f) = throw e := rfl
@[simp] theorem ub_bind {α β : Type u} (f : α → Res β) : ((ub : Res α) >>= f) = ub := rfl

theorem bind_eq_ok {α β : Type u} {x : Res α} {f : α → Res β} {b : β} :
    (x >>= f) = ok b ↔ ∃ a, x = ok a ∧ f a = ok b := by
  cases x <;> simp

end Res

/-- `hy_assert(Expr, Msg)`: `hy_assert.hxx` 39-45 (debug) and 73-76 (release).  The message is not
modelled. -/
def hyAssert (m : Mode) (c : Prop) [Decidable c] : Res Unit :=
  match m with
  | .debug => if c then .ok () else .abort
  | .release => .ok ()

@[simp] theorem hyAssert_of {m : Mode} {c : Prop} [Decidable c] (h : c) : hyAssert m c = .ok () := by
  cases m <;> simp [hyAssert, h]

theorem hyAssert_debug_not {c : Prop} [Decidable c] (h : ¬ c) : hyAssert .debug c = .abort := by
  simp [hyAssert, h]

@[simp] theorem hyAssert_release {c : Prop} [Decidable c] : hyAssert .release c = .ok () := rfl

theorem hyAssert_debug_ok {c : Prop} [Decidable c] {u : Unit} :
    hyAssert .debug c = .ok u ↔ c := by
  unfold hyAssert; split <;> simp_all

/-- `vec[i]` read access of a `std::vector`/`std::array` of the standard library: undefined out of
bounds. -/
def vget {α : Type u} (v : List α) (i : Nat) : Res α :=
  match v[i]? with
  | some a => .ok a
  | none => .ub

/-- `vec[i] = a` write access of a `std::vector`/`std::array`: undefined out of bounds. -/
def vset {α : Type u} (v : List α) (i : Nat) (a : α) : Res (List α) :=
  if i < v.length then .ok (v.set i a) else .ub

/-- A loop `for (i = 0; i < n; ++i) s = f(i, s)` whose body may fail. -/
def forUp {σ : Type u} : (n : Nat) → (Nat → σ → Res σ) → σ → Res σ
  | 0, _, s => .ok s
  | n + 1, f, s => forUp n f s >>= f n

/-- The same for a body that always returns. -/
def forUpP {σ : Type u} : (n : Nat) → (Nat → σ → σ) → σ → σ
  | 0, _, s => s
  | n + 1, f, s => f n (forUpP n f s)

/-- Range of `unsigned int` (32 bit): arithmetic is modulo this number. -/
def U32 : Nat := 4294967296

/-- Reduction to `unsigned int`. -/
def u32 (x : Nat) : Nat := x % U32

theorem u32_of_lt {x : Nat} (h : x < U32) : u32 x = x := Nat.mod_eq_of_lt h

theorem u32_lt (x : Nat) : u32 x < U32 := Nat.mod_lt _ (by decide)

@[simp] theorem forUp_zero {σ : Type u} (f : Nat → σ → Res σ) (s : σ) : forUp 0 f s = .ok s := rfl
theorem forUp_succ {σ : Type u} (n : Nat) (f : Nat → σ → Res σ) (s : σ) :
    forUp (n + 1) f s = (forUp n f s >>= f n) := rfl

/-- Loop rule: an invariant kept by every iteration holds at the end, and the loop returns. -/
theorem forUp_inv {σ : Type u} (n : Nat) (f : Nat → σ → Res σ) (s : σ) (I : Nat → σ → Prop)
    (h0 : I 0 s) (hs : ∀ i, i < n → ∀ t, I i t → ∃ t', f i t = .ok t' ∧ I (i + 1) t') :
    ∃ t, forUp n f s = .ok t ∧ I n t := by
  induction n with
  | zero => exact ⟨s, rfl, h0⟩
  | succ n ih =>
    obtain ⟨t, ht, hI⟩ := ih (fun i hi => hs i (Nat.lt_succ_of_lt hi))
    obtain ⟨t', ht', hI'⟩ := hs n (Nat.lt_succ_self n) t hI
    exact ⟨t', by simp [forUp_succ, ht, ht'], hI'⟩

theorem forUpP_inv {σ : Type u} (n : Nat) (f : Nat → σ → σ) (s : σ) (I : Nat → σ → Prop)
    (h0 : I 0 s) (hs : ∀ i, i < n → ∀ t, I i t → I (i + 1) (f i t)) : I n (forUpP n f s) := by
  induction n with
  | zero => exact h0
  | succ n ih => exact hs n (Nat.lt_succ_self n) _ (ih (fun i hi => hs i (Nat.lt_succ_of_lt hi)))

end HyperHDG

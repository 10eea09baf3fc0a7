import Verif.Model.CythonWrapper
import Verif.Props.DiffusionUniform

/-!
# C88: Python objects and the C++ objects behind them
-/

namespace HyperHDG.Wrapper

variable {T G L Obj α : Type}

/-- **C88** (partial).  Construction from Python with any arguments, except a geometry without arguments for the local solver, constructs the C++ object with these arguments:
it returns an object with this C++ object behind it; if the C++ constructor throws an exception, a Python exception is raised. -/
theorem C88_construct_partial (C : Constructors T G L Obj) (topo : T) (geom : Option G) (lsol : Option L) (h : geom = none ∨ lsol ≠ none) :
    ∃ r : Res Obj, (match geom, lsol with
        | none, none => r = C.new1 topo
        | none, some l => r = C.new2 topo l
        | some g, some l => r = C.new3 topo g l
        | some _, none => False) ∧
      (∀ obj, cinit C topo geom lsol = .value (some obj) ↔ r = .ok obj) ∧ cinit C topo geom lsol ≠ .value none ∧
      (cinit C topo geom lsol = .exception ↔ ∃ e, r = .throw e) := by
  have key : ∀ r : Res Obj, (∀ obj, store (exceptPlus r) = .value (some obj) ↔ r = .ok obj) ∧ store (exceptPlus r) ≠ .value none ∧
      (store (exceptPlus r) = .exception ↔ ∃ e, r = .throw e) := by
    intro r
    cases r <;> simp [exceptPlus, store]
  cases geom with
  | none =>
    cases lsol with
    | none => exact ⟨_, rfl, key _⟩
    | some l => exact ⟨_, rfl, key _⟩
  | some g =>
    cases lsol with
    | none => simp at h
    | some l => exact ⟨_, rfl, key _⟩

/-- **C88**, limit.  Given a geometry but no arguments for the local solver, construction succeeds for every class and all arguments, but there is no C++ object: every call of
a method has undefined behaviour. -/
theorem C88_null_object (C : Constructors T G L Obj) (topo : T) (g : G) : ∃ thisptr, cinit C topo (some g) none = .value thisptr ∧
    ∀ (β : Type) (method : Obj → Res (Obj × β)), call thisptr method = .ub := ⟨none, rfl, fun _ _ => rfl⟩

/-- **C88**.  A method of an object returns what the C++ method returns, and leaves the C++ object in the state in which that leaves it. -/
theorem C88_call (obj obj' : Obj) (method : Obj → Res (Obj × α)) (a : α) : call (some obj) method = .value (some obj', a) ↔ method obj = .ok (obj', a) := by
  unfold call noExcept
  dsimp only
  cases h : method obj with
  | ok r =>
    obtain ⟨x, y⟩ := r
    simp
  | _ => simp

/-- **C88**, limit.  No method ever raises a Python exception for a C++ exception: the process ends instead. -/
theorem C88_exceptions_kill (thisptr : Option Obj) (method : Obj → Res (Obj × α)) : call thisptr method ≠ .exception ∧
    ∀ obj e, method obj = .throw e → call (some obj) method = .killed := by
  refine ⟨?_, fun obj e h => by simp only [call, h, noExcept]⟩
  cases thisptr with
  | none => simp [call]
  | some obj => cases h : method obj <;> simp [call, noExcept, h]

/-- A case in which this happens: the local solver for diffusion with `tau = 0`, without assertions. -/
example : ∃ S, DiffusionUniform.construct .release DiffusionUniform.Example.I0 1 1 0 = .ok S ∧
    call (some S) (fun S => DiffusionUniform.trace_to_flux .release DiffusionUniform.Example.I0 (cramerSolve _ _ ℚ) S (fun f (_ : Fin 1) => f.1) (fun _ _ => 7) >>= fun y => .ok (S, y)) = .killed := by
  obtain ⟨S, hS⟩ := DiffusionUniform.C20_constructor (dim := 1) (nS := 1) .release DiffusionUniform.Example.I0 (0 : ℚ)
  have h := DiffusionUniform.C20_tau_zero .release DiffusionUniform.Example.I0 _ (C44_example _ _ ℚ) S hS (fun _ => 1)
    (fun d i => by simp [DiffusionUniform.Example.I0, Spec.tensorIntegrator, DiffusionUniform.Example.B0]) (fun h => one_ne_zero (congrFun h 0)) (fun f (_ : Fin 1) => f.1) (fun _ _ => 7)
  refine ⟨S, hS, (C88_exceptions_kill none _).2 S .lapack ?_⟩
  rw [h]
  rfl

/-- **C88** (partial).  `size_of_system()` is the size of the system if this is less than `2^31`. -/
theorem C88_size_partial (obj : Obj) (method : Obj → Res Nat) (n : Nat) (h : method obj = .ok n) (hn : n < 2 ^ 31) : size_of_system (some obj) method = .value (n : Int) := by
  simp only [size_of_system, h, noExcept, toInt]
  rw [Nat.mod_eq_of_lt (by omega), if_pos hn]

/-- **C88**, limit.  For larger systems with at most `2^32 - 1` unknowns, for which the C++ function still returns the right number, the result is negative. -/
theorem C88_size_negative (obj : Obj) (method : Obj → Res Nat) (n : Nat) (h : method obj = .ok n) (h1 : 2 ^ 31 ≤ n) (h2 : n < 2 ^ 32) :
    ∃ k : Int, size_of_system (some obj) method = .value k ∧ k < 0 := by
  refine ⟨(n : Int) - 2 ^ 32, ?_, by omega⟩
  simp only [size_of_system, h, noExcept, toInt]
  rw [Nat.mod_eq_of_lt h2, if_neg (by omega)]

example : size_of_system (some ()) (fun _ => .ok 3000000000) = .value (-1294967296) := by decide

/-- **C88**.  `refine(n)` sets the refinement to `n` and returns `n`, or raises an exception if `n` is not an `unsigned int`; `refine()` returns the refinement and changes nothing. -/
theorem C88_refine (obj obj' : Obj) (get : Obj → Res Nat) (set : Nat → Obj → Res Obj) (n k : Int) :
    (Wrapper.refine (some obj) get set (some n) = .value (some obj', k) ↔ k = n ∧ ∃ m : Nat, (m : Int) = n ∧ m < 2 ^ 32 ∧ set m obj = .ok obj') ∧
    (Wrapper.refine (some obj) get set (some n) = .exception ↔ n < 0 ∨ 2 ^ 32 ≤ n) ∧
    (Wrapper.refine (some obj) get set none = .value (some obj', k) ↔ obj' = obj ∧ ∃ m : Nat, (m : Int) = k ∧ get obj = .ok m) := by
  refine ⟨?_, ?_, ?_⟩
  · unfold Wrapper.refine
    dsimp only
    by_cases h : 0 ≤ n ∧ n < 2 ^ 32
    · rw [if_pos h, C88_call]
      constructor
      · intro hs
        obtain ⟨x, h1, h2⟩ := Res.bind_eq_ok.mp hs
        obtain ⟨rfl, rfl⟩ := Prod.mk.inj (Res.ok.inj h2)
        exact ⟨rfl, n.toNat, by omega, by omega, h1⟩
      · rintro ⟨rfl, m, rfl, _, hs⟩
        rw [Int.toNat_natCast, hs]
        rfl
    · rw [if_neg h]
      constructor
      · intro h; cases h
      · rintro ⟨_, m, rfl, hm, _⟩
        exact absurd ⟨by omega, by omega⟩ h
  · unfold Wrapper.refine
    dsimp only
    by_cases h : 0 ≤ n ∧ n < 2 ^ 32
    · rw [if_pos h]
      exact ⟨fun he => absurd he (C88_exceptions_kill _ _).1, fun he => by omega⟩
    · rw [if_neg h]
      exact ⟨fun _ => by omega, fun _ => rfl⟩
  · unfold Wrapper.refine
    dsimp only
    rw [C88_call]
    constructor
    · intro hs
      obtain ⟨m, h1, h2⟩ := Res.bind_eq_ok.mp hs
      obtain ⟨rfl, rfl⟩ := Prod.mk.inj (Res.ok.inj h2)
      exact ⟨rfl, m, rfl, h1⟩
    · rintro ⟨rfl, m, rfl, h1⟩
      rw [h1]
      rfl

end HyperHDG.Wrapper

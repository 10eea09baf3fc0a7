import Verif.Proofs.GlobalSolve
import Verif.Proofs.AdvectionEnergy
import Verif.Props.GlobalClasses
import Verif.Props.Diffusion
import Verif.Props.GlobalLoop
import Mathlib.Tactic.IntervalCases
import Mathlib.Tactic.FieldSimp

/-!
# Properties C72 - C75: the local solver `AdvectionParab` and its time stepping loop

`E e` is what the solver knows about hyperedge `e`; `Orthonormal` says that the mass matrix of the shape functions is the volume of the hyperedge times the identity; `gesv` is LAPACK's dense
solve (`GesvSpec` is its documentation).  `ThetaStep` is a step of the theta scheme for the upwind HDG method on a hyperedge, `run` are the calls a program makes to compute `n` time
steps, `UpwindLaws` what is assumed of the integrals (`Verif/Spec/AdvectionParab.lean`).
-/

namespace HyperHDG.AdvectionParab

open Finset Spec Matrix HyGraph

variable {dim nS nB : Nat} {K : Type}

/-! ## C72: what is computed -/

/-- **C72** (constructor).  The solver reads `tau`, `theta` and `delta_t` from the first three entries of the vector of parameters; a shorter vector is read out of bounds. -/
theorem C72_constructor (constru : List K) : (∀ tau theta delta_t rest, constru = tau :: theta :: delta_t :: rest → Solver.make constru = .ok ⟨tau, theta, delta_t⟩) ∧
    (constru.length < 3 → Solver.make constru = .ub) := by
  refine ⟨?_, fun h => ?_⟩
  · rintro tau theta delta_t rest rfl
    rfl
  · match constru, h with
    | [], _ => rfl
    | [_], _ => rfl
    | [_, _], _ => rfl

section
variable [Field K] [LinearOrder K] (m : Mode) (gesv : Gesv nS 1 K) (hg : GesvSpec gesv) (S : Solver K) (E : Edge dim nS K) (data : Data dim nS nB K) (time : K)

include hg

/-- **C72** (`trace_to_flux`).  If the local problem of a time step is uniquely solvable, the result is zero on the Dirichlet faces and `theta` times the numerical flux (on outflow faces
its stabilisation part) of the local solution for the trace `lambda` on the other ones, whatever the output array and the data contain. -/
theorem C72_flux (hs : Solvable S E nB time) (lambda out : LocDofs dim nB K) :
    ∃ u, IsLocal S E time ⟨u, lambda⟩ ∧ trace_to_flux m gesv S lambda out E data time = .ok (offDirichlet E time (S.theta • nodeFlux E S.tau time ⟨u, lambda⟩)) :=
  trace_to_flux_spec m gesv hg S E data time hs lambda out

/-- **C72** (failure).  Otherwise all functions which solve a local problem abort in the debug build and let the LAPACK exception through in the release build. -/
theorem C72_failure (hs : ¬ Solvable S E nB time) (lambda out : LocDofs dim nB K) :
    trace_to_flux m gesv S lambda out E data time = solveFailure m ∧ residual_flux m gesv S lambda out E data time = solveFailure m ∧
      set_data m gesv S lambda E data time = solveFailure m := by
  have h0 := (solve_local_problem_spec m gesv hg S E data time lambda 0 (.inl rfl)).2 hs
  have h1 := (solve_local_problem_spec m gesv hg S E data time lambda 1 (.inr rfl)).2 hs
  rw [trace_to_flux, residual_flux, set_data, h0, h1]
  cases m <;> exact ⟨rfl, rfl, rfl⟩

/-- **C72** (Dirichlet rows).  `trace_to_flux` and `residual_flux` return exactly zero on the faces of Dirichlet type. -/
theorem C72_dirichlet_zero (lambda out y : LocDofs dim nB K)
    (h : trace_to_flux m gesv S lambda out E data time = .ok y ∨ residual_flux m gesv S lambda out E data time = .ok y) (f : Fin (2 * dim))
    (hf : IsDirichlet E time f) (j : Fin nB) : y f j = 0 := by
  have key : ∀ z : LocDofs dim nB K, offDirichlet E time z f j = 0 := fun z => by
    simp only [offDirichlet]
    exact if_pos hf
  by_cases hs : Solvable S E nB time
  · rcases h with h | h
    · obtain ⟨u, _, h2⟩ := C72_flux m gesv hg S E data time hs lambda out
      rw [h] at h2; injection h2 with h2
      rw [h2]; exact key _
    · obtain ⟨u, _, h2⟩ := residual_raw m gesv hg S E data time hs lambda out
      rw [h] at h2; injection h2 with h2
      rw [h2]; exact key _
  · obtain ⟨h1, h2, _⟩ := C72_failure m gesv hg S E data time hs lambda out
    rcases h with h | h
    · rw [h] at h1; cases m <;> cases h1
    · rw [h] at h2; cases m <;> cases h2

omit hg [LinearOrder K] in
theorem local_unique (hs : Solvable S E nB time) {u u' : Fin nS → K} {b : Fin nS → K} (h : locMat S E time *ᵥ u = b) (h' : locMat S E time *ᵥ u' = b) : u = u' := by
  have hu := Matrix.mulVec_injective_iff_isUnit.mpr ((solvable_iff S E nB time).mpr hs)
  exact hu (h.trans h'.symm)

theorem flux_of_ok {lambda out y : LocDofs dim nB K} (h : trace_to_flux m gesv S lambda out E data time = .ok y) :
    Solvable S E nB time ∧ ∃ u, IsLocal S E time ⟨u, lambda⟩ ∧ y = offDirichlet E time (S.theta • nodeFlux E S.tau time ⟨u, lambda⟩) := by
  by_cases hs : Solvable S E nB time
  · obtain ⟨u, h1, h2⟩ := C72_flux m gesv hg S E data time hs lambda out
    rw [h] at h2
    injection h2 with h2
    exact ⟨hs, u, h1, h2⟩
  · have := (C72_failure m gesv hg S E data time hs lambda out).1
    rw [h] at this
    cases m <;> cases this

theorem flux_to_ok (hs : Solvable S E nB time) {x : State dim nS nB K} (h : IsLocal S E time x) (out : LocDofs dim nB K) :
    trace_to_flux m gesv S x.lambda out E data time = .ok (offDirichlet E time (S.theta • nodeFlux E S.tau time x)) := by
  obtain ⟨u', h1, h2⟩ := C72_flux m gesv hg S E data time hs x.lambda out
  have := local_unique S E time hs ((isLocal_iff S E time x).mp h) ((isLocal_iff S E time ⟨u', x.lambda⟩).mp h1)
  dsimp only at this
  subst this
  exact h2

omit hg [LinearOrder K] in
theorem isLocal_comb {x y : State dim nS nB K} (hx : IsLocal S E time x) (hy : IsLocal S E time y) (a b : K) : IsLocal S E time (comb a b x y) := by
  unfold IsLocal at *
  have h : conv E time *ᵥ (comb a b x y).u - ∑ f, fluxTested E S.tau time (comb a b x y) f =
      a • (conv E time *ᵥ x.u - ∑ f, fluxTested E S.tau time x f) + b • (conv E time *ᵥ y.u - ∑ f, fluxTested E S.tau time y f) := homRate_comb E S.tau time a b x y
  rw [h, show (comb a b x y).u = a • x.u + b • y.u from rfl, mulVec_add, mulVec_smul, mulVec_smul, hx, hy]
  module

/-- **C72** (linearity).  If `trace_to_flux` returns `y` for `lambda` and `z` for `mu`, then it returns `a y + b z` for `a lambda + b mu`, whatever the data of the former
time step and the former content of the output. -/
theorem C72_linear {data' : Data dim nS nB K} {lambda mu out out' y z : LocDofs dim nB K} (hy : trace_to_flux m gesv S lambda out E data time = .ok y)
    (hz : trace_to_flux m gesv S mu out' E data' time = .ok z) (a b : K) (out'' : LocDofs dim nB K) (data'' : Data dim nS nB K) :
    trace_to_flux m gesv S (a • lambda + b • mu) out'' E data'' time = .ok (a • y + b • z) := by
  obtain ⟨hs, u, h1, rfl⟩ := flux_of_ok m gesv hg S E data time hy
  obtain ⟨_, u', h1', rfl⟩ := flux_of_ok m gesv hg S E data' time hz
  have h2 := flux_to_ok m gesv hg S E data'' time hs (isLocal_comb S E time h1 h1' a b) out''
  rw [nodeFlux_comb, smul_add, smul_comm S.theta a, smul_comm S.theta b, off_comb] at h2
  exact h2

/-- **C72** (affine residual).  `residual_flux(lambda) = trace_to_flux(lambda) + residual_flux(0)` with the same data. -/
theorem C72_affine (hs : Solvable S E nB time) (data' : Data dim nS nB K) (lambda out out' out'' : LocDofs dim nB K) :
    ∃ y r, trace_to_flux m gesv S lambda out E data' time = .ok y ∧ residual_flux m gesv S 0 out' E data time = .ok r ∧
      residual_flux m gesv S lambda out'' E data time = .ok (y + r) := by
  obtain ⟨u, h1, h2⟩ := C72_flux m gesv hg S E data' time hs lambda out
  obtain ⟨u', h1', h2'⟩ := residual_raw m gesv hg S E data time hs 0 out'
  obtain ⟨u'', h1'', h2''⟩ := residual_raw m gesv hg S E data time hs lambda out''
  refine ⟨_, _, h2, h2', h2''.trans ?_⟩
  have h3 := (isLocal_iff S E time _).mp h1
  have h4 : u'' = u + u' := by
    refine local_unique S E time hs h1'' ?_
    rw [mulVec_add, h3, h1']
    simp
  have h5 := nodeFlux_comb E S.tau time 1 1 (⟨u, lambda⟩ : State dim nS nB K) ⟨u', 0⟩
  simp only [comb, one_smul, add_zero] at h5
  rw [h4, h5]
  refine congrArg Res.ok ?_
  funext f j
  simp only [offDirichlet, Pi.add_apply, Pi.smul_apply, smul_eq_mul]
  split
  · simp
  · ring

end

omit nB in
/-- **C72** (bulk values).  `bulk_values` returns the values of the primal unknown kept by the hyperedge at the points of the tensor grid of the abscissas in lexicographic order. -/
theorem C72_bulk_values {nB : Nat} (m : Mode) (lin_comb : (Fin nS → K) → List K → K) (abscissas : List K) (data : Data dim nS nB K)
    (vals0 : Fin 1 → Fin (Hypercube.pow dim abscissas.length) → K) : ∃ vals, bulk_values m lin_comb abscissas data vals0 = .ok vals ∧
      ∀ pt : Fin (Hypercube.pow dim abscissas.length), ∃ p, Hypercube.tensorial_pt m dim pt abscissas = .ok p ∧ vals 0 pt = lin_comb (kept data) p := by
  have hpt : ∀ pt : Fin (Hypercube.pow dim abscissas.length), ∃ p, Hypercube.tensorial_pt m dim pt abscissas = .ok p := by
    intro pt
    obtain ⟨p, hp, _⟩ := Hypercube.C05_in_grid m dim pt abscissas (lt_of_lt_of_le (lt_of_lt_of_eq pt.2 (Hypercube.C04_pow dim abscissas.length).1) (Nat.mod_le _ _))
    exact ⟨p, hp⟩
  choose P hP using hpt
  obtain ⟨v, hv1, hv2⟩ := forFin_inv 1 (fun d (v : Fin 1 → Fin (Hypercube.pow dim abscissas.length) → K) =>
    forFin (Hypercube.pow dim abscissas.length) (fun pt (v : Fin 1 → Fin (Hypercube.pow dim abscissas.length) → K) => do
      let p ← Hypercube.tensorial_pt m dim pt abscissas
      return arrSet v d (arrSet (v d) pt (lin_comb (fun i => data.u_old (i.cast (Nat.mul_one nS).symm)) p))) v) vals0
    (fun k v => ∀ d : Fin 1, d.1 < k → ∀ pt, v d pt = lin_comb (kept data) (P pt)) (fun d hd => absurd hd (Nat.not_lt_zero _)) (fun d v _ => by
      obtain ⟨w, hw1, hw2⟩ := forFin_inv (Hypercube.pow dim abscissas.length) (fun pt (v : Fin 1 → Fin (Hypercube.pow dim abscissas.length) → K) => do
        let p ← Hypercube.tensorial_pt m dim pt abscissas
        return arrSet v d (arrSet (v d) pt (lin_comb (fun i => data.u_old (i.cast (Nat.mul_one nS).symm)) p))) v
        (fun k v => ∀ pt : Fin (Hypercube.pow dim abscissas.length), pt.1 < k → v d pt = lin_comb (kept data) (P pt)) (fun pt hp => absurd hp (Nat.not_lt_zero _))
        (fun pt v hv => by
          refine ⟨_, by rw [hP]; rfl, fun pt' hpt' => ?_⟩
          unfold arrSet
          rw [if_pos rfl]
          split
          next h => rw [h]; rfl
          next h => exact hv pt' (by have : pt'.1 ≠ pt.1 := fun h' => h (Fin.ext h'); omega))
      refine ⟨w, hw1, fun d' _ pt => ?_⟩
      rw [Subsingleton.elim d' d]
      exact hw2 pt pt.2)
  exact ⟨v, hv1, fun pt => ⟨_, hP pt, hv2 0 Nat.one_pos pt⟩⟩

section
variable [Field K] [LinearOrder K] (m : Mode) (gesv : Gesv nS 1 K) (hg : GesvSpec gesv) (S : Solver K)
  (E : Nat → Edge dim nS K) (hO : ∀ e, Orthonormal (E e))
  (G : HyGraph dim nB) (nodes : Fin G.n_hyEdges → Fin (2 * dim) → Fin G.n_hyNodes) (hwf : G.WF nodes)
  (buf0 : LocDofs dim nB K) (x : List K) (hx : x.length = G.n_hyNodes * nB) (data0 : Fin G.n_hyEdges → Data dim nS nB K) (t0 : K)
  (hs : ∀ e (k : Nat), Solvable S (E e) nB (t0 + k • S.delta_t))
  (X : Nat → Fin (G.n_hyNodes * nB) → K)

/-- The run whose `k`-th vector is `X k`. -/
abbrev runX (n : Nat) := run m gesv S E G buf0 x (List.ofFn data0) t0 (fun k => List.ofFn (X k)) n

omit [LinearOrder K] in
theorem time_sub (n : Nat) : t0 + (n + 1 : Nat) • S.delta_t - S.delta_t = t0 + n • S.delta_t := by
  rw [succ_nsmul]; ring

include hg hO hwf hx hs in
theorem run_stores (n : Nat)
    (hX : ∀ k < n, ∀ e : Fin G.n_hyEdges, VanishesOnDirichlet (E e) (t0 + (k + 1) • S.delta_t) (faceValues nodes (X (k + 1)) e)) :
    ∃ (st : Nat → Fin G.n_hyEdges → State dim nS nB K) (r0 : Fin (G.n_hyNodes * nB) → K) (data : Fin G.n_hyEdges → Data dim nS nB K),
    runX m gesv S E G buf0 x data0 t0 X n = .ok (List.ofFn r0, List.ofFn data) ∧
    (∀ e : Fin G.n_hyEdges, IsInitial (E e) t0 (st 0 e)) ∧ LastWriter nodes (fun e : Fin G.n_hyEdges => (st 0 e).lambda) r0 ∧
    (∀ k < n, ∀ e : Fin G.n_hyEdges, ThetaStep S (E e) (t0 + (k + 1) • S.delta_t) (st k e) (st (k + 1) e) ∧ (st (k + 1) e).lambda = faceValues nodes (X (k + 1)) e) ∧
    ∀ e : Fin G.n_hyEdges, Stores S (E e) (t0 + n • S.delta_t) (st n e) (data e) := by
  induction n with
  | zero =>
    have h : ∀ e : Fin G.n_hyEdges, ∃ data' x, make_initial m S (fun _ _ => 0) (E e) (data0 e) t0 = .ok (x.lambda, data') ∧ IsInitial (E e) t0 x ∧
        Stores S (E e) t0 x data' := fun e => make_initial_spec m S (E e) (data0 e) t0 _
    choose data' st h1 h2 h3 using h
    obtain ⟨r, hr1, hr2, _⟩ := C41_make_initial m G nodes hwf (fun e lambda data => make_initial m S lambda (E e) data t0) x hx data0 data' _ h1
    refine ⟨fun _ => st, r, data', hr1, h2, hr2, fun k hk => absurd hk (Nat.not_lt_zero _), fun e => ?_⟩
    simpa using h3 e
  | succ n ih =>
    obtain ⟨st, r0, data, h1, h2, h3, h4, h5⟩ := ih fun k hk => hX k (by omega)
    have h : ∀ e : Fin G.n_hyEdges, ∃ data' new, set_data m gesv S (faceValues nodes (X (n + 1)) e) (E e) (data e) (t0 + (n + 1) • S.delta_t) = .ok data' ∧
        ThetaStep S (E e) (t0 + (n + 1) • S.delta_t) (st n e) new ∧ new.lambda = faceValues nodes (X (n + 1)) e ∧
        Stores S (E e) (t0 + (n + 1) • S.delta_t) new data' := fun e =>
      set_data_spec m gesv hg S (E e) (hO e) (data e) _ (hs e _) (st n e) (by rw [time_sub]; exact h5 e) _ (hX n (by omega) e)
    choose data' new k1 k2 k3 k4 using h
    have k5 := C41_set_data m G nodes hwf (fun e lambda data => set_data m gesv S lambda (E e) data (t0 + (n + 1) • S.delta_t)) buf0 (X (n + 1)) data data' k1
    refine ⟨fun k => if k ≤ n then st k else new, r0, data', ?_, ?_, ?_, fun k hk e => ?_, fun e => ?_⟩
    · show (run m gesv S E G buf0 x (List.ofFn data0) t0 (fun k => List.ofFn (X k)) n >>= _) = _
      rw [show run m gesv S E G buf0 x (List.ofFn data0) t0 (fun k => List.ofFn (X k)) n = _ from h1, Res.ok_bind]
      dsimp only
      rw [k5]
      rfl
    · simpa using h2
    · simpa using h3
    · rcases Nat.lt_succ_iff_lt_or_eq.mp hk with hk' | rfl
      · simp only [if_pos (show k ≤ n by omega), if_pos (show k + 1 ≤ n by omega)]
        exact h4 k hk' e
      · simp only [le_refl, if_true, if_neg (show ¬ k + 1 ≤ k by omega)]
        exact ⟨k2 e, k3 e⟩
    · simp only [if_neg (show ¬ n + 1 ≤ n by omega)]
      exact k4 e

omit hs in
include hg hO hwf in
theorem residual_of_stores (n : Nat) (hs : ∀ e : Fin G.n_hyEdges, Solvable S (E e) nB (t0 + (n + 1 : Nat) • S.delta_t))
    (st : Fin G.n_hyEdges → State dim nS nB K) (data : Fin G.n_hyEdges → Data dim nS nB K)
    (h : ∀ e : Fin G.n_hyEdges, Stores S (E e) (t0 + n • S.delta_t) (st e) (data e)) (old0 new0 : LocDofs dim nB K) (y : Fin (G.n_hyNodes * nB) → K) :
    ∃ new : Fin G.n_hyEdges → State dim nS nB K, (∀ e : Fin G.n_hyEdges, ThetaStep S (E e) (t0 + (n + 1) • S.delta_t) (st e) (new e) ∧ (new e).lambda = faceValues nodes y e) ∧
      globalResidual m gesv S E G old0 new0 (List.ofFn data) (t0 + (n + 1) • S.delta_t) (List.ofFn y) = .ok (List.ofFn (assemble nodes fun e : Fin G.n_hyEdges =>
        offDirichlet (E e) (t0 + (n + 1) • S.delta_t) (S.theta • nodeFlux (E e) S.tau (t0 + (n + 1) • S.delta_t) (new e) +
          (1 - S.theta) • nodeFlux (E e) S.tau (t0 + n • S.delta_t) (st e)))) := by
  have h' : ∀ e : Fin G.n_hyEdges, _ := fun e => residual_flux_spec m gesv hg S (E e) (hO e) (data e) (t0 + (n + 1) • S.delta_t) (hs e) (st e)
    (by rw [time_sub]; exact h e) (faceValues nodes y e) (fun _ _ => 0)
  choose new k1 k2 k3 using h'
  refine ⟨new, fun e => ⟨k1 e, k2 e⟩, ?_⟩
  refine mat_vec_eq m G nodes hwf _ y _ (fun e => ?_) old0 new0
  rw [vget_of_lt (by simp), Res.ok_bind]
  have := k3 e
  rw [time_sub] at this
  simpa using this

omit [Field K] [LinearOrder K] in
theorem kept_eq (data : Data dim nS nB K) : kept data = DiffusionParab.vecOf data.u_old := by
  funext i
  show data.u_old _ = data.u_old _
  congr 1
  exact Fin.ext (by simp [pos])

include hg hO hwf hx hs in
/-- **C72** (history).  For every hypergraph, every sequence of vectors `X 1, X 2, ...` vanishing on the Dirichlet faces and every number `n` of time steps: the calls return, and there are
states `st 0, ..., st n` on the hyperedges with these traces, `st 0` the projection of the initial value, each one a step of the theta scheme from the one before, such
that the hyperedges keep `st n` (so `errors` compares it with the analytic solution), and `residual_flux(y)` for the next time sums up the fluxes of the next theta step with trace
`y`, weighted with those of `st n`, at all faces which are not of Dirichlet type. -/
theorem C72_history (n : Nat)
    (hX : ∀ k < n, ∀ e : Fin G.n_hyEdges, VanishesOnDirichlet (E e) (t0 + (k + 1) • S.delta_t) (faceValues nodes (X (k + 1)) e)) :
    ∃ (st : Nat → Fin G.n_hyEdges → State dim nS nB K) (r0 : Fin (G.n_hyNodes * nB) → K) (data : Fin G.n_hyEdges → Data dim nS nB K),
    runX m gesv S E G buf0 x data0 t0 X n = .ok (List.ofFn r0, List.ofFn data) ∧
    (∀ e : Fin G.n_hyEdges, IsInitial (E e) t0 (st 0 e)) ∧ LastWriter nodes (fun e : Fin G.n_hyEdges => (st 0 e).lambda) r0 ∧
    (∀ k < n, ∀ e : Fin G.n_hyEdges, ThetaStep S (E e) (t0 + (k + 1) • S.delta_t) (st k e) (st (k + 1) e) ∧ (st (k + 1) e).lambda = faceValues nodes (X (k + 1)) e) ∧
    (∀ e, kept (data e) = (st n e).u) ∧ (∀ (e : Fin G.n_hyEdges) time, errors (E e) (data e) time = fun _ => (E e).vol_diffsquare time (st n e).u) ∧
    ∀ (old0 new0 : LocDofs dim nB K) (y : Fin (G.n_hyNodes * nB) → K), ∃ new : Fin G.n_hyEdges → State dim nS nB K,
      (∀ e : Fin G.n_hyEdges, ThetaStep S (E e) (t0 + (n + 1) • S.delta_t) (st n e) (new e) ∧ (new e).lambda = faceValues nodes y e) ∧
      globalResidual m gesv S E G old0 new0 (List.ofFn data) (t0 + (n + 1) • S.delta_t) (List.ofFn y) = .ok (List.ofFn fun k =>
        ∑ e, ∑ i, ∑ j, if dof (nodes e i) j = k then offDirichlet (E e) (t0 + (n + 1) • S.delta_t) (S.theta • nodeFlux (E e) S.tau (t0 + (n + 1) • S.delta_t) (new e) +
          (1 - S.theta) • nodeFlux (E e) S.tau (t0 + n • S.delta_t) (st n e)) i j else 0) := by
  obtain ⟨st, r0, data, h1, h2, h3, h4, h5⟩ := run_stores m gesv hg S E hO G nodes hwf buf0 x hx data0 t0 hs X n hX
  refine ⟨st, r0, data, h1, h2, h3, h4, fun e => (kept_eq _).trans (h5 e).u, fun e time => ?_, fun old0 new0 y => ?_⟩
  · rw [← (h5 e).u, ← kept_eq]
    rfl
  · exact residual_of_stores m gesv hg S E hO G nodes hwf t0 n (fun e => hs e _) (st n) data h5 old0 new0 y

omit hs in
include hg hO hwf hx in
/-- What is known about step `n` to `n + 1` of a run. -/
theorem run_step (hs : ∀ e (k : Nat), Solvable S (E e) nB (t0 + k • S.delta_t)) (n : Nat)
    (hX : ∀ k < n + 1, ∀ e : Fin G.n_hyEdges, VanishesOnDirichlet (E e) (t0 + (k + 1) • S.delta_t) (faceValues nodes (X (k + 1)) e))
    (old0 new0 : LocDofs dim nB K) (r : List K) (data data' : Fin G.n_hyEdges → Data dim nS nB K)
    (hd : runX m gesv S E G buf0 x data0 t0 X n = .ok (r, List.ofFn data)) (hd' : runX m gesv S E G buf0 x data0 t0 X (n + 1) = .ok (r, List.ofFn data'))
    (hres : globalResidual m gesv S E G old0 new0 (List.ofFn data) (t0 + (n + 1) • S.delta_t) (List.ofFn (X (n + 1))) = .ok (List.replicate (G.n_hyNodes * nB) 0)) :
    ∃ old new : Fin G.n_hyEdges → State dim nS nB K,
    (∀ e : Fin G.n_hyEdges, kept (data e) = (old e).u ∧ kept (data' e) = (new e).u ∧ ThetaStep S (E e) (t0 + (n + 1) • S.delta_t) (old e) (new e) ∧
      (new e).lambda = faceValues nodes (X (n + 1)) e) ∧
    ((n = 0 ∧ ∀ e : Fin G.n_hyEdges, IsInitial (E e) t0 (old e)) ∨ (n ≠ 0 ∧ ∀ e : Fin G.n_hyEdges, (old e).lambda = faceValues nodes (X n) e)) ∧
    assemble nodes (fun e : Fin G.n_hyEdges => offDirichlet (E e) (t0 + (n + 1) • S.delta_t) (S.theta • nodeFlux (E e) S.tau (t0 + (n + 1) • S.delta_t) (new e) +
      (1 - S.theta) • nodeFlux (E e) S.tau (t0 + n • S.delta_t) (old e))) = 0 := by
  obtain ⟨st, r0, D, h1, h2, h3, h4, h5⟩ := run_stores m gesv hg S E hO G nodes hwf buf0 x hx data0 t0 hs X n fun k hk => hX k (by omega)
  rw [hd] at h1
  injection h1 with h1
  have hD : data = D := List.ofFn_injective (congrArg Prod.snd h1)
  subst hD
  have h : ∀ e : Fin G.n_hyEdges, _ := fun e => set_data_spec m gesv hg S (E e) (hO e) (data e) (t0 + (n + 1) • S.delta_t) (hs e _) (st n e)
    (by rw [time_sub]; exact h5 e) (faceValues nodes (X (n + 1)) e) (hX n (by omega) e)
  choose D' new k1 k2 k3 k4 using h
  have k5 := C41_set_data m G nodes hwf (fun e lambda data => set_data m gesv S lambda (E e) data (t0 + (n + 1) • S.delta_t)) buf0 (X (n + 1)) data D' k1
  have hD' : data' = D' := by
    have hd'' : (run m gesv S E G buf0 x (List.ofFn data0) t0 (fun k => List.ofFn (X k)) n >>= fun r => _) = Res.ok (r, List.ofFn data') := hd'
    rw [show run m gesv S E G buf0 x (List.ofFn data0) t0 (fun k => List.ofFn (X k)) n = _ from hd, Res.ok_bind] at hd''
    dsimp only at hd''
    rw [k5] at hd''
    injection hd'' with hd''
    exact (List.ofFn_injective (congrArg Prod.snd hd'')).symm
  subst hD'
  obtain ⟨new2, w1, w2⟩ := residual_of_stores m gesv hg S E hO G nodes hwf t0 n (fun e => hs e _) (st n) data h5 old0 new0 (X (n + 1))
  have heq : new2 = new := by
    funext e
    have a1 := (step_iff S (E e) (hO e) (t0 + (n + 1) • S.delta_t) (st n e) (data e) (by rw [time_sub]; exact h5 e) (new e).u (new e).lambda).mpr (k2 e)
    have a2 := (step_iff S (E e) (hO e) (t0 + (n + 1) • S.delta_t) (st n e) (data e) (by rw [time_sub]; exact h5 e) (new2 e).u (new2 e).lambda).mpr (w1 e).1
    rw [k3 e] at a1
    rw [(w1 e).2] at a2
    have b1 := local_unique S (E e) _ (hs e _) a2 a1
    have b3 := (w1 e).2.trans (k3 e).symm
    rcases hx1 : new2 e with ⟨u, l⟩
    rcases hx2 : new e with ⟨u', l'⟩
    rw [hx1, hx2] at b1 b3
    exact State.mk.injEq .. ▸ ⟨b1, b3⟩
  rw [heq] at w2
  rw [hres, ← List.ofFn_const] at w2
  injection w2 with w2
  refine ⟨st n, new, fun e => ⟨(kept_eq _).trans (h5 e).u, (kept_eq _).trans (k4 e).u, k2 e, k3 e⟩, ?_, (List.ofFn_injective w2).symm⟩
  by_cases hn : n = 0
  · subst hn
    exact .inl ⟨rfl, h2⟩
  · refine .inr ⟨hn, fun e => ?_⟩
    have c2 := (h4 (n - 1) (by omega) e).2
    rwa [Nat.sub_add_cancel (Nat.pos_of_ne_zero hn)] at c2

end

/-! ## C73: conservation -/

section
variable [Field K] [LinearOrder K] [IsStrictOrderedRing K]

omit [LinearOrder K] [IsStrictOrderedRing K] in
theorem product_eq (E : Edge dim nS K) (v w : Fin nS → K) : product E v w = v ⬝ᵥ mass E *ᵥ w := by
  simp only [product, mass, dotProduct, mulVec, of_apply, Finset.mul_sum, mul_assoc]

/-- The rate tested by the constant 1. -/
theorem one_test {E : Edge dim nS K} {time : K} {P : Points dim nS nB K} (hP : UpwindLaws E time P) {c : Fin nS → K} {mu : LocDofs dim nB K} (h1 : IsOne E time P c mu)
    (tau : K) (x : State dim nS nB K) : c ⬝ᵥ rate E tau time x = c ⬝ᵥ source E time - ∑ f, (mu f ⬝ᵥ flux E tau time x f + c ⬝ᵥ dirichletFlux E time f) := by
  have e1 : c ⬝ᵥ conv E time *ᵥ x.u = 0 := by
    rw [dotProduct_mulVec, ← mulVec_transpose, h1.grad, zero_dotProduct]
  unfold rate
  rw [dotProduct_sub, dotProduct_add, e1, add_zero, dotProduct_sum]
  congr 1
  refine Finset.sum_congr rfl fun f _ => ?_
  rw [dotProduct_add, test_flux hP, test_bdr_flux hP]
  congr 1
  exact Finset.sum_congr rfl fun k _ => by rw [h1.val, h1.tr]

/-- **C73** (on a hyperedge).  In a step of the theta scheme, the integral of `u` over the hyperedge (`c` is the constant 1 and `mu` its trace) changes by the integral of the source minus the
numerical fluxes through the faces (including the Dirichlet data), weighted by `theta` and `1 - theta`. -/
theorem C73_local (S : Solver K) (E : Edge dim nS K) (time : K) (P P' : Points dim nS nB K) (hP : UpwindLaws E time P) (hP' : UpwindLaws E (time - S.delta_t) P')
    (c : Fin nS → K) (mu : LocDofs dim nB K) (h1 : IsOne E time P c mu) (h1' : IsOne E (time - S.delta_t) P' c mu)
    (old new : State dim nS nB K) (h : ThetaStep S E time old new) :
    product E c (new.u - old.u) = S.delta_t * (
      S.theta * (c ⬝ᵥ source E time - ∑ f, (mu f ⬝ᵥ flux E S.tau time new f + c ⬝ᵥ dirichletFlux E time f)) +
      (1 - S.theta) * (c ⬝ᵥ source E (time - S.delta_t) -
        ∑ f, (mu f ⬝ᵥ flux E S.tau (time - S.delta_t) old f + c ⬝ᵥ dirichletFlux E (time - S.delta_t) f))) := by
  rw [product_eq, h, dotProduct_smul, dotProduct_add, dotProduct_smul, dotProduct_smul, one_test hP h1, one_test hP' h1']
  rfl

omit [IsStrictOrderedRing K] in
theorem face_split (E : Edge dim nS K) (tau time : K) (c : Fin nS → K) (mu : LocDofs dim nB K) (x : State dim nS nB K) (f : Fin (2 * dim)) :
    mu f ⬝ᵥ flux E tau time x f + c ⬝ᵥ dirichletFlux E time f = faceLoss E tau time c mu x f + ∑ j, mu f j * offDirichlet E time (nodeFlux E tau time x) f j := by
  by_cases hD : IsDirichlet E time f
  · simp [faceLoss, offDirichlet, hD]
  · have h0 : dirichletFlux E time f = 0 := by funext i; simp [dirichletFlux, hD]
    have h2 : ∑ j, mu f j * offDirichlet E time (nodeFlux E tau time x) f j = mu f ⬝ᵥ nodeFlux E tau time x f := by simp [offDirichlet, hD, dotProduct]
    rw [h2, h0, dotProduct_zero, add_zero]
    by_cases hO : IsOutflow E time f
    · simp only [faceLoss, nodeFlux, hD, hO, if_true, if_false, dotProduct_sub]
      ring
    · simp [faceLoss, nodeFlux, hD, hO]

/-- **C73** (globally).  Let `M` be a vector with the traces of the constant 1 on all faces.  If the vector of step `n + 1` makes `residual_flux` vanish and no face changes
its Dirichlet type in the step (or `theta = 1`), then the integral of `u` over all hyperedges changes exactly by the integral of the source, minus what flows out through the Dirichlet and
the outflow faces (`faceLoss`), weighted by `theta` and `1 - theta`: nothing is lost or created at the other hypernodes. -/
theorem C73_global (m : Mode) (gesv : Gesv nS 1 K) (hg : GesvSpec gesv) (S : Solver K)
    (E : Nat → Edge dim nS K) (hO : ∀ e, Orthonormal (E e)) (G : HyGraph dim nB) (nodes : Fin G.n_hyEdges → Fin (2 * dim) → Fin G.n_hyNodes) (hwf : G.WF nodes)
    (buf0 : LocDofs dim nB K) (x : List K) (hx : x.length = G.n_hyNodes * nB) (data0 : Fin G.n_hyEdges → Data dim nS nB K) (t0 : K)
    (hs : ∀ e (k : Nat), Solvable S (E e) nB (t0 + k • S.delta_t)) (X : Nat → Fin (G.n_hyNodes * nB) → K) (n : Nat)
    (hX : ∀ k < n + 1, ∀ e : Fin G.n_hyEdges, VanishesOnDirichlet (E e) (t0 + (k + 1) • S.delta_t) (faceValues nodes (X (k + 1)) e))
    (P P' : Fin G.n_hyEdges → Points dim nS nB K) (hP : ∀ e : Fin G.n_hyEdges, UpwindLaws (E e) (t0 + (n + 1) • S.delta_t) (P e))
    (hP' : ∀ e : Fin G.n_hyEdges, UpwindLaws (E e) (t0 + n • S.delta_t) (P' e))
    (htypes : S.theta = 1 ∨ ∀ (e : Fin G.n_hyEdges) f, IsDirichlet (E e) (t0 + (n + 1) • S.delta_t) f ↔ IsDirichlet (E e) (t0 + n • S.delta_t) f)
    (c : Fin G.n_hyEdges → Fin nS → K) (M : Fin (G.n_hyNodes * nB) → K)
    (hc : ∀ e : Fin G.n_hyEdges, IsOne (E e) (t0 + (n + 1) • S.delta_t) (P e) (c e) (faceValues nodes M e))
    (hc' : ∀ e : Fin G.n_hyEdges, IsOne (E e) (t0 + n • S.delta_t) (P' e) (c e) (faceValues nodes M e))
    (old0 new0 : LocDofs dim nB K) (r : List K) (D0 D1 : Fin G.n_hyEdges → Data dim nS nB K)
    (h0 : runX m gesv S E G buf0 x data0 t0 X n = .ok (r, List.ofFn D0)) (h1 : runX m gesv S E G buf0 x data0 t0 X (n + 1) = .ok (r, List.ofFn D1))
    (hres : globalResidual m gesv S E G old0 new0 (List.ofFn D0) (t0 + (n + 1) • S.delta_t) (List.ofFn (X (n + 1))) = .ok (List.replicate (G.n_hyNodes * nB) 0)) :
    ∃ old new : Fin G.n_hyEdges → State dim nS nB K, (∀ e, (old e).u = kept (D0 e) ∧ (new e).u = kept (D1 e) ∧ (new e).lambda = faceValues nodes (X (n + 1)) e ∧
        (n = 0 → IsInitial (E e) t0 (old e)) ∧ (n ≠ 0 → (old e).lambda = faceValues nodes (X n) e)) ∧
      ∑ e : Fin G.n_hyEdges, product (E e) (c e) (kept (D1 e)) = ∑ e : Fin G.n_hyEdges, product (E e) (c e) (kept (D0 e)) +
        S.delta_t * ∑ e : Fin G.n_hyEdges,
          (S.theta * (c e ⬝ᵥ source (E e) (t0 + (n + 1) • S.delta_t) - ∑ f, faceLoss (E e) S.tau (t0 + (n + 1) • S.delta_t) (c e) (faceValues nodes M e) (new e) f) +
          (1 - S.theta) * (c e ⬝ᵥ source (E e) (t0 + n • S.delta_t) - ∑ f, faceLoss (E e) S.tau (t0 + n • S.delta_t) (c e) (faceValues nodes M e) (old e) f)) := by
  obtain ⟨old, new, a1, a2, a3⟩ := run_step m gesv hg S E hO G nodes hwf buf0 x hx data0 t0 X hs n hX old0 new0 r D0 D1 h0 h1 hres
  refine ⟨old, new, fun e => ⟨(a1 e).1.symm, (a1 e).2.1.symm, (a1 e).2.2.2, fun hn => ?_, fun hn => ?_⟩, ?_⟩
  · rcases a2 with ⟨_, h⟩ | ⟨h, _⟩
    · exact h e
    · exact absurd hn h
  · rcases a2 with ⟨h, _⟩ | ⟨_, h⟩
    · exact absurd h hn
    · exact h e
  have e1 := pairing_assemble nodes (fun e : Fin G.n_hyEdges => offDirichlet (E e) (t0 + (n + 1) • S.delta_t) (S.theta • nodeFlux (E e) S.tau (t0 + (n + 1) • S.delta_t) (new e) +
      (1 - S.theta) • nodeFlux (E e) S.tau (t0 + n • S.delta_t) (old e))) M
  rw [a3] at e1
  simp only [Pi.zero_apply, mul_zero, Finset.sum_const_zero] at e1
  have hoff : ∀ (e : Fin G.n_hyEdges), (1 - S.theta) • offDirichlet (E e) (t0 + (n + 1) • S.delta_t) (nodeFlux (E e) S.tau (t0 + n • S.delta_t) (old e)) =
      (1 - S.theta) • offDirichlet (E e) (t0 + n • S.delta_t) (nodeFlux (E e) S.tau (t0 + n • S.delta_t) (old e)) := by
    intro e
    rcases htypes with h | h
    · rw [h, sub_self, zero_smul, zero_smul]
    · congr 1
      funext f j
      simp only [offDirichlet, h e f]
  have hloc : ∀ e : Fin G.n_hyEdges, product (E e) (c e) (kept (D1 e)) - product (E e) (c e) (kept (D0 e)) =
      S.delta_t * (S.theta * (c e ⬝ᵥ source (E e) (t0 + (n + 1) • S.delta_t) - ∑ f, faceLoss (E e) S.tau (t0 + (n + 1) • S.delta_t) (c e) (faceValues nodes M e) (new e) f) +
          (1 - S.theta) * (c e ⬝ᵥ source (E e) (t0 + n • S.delta_t) - ∑ f, faceLoss (E e) S.tau (t0 + n • S.delta_t) (c e) (faceValues nodes M e) (old e) f)) -
      S.delta_t * ∑ f, ∑ j, faceValues nodes M e f j * offDirichlet (E e) (t0 + (n + 1) • S.delta_t) (S.theta • nodeFlux (E e) S.tau (t0 + (n + 1) • S.delta_t) (new e) +
        (1 - S.theta) • nodeFlux (E e) S.tau (t0 + n • S.delta_t) (old e)) f j := by
    intro e
    have hP'' : UpwindLaws (E e) (t0 + (n + 1) • S.delta_t - S.delta_t) (P' e) := by rw [time_sub]; exact hP' e
    have hc'' : IsOne (E e) (t0 + (n + 1) • S.delta_t - S.delta_t) (P' e) (c e) (faceValues nodes M e) := by rw [time_sub]; exact hc' e
    have k1 := C73_local S (E e) (t0 + (n + 1) • S.delta_t) (P e) (P' e) (hP e) hP'' (c e) (faceValues nodes M e) (hc e) hc'' (old e) (new e) (a1 e).2.2.1
    rw [time_sub] at k1
    simp only [face_split, Finset.sum_add_distrib] at k1
    rw [off_comb, hoff e]
    simp only [Pi.add_apply, Pi.smul_apply, smul_eq_mul, mul_add, Finset.sum_add_distrib, mul_left_comm _ S.theta, mul_left_comm _ (1 - S.theta), ← Finset.mul_sum]
    rw [(a1 e).1, (a1 e).2.1]
    have k2 : product (E e) (c e) ((new e).u - (old e).u) = product (E e) (c e) (new e).u - product (E e) (c e) (old e).u := by
      rw [product_eq, product_eq, product_eq, mulVec_sub, dotProduct_sub]
    rw [← k2, k1]
    ring
  have hsum := Finset.sum_congr (rfl : (Finset.univ : Finset (Fin G.n_hyEdges)) = _) fun e _ => hloc e
  rw [Finset.sum_sub_distrib, Finset.sum_sub_distrib, ← Finset.mul_sum, ← Finset.mul_sum, ← e1, mul_zero, sub_zero] at hsum
  rw [← hsum]
  ring

end

/-! ## C74: solvability and stability -/

section
variable [Field K] [LinearOrder K] [IsStrictOrderedRing K]

/-- **C74** (local problems).  For `tau ≥ 0` and `theta delta_t ≥ 0` and a velocity field without sinks in the hyperedge, the local problems are uniquely solvable; hence
`trace_to_flux`, `residual_flux` and `set_data` return for every input. -/
theorem C74_solvable (m : Mode) (gesv : Gesv nS 1 K) (hg : GesvSpec gesv) (S : Solver K) (ht : 0 ≤ S.tau) (hth : 0 ≤ S.theta * S.delta_t) (E : Edge dim nS K) (time : K)
    (P : Points dim nS nB K) (hP : UpwindLaws E time P) (hN : NoSinks E time P) :
    Solvable S E nB time ∧ ∀ (lambda out : LocDofs dim nB K) (data : Data dim nS nB K), (∃ y, trace_to_flux m gesv S lambda out E data time = .ok y) ∧
      (∃ y, residual_flux m gesv S lambda out E data time = .ok y) ∧ (VanishesOnDirichlet E time lambda → ∃ d, set_data m gesv S lambda E data time = .ok d) := by
  have hs := solvable_of hP S ht hth hN
  refine ⟨hs, fun lambda out data => ⟨?_, ?_, fun hl => ?_⟩⟩
  · obtain ⟨u, _, h⟩ := C72_flux m gesv hg S E data time hs lambda out
    exact ⟨_, h⟩
  · obtain ⟨u, _, h⟩ := residual_raw m gesv hg S E data time hs lambda out
    exact ⟨_, h⟩
  · obtain ⟨c, h1, h2⟩ := (solve_local_problem_spec m gesv hg S E data time lambda 1 (.inr rfl)).1 hs
    unfold set_data
    rw [h1, Res.ok_bind]
    obtain ⟨d, hd, _⟩ := fillData_spec m S E c lambda time hl data.flux_old
    exact ⟨d, hd⟩

variable {E : Nat → Edge dim nS K} {tau time : K} {P : Nat → Points dim nS nB K} {nE nN : Nat} {nodes : Fin nE → Fin (2 * dim) → Fin nN} {D : Fin nN → Prop}

/-- At the hypernodes, not more flows in than out. -/
theorem inflow_nonpos (hD : NodeLaws E tau time P nodes D) (x : Fin (nN * nB) → K) (hx : ∀ e : Fin nE, VanishesOnDirichlet (E e) time (faceValues nodes x e)) :
    ∑ e : Fin nE, ∑ f, inflow (E e) time (P e) f (faceValues nodes x e f) ≤ 0 := by
  classical
  have h1 : ∀ (e : Fin nE) f, inflow (E e) time (P e) f (faceValues nodes x e f) = ∑ v, if nodes e f = v then inflow (E e) time (P e) f (fun j => x (dof v j)) else 0 := by
    intro e f
    rw [Finset.sum_ite_eq, if_pos (Finset.mem_univ _)]
    rfl
  simp only [h1]
  rw [Finset.sum_congr rfl fun e _ => Finset.sum_comm, Finset.sum_comm]
  refine Finset.sum_nonpos fun v _ => ?_
  by_cases hv : D v
  · refine le_of_eq (Finset.sum_eq_zero fun e _ => Finset.sum_eq_zero fun f _ => ?_)
    split
    next h =>
      subst h
      rcases (hD.dirichlet e f).mpr hv with h | ⟨_, h⟩
      · have : (fun j => x (dof (nodes e f) j)) = 0 := hx e f h
        rw [this]
        simp [inflow, Points.tr]
      · simp [inflow, h]
    next => rfl
  · refine le_trans (le_of_eq ?_) (hD.noSink v hv fun j => x (dof v j))
    refine Finset.sum_congr rfl fun e _ => Finset.sum_congr rfl fun f _ => ?_
    by_cases h : nodes e f = v <;> by_cases h' : IsOutflow (E e) time f <;> simp [inflow, h, h']

/-- The energy of states with single-valued traces. -/
theorem energy_sum (hP : ∀ e : Fin nE, UpwindLaws (E e) time (P e)) (hN : ∀ e : Fin nE, NoSinks (E e) time (P e)) (hD : NodeLaws E tau time P nodes D)
    (y : Fin nE → State dim nS nB K) (x : Fin (nN * nB) → K) (hx : ∀ e : Fin nE, VanishesOnDirichlet (E e) time (faceValues nodes x e)) (hy : ∀ e, (y e).lambda = faceValues nodes x e)
    (h0 : ∑ e : Fin nE, ∑ f, (y e).lambda f ⬝ᵥ nodeFlux (E e) tau time (y e) f = 0) :
    ∑ e : Fin nE, (y e).u ⬝ᵥ homRate (E e) tau time (y e) + ∑ e : Fin nE, ∑ f, ∑ k, (P e).weight f k * lossAt (E e) tau time (P e) (y e) f k ≤ 0 := by
  have h1 := Finset.sum_le_sum fun (e : Fin nE) (_ : e ∈ Finset.univ) => energy (hP e) (hN e) tau (hD.outflow e) (y e)
  rw [Finset.sum_add_distrib, Finset.sum_add_distrib, h0, add_zero, ← Finset.mul_sum] at h1
  have h2 := inflow_nonpos hD x hx
  simp only [← hy] at h2
  linarith

/-- The operator of a time step is definite. -/
theorem definite (S : Solver K) (ht : 0 ≤ S.tau) (hth : 0 < S.theta) (hdt : 0 < S.delta_t) (hP : ∀ e : Fin nE, UpwindLaws (E e) time (P e))
    (hN : ∀ e : Fin nE, NoSinks (E e) time (P e)) (hD : NodeLaws E S.tau time P nodes D)
    (y : Fin nE → State dim nS nB K) (x : Fin (nN * nB) → K) (hx : VanishesAt D x) (hy : ∀ e, (y e).lambda = faceValues nodes x e)
    (hloc : ∀ e : Fin nE, IsLocal S (E e) time (y e)) (h0 : ∑ e : Fin nE, ∑ f, (y e).lambda f ⬝ᵥ nodeFlux (E e) S.tau time (y e) f = 0) : x = 0 := by
  have hx' : ∀ e : Fin nE, VanishesOnDirichlet (E e) time (faceValues nodes x e) := fun e f hf => funext fun j => hx _ ((hD.dirichlet e f).mp (.inl hf)) j
  have h1 := energy_sum hP hN hD y x hx' hy h0
  have hpos : 0 < S.theta * S.delta_t := mul_pos hth hdt
  have h2 : ∀ e : Fin nE, (y e).u ⬝ᵥ homRate (E e) S.tau time (y e) = (S.theta * S.delta_t)⁻¹ * ((y e).u ⬝ᵥ mass (E e) *ᵥ (y e).u) := by
    intro e
    have h := hloc e
    unfold IsLocal at h
    rw [h, dotProduct_smul, smul_eq_mul, ← mul_assoc, inv_mul_cancel₀ hpos.ne', one_mul]
    rfl
  have h3 : ∀ e : Fin nE, 0 ≤ (y e).u ⬝ᵥ mass (E e) *ᵥ (y e).u := fun e => by
    by_cases h : (y e).u = 0
    · rw [h]; simp
    · exact ((hP e).mass_pos _ h).le
  have h4 : ∀ e : Fin nE, 0 ≤ (y e).u ⬝ᵥ homRate (E e) S.tau time (y e) := fun e => by
    rw [h2]
    exact mul_nonneg (inv_nonneg.mpr hpos.le) (h3 e)
  have h5 : ∀ (e : Fin nE) f, ∀ k, 0 ≤ (P e).weight f k * lossAt (E e) S.tau time (P e) (y e) f k := fun e f k => loss_nonneg (hP e) ht (hD.outflow e) (y e) f k
  have h6 := Finset.sum_nonneg fun (e : Fin nE) (_ : e ∈ Finset.univ) => h4 e
  have h7 : ∀ e : Fin nE, 0 ≤ ∑ f, ∑ k, (P e).weight f k * lossAt (E e) S.tau time (P e) (y e) f k := fun e =>
    Finset.sum_nonneg fun f _ => Finset.sum_nonneg fun k _ => h5 e f k
  have h8 := Finset.sum_nonneg fun (e : Fin nE) (_ : e ∈ Finset.univ) => h7 e
  have hu : ∀ e, (y e).u = 0 := by
    intro e
    have h := (Finset.sum_eq_zero_iff_of_nonneg fun e _ => h4 e).mp (by linarith) e (Finset.mem_univ e)
    rw [h2] at h
    by_contra hne
    exact (mul_pos (inv_pos.mpr hpos) ((hP e).mass_pos _ hne)).ne' h
  have hl : ∀ (e : Fin nE) f k, (P e).weight f k * lossAt (E e) S.tau time (P e) (y e) f k = 0 := by
    intro e f k
    have a1 := (Finset.sum_eq_zero_iff_of_nonneg fun e _ => h7 e).mp (by linarith) e (Finset.mem_univ e)
    have a2 := (Finset.sum_eq_zero_iff_of_nonneg fun f _ => Finset.sum_nonneg fun k _ => h5 e f k).mp a1 f (Finset.mem_univ f)
    exact (Finset.sum_eq_zero_iff_of_nonneg fun k _ => h5 e f k).mp a2 k (Finset.mem_univ k)
  funext q
  obtain ⟨v, j, rfl⟩ := dof_surj q
  by_cases hv : D v
  · exact hx v hv j
  · refine congrFun (hD.determined v hv (fun j => x (dof v j)) fun e f k hn => ?_) j
    have := loss_zero (hP e) ht (hu e) (hl e f k)
    rw [hy e] at this
    subst hn
    exact this

/-- **C74** (each time step has exactly one solution).  For `tau ≥ 0`, `theta > 0` and `delta_t > 0`, a velocity field without sinks in the hyperedges and at the hypernodes, and `D` the hypernodes of
Dirichlet type (for `tau = 0`, also those of outflow type): whatever the data of the former time step (which have no flux at the outflow nodes of `D`), there is exactly one vector vanishing at `D` for which
`residual_flux` returns the zero vector. -/
theorem C74_unique_step (m : Mode) (gesv : Gesv nS 1 K) (hg : GesvSpec gesv) (S : Solver K)
    (ht : 0 ≤ S.tau) (hth : 0 < S.theta) (hdt : 0 < S.delta_t) (E : Nat → Edge dim nS K) (time : K) (P : Nat → Points dim nS nB K) (hP : ∀ e, UpwindLaws (E e) time (P e))
    (hN : ∀ e, NoSinks (E e) time (P e)) (G : HyGraph dim nB) (nodes : Fin G.n_hyEdges → Fin (2 * dim) → Fin G.n_hyNodes) (hwf : G.WF nodes)
    (D : Fin G.n_hyNodes → Prop) (hD : NodeLaws E S.tau time P nodes D) (data : Fin G.n_hyEdges → Data dim nS nB K)
    (hdata : ∀ (e : Fin G.n_hyEdges) f, ¬ IsDirichlet (E e) time f → D (nodes e f) → ∀ j, (1 - S.theta) * toMat (data e).boundary_flux_old j f = 0)
    (old0 new0 : LocDofs dim nB K) :
    ∃! y : Fin (G.n_hyNodes * nB) → K, VanishesAt D y ∧
      globalResidual m gesv S E G old0 new0 (List.ofFn data) time (List.ofFn y) = .ok (List.replicate (G.n_hyNodes * nB) 0) := by
  have hs : ∀ e, Solvable S (E e) nB time := fun e => solvable_of (hP e) S ht (mul_pos hth hdt).le (hN e)
  have hret : ∀ (e : Fin G.n_hyEdges) (lambda : LocDofs dim nB K), ∃ u, IsLocal S (E e) time ⟨u, lambda⟩ := by
    intro e lambda
    obtain ⟨u, h1, _⟩ := C72_flux m gesv hg S (E e) (data e) time (hs e) lambda 0
    exact ⟨u, h1⟩
  choose U hU using hret
  let F : Fin G.n_hyEdges → LocDofs dim nB K → LocDofs dim nB K := fun e l => offDirichlet (E e) time (S.theta • nodeFlux (E e) S.tau time ⟨U e l, l⟩)
  have hF : ∀ (e : Fin G.n_hyEdges) (l out : LocDofs dim nB K), trace_to_flux m gesv S l out (E e) (data e) time = .ok (F e l) := fun e l out => flux_to_ok m gesv hg S (E e) (data e) time (hs e) (hU e l) out
  have hlin : ∀ (e : Fin G.n_hyEdges) (a b : K) (x y : LocDofs dim nB K), F e (a • x + b • y) = a • F e x + b • F e y := by
    intro e a b x y
    have := C72_linear m gesv hg S (E e) (data e) time (hF e x 0) (hF e y 0) a b 0 (data e)
    rw [hF] at this
    exact Res.ok.inj this
  let L : Fin G.n_hyEdges → LocDofs dim nB K →ₗ[K] LocDofs dim nB K := fun e =>
    { toFun := F e
      map_add' := fun x y => by
        have := hlin e 1 1 x y
        simpa only [one_smul] using this
      map_smul' := fun a x => by
        have := hlin e a 0 x 0
        simpa only [zero_smul, add_zero, RingHom.id_apply] using this }
  have hnf : ∀ (e : Fin G.n_hyEdges) f (x : State dim nS nB K), ¬ IsDirichlet (E e) time f → D (nodes e f) → nodeFlux (E e) S.tau time x f = 0 := by
    intro e f x h1 h2
    rcases (hD.dirichlet e f).mpr h2 with h | ⟨h3, h4⟩
    · exact absurd h h1
    · rw [nodeFlux, if_pos h4]
      funext j
      simp [stabFlux, h3]
  have hr0 : ∀ e : Fin G.n_hyEdges, ∃ r, (∀ lambda : LocDofs dim nB K, residual_flux m gesv S lambda (fun _ _ => 0) (E e) (data e) time = .ok (F e lambda + r)) ∧
      ∀ f, D (nodes e f) → r f = 0 := by
    intro e
    obtain ⟨_, r, _, h2, _⟩ := C72_affine m gesv hg S (E e) (data e) time (hs e) (data e) 0 0 0 0
    refine ⟨r, fun lambda => ?_, fun f hf => ?_⟩
    · obtain ⟨y, r', k1, k2, k3⟩ := C72_affine m gesv hg S (E e) (data e) time (hs e) (data e) lambda 0 0 (fun _ _ => 0)
      rw [hF] at k1; have k1 := Res.ok.inj k1
      rw [h2] at k2; have k2 := Res.ok.inj k2
      rw [k3, k1, k2]
    · obtain ⟨u, _, h3⟩ := residual_raw m gesv hg S (E e) (data e) time (hs e) 0 0
      rw [h2] at h3
      rw [Res.ok.inj h3]
      funext j
      by_cases h : IsDirichlet (E e) time f
      · simp [offDirichlet, h]
      · simp [offDirichlet, h, hnf e f _ h hf, hdata e f h hf j]
  choose R0 hR0 hR1 using hr0
  have hzero : ∀ (e : Fin G.n_hyEdges) (u : LocDofs dim nB K) (f : Fin (2 * dim)), D (nodes e f) → F e u f = 0 := fun e u f h => by
    funext j
    by_cases h' : IsDirichlet (E e) time f
    · simp [F, offDirichlet, h']
    · simp [F, offDirichlet, h', hnf e f _ h' h]
  refine unique_zero m G nodes hwf old0 new0 _ L R0 (fun e u => ?_) D hzero hR1 fun x hx h => ?_
  · rw [vget_of_lt (by simp), Res.ok_bind]
    simp only [List.getElem_ofFn]
    exact hR0 e u
  · refine definite S ht hth hdt (fun e => hP e) (fun e => hN e) hD (fun e => ⟨U e (faceValues nodes x e), faceValues nodes x e⟩) x hx (fun e => rfl) (fun e => hU e _) ?_
    have h1 : ∑ e : Fin G.n_hyEdges, ∑ i, ∑ j, faceValues nodes x e i j * F e (faceValues nodes x e) i j = 0 := h
    have h2 : ∀ e : Fin G.n_hyEdges, ∑ i, ∑ j, faceValues nodes x e i j * F e (faceValues nodes x e) i j =
        S.theta * ∑ f, faceValues nodes x e f ⬝ᵥ nodeFlux (E e) S.tau time ⟨U e (faceValues nodes x e), faceValues nodes x e⟩ f := by
      intro e
      have hv : VanishesOnDirichlet (E e) time (faceValues nodes x e) := fun f hf => funext fun j => hx _ ((hD.dirichlet e f).mp (.inl hf)) j
      rw [show F e (faceValues nodes x e) = offDirichlet (E e) time (S.theta • nodeFlux (E e) S.tau time ⟨U e (faceValues nodes x e), faceValues nodes x e⟩) from rfl,
        pair_off hv, Finset.mul_sum]
      simp only [Pi.smul_apply, dotProduct_smul, smul_eq_mul]
    rw [Finset.sum_congr rfl fun e _ => h2 e, ← Finset.mul_sum] at h1
    exact (mul_eq_zero.mp h1).resolve_left hth.ne'

/-- `X` are the vectors of the first `N` time steps: each one vanishes at `D` and makes `residual_flux` vanish, called with the data kept by the hyperedges after the steps before. -/
def Steps (m : Mode) (gesv : Gesv nS 1 K) (S : Solver K) (E : Nat → Edge dim nS K) (G : HyGraph dim nB)
    (buf0 : LocDofs dim nB K) (x : List K) (data0 : Fin G.n_hyEdges → Data dim nS nB K) (t0 : K) (D : Fin G.n_hyNodes → Prop) (old0 new0 : LocDofs dim nB K)
    (X : Nat → Fin (G.n_hyNodes * nB) → K) (N : Nat) : Prop :=
  ∀ k < N, VanishesAt D (X (k + 1)) ∧ ∃ r, run m gesv S E G buf0 x (List.ofFn data0) t0 (fun k => List.ofFn (X k)) k = .ok r ∧
    globalResidual m gesv S E G old0 new0 r.2 (t0 + (k + 1) • S.delta_t) (List.ofFn (X (k + 1))) = .ok (List.replicate (G.n_hyNodes * nB) 0)

omit [IsStrictOrderedRing K] in
/-- A run only looks at the vectors `X 1, ..., X n`. -/
theorem run_congr (m : Mode) (gesv : Gesv nS 1 K) (S : Solver K) (E : Nat → Edge dim nS K) (G : HyGraph dim nB)
    (buf0 : LocDofs dim nB K) (x : List K) (data0 : List (Data dim nS nB K)) (t0 : K) {X X' : Nat → List K} (n : Nat) (h : ∀ k < n, X (k + 1) = X' (k + 1)) :
    run m gesv S E G buf0 x data0 t0 X n = run m gesv S E G buf0 x data0 t0 X' n := by
  induction n with
  | zero => rfl
  | succ n ih =>
    unfold run
    rw [ih fun k hk => h k (by omega), h n (by omega)]

/-- **C74** (the whole computation).  Under the same assumptions at all times, with no face changing its Dirichlet type (or `theta = 1`), the vectors of the first `N` time steps exist and are
unique, for every `N` and every former content of the data of the hyperedges. -/
theorem C74_unique_run (m : Mode) (gesv : Gesv nS 1 K) (hg : GesvSpec gesv) (S : Solver K)
    (ht : 0 ≤ S.tau) (hth : 0 < S.theta) (hdt : 0 < S.delta_t) (E : Nat → Edge dim nS K) (hO : ∀ e, Orthonormal (E e)) (t0 : K) (P : Nat → Nat → Points dim nS nB K)
    (hP : ∀ e k, UpwindLaws (E e) (t0 + k • S.delta_t) (P k e))
    (hN : ∀ e k, NoSinks (E e) (t0 + k • S.delta_t) (P k e)) (G : HyGraph dim nB) (nodes : Fin G.n_hyEdges → Fin (2 * dim) → Fin G.n_hyNodes) (hwf : G.WF nodes)
    (D : Fin G.n_hyNodes → Prop) (hD : ∀ k : Nat, NodeLaws E S.tau (t0 + k • S.delta_t) (P k) nodes D)
    (htypes : S.theta = 1 ∨ ∀ (e : Fin G.n_hyEdges) f (k : Nat), IsDirichlet (E e) (t0 + (k + 1) • S.delta_t) f ↔ IsDirichlet (E e) (t0 + k • S.delta_t) f)
    (buf0 : LocDofs dim nB K) (x : List K) (hx : x.length = G.n_hyNodes * nB) (data0 : Fin G.n_hyEdges → Data dim nS nB K) (old0 new0 : LocDofs dim nB K)
    (N : Nat) (X0 : Fin (G.n_hyNodes * nB) → K) :
    (∃ X, X 0 = X0 ∧ Steps m gesv S E G buf0 x data0 t0 D old0 new0 X N) ∧
    ∀ X X', Steps m gesv S E G buf0 x data0 t0 D old0 new0 X N → Steps m gesv S E G buf0 x data0 t0 D old0 new0 X' N → ∀ k < N, X (k + 1) = X' (k + 1) := by
  have hs : ∀ e (k : Nat), Solvable S (E e) nB (t0 + k • S.delta_t) := fun e k => solvable_of (hP e k) S ht (mul_pos hth hdt).le (hN e k)
  have hvan : ∀ (k : Nat) (y : Fin (G.n_hyNodes * nB) → K), VanishesAt D y → ∀ e : Fin G.n_hyEdges, VanishesOnDirichlet (E e) (t0 + k • S.delta_t) (faceValues nodes y e) :=
    fun k y hy e f hf => funext fun j => hy _ (((hD k).dirichlet e f).mp (.inl hf)) j
  have hstep : ∀ (X : Nat → Fin (G.n_hyNodes * nB) → K) (n : Nat), Steps m gesv S E G buf0 x data0 t0 D old0 new0 X n → ∃ (r0 : List K) (data : Fin G.n_hyEdges → Data dim nS nB K),
      runX m gesv S E G buf0 x data0 t0 X n = .ok (r0, List.ofFn data) ∧ ∃! y : Fin (G.n_hyNodes * nB) → K, VanishesAt D y ∧
        globalResidual m gesv S E G old0 new0 (List.ofFn data) (t0 + (n + 1) • S.delta_t) (List.ofFn y) = .ok (List.replicate (G.n_hyNodes * nB) 0) := by
    intro X n hX
    obtain ⟨st, r0, data, h1, _, _, _, h5⟩ := run_stores m gesv hg S E hO G nodes hwf buf0 x hx data0 t0 hs X n fun k hk e => hvan (k + 1) _ (hX k hk).1 e
    refine ⟨_, data, h1, C74_unique_step m gesv hg S ht hth hdt E (t0 + (n + 1) • S.delta_t) (P (n + 1)) (fun e => hP e (n + 1)) (fun e => hN e (n + 1)) G nodes hwf D (hD (n + 1)) data
      (fun e f h6 h7 j => ?_) old0 new0⟩
    rcases htypes with h | h
    · rw [h, sub_self, zero_mul]
    · rw [(h5 e).bdr]
      rcases ((hD n).dirichlet e f).mpr h7 with h8 | ⟨h8, h9⟩
      · exact absurd ((h e f n).mpr h8) h6
      · rw [nodeFlux, if_pos h9]
        simp [stabFlux, h8]
  induction N with
  | zero => exact ⟨⟨fun _ => X0, rfl, fun k hk => absurd hk (Nat.not_lt_zero k)⟩, fun _ _ _ _ k hk => absurd hk (Nat.not_lt_zero k)⟩
  | succ N ih =>
    constructor
    · obtain ⟨X, h0, hX⟩ := ih.1
      obtain ⟨r0, data, hr, y, ⟨hy1, hy2⟩, _⟩ := hstep X N hX
      let X' : Nat → Fin (G.n_hyNodes * nB) → K := fun k => if k ≤ N then X k else y
      have hrun : ∀ n ≤ N, run m gesv S E G buf0 x (List.ofFn data0) t0 (fun k => List.ofFn (X' k)) n =
          run m gesv S E G buf0 x (List.ofFn data0) t0 (fun k => List.ofFn (X k)) n := fun n hn =>
        run_congr m gesv S E G buf0 x _ t0 n fun k hk => by
          show List.ofFn (if k + 1 ≤ N then X (k + 1) else y) = _
          rw [if_pos (by omega)]
      refine ⟨X', by simp only [X', if_pos (Nat.zero_le N), h0], fun k hk => ?_⟩
      rcases Nat.lt_succ_iff_lt_or_eq.mp hk with hk' | rfl
      · obtain ⟨h1, r, h2, h3⟩ := hX k hk'
        have : X' (k + 1) = X (k + 1) := if_pos (by omega)
        exact ⟨this ▸ h1, r, (hrun k hk'.le).trans h2, this ▸ h3⟩
      · have : X' (k + 1) = y := if_neg (by omega)
        exact ⟨this ▸ hy1, _, (hrun k le_rfl).trans hr, this ▸ hy2⟩
    · intro X X' hX hX' k hk
      have h := ih.2 X X' (fun k hk => hX k (by omega)) fun k hk => hX' k (by omega)
      rcases Nat.lt_succ_iff_lt_or_eq.mp hk with hk' | rfl
      · exact h k hk'
      · obtain ⟨a1, r, a2, a3⟩ := hX k hk
        obtain ⟨b1, r', b2, b3⟩ := hX' k hk
        obtain ⟨r0, data, hr, y, _, hy2⟩ := hstep X k fun k hk => hX k (by omega)
        have e1 : r = (r0, List.ofFn data) := by
          rw [show run m gesv S E G buf0 x (List.ofFn data0) t0 (fun k => List.ofFn (X k)) k = _ from hr] at a2
          exact (Res.ok.inj a2).symm
        have e2 : r' = (r0, List.ofFn data) := by
          rw [run_congr m gesv S E G buf0 x _ t0 k (X' := fun k => List.ofFn (X k)) fun j hj => by rw [h j hj],
            show run m gesv S E G buf0 x (List.ofFn data0) t0 (fun k => List.ofFn (X k)) k = _ from hr] at b2
          exact (Res.ok.inj b2).symm
        rw [e1] at a3
        rw [e2] at b3
        exact (hy2 _ ⟨a1, a3⟩).trans (hy2 _ ⟨b1, b3⟩).symm

/-- The step of the energy argument. -/
theorem energy_step {E : Nat → Edge dim nS K} {time : K} {P : Nat → Points dim nS nB K} {nE nN : Nat} {nodes : Fin nE → Fin (2 * dim) → Fin nN} {D : Fin nN → Prop} (S : Solver K)
    (ht : 0 ≤ S.tau) (hdt : 0 ≤ S.delta_t) (theta : K) (hth : 1 / 2 ≤ theta) (hP : ∀ e : Fin nE, UpwindLaws (E e) time (P e)) (hN : ∀ e : Fin nE, NoSinks (E e) time (P e))
    (hD : NodeLaws E S.tau time P nodes D)
    (v w : Fin nE → Fin nS → K) (y : Fin nE → State dim nS nB K) (x : Fin (nN * nB) → K) (hx : ∀ e : Fin nE, VanishesOnDirichlet (E e) time (faceValues nodes x e))
    (hy : ∀ e, (y e).lambda = faceValues nodes x e) (hu : ∀ e, (y e).u = theta • v e + (1 - theta) • w e)
    (hstep : ∀ e : Fin nE, mass (E e) *ᵥ (v e - w e) = S.delta_t • homRate (E e) S.tau time (y e))
    (h0 : ∑ e : Fin nE, ∑ f, (y e).lambda f ⬝ᵥ nodeFlux (E e) S.tau time (y e) f = 0) :
    ∑ e : Fin nE, product (E e) (v e) (v e) ≤ ∑ e : Fin nE, product (E e) (w e) (w e) := by
  have h1 := energy_sum hP hN hD y x hx hy h0
  have h2 : 0 ≤ ∑ e : Fin nE, ∑ f, ∑ k, (P e).weight f k * lossAt (E e) S.tau time (P e) (y e) f k :=
    Finset.sum_nonneg fun e _ => Finset.sum_nonneg fun f _ => Finset.sum_nonneg fun k _ => loss_nonneg (hP e) ht (hD.outflow e) (y e) f k
  have h3 : ∀ e : Fin nE, 1 / 2 * (product (E e) (v e) (v e) - product (E e) (w e) (w e)) ≤ S.delta_t * ((y e).u ⬝ᵥ homRate (E e) S.tau time (y e)) := by
    intro e
    have k1 := DiffusionParab.theta_identity (hP e).mass_symm theta (v e) (w e)
    rw [← hu e, hstep e, dotProduct_smul, smul_eq_mul, ← hstep e] at k1
    have k2 : 0 ≤ (v e - w e) ⬝ᵥ mass (E e) *ᵥ (v e - w e) := by
      by_cases h : v e - w e = 0
      · rw [h]; simp
      · exact ((hP e).mass_pos _ h).le
    have k3 := mul_nonneg (sub_nonneg.mpr hth) k2
    rw [product_eq, product_eq]
    linarith
  have h4 := Finset.sum_le_sum fun (e : Fin nE) (_ : e ∈ Finset.univ) => h3 e
  rw [← Finset.mul_sum, ← Finset.mul_sum, Finset.sum_sub_distrib] at h4
  have h5 := mul_nonpos_of_nonneg_of_nonpos hdt (by linarith : ∑ e : Fin nE, (y e).u ⬝ᵥ homRate (E e) S.tau time (y e) ≤ 0)
  linarith

omit [LinearOrder K] [IsStrictOrderedRing K] in
theorem steady_homRate {E : Edge dim nS K} (h : Steady E) (tau t t' : K) (x : State dim nS nB K) : homRate E tau t x = homRate E tau t' x := by
  unfold homRate conv fluxTested
  rw [h.vol_nablaphiphivec t t', h.bdr_phiphinu t t', h.bdr_phiphi t t', h.bdr_phipsinu t t', h.bdr_phipsi t t']

omit [IsStrictOrderedRing K] in
theorem steady_nodeFlux {E : Edge dim nS K} (h : Steady E) (tau t t' : K) (x : State dim nS nB K) : nodeFlux E tau t x = nodeFlux E tau t' x := by
  funext f
  unfold nodeFlux stabFlux flux
  rw [h.bdr_psiphinu t t', h.bdr_psiphi t t', h.bdr_psipsinu t t', h.bdr_psipsi t t']
  simp only [IsOutflow, h.wind t t']

omit [IsStrictOrderedRing K] in
theorem steady_dirichlet {E : Edge dim nS K} (h : Steady E) (t t' : K) (f : Fin (2 * dim)) : IsDirichlet E t f ↔ IsDirichlet E t' f := by
  simp only [IsDirichlet, h.wind t t']

/-- **C74** (contractivity).  Two problems which differ only in the initial values are computed, on the same hypergraph, with vectors `X k` and `X' k` vanishing on the Dirichlet faces.  If
the vectors of step `n + 1` make `residual_flux` vanish and the velocity field has no sinks in the hyperedges and at the hypernodes, then the L2 distance of the two solutions after step `n + 1`
is not larger than after step `n`.  This holds for implicit Euler (`theta = 1`), and for every `theta ≥ 1/2` if the velocity field does not depend on the time (and `X 0`, `X' 0` are the initial
traces). -/
theorem C74_contractive (m : Mode) (gesv : Gesv nS 1 K) (hg : GesvSpec gesv) (S : Solver K)
    (ht : 0 ≤ S.tau) (hth : 0 < S.theta) (hdt : 0 < S.delta_t) (E : Nat → Edge dim nS K) (vol : Nat → K → Nat → K) (bdr : Nat → K → Nat → Nat → K)
    (hO : ∀ e, Orthonormal (E e)) (t0 : K) (P : Nat → Nat → Points dim nS nB K) (hP : ∀ e k, UpwindLaws (E e) (t0 + k • S.delta_t) (P k e))
    (hN : ∀ e k, NoSinks (E e) (t0 + k • S.delta_t) (P k e)) (G : HyGraph dim nB) (nodes : Fin G.n_hyEdges → Fin (2 * dim) → Fin G.n_hyNodes) (hwf : G.WF nodes)
    (D : Fin G.n_hyNodes → Prop) (hD : ∀ k : Nat, NodeLaws E S.tau (t0 + k • S.delta_t) (P k) nodes D)
    (buf0 : LocDofs dim nB K) (x x' : List K) (hx : x.length = G.n_hyNodes * nB) (hx' : x'.length = G.n_hyNodes * nB) (data0 data0' : Fin G.n_hyEdges → Data dim nS nB K)
    (X X' : Nat → Fin (G.n_hyNodes * nB) → K) (n : Nat) (hX : ∀ k ≤ n + 1, ∀ e : Fin G.n_hyEdges, VanishesOnDirichlet (E e) (t0 + k • S.delta_t) (faceValues nodes (X k) e))
    (hX' : ∀ k ≤ n + 1, ∀ e : Fin G.n_hyEdges, VanishesOnDirichlet (E e) (t0 + k • S.delta_t) (faceValues nodes (X' k) e))
    (hscheme : S.theta = 1 ∨ (1 / 2 ≤ S.theta ∧ (∀ e, Steady (E e)) ∧
      ∀ e : Fin G.n_hyEdges, faceValues nodes (X 0) e = offDirichlet (E e) t0 (fun f (j : Fin nB) => (E e).bdrUni_initial t0 j f) ∧
        faceValues nodes (X' 0) e = offDirichlet (E e) t0 (fun f (j : Fin nB) => bdr e t0 j f)))
    (old0 new0 : LocDofs dim nB K) (r r' : List K) (D0 D1 D0' D1' : Fin G.n_hyEdges → Data dim nS nB K)
    (h0 : runX m gesv S E G buf0 x data0 t0 X n = .ok (r, List.ofFn D0)) (h1 : runX m gesv S E G buf0 x data0 t0 X (n + 1) = .ok (r, List.ofFn D1))
    (h0' : runX m gesv S (fun e => { E e with volUni_initial := vol e, bdrUni_initial := bdr e }) G buf0 x' data0' t0 X' n = .ok (r', List.ofFn D0'))
    (h1' : runX m gesv S (fun e => { E e with volUni_initial := vol e, bdrUni_initial := bdr e }) G buf0 x' data0' t0 X' (n + 1) = .ok (r', List.ofFn D1'))
    (hres : globalResidual m gesv S E G old0 new0 (List.ofFn D0) (t0 + (n + 1) • S.delta_t) (List.ofFn (X (n + 1))) = .ok (List.replicate (G.n_hyNodes * nB) 0))
    (hres' : globalResidual m gesv S (fun e => { E e with volUni_initial := vol e, bdrUni_initial := bdr e }) G old0 new0 (List.ofFn D0') (t0 + (n + 1) • S.delta_t)
      (List.ofFn (X' (n + 1))) = .ok (List.replicate (G.n_hyNodes * nB) 0)) :
    ∑ e : Fin G.n_hyEdges, product (E e) (kept (D1 e) - kept (D1' e)) (kept (D1 e) - kept (D1' e)) ≤
      ∑ e : Fin G.n_hyEdges, product (E e) (kept (D0 e) - kept (D0' e)) (kept (D0 e) - kept (D0' e)) := by
  have hs : ∀ e (k : Nat), Solvable S (E e) nB (t0 + k • S.delta_t) := fun e k => solvable_of (hP e k) S ht (mul_pos hth hdt).le (hN e k)
  obtain ⟨old, new, a1, a2, a3⟩ := run_step m gesv hg S E hO G nodes hwf buf0 x hx data0 t0 X hs n (fun k hk e => hX (k + 1) (by omega) e) old0 new0 r D0 D1 h0 h1 hres
  obtain ⟨old', new', b1, b2, b3⟩ := run_step m gesv hg S (fun e => { E e with volUni_initial := vol e, bdrUni_initial := bdr e }) (fun e => hO e) G nodes hwf buf0 x' hx' data0' t0 X'
    (fun e k => hs e k) n (fun k hk e => hX' (k + 1) (by omega) e) old0 new0 r' D0' D1' h0' h1' hres'
  have hstep : ∀ e : Fin G.n_hyEdges, ThetaStep S (E e) (t0 + (n + 1) • S.delta_t) (old' e) (new' e) := fun e => (b1 e).2.2.1
  have b3' : assemble nodes (fun e : Fin G.n_hyEdges => offDirichlet (E e) (t0 + (n + 1) • S.delta_t) (S.theta • nodeFlux (E e) S.tau (t0 + (n + 1) • S.delta_t) (new' e) +
      (1 - S.theta) • nodeFlux (E e) S.tau (t0 + n • S.delta_t) (old' e))) = 0 := b3
  -- the fluxes of both computations, tested by a vector vanishing on the Dirichlet faces
  have htest : ∀ Z : Fin (G.n_hyNodes * nB) → K, (∀ e : Fin G.n_hyEdges, VanishesOnDirichlet (E e) (t0 + (n + 1) • S.delta_t) (faceValues nodes Z e)) →
      ∑ e : Fin G.n_hyEdges, ∑ f, faceValues nodes Z e f ⬝ᵥ (S.theta • nodeFlux (E e) S.tau (t0 + (n + 1) • S.delta_t) (comb 1 (-1) (new e) (new' e)) +
        (1 - S.theta) • nodeFlux (E e) S.tau (t0 + n • S.delta_t) (comb 1 (-1) (old e) (old' e))) f = 0 := by
    intro Z hZ
    have e1 := pairing_assemble nodes (fun e : Fin G.n_hyEdges => offDirichlet (E e) (t0 + (n + 1) • S.delta_t) (S.theta • nodeFlux (E e) S.tau (t0 + (n + 1) • S.delta_t) (new e) +
      (1 - S.theta) • nodeFlux (E e) S.tau (t0 + n • S.delta_t) (old e))) Z
    have e2 := pairing_assemble nodes (fun e : Fin G.n_hyEdges => offDirichlet (E e) (t0 + (n + 1) • S.delta_t) (S.theta • nodeFlux (E e) S.tau (t0 + (n + 1) • S.delta_t) (new' e) +
      (1 - S.theta) • nodeFlux (E e) S.tau (t0 + n • S.delta_t) (old' e))) Z
    rw [a3] at e1
    rw [b3'] at e2
    rw [Finset.sum_congr rfl fun e _ => pair_off (hZ e) _] at e1 e2
    have e3 := congrArg₂ (· - ·) e1 e2
    simp only [Pi.zero_apply, mul_zero, Finset.sum_const_zero, sub_self] at e3
    rw [e3, ← Finset.sum_sub_distrib]
    refine Finset.sum_congr rfl fun e _ => ?_
    rw [← Finset.sum_sub_distrib]
    refine Finset.sum_congr rfl fun f _ => ?_
    rw [← dotProduct_sub]
    congr 1
    rw [nodeFlux_comb, nodeFlux_comb]
    funext j
    simp only [Pi.add_apply, Pi.sub_apply, Pi.smul_apply, smul_eq_mul]
    ring
  have hprimal : ∀ e : Fin G.n_hyEdges, mass (E e) *ᵥ (((new e).u - (new' e).u) - ((old e).u - (old' e).u)) =
      S.delta_t • (S.theta • homRate (E e) S.tau (t0 + (n + 1) • S.delta_t) (comb 1 (-1) (new e) (new' e)) +
        (1 - S.theta) • homRate (E e) S.tau (t0 + n • S.delta_t) (comb 1 (-1) (old e) (old' e))) := by
    intro e
    have e1 := (a1 e).2.2.1
    have e2 := hstep e
    unfold ThetaStep at e1 e2
    rw [time_sub] at e1 e2
    have e5 : mass (E e) *ᵥ (((new e).u - (new' e).u) - ((old e).u - (old' e).u)) = mass (E e) *ᵥ ((new e).u - (old e).u) - mass (E e) *ᵥ ((new' e).u - (old' e).u) := by
      rw [← mulVec_sub]
      congr 1
      abel
    rw [e5, e1, e2, ← rate_sub, ← rate_sub]
    module
  have hlam : ∀ e : Fin G.n_hyEdges, (comb 1 (-1) (new e) (new' e)).lambda = faceValues nodes (X (n + 1) - X' (n + 1)) e := by
    intro e
    have : (comb 1 (-1) (new e) (new' e)).lambda = (1 : K) • (new e).lambda + (-1 : K) • (new' e).lambda := rfl
    rw [this, (a1 e).2.2.2, (b1 e).2.2.2, one_smul, neg_smul, one_smul, ← sub_eq_add_neg]
    rfl
  have hvan : ∀ k ≤ n + 1, ∀ e : Fin G.n_hyEdges, VanishesOnDirichlet (E e) (t0 + k • S.delta_t) (faceValues nodes (X k - X' k) e) := fun k hk e f hf => by
    have e1 := hX k hk e f hf
    have e2 := hX' k hk e f hf
    funext j
    have e3 := congrFun e1 j
    have e4 := congrFun e2 j
    show X k _ - X' k _ = 0
    rw [show X k (dof (nodes e f) j) = 0 from e3, show X' k (dof (nodes e f) j) = 0 from e4, sub_self]
  simp only [(a1 _).1, (a1 _).2.1, (b1 _).1, (b1 _).2.1]
  have hP1 : ∀ e : Fin G.n_hyEdges, UpwindLaws (E e) (t0 + (n + 1) • S.delta_t) (P (n + 1) e) := fun e => hP e (n + 1)
  have hN1 : ∀ e : Fin G.n_hyEdges, NoSinks (E e) (t0 + (n + 1) • S.delta_t) (P (n + 1) e) := fun e => hN e (n + 1)
  rcases hscheme with hone | ⟨hhalf, hsteady, hX0⟩
  · refine energy_step S ht hdt.le 1 (by norm_num) hP1 hN1 (hD (n + 1)) (fun e => (new e).u - (new' e).u) (fun e => (old e).u - (old' e).u) (fun e => comb 1 (-1) (new e) (new' e))
      (X (n + 1) - X' (n + 1)) (hvan (n + 1) le_rfl) hlam (fun e => ?_) (fun e => ?_) ?_
    · simp only [comb, one_smul, neg_smul, sub_self, zero_smul, add_zero, sub_eq_add_neg]
    · rw [hprimal e, hone, sub_self, zero_smul, add_zero, one_smul]
    · have := htest (X (n + 1) - X' (n + 1)) (hvan (n + 1) le_rfl)
      simp only [hone, sub_self, zero_smul, add_zero, one_smul] at this
      simp only [hlam]
      exact this
  · have hold : ∀ e, (comb 1 (-1) (old e) (old' e)).lambda = faceValues nodes (X n - X' n) e := by
      intro e
      have k1 : (old e).lambda = faceValues nodes (X n) e := by
        rcases a2 with ⟨hn, hI⟩ | ⟨_, hI⟩
        · subst hn
          exact (hI e).trace.trans (hX0 e).1.symm
        · exact hI e
      have k2 : (old' e).lambda = faceValues nodes (X' n) e := by
        rcases b2 with ⟨hn, hI⟩ | ⟨_, hI⟩
        · subst hn
          exact (hI e).trace.trans (hX0 e).2.symm
        · exact hI e
      have : (comb 1 (-1) (old e) (old' e)).lambda = (1 : K) • (old e).lambda + (-1 : K) • (old' e).lambda := rfl
      rw [this, k1, k2, one_smul, neg_smul, one_smul, ← sub_eq_add_neg]
      rfl
    let Z := S.theta • (X (n + 1) - X' (n + 1)) + (1 - S.theta) • (X n - X' n)
    have hZv : ∀ e : Fin G.n_hyEdges, VanishesOnDirichlet (E e) (t0 + (n + 1) • S.delta_t) (faceValues nodes Z e) := fun e f hf => by
      have e1 := hvan (n + 1) le_rfl e f hf
      have e2 := hvan n (by omega) e f ((steady_dirichlet (hsteady e) _ _ f).mp hf)
      funext j
      have e3 := congrFun e1 j
      have e4 := congrFun e2 j
      show S.theta * (X (n + 1) - X' (n + 1)) _ + (1 - S.theta) * (X n - X' n) _ = 0
      rw [show (X (n + 1) - X' (n + 1)) (dof (nodes e f) j) = 0 from e3, show (X n - X' n) (dof (nodes e f) j) = 0 from e4]
      ring
    have hZ : ∀ e : Fin G.n_hyEdges, (comb S.theta (1 - S.theta) (comb 1 (-1) (new e) (new' e)) (comb 1 (-1) (old e) (old' e))).lambda = faceValues nodes Z e := by
      intro e
      have : (comb S.theta (1 - S.theta) (comb 1 (-1) (new e) (new' e)) (comb 1 (-1) (old e) (old' e))).lambda =
        S.theta • (comb 1 (-1) (new e) (new' e)).lambda + (1 - S.theta) • (comb 1 (-1) (old e) (old' e)).lambda := rfl
      rw [this, hlam e, hold e]
      rfl
    refine energy_step S ht hdt.le S.theta hhalf hP1 hN1 (hD (n + 1)) (fun e => (new e).u - (new' e).u) (fun e => (old e).u - (old' e).u)
      (fun e => comb S.theta (1 - S.theta) (comb 1 (-1) (new e) (new' e)) (comb 1 (-1) (old e) (old' e))) Z hZv hZ (fun e => ?_) (fun e => ?_) ?_
    · simp only [comb, one_smul, neg_smul, sub_eq_add_neg]
    · rw [hprimal e, homRate_comb (E e) S.tau _ S.theta (1 - S.theta), steady_homRate (hsteady e) S.tau (t0 + n • S.delta_t) (t0 + (n + 1) • S.delta_t)]
    · have := htest Z hZv
      rw [← this]
      refine Finset.sum_congr rfl fun e _ => Finset.sum_congr rfl fun f _ => ?_
      rw [hZ e, nodeFlux_comb, steady_nodeFlux (hsteady e) S.tau (t0 + n • S.delta_t) (t0 + (n + 1) • S.delta_t)]

end

/-! ## C75: a constant stays constant -/

section
variable [Field K] [LinearOrder K] [IsStrictOrderedRing K]

/-- On a free stream, the constant has rate 0. -/
theorem free_rate {E : Edge dim nS K} {tau time : K} {P : Points dim nS nB K} (hP : UpwindLaws E time P) {c : Fin nS → K} {mu : LocDofs dim nB K}
    (h : FreeStream E tau time P c mu) : rate E tau time ⟨c, offDirichlet E time mu⟩ = 0 := by
  funext i
  have hv : ∀ f k, P.val f k (Pi.single i 1) = P.phi f k i := fun f k => by simp [Points.val, Pi.single_apply]
  have h1 : ∀ f, fluxTested E tau time (⟨c, offDirichlet E time mu⟩ : State dim nS nB K) f i + dirichletFlux E time f i = ∑ k, P.weight f k * P.wind f k * P.phi f k i := by
    intro f
    have e1 := test_flux hP tau (Pi.single i 1) ⟨c, offDirichlet E time mu⟩ f
    rw [single_one_dotProduct] at e1
    rw [e1]
    by_cases hf : IsDirichlet E time f
    · have e2 : dirichletFlux E time f i = _ := (if_pos hf).trans (h.dirichlet f hf i)
      have e3 : offDirichlet E time mu f = 0 := funext fun j => if_pos hf
      rw [e2, ← Finset.sum_add_distrib]
      refine Finset.sum_congr rfl fun k _ => ?_
      simp only [e3, Points.upwind, h.one.val, h.stab f hf k]
      rw [show P.tr f k (0 : Fin nB → K) = 0 by simp [Points.tr], hv]
      linear_combination (P.weight f k * P.phi f k i) * max_add_min (P.wind f k) 0
    · have e2 : dirichletFlux E time f i = 0 := if_neg hf
      have e3 : offDirichlet E time mu f = mu f := funext fun j => if_neg hf
      rw [e2, add_zero]
      refine Finset.sum_congr rfl fun k _ => ?_
      simp only [e3, Points.upwind, h.one.val, h.one.tr, hv]
      linear_combination (P.weight f k * P.phi f k i) * max_add_min (P.wind f k) 0
  simp only [rate, Pi.add_apply, Pi.sub_apply, Finset.sum_apply, h1, h.source, h.divfree, Pi.zero_apply]
  ring

/-- On a free stream, the flux of the constant into the nodes. -/
theorem free_nodeFlux {E : Edge dim nS K} {tau time : K} {P : Points dim nS nB K} (hP : UpwindLaws E time P) {c : Fin nS → K} {mu : LocDofs dim nB K}
    (h : FreeStream E tau time P c mu) (f : Fin (2 * dim)) (hf : ¬ IsDirichlet E time f) (j : Fin nB) :
    nodeFlux E tau time ⟨c, offDirichlet E time mu⟩ f j = if IsOutflow E time f then 0 else ∑ k, P.weight f k * P.wind f k * P.psi f k j := by
  have hv : ∀ k, P.tr f k (Pi.single j 1) = P.psi f k j := fun k => by simp [Points.tr, Pi.single_apply]
  have e3 : offDirichlet E time mu f = mu f := funext fun j => if_neg hf
  unfold nodeFlux
  split
  · have e1 := test_stab_flux hP tau (Pi.single j 1) ⟨c, offDirichlet E time mu⟩ f
    rw [single_one_dotProduct] at e1
    rw [e1]
    refine Finset.sum_eq_zero fun k _ => ?_
    simp only [e3, h.one.val, h.one.tr]
    ring
  · have e1 := test_bdr_flux hP tau (Pi.single j 1) ⟨c, offDirichlet E time mu⟩ f
    rw [single_one_dotProduct] at e1
    rw [e1]
    refine Finset.sum_congr rfl fun k _ => ?_
    simp only [e3, Points.upwind, h.one.val, h.one.tr, hv]
    linear_combination (P.weight f k * P.psi f k j) * max_add_min (P.wind f k) 0

/-- **C75** (free stream).  If the initial value is the constant 1, there is no source, the Dirichlet data are 1, the velocity field is divergence free in the hyperedges and balanced at the hypernodes
(what flows in through the faces at a node flows out again), then for every number of time steps, every `theta` and every `tau`, the traces of the constant (0 on Dirichlet faces)
make `residual_flux` vanish, and the solution kept by the hyperedges is exactly the constant 1. -/
theorem C75_free_stream (m : Mode) (gesv : Gesv nS 1 K) (hg : GesvSpec gesv) (S : Solver K) (E : Nat → Edge dim nS K) (hO : ∀ e, Orthonormal (E e))
    (G : HyGraph dim nB) (nodes : Fin G.n_hyEdges → Fin (2 * dim) → Fin G.n_hyNodes) (hwf : G.WF nodes)
    (buf0 : LocDofs dim nB K) (x : List K) (hx : x.length = G.n_hyNodes * nB) (data0 : Fin G.n_hyEdges → Data dim nS nB K) (t0 : K)
    (hs : ∀ e (k : Nat), Solvable S (E e) nB (t0 + k • S.delta_t)) (P : Nat → Nat → Points dim nS nB K)
    (hP : ∀ (e : Fin G.n_hyEdges) k, UpwindLaws (E e) (t0 + k • S.delta_t) (P k e))
    (c : Fin G.n_hyEdges → Fin nS → K) (mu : Fin G.n_hyEdges → LocDofs dim nB K) (hfree : ∀ (e : Fin G.n_hyEdges) k, FreeStream (E e) S.tau (t0 + k • S.delta_t) (P k e) (c e) (mu e))
    (hinit : ∀ e : Fin G.n_hyEdges, (fun i : Fin nS => (E e).volUni_initial t0 i) = c e ∧ (fun (f : Fin (2 * dim)) (j : Fin nB) => (E e).bdrUni_initial t0 j f) = mu e)
    (htypes : S.theta = 1 ∨ ∀ (e : Fin G.n_hyEdges) f (k : Nat), IsDirichlet (E e) (t0 + (k + 1) • S.delta_t) f ↔ IsDirichlet (E e) (t0 + k • S.delta_t) f)
    (hbal : ∀ (k : Nat) v (j : Fin nB), (∑ e : Fin G.n_hyEdges, ∑ f, if nodes e f = v ∧ ¬ IsDirichlet (E e) (t0 + k • S.delta_t) f ∧ ¬ IsOutflow (E e) (t0 + k • S.delta_t) f then
      ∑ q, (P k e).weight f q * (P k e).wind f q * (P k e).psi f q j else 0) = 0)
    (X : Nat → Fin (G.n_hyNodes * nB) → K) (hX : ∀ (k : Nat) (e : Fin G.n_hyEdges), faceValues nodes (X k) e = offDirichlet (E e) (t0 + k • S.delta_t) (mu e)) (n : Nat)
    (old0 new0 : LocDofs dim nB K) :
    ∃ (r : List K) (data : Fin G.n_hyEdges → Data dim nS nB K), runX m gesv S E G buf0 x data0 t0 X n = .ok (r, List.ofFn data) ∧ (∀ e, kept (data e) = c e) ∧
      globalResidual m gesv S E G old0 new0 (List.ofFn data) (t0 + (n + 1) • S.delta_t) (List.ofFn (X (n + 1))) = .ok (List.replicate (G.n_hyNodes * nB) 0) := by
  classical
  have hXv : ∀ (k : Nat) (e : Fin G.n_hyEdges), VanishesOnDirichlet (E e) (t0 + k • S.delta_t) (faceValues nodes (X k) e) := fun k e f hf => by
    rw [hX]
    exact funext fun j => if_pos hf
  obtain ⟨st, r0, data, h1, h2, _, h4, h5⟩ := run_stores m gesv hg S E hO G nodes hwf buf0 x hx data0 t0 hs X n fun k _ => hXv (k + 1)
  have huniq : ∀ (k : Nat) (e : Fin G.n_hyEdges) (new : State dim nS nB K), ThetaStep S (E e) (t0 + (k + 1) • S.delta_t) ⟨c e, offDirichlet (E e) (t0 + k • S.delta_t) (mu e)⟩ new →
      new.lambda = faceValues nodes (X (k + 1)) e → new = ⟨c e, offDirichlet (E e) (t0 + (k + 1) • S.delta_t) (mu e)⟩ := by
    intro k e new hn hl
    have hr := free_rate (hP e (k + 1)) (hfree e (k + 1))
    have hr' := free_rate (hP e k) (hfree e k)
    rw [hX] at hl
    have hu : new.u = c e := by
      have e1 := hn
      unfold ThetaStep at e1
      rw [time_sub, hr', smul_zero, add_zero] at e1
      have e2 : rate (E e) S.tau (t0 + (k + 1) • S.delta_t) new = homRate (E e) S.tau (t0 + (k + 1) • S.delta_t)
          (⟨new.u - c e, 0⟩ : State dim nS nB K) := by
        have := rate_sub (E e) S.tau (t0 + (k + 1) • S.delta_t) new ⟨c e, offDirichlet (E e) (t0 + (k + 1) • S.delta_t) (mu e)⟩
        rw [hr, sub_zero] at this
        rw [this]
        simp only [comb, hl, one_smul, neg_smul, ← sub_eq_add_neg, sub_self]
      rw [e2, smul_smul, mul_comm] at e1
      exact sub_eq_zero.mp (hs e (k + 1) (new.u - c e) (sub_eq_zero.mpr e1))
    rcases new with ⟨u, l⟩
    simp only at hu hl
    rw [hu, hl]
  have hst : ∀ k ≤ n, ∀ e, st k e = ⟨c e, offDirichlet (E e) (t0 + k • S.delta_t) (mu e)⟩ := by
    intro k
    induction k with
    | zero =>
      intro _ e
      have e1 := (h2 e).primal
      have e2 := (h2 e).trace
      rw [(hinit e).1] at e1
      rw [(hinit e).2] at e2
      rw [zero_smul, add_zero, ← e1, ← e2]
    | succ k ih =>
      intro hk e
      obtain ⟨e1, e2⟩ := h4 k (by omega) e
      rw [ih (by omega) e] at e1
      exact huniq k e _ e1 e2
  refine ⟨_, data, h1, fun e => by rw [kept_eq, (h5 e).u, hst n le_rfl e], ?_⟩
  obtain ⟨new, k1, k2⟩ := residual_of_stores m gesv hg S E hO G nodes hwf t0 n (fun e => hs e _) (st n) data h5 old0 new0 (X (n + 1))
  rw [k2, ← List.ofFn_const]
  congr 2
  funext q
  obtain ⟨v, j, rfl⟩ := dof_surj q
  have hnew : ∀ e, new e = ⟨c e, offDirichlet (E e) (t0 + (n + 1) • S.delta_t) (mu e)⟩ := fun e => huniq n e _ (by rw [← hst n le_rfl e]; exact (k1 e).1) (k1 e).2
  have hflux : ∀ k : Nat, (∀ (e : Fin G.n_hyEdges) f, S.theta = 1 ∧ k = n ∨ (IsDirichlet (E e) (t0 + (n + 1) • S.delta_t) f ↔ IsDirichlet (E e) (t0 + k • S.delta_t) f)) →
      (if k = n then 1 - S.theta else S.theta) * assemble nodes (fun e : Fin G.n_hyEdges => offDirichlet (E e) (t0 + (n + 1) • S.delta_t)
        (nodeFlux (E e) S.tau (t0 + k • S.delta_t) ⟨c e, offDirichlet (E e) (t0 + k • S.delta_t) (mu e)⟩)) (dof v j) = 0 := by
    intro k hk
    by_cases hth : S.theta = 1 ∧ k = n
    · rw [if_pos hth.2, hth.1, sub_self, zero_mul]
    refine mul_eq_zero_of_right _ ?_
    unfold assemble
    refine Eq.trans ?_ (hbal k v j)
    refine Finset.sum_congr rfl fun e _ => Finset.sum_congr rfl fun f _ => ?_
    have hk' := (hk e f).resolve_left hth
    by_cases hv : nodes e f = v
    · subst hv
      rw [Finset.sum_eq_single j (fun j' _ hj => if_neg fun h => hj (dof_inj h).2) (fun h => absurd (Finset.mem_univ j) h), if_pos rfl]
      by_cases hf : IsDirichlet (E e) (t0 + (n + 1) • S.delta_t) f
      · rw [if_neg fun h => h.2.1 (hk'.mp hf)]
        exact if_pos hf
      · have hf' := fun h => hf (hk'.mpr h)
        refine (if_neg hf).trans ?_
        rw [free_nodeFlux (hP e k) (hfree e k) f hf' j]
        by_cases ho : IsOutflow (E e) (t0 + k • S.delta_t) f
        · rw [if_pos ho, if_neg fun h => h.2.2 ho]
        · rw [if_neg ho, if_pos ⟨rfl, hf', ho⟩]
    · rw [if_neg fun h => hv h.1]
      exact Finset.sum_eq_zero fun j' _ => if_neg fun h => hv (dof_inj h).1
  have f1 := hflux (n + 1) fun e f => .inr Iff.rfl
  have f2 := hflux n fun e f => htypes.elim (fun h => .inl ⟨h, rfl⟩) fun h => .inr (h e f n)
  rw [if_neg (by omega)] at f1
  rw [if_pos rfl] at f2
  have e1 : ∀ e : Fin G.n_hyEdges, offDirichlet (E e) (t0 + (n + 1) • S.delta_t) (S.theta • nodeFlux (E e) S.tau (t0 + (n + 1) • S.delta_t) (new e) +
      (1 - S.theta) • nodeFlux (E e) S.tau (t0 + n • S.delta_t) (st n e)) =
      S.theta • offDirichlet (E e) (t0 + (n + 1) • S.delta_t) (nodeFlux (E e) S.tau (t0 + (n + 1) • S.delta_t) ⟨c e, offDirichlet (E e) (t0 + (n + 1) • S.delta_t) (mu e)⟩) +
      (1 - S.theta) • offDirichlet (E e) (t0 + (n + 1) • S.delta_t) (nodeFlux (E e) S.tau (t0 + n • S.delta_t) ⟨c e, offDirichlet (E e) (t0 + n • S.delta_t) (mu e)⟩) := fun e => by
    rw [hnew e, hst n le_rfl e, off_comb]
  have f3 := congrArg₂ (· + ·) f1 f2
  simp only [add_zero] at f3
  rw [← f3]
  unfold assemble
  simp only [e1, Pi.add_apply, Pi.smul_apply, smul_eq_mul, Finset.mul_sum, ← Finset.sum_add_distrib]
  refine Finset.sum_congr rfl fun e _ => Finset.sum_congr rfl fun f _ => Finset.sum_congr rfl fun j' _ => ?_
  split <;> ring

end

/-! ## The hypotheses can be met

The path `0 - 1 - 2` of two hyperedges with the wind blowing from node 0 (Dirichlet) to node 2 (outflow), piecewise constants, no stabilisation. -/

namespace Example

open HyGraph.Example

def wind (f : Nat) : ℚ := if f = 0 then -1 else 1

/-- The hyperedge from node `e` to node `e + 1`, initial value `w`, Dirichlet data 1. -/
def E1 (w : ℚ) (e : Nat) : Edge 1 1 ℚ where
  node_descriptor f := e + f
  dirichlet_nodes := [0]
  boundary_nodes := []
  outflow_nodes := [2]
  wind _ f := wind f
  area := 1
  vol_phiphi _ _ := 1
  vol_nablaphiphivec _ _ _ := 0
  bdr_phiphinu _ _ _ f := max (wind f) 0
  bdr_phiphi _ _ _ _ := 0
  bdr_phipsinu _ _ _ f := min (wind f) 0
  bdr_phipsi _ _ _ _ := 0
  bdr_psiphinu _ _ _ f := max (wind f) 0
  bdr_psiphi _ _ _ _ := 0
  bdr_psipsinu _ _ _ f := min (wind f) 0
  bdr_psipsi _ _ _ _ := 0
  bdr_dirichlet _ _ f := min (wind f) 0
  vol_phifunc _ _ := 0
  volUni_initial _ _ := w
  bdrUni_initial _ _ _ := w
  vol_diffsquare _ u := u 0 ^ 2

def P1 : Points 1 1 1 ℚ where
  n := 1
  weight _ _ := 1
  wind f _ := wind f
  stab _ _ := 0
  phi _ _ _ := 1
  psi _ _ _ := 1

theorem sum_P1 (F : Fin P1.n → ℚ) : ∑ k, F k = F ⟨0, Nat.one_pos⟩ := Fin.sum_univ_one _

def S1 (theta : ℚ) : Solver ℚ := ⟨0, theta, 1 / 10⟩

theorem E1_dirichlet (w time : ℚ) (e : Nat) (f : Fin (2 * 1)) : IsDirichlet (E1 w e) time f ↔ e + f.1 = 0 := by
  simp [IsDirichlet, E1]

theorem E1_outflow (w time : ℚ) (e : Nat) (f : Fin (2 * 1)) : IsOutflow (E1 w e) time f ↔ e + f.1 = 2 := by
  simp [IsOutflow, E1]

theorem E1_orthonormal (w : ℚ) (e : Nat) : Orthonormal (E1 w e) := fun i j => (if_pos (Subsingleton.elim i j)).symm

theorem E1_laws (w time : ℚ) (e : Nat) : UpwindLaws (E1 w e) time P1 where
  weight _ _ := zero_le_one
  stab _ _ := le_rfl
  phiphinu _ _ _ := by rw [sum_P1]; simp [E1, P1]
  phipsinu _ _ _ := by rw [sum_P1]; simp [E1, P1]
  psiphinu _ _ _ := by rw [sum_P1]; simp [E1, P1]
  psipsinu _ _ _ := by rw [sum_P1]; simp [E1, P1]
  phiphi _ _ _ := by simp [E1, P1]
  phipsi _ _ _ := by simp [E1, P1]
  psiphi _ _ _ := by simp [E1, P1]
  psipsi _ _ _ := by simp [E1, P1]
  mass_symm := by ext i j; rfl
  mass_pos u hu := by
    have h0 : u 0 ≠ 0 := fun h => hu (funext fun i => by rw [Subsingleton.elim i 0, h]; rfl)
    have : u ⬝ᵥ mass (E1 w e) *ᵥ u = u 0 * u 0 := by simp [mass, E1, dotProduct, mulVec]
    rw [this]
    exact mul_self_pos.mpr h0

theorem sum_wind (a : ℚ) : ∑ f : Fin (2 * 1), wind f * a = 0 := by
  rw [show (∑ f : Fin (2 * 1), wind f * a) = wind 0 * a + wind 1 * a from Fin.sum_univ_two _]
  simp [wind]

theorem E1_noSinks (w time : ℚ) (e : Nat) : NoSinks (E1 w e) time P1 := by
  intro u
  have h1 : conv (E1 w e) time = 0 := rfl
  have h2 := sum_wind (u 0 ^ 2)
  rw [h1, zero_mulVec, dotProduct_zero, mul_zero]
  refine le_of_eq ?_
  rw [← h2]
  refine Finset.sum_congr rfl fun f _ => ?_
  rw [sum_P1]
  simp [P1, Points.val]

theorem E1_nodes (w time : ℚ) : NodeLaws (E1 w) 0 time (fun _ => P1) pathNodes (fun v => v.1 ≠ 1) where
  dirichlet e f := by
    have h1 : e.1 < 2 := e.2
    have h2 := f.2
    rw [E1_dirichlet, E1_outflow]
    show _ ↔ e.1 + f.1 ≠ 1
    constructor
    · rintro (h | ⟨_, h⟩) <;> omega
    · intro h
      by_cases h0 : e.1 + f.1 = 0
      · exact .inl h0
      · exact .inr ⟨rfl, by omega⟩
  outflow e f h k := by
    rw [E1_outflow] at h
    have h1 : e.1 < 2 := e.2
    have h3 : f.1 ≠ 0 := by omega
    show 0 ≤ wind f
    simp [wind, h3]
  noSink v hv mu := by
    have hv' : v.1 = 1 := not_not.mp hv
    refine le_of_eq ?_
    have key : ∀ F : Fin 2 → Fin 2 → ℚ, (∑ e : Fin path.n_hyEdges, ∑ f : Fin (2 * 1), F e f) = F 0 0 + F 0 1 + (F 1 0 + F 1 1) := fun F =>
      (Fin.sum_univ_two _).trans (congrArg₂ (· + ·) (Fin.sum_univ_two _) (Fin.sum_univ_two _))
    refine (key _).trans ?_
    simp only [E1_outflow]
    have n1 : ∀ (e f : Fin 2), pathNodes e f = v ↔ e.1 + f.1 = 1 := fun e f => ⟨fun h => (congrArg Fin.val h).trans hv', fun h => Fin.ext (h.trans hv'.symm)⟩
    simp only [n1]
    simp [P1, wind, Points.tr]
  determined v hv mu h := by
    have hv' : v.1 = 1 := not_not.mp hv
    have h1 := h ⟨0, by decide⟩ ⟨1, by decide⟩ ⟨0, Nat.one_pos⟩ (Fin.ext hv'.symm)
    rw [if_neg (by rw [E1_outflow]; decide)] at h1
    funext j
    rw [Subsingleton.elim j 0]
    simpa [P1, wind, Points.tr] using h1

theorem E1_solvable (w theta : ℚ) (hth : 0 ≤ theta) (e : Nat) (time : ℚ) : Solvable (S1 theta) (E1 w e) 1 time :=
  (C74_solvable .debug (cramerSolve _ _ ℚ) (C44_example _ _ ℚ) (S1 theta) le_rfl (mul_nonneg hth (by norm_num [S1])) (E1 w e) time P1 (E1_laws w time e) (E1_noSinks w time e)).1

example (lambda out : LocDofs 1 1 ℚ) := C72_flux .release (cramerSolve _ _ ℚ) (C44_example _ _ ℚ) (S1 1) (E1 3 1) Data.init 0 (E1_solvable 3 1 zero_le_one 1 0) lambda out

/-- There are solvers without solution: `theta delta_t = -1` and wind out of the hyperedge at one face. -/
example (lambda out : LocDofs 1 1 ℚ) := C72_failure .debug (cramerSolve _ _ ℚ) (C44_example _ _ ℚ) ⟨0, -1, 1⟩ (E1 3 1) Data.init 0 (fun h => by
  have := congrFun (h 1 (by
    funext i
    simp [mass, conv, fluxTested, E1, mulVec, dotProduct, wind])) 0
  simp at this) lambda out

theorem steps (w theta : ℚ) (hth : 0 < theta) (N : Nat) (X0 : Fin (path.n_hyNodes * 1) → ℚ) : ∃ X, X 0 = X0 ∧
    Steps .debug (cramerSolve _ _ ℚ) (S1 theta) (E1 w) path (fun _ _ => 7) (List.replicate 3 0) (fun _ => Data.init) 0 (fun v => v.1 ≠ 1) (fun _ _ => 8) (fun _ _ => 9) X N :=
  (C74_unique_run .debug (cramerSolve _ _ ℚ) (C44_example _ _ ℚ) (S1 theta) le_rfl hth (by norm_num [S1]) (E1 w) (E1_orthonormal w) 0 (fun _ _ => P1) (fun e k => E1_laws w _ e)
    (fun e k => E1_noSinks w _ e) path pathNodes path_wf (fun v => v.1 ≠ 1) (fun k => E1_nodes w _) (.inr fun e f k => by rw [E1_dirichlet, E1_dirichlet]) (fun _ _ => 7)
    (List.replicate 3 0) rfl (fun _ => Data.init) (fun _ _ => 8) (fun _ _ => 9) N X0).1

/-- What is needed from a sequence of steps. -/
theorem split {w theta : ℚ} (hth : 0 < theta) {X : Nat → Fin (path.n_hyNodes * 1) → ℚ} {N n : Nat} (hn : n < N)
    (h : Steps .debug (cramerSolve _ _ ℚ) (S1 theta) (E1 w) path (fun _ _ => 7) (List.replicate 3 0) (fun _ => Data.init) 0 (fun v => v.1 ≠ 1) (fun _ _ => 8) (fun _ _ => 9) X N) :
    ∃ (r : List ℚ) (D0 D1 : Fin path.n_hyEdges → Data 1 1 1 ℚ),
      runX .debug (cramerSolve _ _ ℚ) (S1 theta) (E1 w) path (fun _ _ => 7) (List.replicate 3 0) (fun _ => Data.init) 0 X n = .ok (r, List.ofFn D0) ∧
      runX .debug (cramerSolve _ _ ℚ) (S1 theta) (E1 w) path (fun _ _ => 7) (List.replicate 3 0) (fun _ => Data.init) 0 X (n + 1) = .ok (r, List.ofFn D1) ∧
      globalResidual .debug (cramerSolve _ _ ℚ) (S1 theta) (E1 w) path (fun _ _ => 8) (fun _ _ => 9) (List.ofFn D0) (0 + (n + 1) • (S1 theta).delta_t) (List.ofFn (X (n + 1))) =
        .ok (List.replicate (path.n_hyNodes * 1) 0) := by
  obtain ⟨_, r, h1, h2⟩ := h n hn
  have hvan : ∀ k < N, ∀ e : Fin path.n_hyEdges, VanishesOnDirichlet (E1 w e) (0 + (k + 1) • (S1 theta).delta_t) (faceValues pathNodes (X (k + 1)) e) := fun k hk e f hf =>
    funext fun j => (h k hk).1 _ (((E1_nodes w _).dirichlet e f).mp (.inl hf)) j
  obtain ⟨_, r0, D0, k1, _⟩ := run_stores .debug (cramerSolve _ _ ℚ) (C44_example _ _ ℚ) (S1 theta) (E1 w) (E1_orthonormal w) path pathNodes path_wf (fun _ _ => 7) (List.replicate 3 0) rfl
    (fun _ => Data.init) 0 (fun e k => E1_solvable w theta hth.le e _) X n fun k hk => hvan k (by omega)
  obtain ⟨_, r1, D1, k2, _⟩ := run_stores .debug (cramerSolve _ _ ℚ) (C44_example _ _ ℚ) (S1 theta) (E1 w) (E1_orthonormal w) path pathNodes path_wf (fun _ _ => 7) (List.replicate 3 0) rfl
    (fun _ => Data.init) 0 (fun e k => E1_solvable w theta hth.le e _) X (n + 1) fun k hk => hvan k (by omega)
  rw [show run .debug (cramerSolve _ _ ℚ) (S1 theta) (E1 w) path (fun _ _ => 7) (List.replicate 3 0) (List.ofFn fun _ => Data.init) 0 (fun k => List.ofFn (X k)) n = _ from k1] at h1
  injection h1 with h1
  subst h1
  refine ⟨List.ofFn r0, D0, D1, k1, ?_, h2⟩
  have k3 : (run .debug (cramerSolve _ _ ℚ) (S1 theta) (E1 w) path (fun _ _ => 7) (List.replicate 3 0) (List.ofFn fun _ => Data.init) 0 (fun k => List.ofFn (X k)) n >>= fun r => _) =
    Res.ok (List.ofFn r1, List.ofFn D1) := k2
  rw [show run .debug (cramerSolve _ _ ℚ) (S1 theta) (E1 w) path (fun _ _ => 7) (List.replicate 3 0) (List.ofFn fun _ => Data.init) 0 (fun k => List.ofFn (X k)) n = _ from k1, Res.ok_bind] at k3
  obtain ⟨d, _, k4⟩ := Res.bind_eq_ok.mp k3
  have : List.ofFn r0 = List.ofFn r1 := by
    injection k4 with k4
    exact congrArg Prod.fst k4
  rw [this]
  exact k2

theorem E1_steady (w : ℚ) (e : Nat) : Steady (E1 w e) := by constructor <;> intros <;> rfl

/-- The initial trace: 0 at the Dirichlet node. -/
def X0 (w : ℚ) : Fin (path.n_hyNodes * 1) → ℚ := fun k => if k.1 = 0 then 0 else w

theorem X0_trace (w w' : ℚ) (e : Fin path.n_hyEdges) (time : ℚ) (g : LocDofs 1 1 ℚ) (hg : g = fun _ _ => w) : faceValues pathNodes (X0 w) e = offDirichlet (E1 w' e) time g := by
  funext f j
  have h1 : (dof (pathNodes e f) j).1 = e.1 + f.1 := by
    show (e.1 + f.1) * 1 + j.1 = _
    have := j.2
    omega
  simp only [faceValues, X0, offDirichlet, E1_dirichlet, h1, hg]

theorem X_vanishes {w theta : ℚ} {X : Nat → Fin (path.n_hyNodes * 1) → ℚ} {N : Nat} (h0 : X 0 = X0 w)
    (h : Steps .debug (cramerSolve _ _ ℚ) (S1 theta) (E1 w) path (fun _ _ => 7) (List.replicate 3 0) (fun _ => Data.init) 0 (fun v => v.1 ≠ 1) (fun _ _ => 8) (fun _ _ => 9) X N)
    (w' : ℚ) (k : Nat) (hk : k ≤ N) (e : Fin path.n_hyEdges) (time : ℚ) : VanishesOnDirichlet (E1 w' e) time (faceValues pathNodes (X k) e) := by
  intro f hf
  cases k with
  | zero =>
    rw [h0, X0_trace w w' e time _ rfl]
    exact funext fun j => if_pos hf
  | succ k => exact funext fun j => (h k (by omega)).1 _ (((E1_nodes w' _).dirichlet e f).mp (.inl hf)) j

/-- The hypotheses of C74 can be met: Crank-Nicolson scheme with initial values 2 and 5. -/
example (n : Nat) : ∃ D0 D1 D0' D1' : Fin path.n_hyEdges → Data 1 1 1 ℚ,
    ∑ e : Fin path.n_hyEdges, product (E1 2 e) (kept (D1 e) - kept (D1' e)) (kept (D1 e) - kept (D1' e)) ≤
      ∑ e : Fin path.n_hyEdges, product (E1 2 e) (kept (D0 e) - kept (D0' e)) (kept (D0 e) - kept (D0' e)) := by
  have hth : (0 : ℚ) < 1 / 2 := by norm_num
  obtain ⟨X, hX0, hX⟩ := steps 2 (1 / 2) hth (n + 1) (X0 2)
  obtain ⟨X', hX0', hX'⟩ := steps 5 (1 / 2) hth (n + 1) (X0 5)
  obtain ⟨r, D0, D1, h0, h1, h2⟩ := split hth (Nat.lt_succ_self n) hX
  obtain ⟨r', D0', D1', h0', h1', h2'⟩ := split hth (Nat.lt_succ_self n) hX'
  exact ⟨D0, D1, D0', D1', C74_contractive .debug (cramerSolve _ _ ℚ) (C44_example _ _ ℚ) (S1 (1 / 2)) le_rfl hth (by norm_num [S1]) (E1 2) (fun _ _ _ => 5) (fun _ _ _ _ => 5)
    (E1_orthonormal 2) 0 (fun _ _ => P1) (fun e k => E1_laws 2 _ e) (fun e k => E1_noSinks 2 _ e) path pathNodes path_wf (fun v => v.1 ≠ 1) (fun k => E1_nodes 2 _) (fun _ _ => 7)
    (List.replicate 3 0) (List.replicate 3 0) rfl rfl (fun _ => Data.init) (fun _ => Data.init) X X' n (fun k hk e => X_vanishes hX0 hX 2 k hk e _) (fun k hk e => X_vanishes hX0' hX' 2 k hk e _)
    (.inr ⟨le_rfl, E1_steady 2, fun e => ⟨by rw [hX0]; exact X0_trace 2 2 e 0 _ rfl, by rw [hX0']; exact X0_trace 5 2 e 0 _ rfl⟩⟩) (fun _ _ => 8) (fun _ _ => 9) r r'
    D0 D1 D0' D1' h0 h1 h0' h1' h2 h2'⟩

theorem E1_one (w time : ℚ) (e : Nat) : IsOne (E1 w e) time P1 1 1 where
  val _ _ := by simp [P1, Points.val]
  tr _ _ := by simp [P1, Points.tr]
  grad := by
    rw [show conv (E1 w e) time = 0 from rfl]
    simp

/-- The hypotheses of C73 can be met: in each step of the Crank-Nicolson scheme, the integral changes by what flows through the two ends. -/
example (n : Nat) : ∃ (D0 D1 : Fin path.n_hyEdges → Data 1 1 1 ℚ) (old new : Fin path.n_hyEdges → State 1 1 1 ℚ), (∀ e, (old e).u = kept (D0 e)) ∧ (∀ e, (new e).u = kept (D1 e)) ∧
    ∑ e : Fin path.n_hyEdges, product (E1 2 e) 1 (kept (D1 e)) = ∑ e : Fin path.n_hyEdges, product (E1 2 e) 1 (kept (D0 e)) +
      1 / 10 * ∑ e : Fin path.n_hyEdges, (1 / 2 * (0 - ∑ f, faceLoss (E1 2 e) 0 (0 + (n + 1) • (1 / 10)) 1 1 (new e) f) +
        (1 - 1 / 2) * (0 - ∑ f, faceLoss (E1 2 e) 0 (0 + n • (1 / 10)) 1 1 (old e) f)) := by
  have hth : (0 : ℚ) < 1 / 2 := by norm_num
  obtain ⟨X, hX0, hX⟩ := steps 2 (1 / 2) hth (n + 1) (X0 2)
  obtain ⟨r, D0, D1, h0, h1, h2⟩ := split hth (Nat.lt_succ_self n) hX
  obtain ⟨old, new, h3, h4⟩ := C73_global .debug (cramerSolve _ _ ℚ) (C44_example _ _ ℚ) (S1 (1 / 2)) (E1 2) (E1_orthonormal 2) path pathNodes path_wf (fun _ _ => 7) (List.replicate 3 0) rfl
    (fun _ => Data.init) 0 (fun e k => E1_solvable 2 _ hth.le e _) X n (fun k hk e => X_vanishes hX0 hX 2 (k + 1) (by omega) e _) (fun _ => P1) (fun _ => P1) (fun e => E1_laws 2 _ e)
    (fun e => E1_laws 2 _ e) (.inr fun e f => by rw [E1_dirichlet, E1_dirichlet]) (fun _ => 1) 1 (fun e => E1_one 2 _ e) (fun e => E1_one 2 _ e) (fun _ _ => 8) (fun _ _ => 9) r D0 D1 h0 h1 h2
  refine ⟨D0, D1, old, new, fun e => (h3 e).1, fun e => (h3 e).2.1, ?_⟩
  have hsrc : ∀ (e : Nat) (t : ℚ), (1 : Fin 1 → ℚ) ⬝ᵥ source (E1 2 e) t = 0 := fun e t => by simp [source, E1, dotProduct]
  simp only [hsrc] at h4
  exact h4

theorem E1_free (w time : ℚ) (e : Nat) : FreeStream (E1 w e) 0 time P1 1 1 where
  one := E1_one w time e
  source := rfl
  divfree := by
    have h := sum_wind 1
    funext i
    rw [show conv (E1 w e) time = 0 from rfl, zero_mulVec, Pi.zero_apply, ← h]
    refine Finset.sum_congr rfl fun f _ => ?_
    rw [sum_P1]
    simp [P1]
  dirichlet f _ i := by rw [sum_P1]; simp [E1, P1]
  stab f _ k := zero_mul _

/-- The hypotheses of C75 can be met. -/
example (theta : ℚ) (hth : 0 ≤ theta) (n : Nat) := C75_free_stream .release (cramerSolve _ _ ℚ) (C44_example _ _ ℚ) (S1 theta) (E1 1) (E1_orthonormal 1) path pathNodes path_wf (fun _ _ => 7)
  (List.replicate 3 0) rfl (fun _ => Data.init) 0 (fun e k => E1_solvable 1 theta hth e _) (fun _ _ => P1) (fun e k => E1_laws 1 _ e) (fun _ => 1) (fun _ => 1) (fun e k => E1_free 1 _ e)
  (fun _ => ⟨rfl, rfl⟩) (.inr fun e f k => by rw [E1_dirichlet, E1_dirichlet]) (fun k v j => by
    have key : ∀ F : Fin 2 → Fin 2 → ℚ, (∑ e : Fin path.n_hyEdges, ∑ f : Fin (2 * 1), F e f) = F 0 0 + F 0 1 + (F 1 0 + F 1 1) := fun F =>
      (Fin.sum_univ_two _).trans (congrArg₂ (· + ·) (Fin.sum_univ_two _) (Fin.sum_univ_two _))
    refine (key _).trans ?_
    simp only [E1_outflow, E1_dirichlet]
    have n1 : ∀ (e f : Fin 2), pathNodes e f = v ↔ e.1 + f.1 = v.1 := fun e f => ⟨fun h => congrArg Fin.val h, fun h => Fin.ext h⟩
    simp only [n1]
    have hv : v.1 < 3 := v.2
    interval_cases h : v.1 <;> simp [P1, wind])
  (fun _ => X0 1) (fun k e => X0_trace 1 1 e _ _ rfl) n (fun _ _ => 8) (fun _ _ => 9)

end Example

end HyperHDG.AdvectionParab

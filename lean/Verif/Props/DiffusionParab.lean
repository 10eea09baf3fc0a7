import Verif.Proofs.GlobalSolve
import Verif.Proofs.ParabolicEnergy
import Verif.Proofs.BulkValues
import Verif.Props.GlobalClasses
import Verif.Props.Diffusion

/-!
# Properties C50 - C53: the local solver `DiffusionParab` and the time stepping loop

`E e` is what the solver knows about hyperedge `e`, `form (E e) nB time` its integrals as data of the abstract LDG-H method (`Verif/Spec/LDG.lean`), `FormLaws` what is
assumed of them, `Orthonormal` that the mass matrix of the shape functions is the volume of the hyperedge times the identity; `gesv` and `gesv1` are LAPACK's dense solve
for the two sizes of systems (`GesvSpec` is its documentation).  `ThetaStep` is a step of the theta scheme on a hyperedge, `run` are the calls a program makes to
compute `n` time steps (`Verif/Spec/Parabolic.lean`).
-/

namespace HyperHDG.DiffusionParab

open Finset Spec Matrix Diffusion HyGraph

variable {dim nS nB : Nat} {K : Type}

/-! ## C50: what is computed -/

section
variable [Field K] (m : Mode) (gesv : Gesv ((dim + 1) * nS) 1 K) (hg : GesvSpec gesv) (S : Solver K) (E : Edge dim nS K) (data : Data dim nS nB K) (time : K)

include hg

/-- **C50** (`trace_to_flux`).  If the local problem of a time step is uniquely solvable, the result is zero on the Dirichlet faces and `theta` times the numerical flux of
the solution for the trace `lambda`, without source, Dirichlet data and former time step, on the other ones, whatever the output array and the data contain. -/
theorem C50_flux (hs : Solvable (form E.toEdge nB time) S.tau 1 (S.theta * S.delta_t)) (lambda out : LocDofs dim nB K) :
    ∃ q u, IsSolution (form E.toEdge nB time) S.tau 1 (S.theta * S.delta_t) (moments (form E.toEdge nB time) lambda) 0 q u ∧
      trace_to_flux m gesv S lambda out E data time = .ok (offDirichlet E.toEdge (S.theta • flux E S.tau time ⟨q, u, lambda⟩)) :=
  trace_to_flux_spec m gesv hg S E data time hs lambda out

/-- **C50** (failure).  Otherwise all functions which solve a local problem abort in the debug build and let the LAPACK exception through in the release build. -/
theorem C50_failure (hs : ¬ Solvable (form E.toEdge nB time) S.tau 1 (S.theta * S.delta_t)) (lambda out : LocDofs dim nB K) :
    trace_to_flux m gesv S lambda out E data time = solveFailure m ∧ residual_flux m gesv S lambda out E data time = solveFailure m ∧
      set_data m gesv S lambda E data time = solveFailure m := by
  have h0 := (solve_local_problem_spec m gesv hg S E data time lambda 0 (.inl rfl)).2 hs
  have h1 := (solve_local_problem_spec m gesv hg S E data time lambda 1 (.inr rfl)).2 hs
  rw [trace_to_flux, residual_flux, set_data, h0, h1]
  cases m <;> exact ⟨rfl, rfl, rfl⟩

/-- **C50** (Dirichlet rows).  `trace_to_flux` and `residual_flux` return exactly zero on the faces of Dirichlet type. -/
theorem C50_dirichlet_zero (lambda out y : LocDofs dim nB K)
    (h : trace_to_flux m gesv S lambda out E data time = .ok y ∨ residual_flux m gesv S lambda out E data time = .ok y) (f : Fin (2 * dim))
    (hf : E.node_descriptor f ∈ E.dirichlet_nodes) (j : Fin nB) : y f j = 0 := by
  have key : ∀ z : LocDofs dim nB K, offDirichlet E.toEdge z f j = 0 := fun z => by
    simp only [offDirichlet]
    exact if_pos hf
  by_cases hs : Solvable (form E.toEdge nB time) S.tau 1 (S.theta * S.delta_t)
  · rcases h with h | h
    · obtain ⟨q, u, _, h2⟩ := C50_flux m gesv hg S E data time hs lambda out
      rw [h] at h2; injection h2 with h2
      rw [h2]; exact key _
    · obtain ⟨q, u, _, h2⟩ := residual_raw m gesv hg S E data time hs lambda out
      rw [h] at h2; injection h2 with h2
      rw [h2]; exact key _
  · obtain ⟨h1, h2, _⟩ := C50_failure m gesv hg S E data time hs lambda out
    rcases h with h | h
    · rw [h] at h1; cases m <;> cases h1
    · rw [h] at h2; cases m <;> cases h2

/-- **C50** (bulk values).  `bulk_values` returns in component `d < dim` the values of the `d`-th component of the dual unknown, in component `dim` those of the primal
unknown at the points of the tensor grid of the abscissas in lexicographic order - of a further time step from the stored state, see DESIGN.md. -/
theorem C50_bulk_values (hO : Orthonormal E) (old : State dim nS nB K) (hst : Stores S E (time - S.delta_t) old data)
    (hs : Solvable (form E.toEdge nB time) S.tau 1 (S.theta * S.delta_t)) (lin_comb : (Fin nS → K) → List K → K)
    (abscissas : List K) (lambda : LocDofs dim nB K) (vals0 : Fin (dim + 1) → Fin (Hypercube.pow dim abscissas.length) → K) :
    ∃ new, ThetaStep S E time old new ∧ new.lambda = lambda ∧ ∃ vals, bulk_values m gesv lin_comb S abscissas lambda E data time vals0 = .ok vals ∧
      ∀ pt : Fin (Hypercube.pow dim abscissas.length), ∃ p, Hypercube.tensorial_pt m dim pt abscissas = .ok p ∧
        (∀ d : Fin dim, vals d.castSucc pt = lin_comb (new.q d) p) ∧ vals (Fin.last dim) pt = lin_comb new.u p := by
  obtain ⟨x, h1, h2⟩ := (solve_local_problem_spec m gesv hg S E data time lambda 1 (.inr rfl)).1 hs
  obtain ⟨r, hr1, hr2⟩ := bulk_loop (dim := dim) m lin_comb abscissas x (fun _ => 0) vals0
  refine ⟨_, (step_iff S E hO time old data hst _ _ lambda).mp h2, rfl, r.2, ?_, fun pt => ?_⟩
  · unfold bulk_values
    rw [h1, Res.ok_bind, hr1]
    rfl
  · obtain ⟨p, hp1, hp2⟩ := hr2 pt
    exact ⟨p, hp1, fun d => hp2 d.castSucc, hp2 (Fin.last dim)⟩

end

/-- **C50** (solvability).  With `tau ≥ 0`, `theta > 0` and `delta_t > 0` the local problems of a time step and of the initial state are uniquely solvable. -/
theorem C50_solvable [Field K] [LinearOrder K] [IsStrictOrderedRing K] (S : Solver K) (ht : 0 ≤ S.tau) (hth : 0 < S.theta) (hdt : 0 < S.delta_t) (E : Edge dim nS K)
    (time : K) (hE : FormLaws (form E.toEdge nB time)) :
    Solvable (form E.toEdge nB time) S.tau 1 (S.theta * S.delta_t) ∧ IsUnit (form E.toEdge nB time).mass := by
  refine ⟨solvable_of hE ht zero_le_one (mul_pos hth hdt) (.inr one_pos), ?_⟩
  rw [← Matrix.mulVec_injective_iff_isUnit]
  intro v w h
  by_contra hne
  have h1 := hE.mass_pos (v - w) (sub_ne_zero.mpr hne)
  rw [mulVec_sub, sub_eq_zero.mpr h, dotProduct_zero] at h1
  exact lt_irrefl _ h1

section
variable [Field K] [LinearOrder K] [IsStrictOrderedRing K] (m : Mode) (gesv : Gesv ((dim + 1) * nS) 1 K) (hg : GesvSpec gesv)
  (gesv1 : Gesv nS 1 K) (hg1 : GesvSpec gesv1) (S : Solver K) (ht : 0 ≤ S.tau) (hth : 0 < S.theta) (hdt : 0 < S.delta_t)
  (E : Nat → Edge dim nS K) (hO : ∀ e, Orthonormal (E e)) (hE : ∀ e time, FormLaws (form (E e).toEdge nB time))
  (G : HyGraph dim nB) (nodes : Fin G.n_hyEdges → Fin (2 * dim) → Fin G.n_hyNodes) (hwf : G.WF nodes)
  (buf0 : LocDofs dim nB K) (x : List K) (hx : x.length = G.n_hyNodes * nB) (data0 : Fin G.n_hyEdges → Data dim nS nB K) (t0 : K)
  (X : Nat → Fin (G.n_hyNodes * nB) → K)

/-- The run whose `k`-th vector is `X k`. -/
abbrev runX (n : Nat) := run m gesv gesv1 S E G buf0 x (List.ofFn data0) t0 (fun k => List.ofFn (X k)) n

omit [LinearOrder K] [IsStrictOrderedRing K] in
theorem time_sub (n : Nat) : t0 + (n + 1 : Nat) • S.delta_t - S.delta_t = t0 + n • S.delta_t := by
  rw [succ_nsmul]; ring

include hg hg1 ht hth hdt hO hE hwf hx in
theorem run_stores (n : Nat) : ∃ (st : Nat → Fin G.n_hyEdges → State dim nS nB K) (r0 : Fin (G.n_hyNodes * nB) → K) (data : Fin G.n_hyEdges → Data dim nS nB K),
    runX m gesv gesv1 S E G buf0 x data0 t0 X n = .ok (List.ofFn r0, List.ofFn data) ∧
    (∀ e : Fin G.n_hyEdges, IsInitial (E e) t0 (st 0 e)) ∧ LastWriter nodes (fun e : Fin G.n_hyEdges => (st 0 e).lambda) r0 ∧
    (∀ k < n, ∀ e : Fin G.n_hyEdges, ThetaStep S (E e) (t0 + (k + 1) • S.delta_t) (st k e) (st (k + 1) e) ∧ (st (k + 1) e).lambda = faceValues nodes (X (k + 1)) e) ∧
    ∀ e : Fin G.n_hyEdges, Stores S (E e) (t0 + n • S.delta_t) (st n e) (data e) := by
  induction n with
  | zero =>
    have h : ∀ e : Fin G.n_hyEdges, ∃ data' x, make_initial m gesv1 S (fun _ _ => 0) (E e) (data0 e) t0 = .ok (x.lambda, data') ∧ IsInitial (E e) t0 x ∧
        Stores S (E e) t0 x data' := fun e =>
      make_initial_spec m gesv1 hg1 S (E e) (data0 e) t0 (C50_solvable S ht hth hdt (E e) t0 (hE e t0)).2 _
    choose data' st h1 h2 h3 using h
    obtain ⟨r, hr1, hr2, _⟩ := C41_make_initial m G nodes hwf (fun e lambda data => make_initial m gesv1 S lambda (E e) data t0) x hx data0 data' _ h1
    refine ⟨fun _ => st, r, data', hr1, h2, hr2, fun k hk => absurd hk (Nat.not_lt_zero _), fun e => ?_⟩
    simpa using h3 e
  | succ n ih =>
    obtain ⟨st, r0, data, h1, h2, h3, h4, h5⟩ := ih
    have h : ∀ e : Fin G.n_hyEdges, ∃ data' new, set_data m gesv S (faceValues nodes (X (n + 1)) e) (E e) (data e) (t0 + (n + 1) • S.delta_t) = .ok data' ∧
        ThetaStep S (E e) (t0 + (n + 1) • S.delta_t) (st n e) new ∧ new.lambda = faceValues nodes (X (n + 1)) e ∧
        Stores S (E e) (t0 + (n + 1) • S.delta_t) new data' := fun e =>
      set_data_spec m gesv hg S (E e) (hO e) (data e) _ (C50_solvable S ht hth hdt (E e) _ (hE e _)).1 (st n e) (by rw [time_sub]; exact h5 e) _
    choose data' new k1 k2 k3 k4 using h
    have k5 := C41_set_data m G nodes hwf (fun e lambda data => set_data m gesv S lambda (E e) data (t0 + (n + 1) • S.delta_t)) buf0 (X (n + 1)) data data' k1
    refine ⟨fun k => if k ≤ n then st k else new, r0, data', ?_, ?_, ?_, fun k hk e => ?_, fun e => ?_⟩
    · show (run m gesv gesv1 S E G buf0 x (List.ofFn data0) t0 (fun k => List.ofFn (X k)) n >>= _) = _
      rw [show run m gesv gesv1 S E G buf0 x (List.ofFn data0) t0 (fun k => List.ofFn (X k)) n = _ from h1, Res.ok_bind]
      dsimp only
      rw [k5]
      rfl
    · simpa using h2
    · simpa using h3
    · rcases Nat.lt_succ_iff_lt_or_eq.mp hk with hk' | rfl
      · simp only [if_pos (show k ≤ n by omega), if_pos (show k + 1 ≤ n by omega)]
        exact h4 k hk' e
      · simp only [le_refl, if_true, if_neg (show ¬ k + 1 ≤ k by omega)]
        exact ⟨k2 e, k3 e⟩
    · simp only [if_neg (show ¬ n + 1 ≤ n by omega)]
      exact k4 e

omit [LinearOrder K] [IsStrictOrderedRing K] in
include hg hO hwf in
theorem residual_of_stores (n : Nat) (hs : ∀ e : Fin G.n_hyEdges, Solvable (form (E e).toEdge nB (t0 + (n + 1 : Nat) • S.delta_t)) S.tau 1 (S.theta * S.delta_t))
    (st : Fin G.n_hyEdges → State dim nS nB K) (data : Fin G.n_hyEdges → Data dim nS nB K)
    (h : ∀ e : Fin G.n_hyEdges, Stores S (E e) (t0 + n • S.delta_t) (st e) (data e)) (old0 new0 : LocDofs dim nB K) (y : Fin (G.n_hyNodes * nB) → K) :
    ∃ new : Fin G.n_hyEdges → State dim nS nB K, (∀ e : Fin G.n_hyEdges, ThetaStep S (E e) (t0 + (n + 1) • S.delta_t) (st e) (new e) ∧ (new e).lambda = faceValues nodes y e) ∧
      globalResidual m gesv S E G old0 new0 (List.ofFn data) (t0 + (n + 1) • S.delta_t) (List.ofFn y) = .ok (List.ofFn (assemble nodes fun e : Fin G.n_hyEdges =>
        offDirichlet (E e).toEdge (S.theta • flux (E e) S.tau (t0 + (n + 1) • S.delta_t) (new e) + (1 - S.theta) • flux (E e) S.tau (t0 + n • S.delta_t) (st e)))) := by
  have h' : ∀ e : Fin G.n_hyEdges, _ := fun e => residual_flux_spec m gesv hg S (E e) (hO e) (data e) (t0 + (n + 1) • S.delta_t) (hs e) (st e)
    (by rw [time_sub]; exact h e) (faceValues nodes y e) (fun _ _ => 0)
  choose new k1 k2 k3 using h'
  refine ⟨new, fun e => ⟨k1 e, k2 e⟩, ?_⟩
  refine mat_vec_eq m G nodes hwf _ y _ (fun e => ?_) old0 new0
  rw [vget_of_lt (by simp), Res.ok_bind]
  have := k3 e
  rw [time_sub] at this
  simpa using this

include hg hg1 ht hth hdt hO hE hwf hx in
/-- **C50** (history).  For every hypergraph, every sequence of vectors `X 1, X 2, ...` and every number `n` of time steps: the calls return, and there are states
`st 0, ..., st n` on the hyperedges with these traces, `st 0` the projection of the initial value, each one a step of the theta scheme from the one before, such
that the hyperedges keep `st n` (so `errors` compares it with the analytic solution), and `residual_flux(y)` for the next time sums up the fluxes of the next theta step with trace
`y`, weighted with those of `st n`, at all faces which are not of Dirichlet type. -/
theorem C50_history (n : Nat) : ∃ (st : Nat → Fin G.n_hyEdges → State dim nS nB K) (r0 : Fin (G.n_hyNodes * nB) → K) (data : Fin G.n_hyEdges → Data dim nS nB K),
    runX m gesv gesv1 S E G buf0 x data0 t0 X n = .ok (List.ofFn r0, List.ofFn data) ∧
    (∀ e : Fin G.n_hyEdges, IsInitial (E e) t0 (st 0 e)) ∧ LastWriter nodes (fun e : Fin G.n_hyEdges => (st 0 e).lambda) r0 ∧
    (∀ k < n, ∀ e : Fin G.n_hyEdges, ThetaStep S (E e) (t0 + (k + 1) • S.delta_t) (st k e) (st (k + 1) e) ∧ (st (k + 1) e).lambda = faceValues nodes (X (k + 1)) e) ∧
    (∀ e i, toMat (data e).u_old i 0 = (st n e).u i) ∧ (∀ (e : Fin G.n_hyEdges) time, errors (E e) (data e) time = fun _ => (E e).vol_diffsquare time (st n e).u) ∧
    ∀ (old0 new0 : LocDofs dim nB K) (y : Fin (G.n_hyNodes * nB) → K), ∃ new : Fin G.n_hyEdges → State dim nS nB K,
      (∀ e : Fin G.n_hyEdges, ThetaStep S (E e) (t0 + (n + 1) • S.delta_t) (st n e) (new e) ∧ (new e).lambda = faceValues nodes y e) ∧
      globalResidual m gesv S E G old0 new0 (List.ofFn data) (t0 + (n + 1) • S.delta_t) (List.ofFn y) = .ok (List.ofFn fun k =>
        ∑ e, ∑ i, ∑ j, if dof (nodes e i) j = k then offDirichlet (E e).toEdge (S.theta • flux (E e) S.tau (t0 + (n + 1) • S.delta_t) (new e) +
          (1 - S.theta) • flux (E e) S.tau (t0 + n • S.delta_t) (st n e)) i j else 0) := by
  obtain ⟨st, r0, data, h1, h2, h3, h4, h5⟩ := run_stores m gesv hg gesv1 hg1 S ht hth hdt E hO hE G nodes hwf buf0 x hx data0 t0 X n
  refine ⟨st, r0, data, h1, h2, h3, h4, fun e i => congrFun (h5 e).u i, fun e time => ?_, fun old0 new0 y => ?_⟩
  · unfold errors
    rw [← (h5 e).u]
    funext _
    congr 1
    funext i
    show (data e).u_old _ = (data e).u_old _
    congr 1
    exact Fin.ext (by simp [pos])
  · exact residual_of_stores m gesv hg S E hO G nodes hwf t0 n (fun e => (C50_solvable S ht hth hdt (E e) _ (hE e _)).1) (st n) data h5 old0 new0 y

end

/-! ## C51: the system of a time step -/

section
variable [Field K] (m : Mode) (gesv : Gesv ((dim + 1) * nS) 1 K) (hg : GesvSpec gesv) (S : Solver K) (E : Edge dim nS K) (time : K)

include hg

theorem flux_of_ok {data : Data dim nS nB K} {lambda out y : LocDofs dim nB K} (h : trace_to_flux m gesv S lambda out E data time = .ok y) :
    Solvable (form E.toEdge nB time) S.tau 1 (S.theta * S.delta_t) ∧ ∃ q u,
      IsSolution (form E.toEdge nB time) S.tau 1 (S.theta * S.delta_t) (moments (form E.toEdge nB time) lambda) 0 q u ∧
      y = offDirichlet E.toEdge (S.theta • flux E S.tau time ⟨q, u, lambda⟩) := by
  by_cases hs : Solvable (form E.toEdge nB time) S.tau 1 (S.theta * S.delta_t)
  · obtain ⟨q, u, h1, h2⟩ := C50_flux m gesv hg S E data time hs lambda out
    rw [h] at h2
    injection h2 with h2
    exact ⟨hs, q, u, h1, h2⟩
  · have := (C50_failure m gesv hg S E data time hs lambda out).1
    rw [h] at this
    cases m <;> cases this

theorem flux_to_ok (hs : Solvable (form E.toEdge nB time) S.tau 1 (S.theta * S.delta_t)) {lambda : LocDofs dim nB K} {q : Fin dim → Fin nS → K} {u : Fin nS → K}
    (h : IsSolution (form E.toEdge nB time) S.tau 1 (S.theta * S.delta_t) (moments (form E.toEdge nB time) lambda) 0 q u) (data : Data dim nS nB K)
    (out : LocDofs dim nB K) : trace_to_flux m gesv S lambda out E data time = .ok (offDirichlet E.toEdge (S.theta • flux E S.tau time ⟨q, u, lambda⟩)) := by
  obtain ⟨q', u', h1, h2⟩ := C50_flux m gesv hg S E data time hs lambda out
  obtain ⟨rfl, rfl⟩ := solution_unique hs h h1
  exact h2

/-- **C51** (linearity).  If `trace_to_flux` returns `y` for `lambda` and `z` for `mu`, then it returns `a y + b z` for `a lambda + b mu`, whatever the data of the former
time step. -/
theorem C51_linear {data data' : Data dim nS nB K} {lambda mu out out' y z : LocDofs dim nB K} (hy : trace_to_flux m gesv S lambda out E data time = .ok y)
    (hz : trace_to_flux m gesv S mu out' E data' time = .ok z) (a b : K) (out'' : LocDofs dim nB K) (data'' : Data dim nS nB K) :
    trace_to_flux m gesv S (a • lambda + b • mu) out'' E data'' time = .ok (a • y + b • z) := by
  obtain ⟨hs, q, u, h1, rfl⟩ := flux_of_ok m gesv hg S E time hy
  obtain ⟨_, q', u', h1', rfl⟩ := flux_of_ok m gesv hg S E time hz
  have h2 := solution_lin a b h1 h1'
  rw [← moments_lin, smul_zero, smul_zero, add_zero] at h2
  rw [flux_to_ok m gesv hg S E time hs h2]
  have h3 : flux E S.tau time ⟨a • q + b • q', a • u + b • u', a • lambda + b • mu⟩ = a • flux E S.tau time ⟨q, u, lambda⟩ + b • flux E S.tau time ⟨q', u', mu⟩ :=
    flux_lin a b
  rw [h3]
  refine congrArg Res.ok ?_
  funext f j
  simp only [offDirichlet, Pi.add_apply, Pi.smul_apply, smul_eq_mul]
  split
  · simp
  · ring

/-- **C51** (affine residual).  `residual_flux(lambda) = trace_to_flux(lambda) + residual_flux(0)` with the same data. -/
theorem C51_affine (hs : Solvable (form E.toEdge nB time) S.tau 1 (S.theta * S.delta_t)) (data data' : Data dim nS nB K) (lambda out out' out'' : LocDofs dim nB K) :
    ∃ y r, trace_to_flux m gesv S lambda out E data' time = .ok y ∧ residual_flux m gesv S 0 out' E data time = .ok r ∧
      residual_flux m gesv S lambda out'' E data time = .ok (y + r) := by
  obtain ⟨q, u, h1, h2⟩ := C50_flux m gesv hg S E data' time hs lambda out
  obtain ⟨q', u', h1', h2'⟩ := residual_raw m gesv hg S E data time hs 0 out'
  obtain ⟨q'', u'', h1'', h2''⟩ := residual_raw m gesv hg S E data time hs lambda out''
  refine ⟨_, _, h2, h2', h2''.trans ?_⟩
  have h3 := solution_lin 1 1 h1 h1'
  have h4 : moments (form E.toEdge nB time) (0 : LocDofs dim nB K) = 0 := by funext f; simp [moments]
  simp only [one_smul, zero_add, trace, h4] at h3
  obtain ⟨rfl, rfl⟩ := solution_unique hs h1'' h3
  refine congrArg Res.ok ?_
  have h5 : flux E S.tau time ⟨(1 : K) • q + (1 : K) • q', (1 : K) • u + (1 : K) • u', (1 : K) • lambda + (1 : K) • (0 : LocDofs dim nB K)⟩ =
      (1 : K) • flux E S.tau time ⟨q, u, lambda⟩ + (1 : K) • flux E S.tau time ⟨q', u', 0⟩ := flux_lin 1 1
  simp only [one_smul, add_zero] at h5
  rw [h5]
  funext f j
  simp only [offDirichlet, Pi.add_apply, Pi.smul_apply, smul_eq_mul]
  split
  · simp
  · ring

variable [LinearOrder K] [IsStrictOrderedRing K] (hE : FormLaws (form E.toEdge nB time)) (hth : S.theta ≠ 0) (hdt : S.delta_t ≠ 0)

include hE hth hdt

omit hg in
theorem flux_pairing {lambda mu : LocDofs dim nB K} {q q' : Fin dim → Fin nS → K} {u u' : Fin nS → K} (hm : VanishesOnDirichlet E.toEdge mu)
    (h : IsSolution (form E.toEdge nB time) S.tau 1 (S.theta * S.delta_t) (moments (form E.toEdge nB time) lambda) 0 q u)
    (h' : IsSolution (form E.toEdge nB time) S.tau 1 (S.theta * S.delta_t) (moments (form E.toEdge nB time) mu) 0 q' u') :
    ∑ f, ∑ j, mu f j * offDirichlet E.toEdge (S.theta • flux E S.tau time ⟨q, u, lambda⟩) f j =
      -(S.theta * bilin (form E.toEdge nB time) S.tau q u lambda q' u' mu + S.delta_t⁻¹ * (u' ⬝ᵥ (form E.toEdge nB time).mass0 *ᵥ u)) := by
  rw [pair_off hm]
  simp only [Pi.smul_apply, dotProduct_smul, smul_eq_mul, ← Finset.mul_sum]
  rw [show ∑ f, mu f ⬝ᵥ flux E S.tau time ⟨q, u, lambda⟩ f = _ from flux_form hE (mul_ne_zero hth hdt) h h', dotProduct_zero]
  field_simp
  ring

/-- **C51** (symmetry).  `mu . trace_to_flux(lambda) = lambda . trace_to_flux(mu)` for traces vanishing on the Dirichlet faces. -/
theorem C51_symmetric {data data' : Data dim nS nB K} {lambda mu out out' y z : LocDofs dim nB K} (hl : VanishesOnDirichlet E.toEdge lambda)
    (hm : VanishesOnDirichlet E.toEdge mu)
    (hy : trace_to_flux m gesv S lambda out E data time = .ok y) (hz : trace_to_flux m gesv S mu out' E data' time = .ok z) :
    ∑ f, ∑ j, mu f j * y f j = ∑ f, ∑ j, lambda f j * z f j := by
  obtain ⟨hs, q, u, h1, rfl⟩ := flux_of_ok m gesv hg S E time hy
  obtain ⟨_, q', u', h1', rfl⟩ := flux_of_ok m gesv hg S E time hz
  rw [flux_pairing S E time hE hth hdt hm h1 h1', flux_pairing S E time hE hth hdt hl h1' h1, bilin_symm hE, symm_dot hE.mass0_symm]

end

/-- **C51** (definiteness).  `lambda . trace_to_flux(lambda) < 0` for each trace other than 0 which vanishes on the Dirichlet faces, for `tau > 0`, `theta > 0` and
`delta_t > 0`. -/
theorem C51_definite [Field K] [LinearOrder K] [IsStrictOrderedRing K] (m : Mode) (gesv : Gesv ((dim + 1) * nS) 1 K) (hg : GesvSpec gesv) (S : Solver K)
    (ht : 0 < S.tau) (hth : 0 < S.theta) (hdt : 0 < S.delta_t) (E : Edge dim nS K) (time : K) (hE : FormLaws (form E.toEdge nB time))
    {data : Data dim nS nB K} {lambda out y : LocDofs dim nB K} (hl : VanishesOnDirichlet E.toEdge lambda)
    (hy : trace_to_flux m gesv S lambda out E data time = .ok y) : ∑ f, ∑ j, lambda f j * y f j ≤ 0 ∧ (∑ f, ∑ j, lambda f j * y f j = 0 → lambda = 0) := by
  obtain ⟨hs, q, u, h1, rfl⟩ := flux_of_ok m gesv hg S E time hy
  rw [flux_pairing S E time hE hth.ne' hdt.ne' hl h1 h1]
  have k1 := mul_nonneg hth.le (bilin_nonneg hE ht.le q u lambda)
  have k2 := mul_nonneg (inv_nonneg.mpr hdt.le) (quad_nonneg hE.mass0_pos u)
  refine ⟨by linarith, fun h => ?_⟩
  have k3 : S.theta * bilin (form E.toEdge nB time) S.tau q u lambda q u lambda = 0 := by linarith
  have k4 : S.delta_t⁻¹ * (u ⬝ᵥ (form E.toEdge nB time).mass0 *ᵥ u) = 0 := by linarith
  have hu : u = 0 := quad_zero hE.mass0_pos ((mul_eq_zero.mp k4).resolve_left (inv_ne_zero hdt.ne'))
  funext f
  have htr := bilin_trace_zero hE ht ((mul_eq_zero.mp k3).resolve_left hth.ne') f
  unfold IsTrace at htr
  rw [hu, mulVec_zero] at htr
  exact (smul_eq_zero.mp htr).resolve_left (hE.area_pos f).ne'

/-- **C51** (each time step has exactly one solution).  On every hypergraph without isolated hypernodes, where being of Dirichlet type is a property `D` of the hypernodes, and for
`tau > 0`, `theta > 0`, `delta_t > 0`: whatever the data of the former time step, there is exactly one vector vanishing at the Dirichlet nodes for which
`residual_flux` returns the zero vector. -/
theorem C51_unique_step [Field K] [LinearOrder K] [IsStrictOrderedRing K] (m : Mode) (gesv : Gesv ((dim + 1) * nS) 1 K) (hg : GesvSpec gesv) (S : Solver K)
    (ht : 0 < S.tau) (hth : 0 < S.theta) (hdt : 0 < S.delta_t) (E : Nat → Edge dim nS K) (time : K) (hE : ∀ e, FormLaws (form (E e).toEdge nB time))
    (G : HyGraph dim nB) (nodes : Fin G.n_hyEdges → Fin (2 * dim) → Fin G.n_hyNodes) (hwf : G.WF nodes) (hcov : ∀ v, ∃ e f, nodes e f = v)
    (D : Fin G.n_hyNodes → Prop) (hD : ∀ (e : Fin G.n_hyEdges) (f : Fin (2 * dim)), (E e).node_descriptor f ∈ (E e).dirichlet_nodes ↔ D (nodes e f))
    (data : Fin G.n_hyEdges → Data dim nS nB K) (old0 new0 : LocDofs dim nB K) :
    ∃! y : Fin (G.n_hyNodes * nB) → K, VanishesAt D y ∧
      globalResidual m gesv S E G old0 new0 (List.ofFn data) time (List.ofFn y) = .ok (List.replicate (G.n_hyNodes * nB) 0) := by
  have hs := fun e => (C50_solvable S ht.le hth hdt (E e) time (hE e)).1
  have hret : ∀ (e : Fin G.n_hyEdges) (lambda : LocDofs dim nB K), ∃ y, ∀ out, trace_to_flux m gesv S lambda out (E e) (data e) time = .ok y := by
    intro e lambda
    obtain ⟨q, u, h1, _⟩ := C50_flux m gesv hg S (E e) (data e) time (hs e) lambda 0
    exact ⟨_, fun out => flux_to_ok m gesv hg S (E e) time (hs e) h1 _ out⟩
  choose F hF using hret
  have hlin : ∀ (e : Fin G.n_hyEdges) (a b : K) (x y : LocDofs dim nB K), F e (a • x + b • y) = a • F e x + b • F e y := by
    intro e a b x y
    have := C51_linear m gesv hg S (E e) time (hF e x 0) (hF e y 0) a b 0 (data e)
    rw [hF] at this
    injection this
  let L : Fin G.n_hyEdges → LocDofs dim nB K →ₗ[K] LocDofs dim nB K := fun e =>
    { toFun := F e
      map_add' := fun x y => by
        have := hlin e 1 1 x y
        simpa only [one_smul] using this
      map_smul' := fun a x => by
        have := hlin e a 0 x 0
        simpa only [zero_smul, add_zero, RingHom.id_apply] using this }
  have hr0 : ∀ e : Fin G.n_hyEdges, ∃ r, ∀ lambda : LocDofs dim nB K, residual_flux m gesv S lambda (fun _ _ => 0) (E e) (data e) time = .ok (F e lambda + r) := by
    intro e
    obtain ⟨_, r, _, h2, _⟩ := C51_affine m gesv hg S (E e) time (hs e) (data e) (data e) 0 0 0 0
    refine ⟨r, fun lambda => ?_⟩
    obtain ⟨y, r', k1, k2, k3⟩ := C51_affine m gesv hg S (E e) time (hs e) (data e) (data e) lambda 0 0 (fun _ _ => 0)
    rw [hF] at k1; injection k1 with k1
    rw [h2] at k2; injection k2 with k2
    rw [k3, k1, k2]
  choose R0 hR0 using hr0
  have hzero : ∀ (e : Fin G.n_hyEdges) (u : LocDofs dim nB K) (f : Fin (2 * dim)), D (nodes e f) → F e u f = 0 := fun e u f h =>
    funext fun j => C50_dirichlet_zero m gesv hg S (E e) (data e) time u 0 _ (.inl (hF e u 0)) f ((hD e f).mpr h) j
  refine unique_zero m G nodes hwf old0 new0 _ L R0 (fun e u => ?_) D hzero (fun e f h => ?_) fun x hx h => ?_
  · rw [vget_of_lt (by simp), Res.ok_bind]
    simp only [List.getElem_ofFn]
    exact hR0 e u
  · have h1 := fun j => C50_dirichlet_zero m gesv hg S (E e) (data e) time 0 _ _ (.inr (hR0 e 0)) f ((hD e f).mpr h) j
    funext j
    have h2 := h1 j
    rw [Pi.add_apply, Pi.add_apply, hzero e 0 f h] at h2
    simpa using h2
  · have hv : ∀ e : Fin G.n_hyEdges, VanishesOnDirichlet (E e).toEdge (faceValues nodes x e) := fun e f hf j => hx _ ((hD e f).mp hf) j
    have hdef := fun e : Fin G.n_hyEdges => C51_definite m gesv hg S ht hth hdt (E e) time (hE e) (hv e) (hF e _ 0)
    have h0 := (Finset.sum_eq_zero_iff_of_nonpos (fun e _ => (hdef e).1)).mp h
    funext k
    obtain ⟨v, j, rfl⟩ := dof_surj k
    obtain ⟨e, f, rfl⟩ := hcov v
    exact congrFun (congrFun ((hdef e).2 (h0 e (Finset.mem_univ e))) f) j

/-- `X` are the vectors of the first `N` time steps: each one vanishes at the Dirichlet nodes and makes `residual_flux` vanish, called with the data kept by the
hyperedges after the steps before. -/
def Steps [CommRing K] (m : Mode) (gesv : Gesv ((dim + 1) * nS) 1 K) (gesv1 : Gesv nS 1 K) (S : Solver K) (E : Nat → Edge dim nS K) (G : HyGraph dim nB)
    (buf0 : LocDofs dim nB K) (x : List K) (data0 : Fin G.n_hyEdges → Data dim nS nB K) (t0 : K) (D : Fin G.n_hyNodes → Prop) (old0 new0 : LocDofs dim nB K)
    (X : Nat → Fin (G.n_hyNodes * nB) → K) (N : Nat) : Prop :=
  ∀ k < N, VanishesAt D (X (k + 1)) ∧ ∃ r, run m gesv gesv1 S E G buf0 x (List.ofFn data0) t0 (fun k => List.ofFn (X k)) k = .ok r ∧
    globalResidual m gesv S E G old0 new0 r.2 (t0 + (k + 1) • S.delta_t) (List.ofFn (X (k + 1))) = .ok (List.replicate (G.n_hyNodes * nB) 0)

/-- A run only looks at the vectors `X 1, ..., X n`. -/
theorem run_congr [CommRing K] (m : Mode) (gesv : Gesv ((dim + 1) * nS) 1 K) (gesv1 : Gesv nS 1 K) (S : Solver K) (E : Nat → Edge dim nS K) (G : HyGraph dim nB)
    (buf0 : LocDofs dim nB K) (x : List K) (data0 : List (Data dim nS nB K)) (t0 : K) {X X' : Nat → List K} (n : Nat) (h : ∀ k < n, X (k + 1) = X' (k + 1)) :
    run m gesv gesv1 S E G buf0 x data0 t0 X n = run m gesv gesv1 S E G buf0 x data0 t0 X' n := by
  induction n with
  | zero => rfl
  | succ n ih =>
    unfold run
    rw [ih fun k hk => h k (by omega), h n (by omega)]

/-- **C51** (the whole computation).  Under the same assumptions, the vectors of the first `N` time steps exist and are unique, for every `N` and every former content of the
data of the hyperedges. -/
theorem C51_unique_run [Field K] [LinearOrder K] [IsStrictOrderedRing K] (m : Mode) (gesv : Gesv ((dim + 1) * nS) 1 K) (hg : GesvSpec gesv)
    (gesv1 : Gesv nS 1 K) (hg1 : GesvSpec gesv1) (S : Solver K) (ht : 0 < S.tau) (hth : 0 < S.theta) (hdt : 0 < S.delta_t)
    (E : Nat → Edge dim nS K) (hO : ∀ e, Orthonormal (E e)) (hE : ∀ e time, FormLaws (form (E e).toEdge nB time))
    (G : HyGraph dim nB) (nodes : Fin G.n_hyEdges → Fin (2 * dim) → Fin G.n_hyNodes) (hwf : G.WF nodes) (hcov : ∀ v, ∃ e f, nodes e f = v)
    (D : Fin G.n_hyNodes → Prop) (hD : ∀ (e : Fin G.n_hyEdges) (f : Fin (2 * dim)), (E e).node_descriptor f ∈ (E e).dirichlet_nodes ↔ D (nodes e f))
    (buf0 : LocDofs dim nB K) (x : List K) (hx : x.length = G.n_hyNodes * nB) (data0 : Fin G.n_hyEdges → Data dim nS nB K) (t0 : K) (old0 new0 : LocDofs dim nB K)
    (N : Nat) (X0 : Fin (G.n_hyNodes * nB) → K) :
    (∃ X, X 0 = X0 ∧ Steps m gesv gesv1 S E G buf0 x data0 t0 D old0 new0 X N) ∧
    ∀ X X', Steps m gesv gesv1 S E G buf0 x data0 t0 D old0 new0 X N → Steps m gesv gesv1 S E G buf0 x data0 t0 D old0 new0 X' N → ∀ k < N, X (k + 1) = X' (k + 1) := by
  have hstep := fun time data => C51_unique_step m gesv hg S ht hth hdt E time (fun e => hE e time) G nodes hwf hcov D hD data old0 new0
  induction N with
  | zero => exact ⟨⟨fun _ => X0, rfl, fun k hk => absurd hk (Nat.not_lt_zero k)⟩, fun _ _ _ _ k hk => absurd hk (Nat.not_lt_zero k)⟩
  | succ N ih =>
    constructor
    · obtain ⟨X, h0, hX⟩ := ih.1
      obtain ⟨_, r0, data, hr, _⟩ := run_stores m gesv hg gesv1 hg1 S ht.le hth hdt E hO hE G nodes hwf buf0 x hx data0 t0 X N
      obtain ⟨y, ⟨hy1, hy2⟩, _⟩ := hstep (t0 + (N + 1) • S.delta_t) data
      let X' : Nat → Fin (G.n_hyNodes * nB) → K := fun k => if k ≤ N then X k else y
      have hrun : ∀ n ≤ N, run m gesv gesv1 S E G buf0 x (List.ofFn data0) t0 (fun k => List.ofFn (X' k)) n =
          run m gesv gesv1 S E G buf0 x (List.ofFn data0) t0 (fun k => List.ofFn (X k)) n := fun n hn =>
        run_congr m gesv gesv1 S E G buf0 x _ t0 n fun k hk => by
          show List.ofFn (if k + 1 ≤ N then X (k + 1) else y) = _
          rw [if_pos (by omega)]
      refine ⟨X', by simp only [X', if_pos (Nat.zero_le N), h0], fun k hk => ?_⟩
      rcases Nat.lt_succ_iff_lt_or_eq.mp hk with hk' | rfl
      · obtain ⟨h1, r, h2, h3⟩ := hX k hk'
        have : X' (k + 1) = X (k + 1) := if_pos (by omega)
        exact ⟨this ▸ h1, r, (hrun k hk'.le).trans h2, this ▸ h3⟩
      · have : X' (k + 1) = y := if_neg (by omega)
        exact ⟨this ▸ hy1, _, (hrun k le_rfl).trans hr, this ▸ hy2⟩
    · intro X X' hX hX' k hk
      have h := ih.2 X X' (fun k hk => hX k (by omega)) fun k hk => hX' k (by omega)
      rcases Nat.lt_succ_iff_lt_or_eq.mp hk with hk' | rfl
      · exact h k hk'
      · obtain ⟨a1, r, a2, a3⟩ := hX k hk
        obtain ⟨b1, r', b2, b3⟩ := hX' k hk
        obtain ⟨_, r0, data, hr, _⟩ := run_stores m gesv hg gesv1 hg1 S ht.le hth hdt E hO hE G nodes hwf buf0 x hx data0 t0 X k
        have e1 : r = (List.ofFn r0, List.ofFn data) := by
          rw [show run m gesv gesv1 S E G buf0 x (List.ofFn data0) t0 (fun k => List.ofFn (X k)) k = _ from hr] at a2
          injection a2 with a2
          exact a2.symm
        have e2 : r' = r := by
          rw [run_congr m gesv gesv1 S E G buf0 x _ t0 (X' := fun k => List.ofFn (X k)) k fun i hi => congrArg List.ofFn (h i hi).symm, a2] at b2
          injection b2 with b2
          exact b2.symm
        subst e2 e1
        obtain ⟨y, _, hy⟩ := hstep (t0 + (k + 1) • S.delta_t) data
        exact (hy _ ⟨a1, a3⟩).trans (hy _ ⟨b1, b3⟩).symm

/-! ## C52: stability -/

/-- Two problems which differ at most in the initial values. -/
structure SameProblem [CommRing K] (E E' : Edge dim nS K) (nB : Nat) : Prop where
  form : ∀ time, form E'.toEdge nB time = form E.toEdge nB time
  source : ∀ time, source E'.toEdge time = source E.toEdge time
  moments : ∀ time, dirichletMoments E'.toEdge time = dirichletMoments E.toEdge time
  dirichlet : ∀ f : Nat, IsDirichlet E'.toEdge f ↔ IsDirichlet E.toEdge f

section
variable [CommRing K] {E E' : Edge dim nS K} (h : SameProblem E E' nB)
include h

theorem SameProblem.trace_eq (time : K) (lambda : LocDofs dim nB K) : trace E' time lambda = trace E time lambda := by
  rw [trace, trace, h.form, h.moments]

theorem SameProblem.flux_eq (tau time : K) (x : State dim nS nB K) : flux E' tau time x = flux E tau time x := by
  rw [flux, flux, h.form]

theorem SameProblem.dual {time : K} {x : State dim nS nB K} (hx : DualEquation E' time x) : DualEquation E time x := by
  intro d
  have := hx d
  rwa [h.form, h.trace_eq] at this

theorem SameProblem.rate_eq (tau time : K) (x : State dim nS nB K) : rate E' tau time x = rate E tau time x := by
  rw [rate, rate, h.form, h.trace_eq, h.source]

theorem SameProblem.step {S : Solver K} {time : K} {x y : State dim nS nB K} (hx : ThetaStep S E' time x y) : ThetaStep S E time x y := by
  refine ⟨h.dual hx.dual, ?_⟩
  have := hx.primal
  rwa [h.form, h.rate_eq, h.rate_eq] at this

theorem SameProblem.off (y : LocDofs dim nB K) : offDirichlet E'.toEdge y = offDirichlet E.toEdge y := by
  funext f j
  simp only [offDirichlet]
  by_cases hf : IsDirichlet E.toEdge f
  · rw [if_pos hf, if_pos ((h.dirichlet f).mpr hf)]
  · rw [if_neg hf, if_neg fun h' => hf ((h.dirichlet f).mp h')]

theorem SameProblem.refl_vanishes {lambda : LocDofs dim nB K} (hl : VanishesOnDirichlet E'.toEdge lambda) : VanishesOnDirichlet E.toEdge lambda :=
  fun f hf j => hl f ((h.dirichlet f).mpr hf) j

end

theorem dual_of_initial [CommRing K] {E : Edge dim nS K} {time : K} {x : State dim nS nB K} (hI : InitialLaws E nB time) (hx : IsInitial E time x) :
    DualEquation E time x := by
  intro d
  rw [hx.dual d]
  funext i
  simp only [Pi.add_apply, Pi.sub_apply, Finset.sum_apply, Pi.smul_apply, smul_eq_mul, Pi.zero_apply]
  rw [hI.grad d i, hx.primal, hx.trace]
  have : ∀ f : Fin (2 * dim), E.bdr_initial time i f * E.local_normal f d =
      (form E.toEdge nB time).normal f d * trace E time (offDirichlet E.toEdge fun f (j : Fin nB) => E.bdrUni_psifunc time j f) f i := by
    intro f
    rw [hI.bdr f i, mul_comm]
    rfl
  rw [Finset.sum_congr rfl fun f _ => this f]
  ring

/-- Coefficients of the primal unknown kept by a hyperedge. -/
def kept (data : Data dim nS nB K) : Fin nS → K := fun i => toMat data.u_old i 0

theorem product_eq [CommRing K] (E : Edge dim nS K) (nB : Nat) (time : K) (v w : Fin nS → K) : product E v w = v ⬝ᵥ (form E.toEdge nB time).mass0 *ᵥ w := by
  simp only [product, dotProduct, mulVec, form, of_apply, Finset.mul_sum, mul_assoc]

section
variable [Field K] [LinearOrder K] [IsStrictOrderedRing K] (m : Mode) (gesv : Gesv ((dim + 1) * nS) 1 K) (hg : GesvSpec gesv)
  (gesv1 : Gesv nS 1 K) (hg1 : GesvSpec gesv1) (S : Solver K) (ht : 0 ≤ S.tau) (hth : 0 < S.theta) (hdt : 0 < S.delta_t)
  (E : Nat → Edge dim nS K) (hO : ∀ e, Orthonormal (E e)) (hE : ∀ e time, FormLaws (form (E e).toEdge nB time))
  (G : HyGraph dim nB) (nodes : Fin G.n_hyEdges → Fin (2 * dim) → Fin G.n_hyNodes) (hwf : G.WF nodes)
  (buf0 : LocDofs dim nB K) (x : List K) (hx : x.length = G.n_hyNodes * nB) (data0 : Fin G.n_hyEdges → Data dim nS nB K) (t0 : K)
  (X : Nat → Fin (G.n_hyNodes * nB) → K) (n : Nat) (old0 new0 : LocDofs dim nB K) (r : List K) (data data' : Fin G.n_hyEdges → Data dim nS nB K)
  (hd : runX m gesv gesv1 S E G buf0 x data0 t0 X n = .ok (r, List.ofFn data)) (hd' : runX m gesv gesv1 S E G buf0 x data0 t0 X (n + 1) = .ok (r, List.ofFn data'))
  (hres : globalResidual m gesv S E G old0 new0 (List.ofFn data) (t0 + (n + 1) • S.delta_t) (List.ofFn (X (n + 1))) = .ok (List.replicate (G.n_hyNodes * nB) 0))

include hg hg1 ht hth hdt hO hE hwf hx hd hd' hres

/-- What is known about step `n` to `n + 1` of a run. -/
theorem run_step : ∃ old new : Fin G.n_hyEdges → State dim nS nB K,
    (∀ e : Fin G.n_hyEdges, kept (data e) = (old e).u ∧ kept (data' e) = (new e).u ∧ ThetaStep S (E e) (t0 + (n + 1) • S.delta_t) (old e) (new e) ∧
      (new e).lambda = faceValues nodes (X (n + 1)) e) ∧
    ((n = 0 ∧ ∀ e : Fin G.n_hyEdges, IsInitial (E e) t0 (old e)) ∨
      (n ≠ 0 ∧ ∀ e : Fin G.n_hyEdges, DualEquation (E e) (t0 + n • S.delta_t) (old e) ∧ (old e).lambda = faceValues nodes (X n) e)) ∧
    assemble nodes (fun e : Fin G.n_hyEdges => offDirichlet (E e).toEdge (S.theta • flux (E e) S.tau (t0 + (n + 1) • S.delta_t) (new e) +
      (1 - S.theta) • flux (E e) S.tau (t0 + n • S.delta_t) (old e))) = 0 := by
  obtain ⟨st, r0, D, h1, h2, h3, h4, h5⟩ := run_stores m gesv hg gesv1 hg1 S ht hth hdt E hO hE G nodes hwf buf0 x hx data0 t0 X n
  rw [hd] at h1
  injection h1 with h1
  have hD : data = D := List.ofFn_injective (congrArg Prod.snd h1)
  subst hD
  have hs := fun e => (C50_solvable S ht hth hdt (E e) (t0 + (n + 1) • S.delta_t) (hE e _)).1
  have h : ∀ e : Fin G.n_hyEdges, _ := fun e => set_data_spec m gesv hg S (E e) (hO e) (data e) (t0 + (n + 1) • S.delta_t) (hs e) (st n e)
    (by rw [time_sub]; exact h5 e) (faceValues nodes (X (n + 1)) e)
  choose D' new k1 k2 k3 k4 using h
  have k5 := C41_set_data m G nodes hwf (fun e lambda data => set_data m gesv S lambda (E e) data (t0 + (n + 1) • S.delta_t)) buf0 (X (n + 1)) data D' k1
  have hD' : data' = D' := by
    have hd'' : (run m gesv gesv1 S E G buf0 x (List.ofFn data0) t0 (fun k => List.ofFn (X k)) n >>= fun r => _) = Res.ok (r, List.ofFn data') := hd'
    rw [show run m gesv gesv1 S E G buf0 x (List.ofFn data0) t0 (fun k => List.ofFn (X k)) n = _ from hd, Res.ok_bind] at hd''
    dsimp only at hd''
    rw [k5] at hd''
    injection hd'' with hd''
    exact (List.ofFn_injective (congrArg Prod.snd hd'')).symm
  subst hD'
  obtain ⟨new2, w1, w2⟩ := residual_of_stores m gesv hg S E hO G nodes hwf t0 n (fun e => hs e) (st n) data h5 old0 new0 (X (n + 1))
  have heq : new2 = new := by
    funext e
    have a1 := (step_iff S (E e) (hO e) (t0 + (n + 1) • S.delta_t) (st n e) (data e) (by rw [time_sub]; exact h5 e) (new e).q (new e).u (new e).lambda).mpr (k2 e)
    have a2 := (step_iff S (E e) (hO e) (t0 + (n + 1) • S.delta_t) (st n e) (data e) (by rw [time_sub]; exact h5 e) (new2 e).q (new2 e).u (new2 e).lambda).mpr (w1 e).1
    rw [k3 e] at a1
    rw [(w1 e).2] at a2
    obtain ⟨b1, b2⟩ := solution_unique (hs e) a2 a1
    have b3 := (w1 e).2.trans (k3 e).symm
    rcases hx1 : new2 e with ⟨q, u, l⟩
    rcases hx2 : new e with ⟨q', u', l'⟩
    rw [hx1, hx2] at b1 b2 b3
    exact State.mk.injEq .. ▸ ⟨b1, b2, b3⟩
  rw [heq] at w2
  rw [hres, ← List.ofFn_const] at w2
  injection w2 with w2
  refine ⟨st n, new, fun e => ⟨(h5 e).u, (k4 e).u, k2 e, k3 e⟩, ?_, (List.ofFn_injective w2).symm⟩
  by_cases hn : n = 0
  · subst hn
    exact .inl ⟨rfl, h2⟩
  · refine .inr ⟨hn, fun e => ?_⟩
    obtain ⟨c1, c2⟩ := h4 (n - 1) (by omega) e
    rw [Nat.sub_add_cancel (Nat.pos_of_ne_zero hn)] at c1 c2
    exact ⟨c1.dual, c2⟩

end

/-- **C52** (contractivity).  Two problems which differ at most in the initial values are computed, on the same hypergraph, with vectors `X k` and `X' k` vanishing on
the Dirichlet faces.  If the vectors of step `n + 1` make `residual_flux` vanish, then the L2 distance of the two solutions after step `n + 1` is not larger than after step
`n`.  This holds for implicit Euler (`theta = 1`), and for every `theta ≥ 1/2` if the diffusion coefficient does not depend on the time and the initial values are compatible
(`X 0`, `X' 0` being the initial traces). -/
theorem C52_contractive [Field K] [LinearOrder K] [IsStrictOrderedRing K] (m : Mode) (gesv : Gesv ((dim + 1) * nS) 1 K) (hg : GesvSpec gesv)
    (gesv1 : Gesv nS 1 K) (hg1 : GesvSpec gesv1) (S : Solver K) (ht : 0 ≤ S.tau) (hth : 0 < S.theta) (hdt : 0 < S.delta_t)
    (E E' : Nat → Edge dim nS K) (hO : ∀ e, Orthonormal (E e)) (hO' : ∀ e, Orthonormal (E' e)) (hE : ∀ e time, FormLaws (form (E e).toEdge nB time))
    (hsame : ∀ e, SameProblem (E e) (E' e) nB)
    (G : HyGraph dim nB) (nodes : Fin G.n_hyEdges → Fin (2 * dim) → Fin G.n_hyNodes) (hwf : G.WF nodes)
    (buf0 : LocDofs dim nB K) (x x' : List K) (hx : x.length = G.n_hyNodes * nB) (hx' : x'.length = G.n_hyNodes * nB) (data0 data0' : Fin G.n_hyEdges → Data dim nS nB K)
    (t0 : K) (X X' : Nat → Fin (G.n_hyNodes * nB) → K) (hX : ∀ k (e : Fin G.n_hyEdges), VanishesOnDirichlet (E e).toEdge (faceValues nodes (X k) e))
    (hX' : ∀ k (e : Fin G.n_hyEdges), VanishesOnDirichlet (E e).toEdge (faceValues nodes (X' k) e))
    (hscheme : S.theta = 1 ∨ (1 / 2 ≤ S.theta ∧ (∀ e t t', form (E e).toEdge nB t = form (E e).toEdge nB t') ∧
      (∀ e, InitialLaws (E e) nB t0 ∧ InitialLaws (E' e) nB t0) ∧
      ∀ e : Fin G.n_hyEdges, faceValues nodes (X 0) e = offDirichlet (E e).toEdge (fun f (j : Fin nB) => (E e).bdrUni_psifunc t0 j f) ∧
        faceValues nodes (X' 0) e = offDirichlet (E' e).toEdge (fun f (j : Fin nB) => (E' e).bdrUni_psifunc t0 j f)))
    (n : Nat) (old0 new0 : LocDofs dim nB K) (r r' : List K) (D0 D1 D0' D1' : Fin G.n_hyEdges → Data dim nS nB K)
    (h0 : runX m gesv gesv1 S E G buf0 x data0 t0 X n = .ok (r, List.ofFn D0)) (h1 : runX m gesv gesv1 S E G buf0 x data0 t0 X (n + 1) = .ok (r, List.ofFn D1))
    (h0' : runX m gesv gesv1 S E' G buf0 x' data0' t0 X' n = .ok (r', List.ofFn D0'))
    (h1' : runX m gesv gesv1 S E' G buf0 x' data0' t0 X' (n + 1) = .ok (r', List.ofFn D1'))
    (hres : globalResidual m gesv S E G old0 new0 (List.ofFn D0) (t0 + (n + 1) • S.delta_t) (List.ofFn (X (n + 1))) = .ok (List.replicate (G.n_hyNodes * nB) 0))
    (hres' : globalResidual m gesv S E' G old0 new0 (List.ofFn D0') (t0 + (n + 1) • S.delta_t) (List.ofFn (X' (n + 1))) = .ok (List.replicate (G.n_hyNodes * nB) 0)) :
    ∑ e : Fin G.n_hyEdges, product (E e) (kept (D1 e) - kept (D1' e)) (kept (D1 e) - kept (D1' e)) ≤
      ∑ e : Fin G.n_hyEdges, product (E e) (kept (D0 e) - kept (D0' e)) (kept (D0 e) - kept (D0' e)) := by
  have hE' : ∀ e time, FormLaws (form (E' e).toEdge nB time) := fun e time => by rw [(hsame e).form]; exact hE e time
  obtain ⟨old, new, a1, a2, a3⟩ := run_step m gesv hg gesv1 hg1 S ht hth hdt E hO hE G nodes hwf buf0 x hx data0 t0 X n old0 new0 r D0 D1 h0 h1 hres
  obtain ⟨old', new', b1, b2, b3⟩ := run_step m gesv hg gesv1 hg1 S ht hth hdt E' hO' hE' G nodes hwf buf0 x' hx' data0' t0 X' n old0 new0 r' D0' D1' h0' h1' hres'
  have hstep : ∀ e : Fin G.n_hyEdges, ThetaStep S (E e) (t0 + (n + 1) • S.delta_t) (old' e) (new' e) := fun e => (hsame e).step (b1 e).2.2.1
  let F : Fin G.n_hyEdges → Form dim nS nB K := fun e => form (E e).toEdge nB (t0 + (n + 1) • S.delta_t)
  -- the fluxes of both computations, tested by a vector vanishing on the Dirichlet faces
  have htest : ∀ Z : Fin (G.n_hyNodes * nB) → K, (∀ e : Fin G.n_hyEdges, VanishesOnDirichlet (E e).toEdge (faceValues nodes Z e)) →
      ∑ e : Fin G.n_hyEdges, ∑ f, faceValues nodes Z e f ⬝ᵥ (S.theta • flux (E e) S.tau (t0 + (n + 1) • S.delta_t) (comb 1 (-1) (new e) (new' e)) +
        (1 - S.theta) • flux (E e) S.tau (t0 + n • S.delta_t) (comb 1 (-1) (old e) (old' e))) f = 0 := by
    intro Z hZ
    have e1 := pairing_assemble nodes (fun e : Fin G.n_hyEdges => offDirichlet (E e).toEdge (S.theta • flux (E e) S.tau (t0 + (n + 1) • S.delta_t) (new e) +
      (1 - S.theta) • flux (E e) S.tau (t0 + n • S.delta_t) (old e))) Z
    have e2 := pairing_assemble nodes (fun e : Fin G.n_hyEdges => offDirichlet (E' e).toEdge (S.theta • flux (E' e) S.tau (t0 + (n + 1) • S.delta_t) (new' e) +
      (1 - S.theta) • flux (E' e) S.tau (t0 + n • S.delta_t) (old' e))) Z
    rw [a3] at e1
    rw [b3] at e2
    simp only [(hsame _).off, (hsame _).flux_eq] at e2
    rw [Finset.sum_congr rfl fun e _ => pair_off (hZ e) _] at e1 e2
    have e3 := congrArg₂ (· - ·) e1 e2
    simp only [Pi.zero_apply, mul_zero, Finset.sum_const_zero, sub_self] at e3
    rw [e3, ← Finset.sum_sub_distrib]
    refine Finset.sum_congr rfl fun e _ => ?_
    rw [← Finset.sum_sub_distrib]
    refine Finset.sum_congr rfl fun f _ => ?_
    rw [← dotProduct_sub]
    congr 1
    rw [flux_comb, flux_comb]
    funext j
    simp only [Pi.add_apply, Pi.sub_apply, Pi.smul_apply, smul_eq_mul]
    ring
  have hprimal : ∀ e, (F e).mass0 *ᵥ (((new e).u - (new' e).u) - ((old e).u - (old' e).u)) =
      S.delta_t • (S.theta • homRate (F e) S.tau (comb 1 (-1) (new e) (new' e)) + (1 - S.theta) • homRate (F e) S.tau (comb 1 (-1) (old e) (old' e))) := by
    intro e
    have e1 := (a1 e).2.2.1.primal
    have e2 := (hstep e).primal
    have e3 := rate_sub (E e) S.tau (t0 + (n + 1) • S.delta_t) (new e) (new' e)
    have e4 := rate_sub (E e) S.tau (t0 + (n + 1) • S.delta_t - S.delta_t) (old e) (old' e)
    rw [show homRate (F e) S.tau (comb 1 (-1) (new e) (new' e)) = _ from e3.symm, show homRate (F e) S.tau (comb 1 (-1) (old e) (old' e)) = _ from e4.symm]
    have e5 : (F e).mass0 *ᵥ (((new e).u - (new' e).u) - ((old e).u - (old' e).u)) = (F e).mass0 *ᵥ ((new e).u - (old e).u) - (F e).mass0 *ᵥ ((new' e).u - (old' e).u) := by
      rw [← mulVec_sub]
      congr 1
      abel
    rw [e5, show (F e).mass0 *ᵥ ((new e).u - (old e).u) = _ from e1, show (F e).mass0 *ᵥ ((new' e).u - (old' e).u) = _ from e2]
    module
  have hnewdual : ∀ e, HomDual (F e) (comb 1 (-1) (new e) (new' e)) := fun e => dual_sub (E e) _ _ _ (a1 e).2.2.1.dual (hstep e).dual
  have hlam : ∀ e : Fin G.n_hyEdges, (comb 1 (-1) (new e) (new' e)).lambda = faceValues nodes (X (n + 1) - X' (n + 1)) e := by
    intro e
    have : (comb 1 (-1) (new e) (new' e)).lambda = (1 : K) • (new e).lambda + (-1 : K) • (new' e).lambda := rfl
    rw [this, (a1 e).2.2.2, (b1 e).2.2.2, one_smul, neg_smul, one_smul, ← sub_eq_add_neg]
    rfl
  have hvan : ∀ k (e : Fin G.n_hyEdges), VanishesOnDirichlet (E e).toEdge (faceValues nodes (X k - X' k) e) := fun k e f hf j => by
    show X k _ - X' k _ = 0
    rw [show X k (dof (nodes e f) j) = 0 from hX k e f hf j, show X' k (dof (nodes e f) j) = 0 from hX' k e f hf j, sub_self]
  simp only [product_eq _ nB (t0 + (n + 1) • S.delta_t), (a1 _).1, (a1 _).2.1, (b1 _).1, (b1 _).2.1]
  rcases hscheme with h1 | ⟨hhalf, hconst, hinit, hX0⟩
  · refine energy_step F (fun e => hE e _) S.tau S.delta_t S.theta ht hdt.le (by rw [h1]; norm_num) (fun e => (new e).u - (new' e).u) (fun e => (old e).u - (old' e).u)
      (fun e => comb 1 (-1) (new e) (new' e)) (fun e => ?_) hnewdual (fun e => ?_) ?_
    · rw [h1]
      simp only [comb, one_smul, neg_smul, sub_self, zero_smul, add_zero, sub_eq_add_neg]
    · rw [hprimal e, h1, sub_self, zero_smul, add_zero, one_smul]
    · have := htest (X (n + 1) - X' (n + 1)) (hvan (n + 1))
      simp only [h1, sub_self, zero_smul, add_zero, one_smul] at this
      simp only [hlam]
      rw [← this]
      refine Finset.sum_congr rfl fun e _ => Finset.sum_congr rfl fun f _ => ?_
      rw [← hlam e]
      rfl
  · have hold : ∀ e, HomDual (F e) (comb 1 (-1) (old e) (old' e)) ∧ (comb 1 (-1) (old e) (old' e)).lambda = faceValues nodes (X n - X' n) e := by
      intro e
      have k1 : DualEquation (E e) (t0 + n • S.delta_t) (old e) ∧ (old e).lambda = faceValues nodes (X n) e := by
        rcases a2 with ⟨hn, hI⟩ | ⟨_, hI⟩
        · subst hn
          rw [zero_smul, add_zero]
          exact ⟨dual_of_initial (hinit e).1 (hI e), (hI e).trace.trans (hX0 e).1.symm⟩
        · exact hI e
      have k2 : DualEquation (E e) (t0 + n • S.delta_t) (old' e) ∧ (old' e).lambda = faceValues nodes (X' n) e := by
        rcases b2 with ⟨hn, hI⟩ | ⟨_, hI⟩
        · subst hn
          rw [zero_smul, add_zero]
          exact ⟨(hsame e).dual (dual_of_initial (hinit e).2 (hI e)), (hI e).trace.trans (hX0 e).2.symm⟩
        · exact ⟨(hsame e).dual (hI e).1, (hI e).2⟩
      refine ⟨?_, ?_⟩
      · have := dual_sub (E e) _ _ _ k1.1 k2.1
        rwa [hconst e _ (t0 + (n + 1) • S.delta_t)] at this
      · have : (comb 1 (-1) (old e) (old' e)).lambda = (1 : K) • (old e).lambda + (-1 : K) • (old' e).lambda := rfl
        rw [this, k1.2, k2.2, one_smul, neg_smul, one_smul, ← sub_eq_add_neg]
        rfl
    refine energy_step F (fun e => hE e _) S.tau S.delta_t S.theta ht hdt.le hhalf (fun e => (new e).u - (new' e).u) (fun e => (old e).u - (old' e).u)
      (fun e => comb S.theta (1 - S.theta) (comb 1 (-1) (new e) (new' e)) (comb 1 (-1) (old e) (old' e))) (fun e => ?_)
      (fun e => homDual_comb _ _ _ _ _ (hnewdual e) (hold e).1) (fun e => ?_) ?_
    · simp only [comb, one_smul, neg_smul, sub_eq_add_neg]
    · rw [hprimal e]
      congr 1
      exact (homRate_comb _ _ _ _ _ _).symm
    · let Z := S.theta • (X (n + 1) - X' (n + 1)) + (1 - S.theta) • (X n - X' n)
      have hZ : ∀ e : Fin G.n_hyEdges, (comb S.theta (1 - S.theta) (comb 1 (-1) (new e) (new' e)) (comb 1 (-1) (old e) (old' e))).lambda = faceValues nodes Z e := by
        intro e
        have : (comb S.theta (1 - S.theta) (comb 1 (-1) (new e) (new' e)) (comb 1 (-1) (old e) (old' e))).lambda =
          S.theta • (comb 1 (-1) (new e) (new' e)).lambda + (1 - S.theta) • (comb 1 (-1) (old e) (old' e)).lambda := rfl
        rw [this, hlam e, (hold e).2]
        rfl
      have := htest Z fun e f hf j => by
        show S.theta * (X (n + 1) - X' (n + 1)) _ + (1 - S.theta) * (X n - X' n) _ = 0
        rw [show (X (n + 1) - X' (n + 1)) (dof (nodes e f) j) = 0 from hvan (n + 1) e f hf j, show (X n - X' n) (dof (nodes e f) j) = 0 from hvan n e f hf j]
        ring
      rw [← this]
      refine Finset.sum_congr rfl fun e _ => Finset.sum_congr rfl fun f _ => ?_
      rw [← hZ e]
      congr 1
      exact congrFun (flux_comb (E e) S.tau (t0 + (n + 1) • S.delta_t) S.theta (1 - S.theta) (comb 1 (-1) (new e) (new' e)) (comb 1 (-1) (old e) (old' e))) f

/-! ## C53: conservation of mass -/

/-- **C53** (on a hyperedge).  In a step of the theta scheme, the integral of `c u` over the hyperedge, `c` a constant with traces `mu`, changes by the integral of the source minus the
numerical fluxes through the faces (including the Dirichlet data in the flux), weighted by `theta` and `1 - theta`. -/
theorem C53_local [Field K] [LinearOrder K] [IsStrictOrderedRing K] (S : Solver K) (E : Edge dim nS K) (time : K) (hE : FormLaws (form E.toEdge nB time))
    (c : Fin nS → K) (mu : LocDofs dim nB K) (hc : IsConst (form E.toEdge nB time) c) (hmu : ∀ f, IsTrace (form E.toEdge nB time) c f (mu f))
    (old new : State dim nS nB K) (h : ThetaStep S E time old new) :
    product E c (new.u - old.u) = S.delta_t * (
      S.theta * (c ⬝ᵥ source E.toEdge time - ∑ f, (mu f ⬝ᵥ flux E S.tau time new f - S.tau * (c ⬝ᵥ dirichletMoments E.toEdge time f))) +
      (1 - S.theta) * (c ⬝ᵥ source E.toEdge (time - S.delta_t) -
        ∑ f, (mu f ⬝ᵥ flux E S.tau (time - S.delta_t) old f - S.tau * (c ⬝ᵥ dirichletMoments E.toEdge (time - S.delta_t) f)))) := by
  have hrate : ∀ t x, c ⬝ᵥ rate E S.tau t x = c ⬝ᵥ source E.toEdge t - ∑ f, (mu f ⬝ᵥ flux E S.tau t x f - S.tau * (c ⬝ᵥ dirichletMoments E.toEdge t f)) := by
    intro t x
    have e1 : rate E S.tau t x = source E.toEdge t + homRate (form E.toEdge nB time) S.tau x + ∑ f, S.tau • dirichletMoments E.toEdge t f := by
      simp only [rate, homRate, trace, Pi.add_apply, smul_add, Finset.sum_sub_distrib, Finset.sum_add_distrib]
      rw [show (form E.toEdge nB t).grad = (form E.toEdge nB time).grad from rfl, show (form E.toEdge nB t).bdr = (form E.toEdge nB time).bdr from rfl,
        show (form E.toEdge nB t).normal = (form E.toEdge nB time).normal from rfl, show moments (form E.toEdge nB t) x.lambda = moments (form E.toEdge nB time) x.lambda from rfl]
      abel
    have e2 := const_test (form E.toEdge nB time) hE c mu hc hmu S.tau x
    rw [e1, dotProduct_add, dotProduct_add, e2, dotProduct_sum, Finset.sum_sub_distrib]
    simp only [dotProduct_smul, smul_eq_mul]
    rw [show ∑ f, mu f ⬝ᵥ faceFlux (form E.toEdge nB time) S.tau x.lambda x.q x.u f = ∑ f, mu f ⬝ᵥ flux E S.tau t x f from rfl]
    ring
  rw [product_eq E nB time, h.primal, dotProduct_smul, dotProduct_add, dotProduct_smul, dotProduct_smul, hrate, hrate]
  rfl

/-- **C53** (globally).  On a hypergraph without Dirichlet faces, let `c e` be constants on the hyperedges with traces matching to a vector `M` (say, the constant 1).  If the
vector of step `n + 1` makes `residual_flux` vanish, the integral of `c u` over all hyperedges changes exactly by the integral of the source, weighted by `theta`
and `1 - theta`: no mass is lost or created at the hypernodes. -/
theorem C53_global [Field K] [LinearOrder K] [IsStrictOrderedRing K] (m : Mode) (gesv : Gesv ((dim + 1) * nS) 1 K) (hg : GesvSpec gesv)
    (gesv1 : Gesv nS 1 K) (hg1 : GesvSpec gesv1) (S : Solver K) (ht : 0 ≤ S.tau) (hth : 0 < S.theta) (hdt : 0 < S.delta_t)
    (E : Nat → Edge dim nS K) (hO : ∀ e, Orthonormal (E e)) (hE : ∀ e time, FormLaws (form (E e).toEdge nB time))
    (G : HyGraph dim nB) (nodes : Fin G.n_hyEdges → Fin (2 * dim) → Fin G.n_hyNodes) (hwf : G.WF nodes)
    (hnoD : ∀ (e : Fin G.n_hyEdges) (f : Fin (2 * dim)), (E e).node_descriptor f ∉ (E e).dirichlet_nodes)
    (c : Fin G.n_hyEdges → Fin nS → K) (M : Fin (G.n_hyNodes * nB) → K) (hc : ∀ (e : Fin G.n_hyEdges) time, IsConst (form (E e).toEdge nB time) (c e))
    (hM : ∀ (e : Fin G.n_hyEdges) time f, IsTrace (form (E e).toEdge nB time) (c e) f (faceValues nodes M e f))
    (buf0 : LocDofs dim nB K) (x : List K) (hx : x.length = G.n_hyNodes * nB) (data0 : Fin G.n_hyEdges → Data dim nS nB K) (t0 : K)
    (X : Nat → Fin (G.n_hyNodes * nB) → K) (n : Nat) (old0 new0 : LocDofs dim nB K) (r : List K) (D0 D1 : Fin G.n_hyEdges → Data dim nS nB K)
    (h0 : runX m gesv gesv1 S E G buf0 x data0 t0 X n = .ok (r, List.ofFn D0)) (h1 : runX m gesv gesv1 S E G buf0 x data0 t0 X (n + 1) = .ok (r, List.ofFn D1))
    (hres : globalResidual m gesv S E G old0 new0 (List.ofFn D0) (t0 + (n + 1) • S.delta_t) (List.ofFn (X (n + 1))) = .ok (List.replicate (G.n_hyNodes * nB) 0)) :
    ∑ e : Fin G.n_hyEdges, product (E e) (c e) (kept (D1 e)) = ∑ e : Fin G.n_hyEdges, product (E e) (c e) (kept (D0 e)) +
      S.delta_t * ∑ e : Fin G.n_hyEdges, (S.theta * (c e ⬝ᵥ source (E e).toEdge (t0 + (n + 1) • S.delta_t)) + (1 - S.theta) * (c e ⬝ᵥ source (E e).toEdge (t0 + n • S.delta_t))) := by
  obtain ⟨old, new, a1, a2, a3⟩ := run_step m gesv hg gesv1 hg1 S ht hth hdt E hO hE G nodes hwf buf0 x hx data0 t0 X n old0 new0 r D0 D1 h0 h1 hres
  have hV : ∀ e : Fin G.n_hyEdges, VanishesOnDirichlet (E e).toEdge (faceValues nodes M e) := fun e f hf => absurd hf (hnoD e f)
  have e1 := pairing_assemble nodes (fun e : Fin G.n_hyEdges => offDirichlet (E e).toEdge (S.theta • flux (E e) S.tau (t0 + (n + 1) • S.delta_t) (new e) +
      (1 - S.theta) • flux (E e) S.tau (t0 + n • S.delta_t) (old e))) M
  rw [a3, Finset.sum_congr rfl fun e _ => pair_off (hV e) _] at e1
  simp only [Pi.zero_apply, mul_zero, Finset.sum_const_zero] at e1
  have hD : ∀ (e : Fin G.n_hyEdges) t f, dirichletMoments (E e).toEdge t f = 0 := by
    intro e t f
    funext i
    simp only [dirichletMoments]
    exact if_neg (hnoD e f)
  have hloc : ∀ e : Fin G.n_hyEdges, product (E e) (c e) (kept (D1 e)) - product (E e) (c e) (kept (D0 e)) =
      S.delta_t * (S.theta * (c e ⬝ᵥ source (E e).toEdge (t0 + (n + 1) • S.delta_t)) + (1 - S.theta) * (c e ⬝ᵥ source (E e).toEdge (t0 + n • S.delta_t))) -
      S.delta_t * ∑ f, faceValues nodes M e f ⬝ᵥ (S.theta • flux (E e) S.tau (t0 + (n + 1) • S.delta_t) (new e) +
        (1 - S.theta) • flux (E e) S.tau (t0 + n • S.delta_t) (old e)) f := by
    intro e
    have h := C53_local S (E e) (t0 + (n + 1) • S.delta_t) (hE e _) (c e) (faceValues nodes M e) (hc e _) (hM e _) (old e) (new e) (a1 e).2.2.1
    have hsub : product (E e) (c e) ((new e).u - (old e).u) = product (E e) (c e) (new e).u - product (E e) (c e) (old e).u := by
      simp only [product_eq (E e) nB t0, mulVec_sub, dotProduct_sub]
    rw [hsub, time_sub] at h
    rw [(a1 e).1, (a1 e).2.1, h]
    simp only [hD, dotProduct_zero, mul_zero, sub_zero, Pi.add_apply, Pi.smul_apply, dotProduct_add, dotProduct_smul, smul_eq_mul, Finset.sum_add_distrib, ← Finset.mul_sum]
    ring
  have hsum := Finset.sum_congr (rfl : (Finset.univ : Finset (Fin G.n_hyEdges)) = Finset.univ) fun e _ => hloc e
  rw [Finset.sum_sub_distrib, Finset.sum_sub_distrib, ← Finset.mul_sum, ← Finset.mul_sum, ← e1, mul_zero, sub_zero] at hsum
  linear_combination hsum

/-! ## Examples -/

namespace Example

open Diffusion.Example DiffusionUniform.Example

/-- The parallelogram of `Diffusion.Example` with initial value `w` and Dirichlet types `dir`. -/
noncomputable def E1 (w : ℚ) (dir : List Nat) : Edge 2 1 ℚ where
  toEdge := { E0 with dirichlet_nodes := dir, bdrUni_psifunc := fun _ _ _ => w }
  area := 20
  volUni_initial := fun _ _ => w
  vol_derphi_initial := fun _ _ _ => 0
  bdr_initial := fun _ _ _ => 5 * w

theorem digit0 (k i : Nat) : digitOf 1 k i = 0 := by simp [digitOf, Nat.mod_one]

theorem E1_orthonormal (w : ℚ) (dir : List Nat) : Orthonormal (E1 w dir) := by
  intro i j
  have : i = j := Subsingleton.elim _ _
  simp [E1, E0, I2, tensorIntegrator, this]

theorem E1_laws (w : ℚ) (dir : List Nat) (time : ℚ) : FormLaws (form (E1 w dir).toEdge 1 time) := E0_laws time

theorem E1_grad (w : ℚ) (dir : List Nat) (time : ℚ) (d : Fin 2) : (form (E1 w dir).toEdge 1 time).grad d = 0 := by
  ext i j
  simp [form, E1, E0, I2, tensorIntegrator, B0]

theorem E1_psi (w : ℚ) (dir : List Nat) (time : ℚ) (f : Fin (2 * 2)) : (form (E1 w dir).toEdge 1 time).psi f = .of fun _ _ => 5 := by
  ext i j
  simp [form, E1, E0, I2, tensorIntegrator, B0, SameFace, digit0]

theorem E1_initial (w time : ℚ) : InitialLaws (E1 w []) 1 time where
  grad := fun d i => by
    rw [E1_grad, zero_mulVec]
    rfl
  bdr := fun f i => by
    have hn : ¬ IsDirichlet (E1 w []).toEdge f := List.not_mem_nil
    simp only [trace, moments, E1_psi, Pi.add_apply, dirichletMoments, offDirichlet, if_neg hn, mulVec, dotProduct, of_apply, add_zero]
    simp [E1]

theorem E1_same (w w' : ℚ) (dir : List Nat) : SameProblem (E1 w dir) (E1 w' dir) 1 := ⟨fun _ => rfl, fun _ => rfl, fun _ => rfl, fun _ => Iff.rfl⟩

/-- Dirichlet type at the first face of the first hyperedge. -/
noncomputable def Edges (w : ℚ) (e : Nat) : Edge 2 1 ℚ := E1 w (if e = 0 then [0] else [])

/-- Time step 1/10, stabilisation 1. -/
def S0 (theta : ℚ) : Solver ℚ := ⟨1, theta, 1 / 10⟩

theorem G2_cov : ∀ v, ∃ e f, G2nodes e f = v := by decide

theorem Edges_dirichlet (w : ℚ) (e : Fin G2.n_hyEdges) (f : Fin (2 * 2)) :
    (Edges w e).node_descriptor f ∈ (Edges w e).dirichlet_nodes ↔ G2nodes e f = ⟨0, by decide⟩ := by
  have h : (Edges w e).node_descriptor f = f.1 := rfl
  have h' : (Edges w e).dirichlet_nodes = if e.1 = 0 then [0] else [] := rfl
  rw [h, h']
  clear h h'
  revert e f
  decide

theorem x0_length : (List.replicate 7 (0 : ℚ)).length = G2.n_hyNodes * 1 := rfl

/-- The hypotheses of C51 can be met: implicit Euler on two parallelograms with a Dirichlet node. -/
theorem euler (w : ℚ) (N : Nat) : ∃ X, X 0 = 0 ∧ Steps .debug (cramerSolve _ _ ℚ) (cramerSolve _ _ ℚ) (S0 1) (Edges w) G2 (fun _ _ => 7) (List.replicate 7 0) (fun _ => Data.init) 0
    (· = ⟨0, by decide⟩) (fun _ _ => 8) (fun _ _ => 9) X N := (C51_unique_run .debug (cramerSolve _ _ ℚ) (C44_example _ _ ℚ) (cramerSolve _ _ ℚ) (C44_example _ _ ℚ) (S0 1) one_pos one_pos (by norm_num [S0])
  (Edges w) (fun _ => E1_orthonormal _ _) (fun _ => E1_laws _ _) G2 G2nodes G2_wf G2_cov (· = ⟨0, by decide⟩) (Edges_dirichlet w) (fun _ _ => 7) _ x0_length (fun _ => Data.init) 0
  (fun _ _ => 8) (fun _ _ => 9) N 0).1

/-- So can those of C50. -/
example (w : ℚ) (X : Nat → Fin (G2.n_hyNodes * 1) → ℚ) := C50_history .debug (cramerSolve _ _ ℚ) (C44_example _ _ ℚ) (cramerSolve _ _ ℚ) (C44_example _ _ ℚ) (S0 (1 / 2)) zero_le_one
  (by norm_num [S0]) (by norm_num [S0]) (Edges w) (fun _ => E1_orthonormal _ _) (fun _ => E1_laws _ _) G2 G2nodes G2_wf (fun _ _ => 7) _ x0_length (fun _ => Data.init) 0 X

/-- What is needed from a sequence of steps. -/
theorem Steps.split {m : Mode} {gesv : Gesv ((dim + 1) * nS) 1 ℚ} (hg : GesvSpec gesv) {gesv1 : Gesv nS 1 ℚ} (hg1 : GesvSpec gesv1) {S : Solver ℚ} (ht : 0 < S.tau) (hth : 0 < S.theta)
    (hdt : 0 < S.delta_t) {E : Nat → Edge dim nS ℚ} (hO : ∀ e, Orthonormal (E e)) (hE : ∀ e time, FormLaws (form (E e).toEdge nB time))
    {G : HyGraph dim nB} {nodes : Fin G.n_hyEdges → Fin (2 * dim) → Fin G.n_hyNodes} (hwf : G.WF nodes) {buf0 : LocDofs dim nB ℚ} {x : List ℚ} (hx : x.length = G.n_hyNodes * nB)
    {data0 : Fin G.n_hyEdges → Data dim nS nB ℚ} {t0 : ℚ} {D : Fin G.n_hyNodes → Prop} {old0 new0 : LocDofs dim nB ℚ} {X : Nat → Fin (G.n_hyNodes * nB) → ℚ} {N n : Nat} (hn : n < N)
    (h : Steps m gesv gesv1 S E G buf0 x data0 t0 D old0 new0 X N) :
    ∃ (r : List ℚ) (D0 D1 : Fin G.n_hyEdges → Data dim nS nB ℚ), runX m gesv gesv1 S E G buf0 x data0 t0 X n = .ok (r, List.ofFn D0) ∧ runX m gesv gesv1 S E G buf0 x data0 t0 X (n + 1) = .ok (r, List.ofFn D1) ∧
      globalResidual m gesv S E G old0 new0 (List.ofFn D0) (t0 + (n + 1) • S.delta_t) (List.ofFn (X (n + 1))) = .ok (List.replicate (G.n_hyNodes * nB) 0) := by
  obtain ⟨_, r, h1, h2⟩ := h n hn
  obtain ⟨_, r0, D0, k1, _⟩ := run_stores m gesv hg gesv1 hg1 S ht.le hth hdt E hO hE G nodes hwf buf0 x hx data0 t0 X n
  obtain ⟨_, r1, D1, k2, _⟩ := run_stores m gesv hg gesv1 hg1 S ht.le hth hdt E hO hE G nodes hwf buf0 x hx data0 t0 X (n + 1)
  rw [show run m gesv gesv1 S E G buf0 x (List.ofFn data0) t0 (fun k => List.ofFn (X k)) n = _ from k1] at h1
  injection h1 with h1
  subst h1
  refine ⟨List.ofFn r0, D0, D1, k1, ?_, h2⟩
  have k3 : (run m gesv gesv1 S E G buf0 x (List.ofFn data0) t0 (fun k => List.ofFn (X k)) n >>= fun r => _) = Res.ok (List.ofFn r1, List.ofFn D1) := k2
  rw [show run m gesv gesv1 S E G buf0 x (List.ofFn data0) t0 (fun k => List.ofFn (X k)) n = _ from k1, Res.ok_bind] at k3
  obtain ⟨d, _, k4⟩ := Res.bind_eq_ok.mp k3
  have : List.ofFn r0 = List.ofFn r1 := by
    injection k4 with k4
    exact congrArg Prod.fst k4
  rw [this]
  exact k2

/-- The hypotheses of C52 can be met: implicit Euler with initial values 2 and 5 and a Dirichlet node. -/
example (n : Nat) : ∃ D0 D1 D0' D1' : Fin G2.n_hyEdges → Data 2 1 1 ℚ,
    ∑ e : Fin G2.n_hyEdges, product (Edges 2 e) (kept (D1 e) - kept (D1' e)) (kept (D1 e) - kept (D1' e)) ≤
      ∑ e : Fin G2.n_hyEdges, product (Edges 2 e) (kept (D0 e) - kept (D0' e)) (kept (D0 e) - kept (D0' e)) := by
  obtain ⟨X, hX0, hX⟩ := euler 2 (n + 1)
  obtain ⟨X', hX0', hX'⟩ := euler 5 (n + 1)
  obtain ⟨r, D0, D1, h0, h1, h2⟩ := Steps.split (C44_example _ _ ℚ) (C44_example _ _ ℚ) one_pos one_pos (by norm_num [S0]) (fun _ => E1_orthonormal _ _) (fun _ => E1_laws _ _) G2_wf
    x0_length (Nat.lt_succ_self n) hX
  obtain ⟨r', D0', D1', h0', h1', h2'⟩ := Steps.split (C44_example _ _ ℚ) (C44_example _ _ ℚ) one_pos one_pos (by norm_num [S0]) (fun _ => E1_orthonormal _ _) (fun _ => E1_laws _ _)
    G2_wf x0_length (Nat.lt_succ_self n) hX'
  -- vectors beyond the last step are irrelevant
  let Y := fun (Z : Nat → Fin (G2.n_hyNodes * 1) → ℚ) k => if k ≤ n + 1 then Z k else 0
  have hY : ∀ (w : ℚ) (Z : Nat → Fin (G2.n_hyNodes * 1) → ℚ), Z 0 = 0 → (∀ k < n + 1, VanishesAt (· = ⟨0, by decide⟩) (Z (k + 1))) → ∀ k (e : Fin G2.n_hyEdges),
      VanishesOnDirichlet (Edges w e).toEdge (faceValues G2nodes (Y Z k) e) := by
    intro w Z h0 h k e f hf j
    show (if k ≤ n + 1 then Z k else 0) _ = 0
    split
    · cases k with
      | zero => rw [h0]; rfl
      | succ k => exact h k (by omega) _ ((Edges_dirichlet w e f).mp hf) j
    · rfl
  have hrun : ∀ (w : ℚ) (Z : Nat → Fin (G2.n_hyNodes * 1) → ℚ) (k : Nat), k ≤ n + 1 → runX .debug (cramerSolve _ _ ℚ) (cramerSolve _ _ ℚ) (S0 1) (Edges w) G2 (fun _ _ => 7)
      (List.replicate 7 0) (fun _ => Data.init) 0 (Y Z) k = runX .debug (cramerSolve _ _ ℚ) (cramerSolve _ _ ℚ) (S0 1) (Edges w) G2 (fun _ _ => 7)
      (List.replicate 7 0) (fun _ => Data.init) 0 Z k := fun w Z k hk => run_congr _ _ _ _ _ _ _ _ _ _ k fun i hi => by
    show List.ofFn (if i + 1 ≤ n + 1 then Z (i + 1) else 0) = _
    rw [if_pos (by omega)]
  have hlast : ∀ Z, Y Z (n + 1) = Z (n + 1) := fun Z => if_pos le_rfl
  exact ⟨D0, D1, D0', D1', C52_contractive .debug (cramerSolve _ _ ℚ) (C44_example _ _ ℚ) (cramerSolve _ _ ℚ) (C44_example _ _ ℚ) (S0 1) zero_le_one one_pos (by norm_num [S0])
    (Edges 2) (Edges 5) (fun _ => E1_orthonormal _ _) (fun _ => E1_orthonormal _ _) (fun _ => E1_laws _ _) (fun _ => E1_same _ _ _) G2 G2nodes G2_wf (fun _ _ => 7) _ _ x0_length
    x0_length (fun _ => Data.init) (fun _ => Data.init) 0 (Y X) (Y X') (hY 2 X hX0 fun k hk => (hX k hk).1) (hY 2 X' hX0' fun k hk => (hX' k hk).1) (.inl rfl) n (fun _ _ => 8) (fun _ _ => 9) r r'
    D0 D1 D0' D1' ((hrun 2 X n (by omega)).trans h0) ((hrun 2 X _ le_rfl).trans h1) ((hrun 5 X' n (by omega)).trans h0') ((hrun 5 X' _ le_rfl).trans h1') (by rw [hlast]; exact h2)
    (by rw [hlast]; exact h2')⟩

/-- The case of the Crank-Nicolson scheme can be met as well, without Dirichlet faces. -/
theorem crank (w : ℚ) (N : Nat) : ∃ X, (X 0 = fun _ => w) ∧ Steps .debug (cramerSolve _ _ ℚ) (cramerSolve _ _ ℚ) (S0 (1 / 2)) (fun _ => E1 w []) G2 (fun _ _ => 7) (List.replicate 7 0)
    (fun _ => Data.init) 0 (fun _ => False) (fun _ _ => 8) (fun _ _ => 9) X N := (C51_unique_run .debug (cramerSolve _ _ ℚ) (C44_example _ _ ℚ) (cramerSolve _ _ ℚ) (C44_example _ _ ℚ) (S0 (1 / 2)) one_pos (by norm_num [S0])
  (by norm_num [S0]) (fun _ => E1 w []) (fun _ => E1_orthonormal _ _) (fun _ => E1_laws _ _) G2 G2nodes G2_wf G2_cov (fun _ => False)
  (fun _ _ => ⟨fun h => List.not_mem_nil h, False.elim⟩) (fun _ _ => 7) _ x0_length (fun _ => Data.init) 0 (fun _ _ => 8) (fun _ _ => 9) N (fun _ => w)).1

theorem crank_trace (w : ℚ) (e : Fin G2.n_hyEdges) (x : Fin (G2.n_hyNodes * 1) → ℚ) (hx : x = fun _ => w) :
    faceValues G2nodes x e = offDirichlet (E1 w []).toEdge (fun f (j : Fin 1) => (E1 w []).bdrUni_psifunc 0 j f) := by
  funext f j
  rw [hx]
  exact (if_neg List.not_mem_nil).symm

example (n : Nat) : ∃ D0 D1 D0' D1' : Fin G2.n_hyEdges → Data 2 1 1 ℚ,
    ∑ e : Fin G2.n_hyEdges, product (E1 2 []) (kept (D1 e) - kept (D1' e)) (kept (D1 e) - kept (D1' e)) ≤
      ∑ e : Fin G2.n_hyEdges, product (E1 2 []) (kept (D0 e) - kept (D0' e)) (kept (D0 e) - kept (D0' e)) := by
  obtain ⟨X, hX0, hX⟩ := crank 2 (n + 1)
  obtain ⟨X', hX0', hX'⟩ := crank 5 (n + 1)
  obtain ⟨r, D0, D1, h0, h1, h2⟩ := Steps.split (C44_example _ _ ℚ) (C44_example _ _ ℚ) one_pos (by norm_num [S0]) (by norm_num [S0]) (fun _ => E1_orthonormal _ _)
    (fun _ => E1_laws _ _) G2_wf x0_length (Nat.lt_succ_self n) hX
  obtain ⟨r', D0', D1', h0', h1', h2'⟩ := Steps.split (C44_example _ _ ℚ) (C44_example _ _ ℚ) one_pos (by norm_num [S0]) (by norm_num [S0]) (fun _ => E1_orthonormal _ _)
    (fun _ => E1_laws _ _) G2_wf x0_length (Nat.lt_succ_self n) hX'
  exact ⟨D0, D1, D0', D1', C52_contractive .debug (cramerSolve _ _ ℚ) (C44_example _ _ ℚ) (cramerSolve _ _ ℚ) (C44_example _ _ ℚ) (S0 (1 / 2)) zero_le_one (by norm_num [S0])
    (by norm_num [S0]) (fun _ => E1 2 []) (fun _ => E1 5 []) (fun _ => E1_orthonormal _ _) (fun _ => E1_orthonormal _ _) (fun _ => E1_laws _ _) (fun _ => E1_same _ _ _) G2 G2nodes G2_wf
    (fun _ _ => 7) _ _ x0_length x0_length (fun _ => Data.init) (fun _ => Data.init) 0 X X' (fun _ _ _ h => absurd h List.not_mem_nil) (fun _ _ _ h => absurd h List.not_mem_nil)
    (.inr ⟨le_rfl, fun _ _ _ => rfl, fun _ => ⟨E1_initial _ _, E1_initial _ _⟩, fun e => ⟨crank_trace 2 e _ hX0, crank_trace 5 e _ hX0'⟩⟩) n (fun _ _ => 8) (fun _ _ => 9) r r'
    D0 D1 D0' D1' h0 h1 h0' h1' h2 h2'⟩

/-- The hypotheses of C53 can be met: `c` is the constant 1, in each step the mass grows by the integral of the source. -/
example (n : Nat) : ∃ D0 D1 : Fin G2.n_hyEdges → Data 2 1 1 ℚ,
    ∑ e : Fin G2.n_hyEdges, product (E1 2 []) 1 (kept (D1 e)) = ∑ e : Fin G2.n_hyEdges, product (E1 2 []) 1 (kept (D0 e)) + (2 * n + 1 : ℚ) / 5 := by
  obtain ⟨X, hX0, hX⟩ := crank 2 (n + 1)
  obtain ⟨r, D0, D1, h0, h1, h2⟩ := Steps.split (C44_example _ _ ℚ) (C44_example _ _ ℚ) one_pos (by norm_num [S0]) (by norm_num [S0]) (fun _ => E1_orthonormal _ _)
    (fun _ => E1_laws _ _) G2_wf x0_length (Nat.lt_succ_self n) hX
  refine ⟨D0, D1, ?_⟩
  have h := C53_global .debug (cramerSolve _ _ ℚ) (C44_example _ _ ℚ) (cramerSolve _ _ ℚ) (C44_example _ _ ℚ) (S0 (1 / 2)) zero_le_one (by norm_num [S0])
    (by norm_num [S0]) (fun _ => E1 2 []) (fun _ => E1_orthonormal _ _) (fun _ => E1_laws _ _) G2 G2nodes G2_wf (fun _ _ => List.not_mem_nil) (fun _ => 1) (fun _ => 1)
    (fun _ time d => by rw [E1_grad, transpose_zero, zero_mulVec])
    (fun _ time f => by
      unfold IsTrace
      funext j
      rw [E1_psi]
      simp [faceValues, mulVec, dotProduct, form, E1, E0])
    (fun _ _ => 7) _ x0_length (fun _ => Data.init) 0 X n (fun _ _ => 8) (fun _ _ => 9) r D0 D1 h0 h1 h2
  rw [h]
  congr 1
  simp only [source, E1, E0, S0, dotProduct, Finset.sum_const, Finset.card_univ, Fintype.card_fin, Pi.one_apply, nsmul_eq_mul]
  norm_num [G2]
  ring

end Example

end HyperHDG.DiffusionParab

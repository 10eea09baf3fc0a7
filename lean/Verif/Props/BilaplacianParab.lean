import Verif.Proofs.BilaplacianParab
import Verif.Props.Bilaplacian
import Verif.Props.GlobalClasses

/-!
# Properties C63 and C64: the local solver `BilaplacianParab` and the time stepping loop

`E` is what the solver knows about a hyperedge, `form E.stat nB` its integrals as data of the abstract LDG-H method, `coupling E.stat time` the matrix of the integrals of
`b phi_i phi_j`.  `EulerStep`, `ThetaStep` and `Step` (the one computed), `run` and the global functions are defined in `Verif/Spec/BilaplacianParab.lean`.
-/

namespace HyperHDG.BilaplacianParab

open Finset Spec Matrix LDG Mixed HyGraph
open Bilaplacian (n_loc_dofs form coupling source offDirichlet VanishesOnDirichlet IsDirichlet IsDirichletLaplacian dirichletMoments laplacianMoments writeFlux_eq writeResidual_eq
  offDirichlet_up offDirichlet_lo off_lin upper_lin lower_lin pair_off ofNodes ofNodes_dof)

variable {dim nS nB : Nat} {K : Type}

/-! ## C63: what is computed -/

/-- **C63** (constructor).  From three or more numbers the constructor takes `tau`, `theta` and `delta_t` in this order; fewer numbers are undefined behaviour. -/
theorem C63_constructor (constru : List K) :
    (∀ a b c l, constru = a :: b :: c :: l → Solver.mk' constru = .ok ⟨a, b, c⟩) ∧ (constru.length < 3 → Solver.mk' constru = .ub) := by
  refine ⟨?_, fun h => ?_⟩
  · rintro a b c l rfl
    rfl
  · match constru, h with
    | [], _ => rfl
    | [a], _ => rfl
    | [a, b], _ => rfl

section
variable [Field K] (m : Mode) (gesv : Gesv (n_loc_dofs dim nS) 1 K) (hg : GesvSpec gesv) (S : Solver K) (E : Edge dim nS K) (data : Data dim nS K) (time : K)

include hg

/-- **C63** (`trace_to_flux`).  If the local problem of a time step is uniquely solvable, the result is made of the numerical fluxes of its solution for the traces `upper lambda` and
`lower lambda`, without source, Dirichlet data and old value: first the flux of `w`, zero where `u` is prescribed, then that of `u`, zero where the Laplacian is prescribed;
whatever the output array and the data contain.  Otherwise the debug build aborts and the release build lets the LAPACK exception through. -/
theorem C63_flux (lambda out : LocDofs dim (2 * nB) K) :
    (StepSolvable S E nB time → ∃ q u p w,
      StepSolution (nB := nB) S E time (moments (form E.stat nB) (upper lambda)) (moments (form E.stat nB) (lower lambda)) 0 q u p w ∧
      trace_to_flux m gesv S lambda out E data time = .ok (fluxes E S.tau ⟨q, u, p, w, lambda⟩)) ∧
    (¬ StepSolvable S E nB time → trace_to_flux m gesv S lambda out E data time = solveFailure m) := by
  obtain ⟨h1, h2⟩ := solve_local_problem_spec m gesv hg S E data time lambda 0 (.inl rfl)
  refine ⟨fun hs => ?_, fun hs => ?_⟩
  · obtain ⟨x, hx1, hx2⟩ := h1 hs
    refine ⟨_, _, _, _, by simpa [dataOf] using hx2, ?_⟩
    rw [trace_to_flux, hx1, Res.ok_bind]
    exact writeFlux_eq E.stat S.tau x lambda out
  · rw [trace_to_flux, h2 hs]
    cases m <;> rfl

/-- The state computed from the data and a trace. -/
theorem solve_step (hs : StepSolvable S E nB time) (u_old : Fin nS → K) (hu : StoresU data u_old) (lambda : LocDofs dim (2 * nB) K) :
    ∃ (c : Data dim nS K) (x : State dim nS nB K), solve_local_problem m gesv S E data lambda 1 time = .ok c ∧ Stores c x ∧ x.lambda = lambda ∧ Step S E time u_old x ∧
      x.q = DiffusionUniform.qOf (half 0 (toMat c)) ∧ x.u = DiffusionUniform.uOf (half 0 (toMat c)) ∧ x.p = DiffusionUniform.qOf (half 1 (toMat c)) ∧
      x.w = DiffusionUniform.uOf (half 1 (toMat c)) := by
  obtain ⟨x, hx1, hx2⟩ := (solve_local_problem_spec m gesv hg S E data time lambda 1 (.inr rfl)).1 hs
  rw [storesU_iff] at hu
  refine ⟨x, ⟨_, _, _, _, lambda⟩, hx1, stores_of x lambda, rfl, (step_iff S E time u_old _).mp ?_, rfl, rfl, rfl, rfl⟩
  simpa [dataOf, hu, State.traceU, State.traceW] using hx2

/-- **C63** (`residual_flux`).  If the data contain the old value `u_old`, the fluxes are those of the step from it with trace `lambda`; but the trace subtracted from `w` in the flux is that of
`u` and vice versa. -/
theorem C63_residual (hs : StepSolvable S E nB time) (u_old : Fin nS → K) (hu : StoresU data u_old) (lambda out : LocDofs dim (2 * nB) K) :
    ∃ x : State dim nS nB K, Step S E time u_old x ∧ x.lambda = lambda ∧ residual_flux m gesv S lambda out E data time =
      .ok (offDirichlet E.stat (faceFlux (form E.stat nB) S.tau (upper lambda) x.p x.w) (faceFlux (form E.stat nB) S.tau (lower lambda) x.q x.u)) := by
  obtain ⟨c, x, h1, h2, h3, h4, e1, e2, e3, e4⟩ := solve_step m gesv hg S E data time hs u_old hu lambda
  refine ⟨x, h4, h3, ?_⟩
  rw [residual_flux, h1, Res.ok_bind, e1, e2, e3, e4]
  exact writeResidual_eq E.stat S.tau c lambda out

/-- **C63** (`set_data`).  If the data contain the old value `u_old`, the new data contain the unknowns of the step from it with trace `lambda`, ending at `time`. -/
theorem C63_set_data (hs : StepSolvable S E nB time) (u_old : Fin nS → K) (hu : StoresU data u_old) (lambda : LocDofs dim (2 * nB) K) :
    ∃ (c : Data dim nS K) (x : State dim nS nB K), set_data m gesv S lambda E data time = .ok c ∧ Stores c x ∧ x.lambda = lambda ∧ Step S E time u_old x := by
  obtain ⟨c, x, h1, h2, h3, h4, _⟩ := solve_step m gesv hg S E data time hs u_old hu lambda
  exact ⟨c, x, h1, h2, h3, h4⟩

/-- **C63** (bulk values).  `bulk_values` returns in component `d < dim` the values of the `d`-th component of `q`, in component `dim` those of `u` at the points of the tensor grid of the
abscissas in lexicographic order, of the step from the stored value with trace `lambda`. -/
theorem C63_bulk_values (hs : StepSolvable S E nB time) (u_old : Fin nS → K) (hu : StoresU data u_old) (lin_comb : (Fin nS → K) → List K → K) (abscissas : List K)
    (lambda : LocDofs dim (2 * nB) K) (vals0 : Fin (dim + 1) → Fin (Hypercube.pow dim abscissas.length) → K) :
    ∃ x : State dim nS nB K, Step S E time u_old x ∧ x.lambda = lambda ∧
      ∃ vals, bulk_values m gesv lin_comb S abscissas lambda E data time vals0 = .ok vals ∧
      ∀ pt : Fin (Hypercube.pow dim abscissas.length), ∃ z, Hypercube.tensorial_pt m dim pt abscissas = .ok z ∧
        (∀ d : Fin dim, vals d.castSucc pt = lin_comb (x.q d) z) ∧ vals (Fin.last dim) pt = lin_comb x.u z := by
  obtain ⟨c, x, h1, h2, h3, h4, e1, e2, e3, e4⟩ := solve_step m gesv hg S E data time hs u_old hu lambda
  obtain ⟨r, hr1, hr2⟩ := bulk_loop_get (dim := dim) m lin_comb abscissas c (fun d i => half 0 (toMat c) (ix d i) 0) (fun d i => by
    have h3 := get_fin m c (pos (emb 0 (ix d i)) 0)
    have h4 : (pos (emb 0 (ix d i)) (0 : Fin 1)).1 = d * nS + i := by simp [pos, ix, emb]
    rw [h4] at h3
    exact h3) (fun _ => 0) vals0
  refine ⟨x, h4, h3, r.2, ?_, fun pt => ?_⟩
  · unfold bulk_values
    rw [h1, Res.ok_bind, hr1]
    rfl
  · obtain ⟨z, hp1, hp2⟩ := hr2 pt
    rw [e1, e2]
    exact ⟨z, hp1, fun d => hp2 d.castSucc, hp2 (Fin.last dim)⟩

/-- **C63** (errors).  `errors` compares `u` of the step from the stored value with trace `lambda` with the analytic result (a difference is not negative). -/
theorem C63_errors [LinearOrder K] [IsStrictOrderedRing K] (hs : StepSolvable S E nB time) (u_old : Fin nS → K) (hu : StoresU data u_old)
    (lambda : LocDofs dim (2 * nB) K) (hpos : ∀ c, 0 ≤ E.vol_diffsquare time c) :
    ∃ x : State dim nS nB K, Step S E time u_old x ∧ x.lambda = lambda ∧ errors m gesv S lambda E data time = .ok (fun _ => E.vol_diffsquare time x.u) := by
  obtain ⟨c, x, h1, h2, h3, h4, e1, e2, e3, e4⟩ := solve_step m gesv hg S E data time hs u_old hu lambda
  refine ⟨x, h4, h3, ?_⟩
  unfold errors
  rw [h1, Res.ok_bind, forFin_write nS _ x.u]
  · show (hyAssert m (0 ≤ E.vol_diffsquare time x.u) >>= fun _ => _) = _
    rw [hyAssert_of (hpos _)]
    rfl
  · intro i c
    rw [show i.1 + dim * nS = dim * nS + i.1 from Nat.add_comm _ _, h2.u, Res.ok_bind]
    rfl

theorem of_ok {lambda out y : LocDofs dim (2 * nB) K} (h : trace_to_flux m gesv S lambda out E data time = .ok y) :
    StepSolvable S E nB time ∧ ∃ q u p w,
      StepSolution (nB := nB) S E time (moments (form E.stat nB) (upper lambda)) (moments (form E.stat nB) (lower lambda)) 0 q u p w ∧
      y = fluxes E S.tau ⟨q, u, p, w, lambda⟩ := by
  have hf := C63_flux m gesv hg S E data time lambda out
  by_cases hs : StepSolvable S E nB time
  · obtain ⟨q, u, p, w, h1, h2⟩ := hf.1 hs
    rw [h] at h2
    injection h2 with h2
    exact ⟨hs, q, u, p, w, h1, h2⟩
  · have := hf.2 hs
    rw [h] at this
    cases m <;> cases this

theorem to_ok (hs : StepSolvable S E nB time) {lambda : LocDofs dim (2 * nB) K} {q p : Fin dim → Fin nS → K} {u w : Fin nS → K}
    (h : StepSolution (nB := nB) S E time (moments (form E.stat nB) (upper lambda)) (moments (form E.stat nB) (lower lambda)) 0 q u p w)
    (out : LocDofs dim (2 * nB) K) : trace_to_flux m gesv S lambda out E data time = .ok (fluxes E S.tau ⟨q, u, p, w, lambda⟩) := by
  obtain ⟨q', u', p', w', h1, h2⟩ := (C63_flux m gesv hg S E data time lambda out).1 hs
  obtain ⟨rfl, rfl, rfl, rfl⟩ := mixed_unique hs h h1
  exact h2

omit hg in
theorem off_vanishes (a b : LocDofs dim nB K) : VanishesOnDirichlet E.stat (offDirichlet E.stat a b) := fun f =>
  ⟨fun hf j => (offDirichlet_up E.stat a b f j).trans (if_pos hf), fun hf j => (offDirichlet_lo E.stat a b f j).trans (if_pos hf)⟩

theorem residual_ok {lambda out y : LocDofs dim (2 * nB) K} (h : residual_flux m gesv S lambda out E data time = .ok y) : ∃ a b : LocDofs dim nB K, y = offDirichlet E.stat a b := by
  by_cases hs : StepSolvable S E nB time
  · obtain ⟨x, h1, h2, h3⟩ := C63_residual m gesv hg S E data time hs _ ((storesU_iff data _).mpr rfl) lambda out
    rw [h] at h3
    injection h3 with h3
    exact ⟨_, _, h3⟩
  · have := (solve_local_problem_spec m gesv hg S E data time lambda 1 (.inr rfl)).2 hs
    rw [residual_flux, this] at h
    cases m <;> cases h

/-- **C63** (Dirichlet rows).  `trace_to_flux` and `residual_flux` return exactly zero in the first half on the faces where `u` is prescribed, and in the second half on those where
the Laplacian is. -/
theorem C63_dirichlet_zero (lambda out y : LocDofs dim (2 * nB) K)
    (h : trace_to_flux m gesv S lambda out E data time = .ok y ∨ residual_flux m gesv S lambda out E data time = .ok y) : VanishesOnDirichlet E.stat y := by
  rcases h with h | h
  · obtain ⟨_, q, u, p, w, _, rfl⟩ := of_ok m gesv hg S E data time h
    exact off_vanishes E _ _
  · obtain ⟨a, b, rfl⟩ := residual_ok m gesv hg S E data time h
    exact off_vanishes E _ _

omit hg in
theorem fluxes_lin (tau a b : K) (x y : State dim nS nB K) :
    fluxes E tau ⟨a • x.q + b • y.q, a • x.u + b • y.u, a • x.p + b • y.p, a • x.w + b • y.w, a • x.lambda + b • y.lambda⟩ = a • fluxes E tau x + b • fluxes E tau y := by
  unfold fluxes
  rw [upper_lin, lower_lin, flux_lin, flux_lin, off_lin]

/-- **C63** (linearity).  If `trace_to_flux` returns `y` for `lambda` and `z` for `mu`, then it returns `a y + b z` for `a lambda + b mu`, whatever the data. -/
theorem C63_linear {data' : Data dim nS K} {lambda mu out out' y z : LocDofs dim (2 * nB) K} (hy : trace_to_flux m gesv S lambda out E data time = .ok y)
    (hz : trace_to_flux m gesv S mu out' E data' time = .ok z) (a b : K) (out'' : LocDofs dim (2 * nB) K) (data'' : Data dim nS K) :
    trace_to_flux m gesv S (a • lambda + b • mu) out'' E data'' time = .ok (a • y + b • z) := by
  obtain ⟨hs, q, u, p, w, h1, rfl⟩ := of_ok m gesv hg S E data time hy
  obtain ⟨_, q', u', p', w', h1', rfl⟩ := of_ok m gesv hg S E data' time hz
  have h2 := mixed_lin a b h1 h1'
  rw [← moments_lin, ← moments_lin, smul_zero, smul_zero, add_zero, ← upper_lin, ← lower_lin] at h2
  rw [to_ok m gesv hg S E data'' time hs h2 out'']
  exact congrArg Res.ok (fluxes_lin E S.tau a b ⟨q, u, p, w, lambda⟩ ⟨q', u', p', w', mu⟩)

/-- **C63** (affine residual, where it holds).  The fluxes of the step from `u_old` with trace `lambda` are `trace_to_flux(lambda) + residual_flux(0)`, where `trace_to_flux` may be called with
any time `tA` at which the coefficient is the same.  (`residual_flux(lambda)` itself is this sum only if the two halves of `lambda` agree, as in C60.) -/
theorem C63_affine (hs : StepSolvable S E nB time) (tA : K) (hB : coupling E.stat tA = coupling E.stat time) (u_old : Fin nS → K) (hu : StoresU data u_old) (data' : Data dim nS K)
    (lambda out out' : LocDofs dim (2 * nB) K) :
    ∃ (y r : LocDofs dim (2 * nB) K) (x : State dim nS nB K), trace_to_flux m gesv S lambda out E data' tA = .ok y ∧ residual_flux m gesv S 0 out' E data time = .ok r ∧
      Step S E time u_old x ∧ x.lambda = lambda ∧ fluxes E S.tau x = y + r := by
  have hsA : StepSolvable S E nB tA := by unfold StepSolvable; rw [hB]; exact hs
  obtain ⟨q, u, p, w, h1, h2⟩ := (C63_flux m gesv hg S E data' tA lambda out).1 hsA
  obtain ⟨x0, k1, k2, k3⟩ := C63_residual m gesv hg S E data time hs u_old hu 0 out'
  unfold StepSolution at h1
  rw [hB] at h1
  have h3 := mixed_lin 1 1 h1 ((step_iff S E time u_old x0).mpr k1)
  have e0 : x0.traceU E time = dirichletMoments E.stat time := by
    unfold State.traceU
    rw [k2, show moments (form E.stat nB) (upper (0 : LocDofs dim (2 * nB) K)) = 0 from funext fun f => mulVec_zero _, zero_add]
  have e1 : x0.traceW E time = laplacianMoments E.stat time := by
    unfold State.traceW
    rw [k2, show moments (form E.stat nB) (lower (0 : LocDofs dim (2 * nB) K)) = 0 from funext fun f => mulVec_zero _, zero_add]
  rw [e0, e1] at h3
  simp only [one_smul, zero_add] at h3
  refine ⟨_, _, ⟨q + x0.q, u + x0.u, p + x0.p, w + x0.w, lambda⟩, h2, k3, (step_iff S E time u_old _).mp h3, rfl, ?_⟩
  have h4 := fluxes_lin E S.tau 1 1 ⟨q, u, p, w, lambda⟩ x0
  rw [k2] at h4
  simp only [one_smul, add_zero] at h4
  rw [h4]
  unfold fluxes
  rw [k2]
  rfl

end

/-- **C63** (`make_initial`).  The data contain the projection of the initial value as `u`; the other unknowns in the data are not touched.  On the faces where `u` is not prescribed, coefficient
`j` of the trace is obtained from the integrator by asking for the shape function with the number of the *face* on the face with the number `j`. -/
theorem C63_make_initial [CommRing K] (E : Edge dim nS K) (data : Data dim nS K) (time : K) (lambda : LocDofs dim (2 * nB) K) :
    ∃ data', make_initial lambda E data time = .ok (fun f j => if E.node_descriptor f ∈ E.dirichlet_nodes then 0 else
        if j.1 < nB then E.bdrUni_psifunc time f j else E.bdrUni_psifunc_laplace time f j, data') ∧
      StoresU data' (fun i : Fin nS => E.volUni_initial time i) ∧ ∀ k, (k < dim * nS ∨ (dim + 1) * nS ≤ k) → arrGet data' k = arrGet data k := by
  have h1 := Bilaplacian.C60_make_initial E.stat time lambda
  have h0 : dim * nS + nS ≤ n_loc_dofs dim nS * 1 := by
    rw [Nat.mul_one, show n_loc_dofs dim nS = dim * nS + nS + (dim + 1) * nS by unfold n_loc_dofs; ring]
    omega
  obtain ⟨c, k1, k2⟩ := forUp_inv nS (fun i (c : Data dim nS K) => arrPut c (dim * nS + i) (E.volUni_initial time i)) data
    (fun l c => ∀ k (hk : k < n_loc_dofs dim nS * 1), c ⟨k, hk⟩ = if dim * nS ≤ k ∧ k < dim * nS + l then E.volUni_initial time (k - dim * nS) else data ⟨k, hk⟩)
    (fun k hk => by rw [if_neg (by omega)]) (fun l hl c hc => by
      refine ⟨_, arrPut_lt c (show dim * nS + l < n_loc_dofs dim nS * 1 by omega) _, fun k hk => ?_⟩
      by_cases h : k = dim * nS + l
      · subst h
        rw [if_pos (by omega), Nat.add_sub_cancel_left]
        simp [arrSet]
      · rw [show arrSet c (⟨dim * nS + l, by omega⟩ : Fin (n_loc_dofs dim nS * 1)) (E.volUni_initial time l) ⟨k, hk⟩ = c ⟨k, hk⟩ by simp [arrSet, h], hc k hk]
        have : (dim * nS ≤ k ∧ k < dim * nS + (l + 1)) ↔ (dim * nS ≤ k ∧ k < dim * nS + l) := by omega
        simp only [this])
  refine ⟨c, ?_, fun i => ?_, fun k hk => ?_⟩
  · unfold make_initial
    unfold Bilaplacian.make_initial at h1
    rw [h1, Res.ok_bind, k1]
    rfl
  · have hi : dim * nS + i.1 < n_loc_dofs dim nS * 1 := by omega
    rw [arrGet_lt _ hi, k2 _ hi, if_pos (by omega), Nat.add_sub_cancel_left]
  · by_cases h : k < n_loc_dofs dim nS * 1
    · rw [arrGet_lt _ h, arrGet_lt _ h, k2 _ h, if_neg]
      have : (dim + 1) * nS = dim * nS + nS := by ring
      omega
    · unfold arrGet
      rw [dif_neg h, dif_neg h]

section
variable [CommRing K] (S : Solver K) (E : Edge dim nS K) (time : K)

/-- **C63** (implicit Euler).  For `theta = 1` the step computed is the implicit Euler step. -/
theorem C63_euler (h1 : S.theta = 1) (u_old : Fin nS → K) (x : State dim nS nB K) : Step S E time u_old x ↔ EulerStep E S.tau S.delta_t time u_old x := by
  constructor
  · intro h
    refine ⟨h.constraints, ?_⟩
    have := h.primal
    rwa [h1, one_smul, sub_self, zero_smul, add_zero] at this
  · intro h
    refine ⟨h.constraints, ?_⟩
    rw [h1, one_smul, sub_self, zero_smul, add_zero]
    exact h.primal

end

/-- **C63** (other values of `theta`).  For `theta ≠ 1` the step computed from a state `old` is a step of the theta scheme exactly if the discrete Laplacian of `w` in `old` vanishes: its part with the
weight `1 - theta` is missing. -/
theorem C63_theta_iff [Field K] (S : Solver K) (E : Edge dim nS K) (time : K) (h1 : S.theta ≠ 1) (h2 : S.delta_t ≠ 0) (old new : State dim nS nB K) (h : Step S E time old.u new) :
    ThetaStep S E time old new ↔ laplace (form E.stat nB) S.tau (old.traceW E (time - S.delta_t)) old.p old.w = 0 := by
  have e : S.delta_t • (S.theta • rate E S.tau time new + (1 - S.theta) • rate E S.tau (time - S.delta_t) old) =
      S.delta_t • (S.theta • rate E S.tau time new + (1 - S.theta) • source E.stat (time - S.delta_t)) -
        (S.delta_t * (1 - S.theta)) • laplace (form E.stat nB) S.tau (old.traceW E (time - S.delta_t)) old.p old.w := by
    unfold rate
    module
  constructor
  · intro h3
    have h4 := h3.primal
    rw [h.primal, e, eq_comm, sub_eq_self] at h4
    exact (smul_eq_zero.mp h4).resolve_left (mul_ne_zero h2 (sub_ne_zero.mpr (Ne.symm h1)))
  · intro h3
    refine ⟨h.constraints, ?_⟩
    rw [e, h3, smul_zero, sub_zero]
    exact h.primal

/-! ## Energy -/

section
variable [Field K] [LinearOrder K] [IsStrictOrderedRing K]

/-- The fluxes of `w` tested by the trace of `u`, minus those of `u` tested by the trace of `w`. -/
theorem pairing (S : Solver K) (E : Edge dim nS K) (time : K) (hE : FormLaws (form E.stat nB)) (hs : S.theta * S.delta_t ≠ 0) {lambda : LocDofs dim (2 * nB) K} {t : Fin nS → K}
    {q p : Fin dim → Fin nS → K} {u w : Fin nS → K}
    (h : StepSolution (nB := nB) S E time (moments (form E.stat nB) (upper lambda)) (moments (form E.stat nB) (lower lambda)) t q u p w) :
    ∑ f, upper lambda f ⬝ᵥ faceFlux (form E.stat nB) S.tau (lower lambda) p w f - ∑ f, lower lambda f ⬝ᵥ faceFlux (form E.stat nB) S.tau (upper lambda) q u f =
      (S.theta * S.delta_t)⁻¹ * (u ⬝ᵥ t - u ⬝ᵥ (form E.stat nB).mass0 *ᵥ u) - w ⬝ᵥ coupling E.stat time *ᵥ w := by
  rw [flux_form hE hs h.second h.first, flux_form hE one_ne_zero h.first h.second, bilin_symm hE (q := p) (u := w)]
  simp only [zero_mul, sub_zero, zero_add, inv_one, one_mul, dotProduct_sub]
  ring

variable (S : Solver K) (ht : 0 < S.tau) (hth : 0 < S.theta) (hdt : 0 < S.delta_t) (E : Edge dim nS K) (time : K) (hE : FormLaws (form E.stat nB))
  (hB : ∀ v, 0 ≤ v ⬝ᵥ coupling E.stat time *ᵥ v)

include ht hth hdt hE hB

/-- **C63** (solvability).  If `tau`, `theta`, `delta_t` are positive and the coefficient is not negative, the local problem of a step is uniquely solvable. -/
theorem C63_solvable : StepSolvable S E nB time := by
  intro q u p w h
  have h0 : moments (form E.stat nB) (upper (0 : LocDofs dim (2 * nB) K)) = 0 := funext fun f => mulVec_zero _
  have h0' : moments (form E.stat nB) (lower (0 : LocDofs dim (2 * nB) K)) = 0 := funext fun f => mulVec_zero _
  have hst := mul_pos hth hdt
  have h1 := pairing S E time hE hst.ne' (lambda := 0) (t := 0) (q := q) (u := u) (p := p) (w := w) (by rw [h0, h0']; exact h)
  have e1 : upper (0 : LocDofs dim (2 * nB) K) = 0 := rfl
  have e2 : lower (0 : LocDofs dim (2 * nB) K) = 0 := rfl
  simp only [e1, e2, Pi.zero_apply, zero_dotProduct, Finset.sum_const_zero, sub_zero, dotProduct_zero, zero_sub] at h1
  have h2 := quad_nonneg hE.mass0_pos u
  have h3 := hB w
  have h4 := mul_nonneg (inv_nonneg.mpr hst.le) h2
  have h5 : u ⬝ᵥ (form E.stat nB).mass0 *ᵥ u = 0 := by
    have : (S.theta * S.delta_t)⁻¹ * (u ⬝ᵥ (form E.stat nB).mass0 *ᵥ u) = 0 := by linarith
    exact (mul_eq_zero.mp this).resolve_left (inv_ne_zero hst.ne')
  have hu := quad_zero hE.mass0_pos h5
  subst hu
  have h6 := h.second
  rw [mulVec_zero, sub_zero] at h6
  obtain ⟨rfl, rfl⟩ := solvable_of hE ht.le le_rfl hst (.inl ht) (rho := 0) p w h6
  have h7 := h.first
  rw [mulVec_zero, add_zero] at h7
  obtain ⟨rfl, _⟩ := solvable_of hE ht.le le_rfl one_pos (.inl ht) (rho := 0) q 0 h7
  exact ⟨rfl, rfl, rfl, rfl⟩

end

/-- **C63** (symmetry).  If the integrals of `b phi_i phi_j` are symmetric in `i` and `j`, and `theta dt` is not zero, then `mu . trace_to_flux(lambda) = lambda . trace_to_flux(mu)` for traces vanishing
where they are prescribed. -/
theorem C63_symmetric [Field K] [LinearOrder K] [IsStrictOrderedRing K] (m : Mode) (gesv : Gesv (n_loc_dofs dim nS) 1 K) (hg : GesvSpec gesv) (S : Solver K)
    (hs : S.theta * S.delta_t ≠ 0) (E : Edge dim nS K) (data data' : Data dim nS K) (time : K) (hE : FormLaws (form E.stat nB)) (hB : (coupling E.stat time)ᵀ = coupling E.stat time)
    {lambda mu out out' y z : LocDofs dim (2 * nB) K} (hl : VanishesOnDirichlet E.stat lambda) (hm : VanishesOnDirichlet E.stat mu)
    (hy : trace_to_flux m gesv S lambda out E data time = .ok y) (hz : trace_to_flux m gesv S mu out' E data' time = .ok z) :
    ∑ f, ∑ j, mu f j * y f j = ∑ f, ∑ j, lambda f j * z f j := by
  obtain ⟨_, q, u, p, w, h1, rfl⟩ := of_ok m gesv hg S E data time hy
  obtain ⟨_, q', u', p', w', h1', rfl⟩ := of_ok m gesv hg S E data' time hz
  unfold fluxes
  rw [pair_off hm, pair_off hl]
  rw [flux_form hE hs h1.second h1'.first, flux_form hE one_ne_zero h1.first h1'.second, flux_form hE hs h1'.second h1.first, flux_form hE one_ne_zero h1'.first h1.second]
  rw [bilin_symm hE (q := p) (u := w), bilin_symm hE (q := p') (u := w')]
  have e1 := symm_dot hB w w'
  have e2 := symm_dot hE.mass0_symm u u'
  simp only [zero_sub, dotProduct_neg, zero_add, zero_mul, inv_one, one_mul, sub_zero]
  rw [e1, e2]
  ring

/-! ## C64: the time stepping loop -/

section
variable [Field K] (m : Mode) (gesv : Gesv (n_loc_dofs dim nS) 1 K) (hg : GesvSpec gesv) (S : Solver K) (E : Nat → Edge dim nS K)
  (G : HyGraph dim (2 * nB)) (nodes : Fin G.n_hyEdges → Fin (2 * dim) → Fin G.n_hyNodes) (hwf : G.WF nodes) (old0 new0 : LocDofs dim (2 * nB) K)

include hg hwf

/-- The system of a time step, in terms of the fluxes of the next state. -/
theorem system (time tA : K) (hs : ∀ e : Fin G.n_hyEdges, StepSolvable S (E e) nB time) (hA : ∀ e : Fin G.n_hyEdges, coupling (E e).stat tA = coupling (E e).stat time)
    (data data' : Fin G.n_hyEdges → Data dim nS K) (u_old : Fin G.n_hyEdges → Fin nS → K) (hu : ∀ e, StoresU (data e) (u_old e)) :
    ∃ R : Fin (G.n_hyNodes * (2 * nB)) → K, globalResidual m gesv S E G old0 new0 (List.ofFn data) time (List.ofFn (0 : Fin (G.n_hyNodes * (2 * nB)) → K)) = .ok (List.ofFn R) ∧
      ∀ y : Fin (G.n_hyNodes * (2 * nB)) → K, ∃ (new : Fin G.n_hyEdges → State dim nS nB K) (z : Fin (G.n_hyNodes * (2 * nB)) → K),
        (∀ e : Fin G.n_hyEdges, Step S (E e) time (u_old e) (new e) ∧ (new e).lambda = faceValues nodes y e) ∧
        globalFlux m gesv S E G old0 new0 (List.ofFn data') tA (List.ofFn y) = .ok (List.ofFn z) ∧
        z + R = assemble nodes fun e : Fin G.n_hyEdges => fluxes (E e) S.tau (new e) := by
  have hr : ∀ e : Fin G.n_hyEdges, ∃ r, residual_flux m gesv S (0 : LocDofs dim (2 * nB) K) (fun _ _ => 0) (E e) (data e) time = .ok r := fun e => by
    obtain ⟨_, r, _, _, h, _⟩ := C63_affine m gesv hg S (E e) (data e) time (hs e) tA (hA e) _ (hu e) (data' e) 0 (fun _ _ => 0) (fun _ _ => 0)
    exact ⟨r, h⟩
  choose R0 hR0 using hr
  refine ⟨assemble nodes R0, ?_, fun y => ?_⟩
  · refine mat_vec_eq m G nodes hwf _ 0 R0 (fun e => ?_) old0 new0
    rw [vget_of_lt (by simp), Res.ok_bind]
    simp only [List.getElem_ofFn]
    exact hR0 e
  · have h : ∀ e : Fin G.n_hyEdges, ∃ (y' r : LocDofs dim (2 * nB) K) (x : State dim nS nB K), trace_to_flux m gesv S (faceValues nodes y e) (fun _ _ => 0) (E e) (data' e) tA = .ok y' ∧
        residual_flux m gesv S 0 (fun _ _ => 0) (E e) (data e) time = .ok r ∧ Step S (E e) time (u_old e) x ∧ x.lambda = faceValues nodes y e ∧ fluxes (E e) S.tau x = y' + r := fun e =>
      C63_affine m gesv hg S (E e) (data e) time (hs e) tA (hA e) _ (hu e) (data' e) (faceValues nodes y e) (fun _ _ => 0) (fun _ _ => 0)
    choose y' r new k1 k2 k3 k4 k5 using h
    refine ⟨new, assemble nodes y', fun e => ⟨k3 e, k4 e⟩, ?_, ?_⟩
    · refine mat_vec_eq m G nodes hwf _ y y' (fun e => ?_) old0 new0
      rw [vget_of_lt (by simp), Res.ok_bind]
      simpa using k1 e
    · funext k
      rw [Pi.add_apply, ← assemble_add]
      congr 1
      funext e
      have : r e = R0 e := by
        have := k2 e
        rw [hR0] at this
        exact (Res.ok.inj this).symm
      rw [k5 e, this]
      rfl

end

section
variable [Field K] [LinearOrder K] [IsStrictOrderedRing K] (m : Mode) (gesv : Gesv (n_loc_dofs dim nS) 1 K) (hg : GesvSpec gesv) (S : Solver K)
  (ht : 0 < S.tau) (hth : 0 < S.theta) (hdt : 0 < S.delta_t) (E : Nat → Edge dim nS K) (hE : ∀ e, FormLaws (form (E e).stat nB))
  (hB : ∀ e time v, 0 ≤ v ⬝ᵥ coupling (E e).stat time *ᵥ v)
  (G : HyGraph dim (2 * nB)) (nodes : Fin G.n_hyEdges → Fin (2 * dim) → Fin G.n_hyNodes) (hwf : G.WF nodes)
  (buf0 : LocDofs dim (2 * nB) K) (x : List K) (hx : x.length = G.n_hyNodes * (2 * nB)) (data0 : Fin G.n_hyEdges → Data dim nS K) (t0 : K)
  (X : Nat → Fin (G.n_hyNodes * (2 * nB)) → K)

/-- The run whose `k`-th vector is `X k`. -/
abbrev runX (n : Nat) := run m gesv S E G buf0 x (List.ofFn data0) t0 (fun k => List.ofFn (X k)) n

include hg ht hth hdt hE hB hwf hx

/-- **C64** (history).  For every hypergraph, every sequence of vectors `X 1, X 2, ...` and every number `n` of time steps: the calls return, and there are states `st 1, ..., st n` on the hyperedges with these
traces, each one a step from the one before, the first one from the projection of the initial value, such that the hyperedges keep `st n`.  If programs solve `A y = -R` for the next step, where `A` is the
global `trace_to_flux` at any time with the same coefficient and `R` the global `residual_flux` of the zero vector, then this system says exactly that the numerical fluxes of the next state, with trace `y`,
add up to zero in each hypernode (except where the traces are prescribed). -/
theorem C64_history (n : Nat) : ∃ (st : Nat → Fin G.n_hyEdges → State dim nS nB K) (r0 : Fin (G.n_hyNodes * (2 * nB)) → K) (data : Fin G.n_hyEdges → Data dim nS K),
    runX m gesv S E G buf0 x data0 t0 X n = .ok (List.ofFn r0, List.ofFn data) ∧
    (∀ e : Fin G.n_hyEdges, (st 0 e).u = fun i : Fin nS => (E e).volUni_initial t0 i) ∧
    (∀ k < n, ∀ e : Fin G.n_hyEdges, Step S (E e) (t0 + (k + 1) • S.delta_t) (st k e).u (st (k + 1) e) ∧ (st (k + 1) e).lambda = faceValues nodes (X (k + 1)) e) ∧
    (∀ e : Fin G.n_hyEdges, StoresU (data e) (st n e).u ∧ (0 < n → Stores (data e) (st n e))) ∧
    ∀ (old0 new0 : LocDofs dim (2 * nB) K) (tA : K), (∀ e : Fin G.n_hyEdges, coupling (E e).stat tA = coupling (E e).stat (t0 + (n + 1) • S.delta_t)) →
      ∃ R : Fin (G.n_hyNodes * (2 * nB)) → K,
        globalResidual m gesv S E G old0 new0 (List.ofFn data) (t0 + (n + 1) • S.delta_t) (List.ofFn (0 : Fin (G.n_hyNodes * (2 * nB)) → K)) = .ok (List.ofFn R) ∧
        ∀ y : Fin (G.n_hyNodes * (2 * nB)) → K, ∃ new : Fin G.n_hyEdges → State dim nS nB K,
          (∀ e : Fin G.n_hyEdges, Step S (E e) (t0 + (n + 1) • S.delta_t) (st n e).u (new e) ∧ (new e).lambda = faceValues nodes y e) ∧
          (globalFlux m gesv S E G old0 new0 (List.ofFn data) tA (List.ofFn y) = .ok (List.ofFn (-R)) ↔
            ∀ k, (∑ e, ∑ i, ∑ j, if dof (nodes e i) j = k then fluxes (E e) S.tau (new e) i j else 0) = 0) := by
  have hrun : ∃ (st : Nat → Fin G.n_hyEdges → State dim nS nB K) (r0 : Fin (G.n_hyNodes * (2 * nB)) → K) (data : Fin G.n_hyEdges → Data dim nS K),
      runX m gesv S E G buf0 x data0 t0 X n = .ok (List.ofFn r0, List.ofFn data) ∧
      (∀ e : Fin G.n_hyEdges, (st 0 e).u = fun i : Fin nS => (E e).volUni_initial t0 i) ∧
      (∀ k < n, ∀ e : Fin G.n_hyEdges, Step S (E e) (t0 + (k + 1) • S.delta_t) (st k e).u (st (k + 1) e) ∧ (st (k + 1) e).lambda = faceValues nodes (X (k + 1)) e) ∧
      ∀ e : Fin G.n_hyEdges, StoresU (data e) (st n e).u ∧ (0 < n → Stores (data e) (st n e)) := by
    induction n with
    | zero =>
      have h : ∀ e : Fin G.n_hyEdges, _ := fun e => C63_make_initial (nB := nB) (E e) (data0 e) t0 (fun _ _ => 0)
      choose data' h1 h2 _ using h
      obtain ⟨r, hr1, hr2, _⟩ := C41_make_initial m G nodes hwf (fun e lambda data => make_initial lambda (E e) data t0) x hx data0 data' _ h1
      exact ⟨fun _ e => ⟨0, fun i => (E e).volUni_initial t0 i, 0, 0, 0⟩, r, data', hr1, fun e => rfl, fun k hk => absurd hk (Nat.not_lt_zero _),
        fun e => ⟨h2 e, fun h => absurd h (lt_irrefl _)⟩⟩
    | succ n ih =>
      obtain ⟨st, r0, data, h1, h2, h4, h5⟩ := ih
      have h : ∀ e : Fin G.n_hyEdges, _ := fun e => C63_set_data m gesv hg S (E e) (data e) (t0 + (n + 1) • S.delta_t) (C63_solvable S ht hth hdt (E e) _ (hE e) (hB e _)) _ (h5 e).1
        (faceValues nodes (X (n + 1)) e)
      choose data' new k1 k2 k3 k4 using h
      have k5 := C41_set_data m G nodes hwf (fun e lambda data => set_data m gesv S lambda (E e) data (t0 + (n + 1) • S.delta_t)) buf0 (X (n + 1)) data data' k1
      refine ⟨fun k => if k ≤ n then st k else new, r0, data', ?_, ?_, fun k hk e => ?_, fun e => ?_⟩
      · show (run m gesv S E G buf0 x (List.ofFn data0) t0 (fun k => List.ofFn (X k)) n >>= _) = _
        rw [show run m gesv S E G buf0 x (List.ofFn data0) t0 (fun k => List.ofFn (X k)) n = _ from h1, Res.ok_bind]
        dsimp only
        rw [k5]
        rfl
      · simpa using h2
      · rcases Nat.lt_succ_iff_lt_or_eq.mp hk with hk' | rfl
        · simp only [if_pos (show k ≤ n by omega), if_pos (show k + 1 ≤ n by omega)]
          exact h4 k hk' e
        · simp only [le_refl, if_true, if_neg (show ¬ k + 1 ≤ k by omega)]
          exact ⟨k4 e, k3 e⟩
      · simp only [if_neg (show ¬ n + 1 ≤ n by omega)]
        exact ⟨(k2 e).toU, fun _ => k2 e⟩
  obtain ⟨st, r0, data, h1, h2, h3, h4⟩ := hrun
  refine ⟨st, r0, data, h1, h2, h3, h4, fun old0 new0 tA hA => ?_⟩
  obtain ⟨R, k1, k2⟩ := system m gesv hg S E G nodes hwf old0 new0 (t0 + (n + 1) • S.delta_t) tA (fun e => C63_solvable S ht hth hdt (E e) _ (hE e) (hB e _)) hA data data _ fun e => (h4 e).1
  refine ⟨R, k1, fun y => ?_⟩
  obtain ⟨new, z, l1, l2, l3⟩ := k2 y
  refine ⟨new, l1, ?_⟩
  rw [l2]
  have e1 : (∀ k, (∑ e, ∑ i, ∑ j, if dof (nodes e i) j = k then fluxes (E e) S.tau (new e) i j else 0) = 0) ↔ z + R = 0 := by
    rw [l3, funext_iff]
    rfl
  rw [e1, add_eq_zero_iff_eq_neg]
  exact ⟨fun h => List.ofFn_injective (Res.ok.inj h), fun h => by rw [h]⟩

end

section
variable [Field K] [LinearOrder K] [IsStrictOrderedRing K]

omit [Field K] [LinearOrder K] [IsStrictOrderedRing K] in
/-- A global vector with given values of both unknowns in the hypernodes. -/
theorem exists_vector {N E : Nat} (nodes : Fin E → Fin (2 * dim) → Fin N) (z1 z2 : Fin N → Fin nB → K) :
    ∃ Z : Fin (N * (2 * nB)) → K, ∀ e, faceValues nodes Z e = halves (fun f => z1 (nodes e f)) (fun f => z2 (nodes e f)) :=
  ⟨ofNodes (fun v j => if h : j.1 < nB then z1 v ⟨j, h⟩ else z2 v ⟨j - nB, by omega⟩), fun e => funext fun f => funext fun j => ofNodes_dof _ _ j⟩

/-- The linear system of a time step has exactly one solution vanishing in `D`, for each right-hand side which vanishes in `D`. -/
theorem unique_system (m : Mode) (gesv : Gesv (n_loc_dofs dim nS) 1 K) (hg : GesvSpec gesv) (S : Solver K)
    (ht : 0 < S.tau) (hth : 0 < S.theta) (hdt : 0 < S.delta_t) (E : Nat → Edge dim nS K) (hE : ∀ e, FormLaws (form (E e).stat nB)) (tA : K)
    (hBA : ∀ e v, v ≠ 0 → 0 < v ⬝ᵥ coupling (E e).stat tA *ᵥ v)
    (G : HyGraph dim (2 * nB)) (nodes : Fin G.n_hyEdges → Fin (2 * dim) → Fin G.n_hyNodes) (hwf : G.WF nodes) (hcov : ∀ v, ∃ e f, nodes e f = v) (D : Fin G.n_hyNodes → Prop)
    (hD : ∀ (e : Fin G.n_hyEdges) (f : Fin (2 * dim)), (E e).node_descriptor f ∈ (E e).dirichlet_nodes ↔ D (nodes e f))
    (hD' : ∀ (e : Fin G.n_hyEdges) (f : Fin (2 * dim)), (E e).node_descriptor f ∈ (E e).dirichlet_laplacian_nodes ↔ D (nodes e f))
    (data' : Fin G.n_hyEdges → Data dim nS K) (old0 new0 : LocDofs dim (2 * nB) K) (b : Fin (G.n_hyNodes * (2 * nB)) → K) (hb : VanishesAt D b) :
    ∃! y : Fin (G.n_hyNodes * (2 * nB)) → K, VanishesAt D y ∧ globalFlux m gesv S E G old0 new0 (List.ofFn data') tA (List.ofFn y) = .ok (List.ofFn b) := by
  have hs : ∀ e, StepSolvable S (E e) nB tA := fun e => C63_solvable S ht hth hdt (E e) _ (hE e) fun v => quad_nonneg (hBA e) v
  have hst := mul_pos hth hdt
  have hret : ∀ (e : Fin G.n_hyEdges) (lambda : LocDofs dim (2 * nB) K), ∃ y, ∀ out, trace_to_flux m gesv S lambda out (E e) (data' e) tA = .ok y := by
    intro e lambda
    obtain ⟨q, u, p, w, h1, _⟩ := (C63_flux m gesv hg S (E e) (data' e) tA lambda 0).1 (hs e)
    exact ⟨_, fun out => to_ok m gesv hg S (E e) (data' e) tA (hs e) h1 out⟩
  choose F hF using hret
  have hlin : ∀ (e : Fin G.n_hyEdges) (a b : K) (x y : LocDofs dim (2 * nB) K), F e (a • x + b • y) = a • F e x + b • F e y := by
    intro e a b x y
    have := C63_linear m gesv hg S (E e) (data' e) tA (hF e x 0) (hF e y 0) a b 0 (data' e)
    rw [hF] at this
    injection this
  let L : Fin G.n_hyEdges → LocDofs dim (2 * nB) K →ₗ[K] LocDofs dim (2 * nB) K := fun e =>
    { toFun := F e
      map_add' := fun x y => by
        have := hlin e 1 1 x y
        simpa only [one_smul] using this
      map_smul' := fun a x => by
        have := hlin e a 0 x 0
        simpa only [zero_smul, add_zero, RingHom.id_apply] using this }
  let loc : LocalFun dim (2 * nB) K := fun e lambda out => do
    let d ← vget (List.ofFn data') e
    trace_to_flux m gesv S lambda out (E e) d tA
  have hloc : ∀ (e : Fin G.n_hyEdges) (u : LocDofs dim (2 * nB) K), loc e u (fun _ _ => 0) = .ok (L e u) := fun e u => by
    show (vget (List.ofFn data') e >>= fun d => trace_to_flux m gesv S u (fun _ _ => 0) (E e) d tA) = _
    rw [vget_of_lt (by simp), Res.ok_bind]
    simp only [List.getElem_ofFn]
    exact hF e u _
  obtain ⟨A, hA⟩ := HyGraph.C18_linear m G nodes hwf old0 new0 loc L hloc
  have hAx : ∀ x, A x = assemble nodes (fun e => F e (faceValues nodes x e)) := fun x => by
    have h1 := HyGraph.mat_vec_eq m G nodes hwf loc x _ (fun e => hloc e _) old0 new0
    rw [hA x] at h1
    injection h1 with h1
    exact List.ofFn_injective h1
  have hoff : ∀ (e : Fin G.n_hyEdges) (y : LocDofs dim (2 * nB) K), VanishesOnDirichlet (E e).stat y → ∀ f, D (nodes e f) → y f = 0 := by
    intro e y hy f hf
    funext j
    obtain ⟨k, rfl | rfl⟩ := halves_cases j
    · exact (hy f).1 ((hD e f).mpr hf) k
    · exact (hy f).2 ((hD' e f).mpr hf) k
  let T : Fin (G.n_hyNodes * (2 * nB)) → Prop := fun k => ∃ v j, D v ∧ dof v j = k
  have hT : ∀ x : Fin (G.n_hyNodes * (2 * nB)) → K, HyGraph.VanishesAt D x ↔ ∀ k, T k → x k = 0 := fun x =>
    ⟨fun h k ⟨v, j, hv, hk⟩ => hk ▸ h v hv j, fun h v hv j => h _ ⟨v, j, hv, rfl⟩⟩
  have hAD : ∀ x, HyGraph.VanishesAt D (A x) := fun x => by
    rw [hAx]
    exact HyGraph.assemble_vanishes nodes D _ fun e f h => hoff e _ (C63_dirichlet_zero m gesv hg S (E e) (data' e) tA _ _ _ (.inl (hF e _ 0))) f h
  have hz : ∀ y, globalFlux m gesv S E G old0 new0 (List.ofFn data') tA (List.ofFn y) = .ok (List.ofFn b) ↔ A y = b := by
    intro y
    rw [show globalFlux m gesv S E G old0 new0 (List.ofFn data') tA (List.ofFn y) = _ from hA y]
    exact ⟨fun h => List.ofFn_injective (Res.ok.inj h), fun h => by rw [h]⟩
  simp only [hz, hT]
  refine EllipticProgram.unique_masked_inj A T (fun x => (hT _).mp (hAD x)) (fun x hx h0 => ?_) b fun k hk => (hT b).mp hb k hk
  have hx' := (hT x).mpr hx
  have hsol : ∀ e : Fin G.n_hyEdges, ∃ q u p w,
      StepSolution (nB := nB) S (E e) tA (moments (form (E e).stat nB) (upper (faceValues nodes x e))) (moments (form (E e).stat nB) (lower (faceValues nodes x e))) 0 q u p w ∧
      F e (faceValues nodes x e) = fluxes (E e) S.tau ⟨q, u, p, w, faceValues nodes x e⟩ := by
    intro e
    obtain ⟨_, q, u, p, w, h1, h2⟩ := of_ok m gesv hg S (E e) (data' e) tA (hF e (faceValues nodes x e) 0)
    exact ⟨q, u, p, w, h1, h2⟩
  choose q u p w hq hFq using hsol
  have hpair : ∀ (z1 z2 : Fin G.n_hyNodes → Fin nB → K), (∀ v, D v → z1 v = 0) → (∀ v, D v → z2 v = 0) →
      ∑ e : Fin G.n_hyEdges, (∑ f, z1 (nodes e f) ⬝ᵥ faceFlux (form (E e).stat nB) S.tau (lower (faceValues nodes x e)) (p e) (w e) f +
        ∑ f, z2 (nodes e f) ⬝ᵥ faceFlux (form (E e).stat nB) S.tau (upper (faceValues nodes x e)) (q e) (u e) f) = 0 := by
    intro z1 z2 h1 h2
    obtain ⟨Z, hZ⟩ := exists_vector nodes z1 z2
    have h3 : ∑ k, Z k * A x k = 0 := by rw [h0]; simp
    rw [hAx, HyGraph.pairing_assemble] at h3
    rw [← h3]
    refine Finset.sum_congr rfl fun e _ => ?_
    have hv : VanishesOnDirichlet (E e).stat (faceValues nodes Z e) := by
      rw [hZ]
      intro f
      exact ⟨fun hf j => by rw [upper_halves, h1 _ ((hD e f).mp hf)]; rfl, fun hf j => by rw [lower_halves, h2 _ ((hD' e f).mp hf)]; rfl⟩
    rw [hFq e, fluxes, pair_off hv, hZ e, upper_halves, lower_halves]
  -- the unknowns vanish
  have hvw : ∀ e, u e = 0 ∧ w e = 0 := by
    have h1 := hpair (fun v k => x (dof v (up k))) (-(fun v k => x (dof v (lo k)))) (fun v hv => funext fun k => hx' v hv _)
      (fun v hv => funext fun k => by rw [Pi.neg_apply, Pi.neg_apply, hx' v hv (lo k), neg_zero]; rfl)
    have h2 : ∀ e : Fin G.n_hyEdges, _ := fun e => pairing S (E e) tA (hE e) hst.ne' (hq e)
    have h3 : ∀ e : Fin G.n_hyEdges, (∑ f, (fun k => x (dof (nodes e f) (up k))) ⬝ᵥ faceFlux (form (E e).stat nB) S.tau (lower (faceValues nodes x e)) (p e) (w e) f +
        ∑ f, (-(fun v k => x (dof v (lo k))) : Fin G.n_hyNodes → Fin nB → K) (nodes e f) ⬝ᵥ faceFlux (form (E e).stat nB) S.tau (upper (faceValues nodes x e)) (q e) (u e) f) =
        -((S.theta * S.delta_t)⁻¹ * (u e ⬝ᵥ (form (E e).stat nB).mass0 *ᵥ u e) + w e ⬝ᵥ coupling (E e).stat tA *ᵥ w e) := by
      intro e
      have h4 := h2 e
      rw [dotProduct_zero, zero_sub] at h4
      rw [show -((S.theta * S.delta_t)⁻¹ * (u e ⬝ᵥ (form (E e).stat nB).mass0 *ᵥ u e) + w e ⬝ᵥ coupling (E e).stat tA *ᵥ w e) =
        (S.theta * S.delta_t)⁻¹ * -(u e ⬝ᵥ (form (E e).stat nB).mass0 *ᵥ u e) - w e ⬝ᵥ coupling (E e).stat tA *ᵥ w e by ring, ← h4, sub_eq_add_neg, ← Finset.sum_neg_distrib]
      congr 1
      refine Finset.sum_congr rfl fun f _ => ?_
      rw [← neg_dotProduct]
      rfl
    rw [Finset.sum_congr rfl fun e _ => h3 e] at h1
    have h5 : ∀ e, 0 ≤ (S.theta * S.delta_t)⁻¹ * (u e ⬝ᵥ (form (E e).stat nB).mass0 *ᵥ u e) := fun e => mul_nonneg (inv_nonneg.mpr hst.le) (quad_nonneg (hE e).mass0_pos (u e))
    have h6 : ∀ e : Fin G.n_hyEdges, 0 ≤ w e ⬝ᵥ coupling (E e).stat tA *ᵥ w e := fun e => quad_nonneg (hBA e) (w e)
    intro e
    have h7 := (Finset.sum_eq_zero_iff_of_nonpos (fun e _ => by have := h5 e; have := h6 e; linarith)).mp h1 e (Finset.mem_univ e)
    have h8 := h5 e
    have h9 := h6 e
    refine ⟨quad_zero (hE e).mass0_pos ((mul_eq_zero.mp (show (S.theta * S.delta_t)⁻¹ * (u e ⬝ᵥ (form (E e).stat nB).mass0 *ᵥ u e) = 0 by linarith)).resolve_left (inv_ne_zero hst.ne')),
      quad_zero (hBA e) (by linarith)⟩
  -- the traces vanish
  have htr : ∀ (e : Fin G.n_hyEdges) (f : Fin (2 * dim)), upper (faceValues nodes x e) f = 0 ∧ lower (faceValues nodes x e) f = 0 := by
    have h1 := hpair (fun v k => x (dof v (lo k))) (fun v k => x (dof v (up k))) (fun v hv => funext fun k => hx' v hv _) (fun v hv => funext fun k => hx' v hv _)
    have h2 : ∀ e : Fin G.n_hyEdges, (∑ f, (fun k => x (dof (nodes e f) (lo k))) ⬝ᵥ faceFlux (form (E e).stat nB) S.tau (lower (faceValues nodes x e)) (p e) (w e) f +
        ∑ f, (fun k => x (dof (nodes e f) (up k))) ⬝ᵥ faceFlux (form (E e).stat nB) S.tau (upper (faceValues nodes x e)) (q e) (u e) f) =
        -(bilin (form (E e).stat nB) S.tau (p e) (w e) (lower (faceValues nodes x e)) (p e) (w e) (lower (faceValues nodes x e)) +
          bilin (form (E e).stat nB) S.tau (q e) (u e) (upper (faceValues nodes x e)) (q e) (u e) (upper (faceValues nodes x e))) := by
      intro e
      have k1 := flux_form (hE e) hst.ne' (hq e).second (hq e).second
      have k2 := flux_form (hE e) one_ne_zero (hq e).first (hq e).first
      have k3 : w e ⬝ᵥ (0 - (form (E e).stat nB).mass0 *ᵥ u e) = 0 := by rw [(hvw e).2, zero_dotProduct]
      have k4 : u e ⬝ᵥ (0 + coupling (E e).stat tA *ᵥ w e) = 0 := by rw [(hvw e).1, zero_dotProduct]
      rw [k3, zero_mul, sub_zero, mul_zero, add_zero] at k1
      rw [k4, zero_mul, sub_zero, mul_zero, add_zero] at k2
      rw [neg_add]
      exact congrArg₂ (· + ·) k1 k2
    rw [Finset.sum_congr rfl fun e _ => h2 e] at h1
    have h3 := fun e : Fin G.n_hyEdges => bilin_nonneg (hE e) ht.le (p e) (w e) (lower (faceValues nodes x e))
    have h4 := fun e : Fin G.n_hyEdges => bilin_nonneg (hE e) ht.le (q e) (u e) (upper (faceValues nodes x e))
    intro e f
    have h5 := (Finset.sum_eq_zero_iff_of_nonpos (fun e _ => by have := h3 e; have := h4 e; linarith)).mp h1 e (Finset.mem_univ e)
    have h6 := h3 e
    have h7 := h4 e
    have k1 := bilin_trace_zero (hE e) ht (show bilin (form (E e).stat nB) S.tau (p e) (w e) (lower (faceValues nodes x e)) (p e) (w e) (lower (faceValues nodes x e)) = 0 by linarith) f
    have k2 := bilin_trace_zero (hE e) ht (show bilin (form (E e).stat nB) S.tau (q e) (u e) (upper (faceValues nodes x e)) (q e) (u e) (upper (faceValues nodes x e)) = 0 by linarith) f
    unfold IsTrace at k1 k2
    rw [(hvw e).2, mulVec_zero] at k1
    rw [(hvw e).1, mulVec_zero] at k2
    exact ⟨(smul_eq_zero.mp k2).resolve_left ((hE e).area_pos f).ne', (smul_eq_zero.mp k1).resolve_left ((hE e).area_pos f).ne'⟩
  funext k
  obtain ⟨v, j, rfl⟩ := HyGraph.dof_surj k
  obtain ⟨e, f, rfl⟩ := hcov v
  obtain ⟨i, rfl | rfl⟩ := halves_cases j
  · exact congrFun (htr e f).1 i
  · exact congrFun (htr e f).2 i

/-- **C64** (each time step has exactly one solution).  Let `u` and the Laplacian be prescribed at the same hypernodes `D`, and let each hypernode belong to a hyperedge.  For a positive coefficient and positive
`tau`, `theta`, `delta_t`, whatever the data of the step before, the linear system `A y = -R` which programs solve has exactly one solution vanishing in `D`. -/
theorem C64_unique_step (m : Mode) (gesv : Gesv (n_loc_dofs dim nS) 1 K) (hg : GesvSpec gesv) (S : Solver K)
    (ht : 0 < S.tau) (hth : 0 < S.theta) (hdt : 0 < S.delta_t) (E : Nat → Edge dim nS K) (hE : ∀ e, FormLaws (form (E e).stat nB)) (time tA : K)
    (hB : ∀ e v, 0 ≤ v ⬝ᵥ coupling (E e).stat time *ᵥ v) (hBA : ∀ e v, v ≠ 0 → 0 < v ⬝ᵥ coupling (E e).stat tA *ᵥ v)
    (G : HyGraph dim (2 * nB)) (nodes : Fin G.n_hyEdges → Fin (2 * dim) → Fin G.n_hyNodes) (hwf : G.WF nodes) (hcov : ∀ v, ∃ e f, nodes e f = v) (D : Fin G.n_hyNodes → Prop)
    (hD : ∀ (e : Fin G.n_hyEdges) (f : Fin (2 * dim)), (E e).node_descriptor f ∈ (E e).dirichlet_nodes ↔ D (nodes e f))
    (hD' : ∀ (e : Fin G.n_hyEdges) (f : Fin (2 * dim)), (E e).node_descriptor f ∈ (E e).dirichlet_laplacian_nodes ↔ D (nodes e f))
    (data data' : Fin G.n_hyEdges → Data dim nS K) (old0 new0 : LocDofs dim (2 * nB) K) :
    ∃ R : Fin (G.n_hyNodes * (2 * nB)) → K, globalResidual m gesv S E G old0 new0 (List.ofFn data) time (List.ofFn (0 : Fin (G.n_hyNodes * (2 * nB)) → K)) = .ok (List.ofFn R) ∧
      ∃! y : Fin (G.n_hyNodes * (2 * nB)) → K, VanishesAt D y ∧ globalFlux m gesv S E G old0 new0 (List.ofFn data') tA (List.ofFn y) = .ok (List.ofFn (-R)) := by
  have hres : ∀ e : Fin G.n_hyEdges, ∃ r : LocDofs dim (2 * nB) K, residual_flux m gesv S 0 (fun _ _ => 0) (E e) (data e) time = .ok r := fun e => by
    obtain ⟨x, _, _, h⟩ := C63_residual m gesv hg S (E e) (data e) time (C63_solvable S ht hth hdt (E e) _ (hE e) (hB e)) _ ((storesU_iff (data e) _).mpr rfl) (0 : LocDofs dim (2 * nB) K) (fun _ _ => 0)
    exact ⟨_, h⟩
  choose R0 hR0 using hres
  have hoff : ∀ (e : Fin G.n_hyEdges) (y : LocDofs dim (2 * nB) K), VanishesOnDirichlet (E e).stat y → ∀ f, D (nodes e f) → y f = 0 := by
    intro e y hy f hf
    funext j
    obtain ⟨k, rfl | rfl⟩ := halves_cases j
    · exact (hy f).1 ((hD e f).mpr hf) k
    · exact (hy f).2 ((hD' e f).mpr hf) k
  have hRD : HyGraph.VanishesAt D (assemble nodes (fun e => R0 e)) :=
    HyGraph.assemble_vanishes nodes D _ fun e f h => hoff e _ (C63_dirichlet_zero m gesv hg S (E e) (data e) time _ _ _ (.inr (hR0 e))) f h
  refine ⟨assemble nodes (fun e => R0 e), ?_, unique_system m gesv hg S ht hth hdt E hE tA hBA G nodes hwf hcov D hD hD' data' old0 new0 _ fun v hv j => by rw [Pi.neg_apply, hRD v hv j, neg_zero]⟩
  refine mat_vec_eq m G nodes hwf _ 0 R0 (fun e => ?_) old0 new0
  rw [vget_of_lt (by simp), Res.ok_bind]
  simp only [List.getElem_ofFn]
  exact hR0 e

omit [LinearOrder K] [IsStrictOrderedRing K] in
theorem product_eq (E : Edge dim nS K) (nB : Nat) (v w : Fin nS → K) : product E v w = v ⬝ᵥ (form E.stat nB).mass0 *ᵥ w := by
  simp only [product, dotProduct, mulVec, form, of_apply, Finset.mul_sum, mul_assoc]

omit [LinearOrder K] [IsStrictOrderedRing K] in
/-- The difference of two steps. -/
theorem step_sub (S : Solver K) (E : Edge dim nS K) (time : K) {u_old u_old' : Fin nS → K} {x x' : State dim nS nB K} (h : Step S E time u_old x) (h' : Step S E time u_old' x') :
    StepSolution (nB := nB) S E time (moments (form E.stat nB) (upper (x.lambda - x'.lambda))) (moments (form E.stat nB) (lower (x.lambda - x'.lambda)))
      ((form E.stat nB).mass0 *ᵥ (u_old - u_old')) (x.q - x'.q) (x.u - x'.u) (x.p - x'.p) (x.w - x'.w) := by
  have h1 := mixed_lin 1 (-1) ((step_iff S E time u_old x).mpr h) ((step_iff S E time u_old' x').mpr h')
  have e1 : (1 : K) • x.traceU E time + (-1 : K) • x'.traceU E time = moments (form E.stat nB) (upper (x.lambda - x'.lambda)) := by
    have := moments_lin (F := form E.stat nB) (1 : K) (-1) (lambda := upper x.lambda) (mu := upper x'.lambda)
    rw [← upper_lin, one_smul, neg_one_smul, ← sub_eq_add_neg] at this
    rw [this]
    unfold State.traceU
    module
  have e2 : (1 : K) • x.traceW E time + (-1 : K) • x'.traceW E time = moments (form E.stat nB) (lower (x.lambda - x'.lambda)) := by
    have := moments_lin (F := form E.stat nB) (1 : K) (-1) (lambda := lower x.lambda) (mu := lower x'.lambda)
    rw [← lower_lin, one_smul, neg_one_smul, ← sub_eq_add_neg] at this
    rw [this]
    unfold State.traceW
    module
  have e3 : (1 : K) • stepSource S E nB u_old time + (-1 : K) • stepSource S E nB u_old' time = (form E.stat nB).mass0 *ᵥ (u_old - u_old') := by
    unfold stepSource
    rw [mulVec_sub]
    module
  rw [e1, e2, e3, smul_zero, smul_zero, add_zero] at h1
  simp only [one_smul, neg_one_smul, ← sub_eq_add_neg] at h1
  exact h1

omit [LinearOrder K] [IsStrictOrderedRing K] in
theorem step_unique (S : Solver K) (E : Edge dim nS K) (time : K) (hs : StepSolvable S E nB time) {u_old : Fin nS → K} {x x' : State dim nS nB K} (h : Step S E time u_old x)
    (h' : Step S E time u_old x') (hl : x.lambda = x'.lambda) : x = x' := by
  have h1 := (step_iff S E time u_old x).mpr h
  have h2 := (step_iff S E time u_old x').mpr h'
  unfold State.traceU State.traceW at h1 h2
  rw [← hl] at h2
  obtain ⟨e1, e2, e3, e4⟩ := mixed_unique hs h1 h2
  cases x
  cases x'
  cases e1; cases e2; cases e3; cases e4; cases hl
  rfl

section
variable (m : Mode) (gesv : Gesv (n_loc_dofs dim nS) 1 K) (hg : GesvSpec gesv) (S : Solver K)
  (ht : 0 < S.tau) (hth : 0 < S.theta) (hdt : 0 < S.delta_t) (E : Nat → Edge dim nS K) (hE : ∀ e, FormLaws (form (E e).stat nB))
  (hB : ∀ e time v, 0 ≤ v ⬝ᵥ coupling (E e).stat time *ᵥ v)
  (G : HyGraph dim (2 * nB)) (nodes : Fin G.n_hyEdges → Fin (2 * dim) → Fin G.n_hyNodes) (hwf : G.WF nodes)
  (buf0 : LocDofs dim (2 * nB) K) (x : List K) (hx : x.length = G.n_hyNodes * (2 * nB)) (data0 : Fin G.n_hyEdges → Data dim nS K) (t0 : K)
  (X : Nat → Fin (G.n_hyNodes * (2 * nB)) → K) (n : Nat) (old0 new0 : LocDofs dim (2 * nB) K) (r : List K) (D0 D1 : Fin G.n_hyEdges → Data dim nS K)
  (hd : runX m gesv S E G buf0 x data0 t0 X n = .ok (r, List.ofFn D0)) (hd' : runX m gesv S E G buf0 x data0 t0 X (n + 1) = .ok (r, List.ofFn D1))
  (tA : K) (hA : ∀ e : Fin G.n_hyEdges, coupling (E e).stat tA = coupling (E e).stat (t0 + (n + 1) • S.delta_t)) (R : Fin (G.n_hyNodes * (2 * nB)) → K)
  (hR : globalResidual m gesv S E G old0 new0 (List.ofFn D0) (t0 + (n + 1) • S.delta_t) (List.ofFn (0 : Fin (G.n_hyNodes * (2 * nB)) → K)) = .ok (List.ofFn R))
  (hsys : globalFlux m gesv S E G old0 new0 (List.ofFn D0) tA (List.ofFn (X (n + 1))) = .ok (List.ofFn (-R)))

include hg ht hth hdt hE hB hwf hx hd hd' hA hR hsys

/-- What is known about step `n` to `n + 1` of a run which solves the system. -/
theorem run_step : ∃ (u_old : Fin G.n_hyEdges → Fin nS → K) (new : Fin G.n_hyEdges → State dim nS nB K),
    (∀ e : Fin G.n_hyEdges, StoresU (D0 e) (u_old e) ∧ StoresU (D1 e) (new e).u ∧ Step S (E e) (t0 + (n + 1) • S.delta_t) (u_old e) (new e) ∧
      (new e).lambda = faceValues nodes (X (n + 1)) e) ∧
    assemble nodes (fun e : Fin G.n_hyEdges => fluxes (E e) S.tau (new e)) = 0 := by
  obtain ⟨st, r0, data, h1, h2, h3, h4, h5⟩ := C64_history m gesv hg S ht hth hdt E hE hB G nodes hwf buf0 x hx data0 t0 X n
  have hs : ∀ e : Fin G.n_hyEdges, StepSolvable S (E e) nB (t0 + (n + 1) • S.delta_t) := fun e => C63_solvable S ht hth hdt (E e) _ (hE e) (hB e _)
  rw [hd] at h1
  have hD : D0 = data := List.ofFn_injective (Prod.mk.inj (Res.ok.inj h1)).2
  subst hD
  obtain ⟨R', k1, k2⟩ := h5 old0 new0 tA hA
  rw [hR] at k1
  have hRR : R = R' := List.ofFn_injective (Res.ok.inj k1)
  subst hRR
  obtain ⟨new, l1, l2⟩ := k2 (X (n + 1))
  have l3 := l2.mp hsys
  have h : ∀ e : Fin G.n_hyEdges, _ := fun e => C63_set_data m gesv hg S (E e) (D0 e) (t0 + (n + 1) • S.delta_t) (hs e) _ (h4 e).1 (faceValues nodes (X (n + 1)) e)
  choose data' new' m1 m2 m3 m4 using h
  have m5 := C41_set_data m G nodes hwf (fun e lambda data => set_data m gesv S lambda (E e) data (t0 + (n + 1) • S.delta_t)) buf0 (X (n + 1)) D0 data' m1
  have hD1 : D1 = data' := by
    have : runX m gesv S E G buf0 x data0 t0 X (n + 1) = .ok (r, List.ofFn data') := by
      show (run m gesv S E G buf0 x (List.ofFn data0) t0 (fun k => List.ofFn (X k)) n >>= _) = _
      rw [show run m gesv S E G buf0 x (List.ofFn data0) t0 (fun k => List.ofFn (X k)) n = _ from hd, Res.ok_bind]
      dsimp only
      rw [m5]
      rfl
    rw [hd'] at this
    exact List.ofFn_injective (Prod.mk.inj (Res.ok.inj this)).2
  subst hD1
  have hnew : ∀ e : Fin G.n_hyEdges, new' e = new e := fun e => step_unique S (E e) _ (hs e) (m4 e) (l1 e).1 ((m3 e).trans (l1 e).2.symm)
  refine ⟨fun e => (st n e).u, new, fun e => ⟨(h4 e).1, hnew e ▸ (m2 e).toU, (l1 e).1, (l1 e).2⟩, funext fun k => l3 k⟩

end

/-- **C64** (stability).  Take two computations which differ in the initial value, and which solve the linear systems of step `n + 1`, with vectors vanishing where the traces are prescribed.  If `tau`, `theta`, `delta_t` are positive
and the coefficient is not negative, the distance of the two values of `u` kept by the hyperedges, in the L2 norm, does not grow from step `n` to step `n + 1`, whatever the size of the time step. -/
theorem C64_contractive (m : Mode) (gesv : Gesv (n_loc_dofs dim nS) 1 K) (hg : GesvSpec gesv) (S : Solver K)
    (ht : 0 < S.tau) (hth : 0 < S.theta) (hdt : 0 < S.delta_t) (E : Nat → Edge dim nS K) (hE : ∀ e, FormLaws (form (E e).stat nB))
    (hB : ∀ e time v, 0 ≤ v ⬝ᵥ coupling (E e).stat time *ᵥ v)
    (vol : Nat → K → Nat → K) (bdr bdr_laplace : Nat → K → Nat → Nat → K)
    (G : HyGraph dim (2 * nB)) (nodes : Fin G.n_hyEdges → Fin (2 * dim) → Fin G.n_hyNodes) (hwf : G.WF nodes)
    (buf0 : LocDofs dim (2 * nB) K) (x x' : List K) (hx : x.length = G.n_hyNodes * (2 * nB)) (hx' : x'.length = G.n_hyNodes * (2 * nB)) (data0 data0' : Fin G.n_hyEdges → Data dim nS K) (t0 : K)
    (X X' : Nat → Fin (G.n_hyNodes * (2 * nB)) → K) (n : Nat)
    (hX : ∀ e : Fin G.n_hyEdges, VanishesOnDirichlet (E e).stat (faceValues nodes (X (n + 1)) e)) (hX' : ∀ e : Fin G.n_hyEdges, VanishesOnDirichlet (E e).stat (faceValues nodes (X' (n + 1)) e))
    (old0 new0 : LocDofs dim (2 * nB) K) (r r' : List K) (D0 D1 D0' D1' : Fin G.n_hyEdges → Data dim nS K) (tA : K)
    (hA : ∀ e : Fin G.n_hyEdges, coupling (E e).stat tA = coupling (E e).stat (t0 + (n + 1) • S.delta_t)) (R R' : Fin (G.n_hyNodes * (2 * nB)) → K)
    (h0 : runX m gesv S E G buf0 x data0 t0 X n = .ok (r, List.ofFn D0)) (h1 : runX m gesv S E G buf0 x data0 t0 X (n + 1) = .ok (r, List.ofFn D1))
    (h0' : runX m gesv S (fun e => (E e).withInitial (vol e) (bdr e) (bdr_laplace e)) G buf0 x' data0' t0 X' n = .ok (r', List.ofFn D0'))
    (h1' : runX m gesv S (fun e => (E e).withInitial (vol e) (bdr e) (bdr_laplace e)) G buf0 x' data0' t0 X' (n + 1) = .ok (r', List.ofFn D1'))
    (hR : globalResidual m gesv S E G old0 new0 (List.ofFn D0) (t0 + (n + 1) • S.delta_t) (List.ofFn (0 : Fin (G.n_hyNodes * (2 * nB)) → K)) = .ok (List.ofFn R))
    (hsys : globalFlux m gesv S E G old0 new0 (List.ofFn D0) tA (List.ofFn (X (n + 1))) = .ok (List.ofFn (-R)))
    (hR' : globalResidual m gesv S (fun e => (E e).withInitial (vol e) (bdr e) (bdr_laplace e)) G old0 new0 (List.ofFn D0') (t0 + (n + 1) • S.delta_t) (List.ofFn (0 : Fin (G.n_hyNodes * (2 * nB)) → K)) = .ok (List.ofFn R'))
    (hsys' : globalFlux m gesv S (fun e => (E e).withInitial (vol e) (bdr e) (bdr_laplace e)) G old0 new0 (List.ofFn D0') tA (List.ofFn (X' (n + 1))) = .ok (List.ofFn (-R')))
    (u0 u1 u0' u1' : Fin G.n_hyEdges → Fin nS → K) (hu0 : ∀ e, StoresU (D0 e) (u0 e)) (hu1 : ∀ e, StoresU (D1 e) (u1 e)) (hu0' : ∀ e, StoresU (D0' e) (u0' e))
    (hu1' : ∀ e, StoresU (D1' e) (u1' e)) :
    ∑ e : Fin G.n_hyEdges, product (E e) (u1 e - u1' e) (u1 e - u1' e) ≤ ∑ e : Fin G.n_hyEdges, product (E e) (u0 e - u0' e) (u0 e - u0' e) := by
  obtain ⟨old, new, a1, a2⟩ := run_step m gesv hg S ht hth hdt E hE hB G nodes hwf buf0 x hx data0 t0 X n old0 new0 r D0 D1 h0 h1 tA hA R hR hsys
  obtain ⟨old', new', b1, b2⟩ := run_step m gesv hg S ht hth hdt (fun e => (E e).withInitial (vol e) (bdr e) (bdr_laplace e)) hE hB G nodes hwf buf0 x' hx' data0' t0 X' n old0 new0 r' D0' D1' h0' h1' tA hA R'
    hR' hsys'
  have huniq : ∀ {c : Data dim nS K} {u u' : Fin nS → K}, StoresU c u → StoresU c u' → u = u' := fun {c u u'} h h' => ((storesU_iff c u).mp h).symm.trans ((storesU_iff c u').mp h')
  have c0 : ∀ e, u0 e = old e := fun e => huniq (hu0 e) (a1 e).1
  have c1 : ∀ e, u1 e = (new e).u := fun e => huniq (hu1 e) (a1 e).2.1
  have c0' : ∀ e, u0' e = old' e := fun e => huniq (hu0' e) (b1 e).1
  have c1' : ∀ e, u1' e = (new' e).u := fun e => huniq (hu1' e) (b1 e).2.1
  have hstep : ∀ e : Fin G.n_hyEdges, Step S (E e) (t0 + (n + 1) • S.delta_t) (old' e) (new' e) := fun e =>
    have h := (b1 e).2.2.1
    ⟨⟨h.constraints.gradient_u, h.constraints.gradient_w, h.constraints.laplace_u⟩, h.primal⟩
  have hst := mul_pos hth hdt
  have hd : ∀ e : Fin G.n_hyEdges, _ := fun e => pairing S (E e) _ (hE e) hst.ne' (step_sub S (E e) _ (a1 e).2.2.1 (hstep e))
  -- test by the difference of the traces, exchanged
  obtain ⟨Z, hZ⟩ := exists_vector nodes (fun v (k : Fin nB) => X (n + 1) (dof v (up k)) - X' (n + 1) (dof v (up k))) (fun v (k : Fin nB) => -(X (n + 1) (dof v (lo k)) - X' (n + 1) (dof v (lo k))))
  have hl : ∀ e, (new e).lambda - (new' e).lambda = faceValues nodes (X (n + 1)) e - faceValues nodes (X' (n + 1)) e := fun e => by rw [(a1 e).2.2.2, (b1 e).2.2.2]
  have hZ1 : ∀ e, upper (faceValues nodes Z e) = upper ((new e).lambda - (new' e).lambda) := fun e => by rw [hZ e, upper_halves, hl e]; rfl
  have hZ2 : ∀ e, lower (faceValues nodes Z e) = -lower ((new e).lambda - (new' e).lambda) := fun e => by rw [hZ e, lower_halves, hl e]; rfl
  have hv : ∀ e : Fin G.n_hyEdges, VanishesOnDirichlet (E e).stat (faceValues nodes Z e) := by
    intro e f
    refine ⟨fun hf j => ?_, fun hf j => ?_⟩
    · have k1 : upper (faceValues nodes (X (n + 1)) e) f j = 0 := (hX e f).1 hf j
      have k2 : upper (faceValues nodes (X' (n + 1)) e) f j = 0 := (hX' e f).1 hf j
      rw [hZ1, hl]
      show upper (faceValues nodes (X (n + 1)) e) f j - upper (faceValues nodes (X' (n + 1)) e) f j = 0
      rw [k1, k2, sub_zero]
    · have k1 : lower (faceValues nodes (X (n + 1)) e) f j = 0 := (hX e f).2 hf j
      have k2 : lower (faceValues nodes (X' (n + 1)) e) f j = 0 := (hX' e f).2 hf j
      rw [hZ2, hl]
      show -(lower (faceValues nodes (X (n + 1)) e) f j - lower (faceValues nodes (X' (n + 1)) e) f j) = 0
      rw [k1, k2, sub_zero, neg_zero]
  have e1 := pairing_assemble nodes (fun e : Fin G.n_hyEdges => fluxes (E e) S.tau (new e)) Z
  have e2 := pairing_assemble nodes (fun e : Fin G.n_hyEdges => fluxes (E e) S.tau (new' e)) Z
  rw [a2] at e1
  rw [show assemble nodes (fun e : Fin G.n_hyEdges => fluxes (E e) S.tau (new' e)) = 0 from b2] at e2
  have e3 : ∑ e : Fin G.n_hyEdges, (∑ f, ∑ j, faceValues nodes Z e f j * fluxes (E e) S.tau (new e) f j - ∑ f, ∑ j, faceValues nodes Z e f j * fluxes (E e) S.tau (new' e) f j) = 0 := by
    rw [Finset.sum_sub_distrib, ← e1, ← e2, sub_self]
  have e4 : ∀ e : Fin G.n_hyEdges, ∑ f, ∑ j, faceValues nodes Z e f j * fluxes (E e) S.tau (new e) f j - ∑ f, ∑ j, faceValues nodes Z e f j * fluxes (E e) S.tau (new' e) f j =
      (S.theta * S.delta_t)⁻¹ * (((new e).u - (new' e).u) ⬝ᵥ (form (E e).stat nB).mass0 *ᵥ (old e - old' e) -
        ((new e).u - (new' e).u) ⬝ᵥ (form (E e).stat nB).mass0 *ᵥ ((new e).u - (new' e).u)) -
        ((new e).w - (new' e).w) ⬝ᵥ coupling (E e).stat (t0 + (n + 1) • S.delta_t) *ᵥ ((new e).w - (new' e).w) := by
    intro e
    rw [← hd e]
    have k1 := fluxes_lin (E e) S.tau 1 (-1) (new e) (new' e)
    simp only [one_smul, neg_one_smul, ← sub_eq_add_neg] at k1
    have k2 : ∑ f, ∑ j, faceValues nodes Z e f j * fluxes (E e) S.tau (new e) f j - ∑ f, ∑ j, faceValues nodes Z e f j * fluxes (E e) S.tau (new' e) f j =
        ∑ f, ∑ j, faceValues nodes Z e f j * (fluxes (E e) S.tau (new e) - fluxes (E e) S.tau (new' e)) f j := by
      simp only [← Finset.sum_sub_distrib, ← mul_sub]
      rfl
    rw [k2, ← k1, fluxes, pair_off (hv e), hZ1, hZ2]
    refine Eq.trans ?_ (sub_eq_add_neg _ _).symm
    rw [← Finset.sum_neg_distrib]
    congr 1
    refine Finset.sum_congr rfl fun f _ => ?_
    rw [← neg_dotProduct]
    rfl
  rw [Finset.sum_congr rfl fun e _ => e4 e] at e3
  simp only [product_eq _ nB, c0, c1, c0', c1']
  -- `2 a.b ≤ a.a + b.b`
  have e5 : ∀ e : Fin G.n_hyEdges, ((new e).u - (new' e).u) ⬝ᵥ (form (E e).stat nB).mass0 *ᵥ ((new e).u - (new' e).u) - (old e - old' e) ⬝ᵥ (form (E e).stat nB).mass0 *ᵥ (old e - old' e) ≤
      -(2 * (S.theta * S.delta_t)) * ((S.theta * S.delta_t)⁻¹ * (((new e).u - (new' e).u) ⬝ᵥ (form (E e).stat nB).mass0 *ᵥ (old e - old' e) -
        ((new e).u - (new' e).u) ⬝ᵥ (form (E e).stat nB).mass0 *ᵥ ((new e).u - (new' e).u)) -
        ((new e).w - (new' e).w) ⬝ᵥ coupling (E e).stat (t0 + (n + 1) • S.delta_t) *ᵥ ((new e).w - (new' e).w)) := by
    intro e
    generalize (new e).u - (new' e).u = a
    generalize old e - old' e = b
    have k1 := quad_nonneg (hE e).mass0_pos (a - b)
    have k2 := symm_dot (hE e).mass0_symm a b
    rw [mulVec_sub, dotProduct_sub, sub_dotProduct, sub_dotProduct, k2] at k1
    have k3 := mul_nonneg hst.le (hB e (t0 + (n + 1) • S.delta_t) ((new e).w - (new' e).w))
    generalize ((new e).w - (new' e).w) ⬝ᵥ coupling (E e).stat (t0 + (n + 1) • S.delta_t) *ᵥ ((new e).w - (new' e).w) = c at k3 ⊢
    rw [k2]
    have k4 : -(2 * (S.theta * S.delta_t)) * ((S.theta * S.delta_t)⁻¹ * (b ⬝ᵥ (form (E e).stat nB).mass0 *ᵥ a - a ⬝ᵥ (form (E e).stat nB).mass0 *ᵥ a) - c) =
        -2 * (b ⬝ᵥ (form (E e).stat nB).mass0 *ᵥ a - a ⬝ᵥ (form (E e).stat nB).mass0 *ᵥ a) + 2 * (S.theta * S.delta_t * c) := by
      field_simp [hth.ne', hdt.ne']
      ring
    rw [k4]
    linarith
  have e6 := Finset.sum_le_sum fun e (_ : e ∈ Finset.univ) => e5 e
  rw [← Finset.mul_sum, e3, mul_zero, Finset.sum_sub_distrib] at e6
  linarith

end

/-! ## Concrete instances -/

namespace Example

open Diffusion.Example DiffusionUniform.Example DiffusionParab.Example Bilaplacian.Example

/-- The parallelogram of `Bilaplacian.Example` with initial value `v`. -/
noncomputable def E3 (v : ℚ) (dir : List Nat) : Edge 2 1 ℚ where
  stat := Bilaplacian.Example.E2 dir
  volUni_initial := fun _ _ => v

/-- Time step 1/10, stabilisation 1. -/
def S1 (theta : ℚ) : Solver ℚ := ⟨1, theta, 1 / 10⟩

theorem E3_pos (v : ℚ) (dir : List Nat) (time : ℚ) (w : Fin 1 → ℚ) (hw : w ≠ 0) : 0 < w ⬝ᵥ coupling (E3 v dir).stat time *ᵥ w := by
  refine lt_of_lt_of_eq (mul_pos (show (0 : ℚ) < 60 by norm_num) (I2_lawful.vol_pos w hw)) ?_
  show _ = w ⬝ᵥ (Matrix.of fun i j : Fin 1 => 60 * I2.vol_phiphi i j) *ᵥ w
  simp only [dotProduct, mulVec, of_apply, Finset.mul_sum]
  exact Finset.sum_congr rfl fun i _ => Finset.sum_congr rfl fun j _ => by ring

theorem E3_nonneg (v : ℚ) (dir : List Nat) (time : ℚ) (w : Fin 1 → ℚ) : 0 ≤ w ⬝ᵥ coupling (E3 v dir).stat time *ᵥ w := quad_nonneg (E3_pos v dir time) w

theorem E3_solvable (theta : ℚ) (h : 0 < theta) (v : ℚ) (dir : List Nat) (time : ℚ) : StepSolvable (S1 theta) (E3 v dir) 1 time :=
  C63_solvable (S1 theta) one_pos h (by norm_num [S1]) (E3 v dir) time (E2_laws dir) (E3_nonneg v dir time)

/-- The hypotheses of C63 can be met. -/
example := C63_flux (nB := 1) .debug (cramerSolve _ _ ℚ) (C44_example _ _ ℚ) (S1 1) (E3 2 [0]) (fun _ => 3) 0 trace1 (fun _ _ => 7)

example := C63_residual (nB := 1) .debug (cramerSolve _ _ ℚ) (C44_example _ _ ℚ) (S1 1) (E3 2 [0]) (fun _ => 3) 0 (E3_solvable 1 one_pos 2 [0] 0) _ ((storesU_iff _ _).mpr rfl) trace1 (fun _ _ => 7)

example := C63_set_data (nB := 1) .debug (cramerSolve _ _ ℚ) (C44_example _ _ ℚ) (S1 1) (E3 2 [0]) (fun _ => 3) 0 (E3_solvable 1 one_pos 2 [0] 0) _ ((storesU_iff _ _).mpr rfl) trace1

example (y : LocDofs 2 (2 * 1) ℚ) (hy : trace_to_flux .debug (cramerSolve _ _ ℚ) (S1 1) trace1 (fun _ _ => 7) (E3 2 [0]) (fun _ => 3) 0 = .ok y) :=
  C63_symmetric .debug (cramerSolve _ _ ℚ) (C44_example _ _ ℚ) (S1 1) (by norm_num [S1]) (E3 2 [0]) _ _ 0 (E2_laws [0]) (E2_symm _ _) trace1_vanishes trace1_vanishes hy hy

example := C63_errors (nB := 1) .debug (cramerSolve _ _ ℚ) (C44_example _ _ ℚ) (S1 1) (E3 2 [0]) (fun _ => 3) 0 (E3_solvable 1 one_pos 2 [0] 0) _ ((storesU_iff _ _).mpr rfl) trace1
  (fun c => mul_nonneg (by norm_num) (sq_nonneg _))

theorem solution_of (v : ℚ) {p : Fin 2 → Fin 1 → ℚ} {w : Fin 1 → ℚ} (h1 : IsGradient (form (E3 v []).stat 1) 0 p w) (h2 : laplace (form (E3 v []).stat 1) 1 0 p w = 0) : w = 0 := by
  have := solvable_of (E2_laws []) zero_le_one le_rfl one_pos (.inl one_pos) (rho := 0) (tau := 1) (sigma := 1) p w ⟨h1, ?_⟩
  · exact this.2
  · rw [zero_smul, zero_add, one_smul]
    exact h2

/-- **C63** (the scheme is not the theta scheme for `theta = 1/2`).  On the parallelogram, two successive steps: the second one is not a step of the theta scheme from the first. -/
theorem C63_not_theta : ∃ (E : Edge 2 1 ℚ) (S : Solver ℚ) (u_old : Fin 1 → ℚ) (old new : State 2 1 1 ℚ), FormLaws (form E.stat 1) ∧ S.theta = 1 / 2 ∧ 0 < S.delta_t ∧
    Step S E 1 u_old old ∧ Step S E (1 + S.delta_t) old.u new ∧ ¬ ThetaStep S E (1 + S.delta_t) old new := by
  have hth : (0 : ℚ) < 1 / 2 := by norm_num
  obtain ⟨c, old, k1, k2, k3, k4⟩ := C63_set_data (nB := 1) .debug (cramerSolve _ _ ℚ) (C44_example _ _ ℚ) (S1 (1 / 2)) (E3 0 []) 0 1 (E3_solvable _ hth 0 [] 1) 0
    ((storesU_iff 0 _).mpr rfl) (0 : LocDofs 2 (2 * 1) ℚ)
  obtain ⟨c', new, l1, l2, l3, l4⟩ := C63_set_data (nB := 1) .debug (cramerSolve _ _ ℚ) (C44_example _ _ ℚ) (S1 (1 / 2)) (E3 0 []) c (1 + (S1 (1 / 2)).delta_t) (E3_solvable _ hth 0 [] _) _
    k2.toU (0 : LocDofs 2 (2 * 1) ℚ)
  refine ⟨E3 0 [], S1 (1 / 2), 0, old, new, E2_laws [], rfl, by norm_num [S1], k4, l4, fun h => ?_⟩
  rw [C63_theta_iff (S1 (1 / 2)) (E3 0 []) _ (by norm_num [S1]) (by norm_num [S1]) old new l4, add_sub_cancel_right] at h
  have e1 : old.traceU (E3 0 []) 1 = 0 := by
    funext f i
    have h0 : ¬ IsDirichlet (E3 0 []).stat f := List.not_mem_nil
    show ((form (E3 0 []).stat 1).psi f *ᵥ upper old.lambda f) i + _ = 0
    rw [k3, show upper (0 : LocDofs 2 (2 * 1) ℚ) f = 0 from rfl, mulVec_zero, dirichletMoments, if_neg h0]
    exact zero_add _
  have e2 : old.traceW (E3 0 []) 1 = 0 := by
    funext f i
    have h0 : ¬ IsDirichletLaplacian (E3 0 []).stat f := List.not_mem_nil
    show ((form (E3 0 []).stat 1).psi f *ᵥ lower old.lambda f) i + _ = 0
    rw [k3, show lower (0 : LocDofs 2 (2 * 1) ℚ) f = 0 from rfl, mulVec_zero, laplacianMoments, if_neg h0]
    exact zero_add _
  have g1 := k4.constraints.gradient_w
  have g2 := k4.constraints.gradient_u
  have g3 := k4.constraints.laplace_u
  have g4 := k4.primal
  unfold rate at g4
  rw [h] at g4
  rw [e2] at h g1
  rw [e1] at g2 g3
  have hw := solution_of 0 g1 h
  rw [hw, mulVec_zero] at g3
  have hu := solution_of 0 g2 g3
  rw [hu, sub_self, mulVec_zero] at g4
  have g5 : (0 : ℚ) = 1 / 10 * (1 / 2 * (20 * 1 - 0) + (1 - 1 / 2) * (20 * (1 - 1 / 10))) := congrFun g4 0
  norm_num at g5

noncomputable def edges3 (v : ℚ) (e : Nat) : Edge 2 1 ℚ := E3 v (if e = 0 then [0] else [])

/-- The hypotheses of C64 can be met. -/
example := C64_history (nB := 1) .debug (cramerSolve _ _ ℚ) (C44_example _ _ ℚ) (S1 1) one_pos one_pos (by norm_num [S1]) (edges3 2) (fun _ => E2_laws _) (fun _ => E3_nonneg _ _) G3 G2nodes G3_wf
  (fun _ _ => 7) (List.replicate 14 5) (by decide) (fun _ _ => 3) 0 (fun k _ => k) 10

example := C64_unique_step (nB := 1) .debug (cramerSolve _ _ ℚ) (C44_example _ _ ℚ) (S1 1) one_pos one_pos (by norm_num [S1]) (edges3 2) (fun _ => E2_laws _) 5 0 (fun _ => E3_nonneg _ _ _)
  (fun _ => E3_pos _ _ _) G3 G2nodes G3_wf G2_cov (· = ⟨0, by decide⟩) (Edges_dirichlet 3) (Edges_dirichlet 3) (fun _ _ => 3) (fun _ _ => 4) (fun _ _ => 7) (fun _ _ => 8)

/-- Two computations as in `C64_contractive`, for one time step. -/
example : ∃ (X X' : Nat → Fin (G3.n_hyNodes * (2 * 1)) → ℚ) (r r' : List ℚ) (D0 D1 D0' D1' : Fin G3.n_hyEdges → Data 2 1 ℚ) (R R' : Fin (G3.n_hyNodes * (2 * 1)) → ℚ),
    (∀ e : Fin G3.n_hyEdges, VanishesOnDirichlet (edges3 2 e).stat (faceValues G2nodes (X 1) e)) ∧ (∀ e : Fin G3.n_hyEdges, VanishesOnDirichlet (edges3 2 e).stat (faceValues G2nodes (X' 1) e)) ∧
    runX .debug (cramerSolve _ _ ℚ) (S1 1) (edges3 2) G3 0 (List.replicate 14 5) (fun _ _ => 3) 0 X 0 = .ok (r, List.ofFn D0) ∧
    runX .debug (cramerSolve _ _ ℚ) (S1 1) (edges3 2) G3 0 (List.replicate 14 5) (fun _ _ => 3) 0 X 1 = .ok (r, List.ofFn D1) ∧
    runX .debug (cramerSolve _ _ ℚ) (S1 1) (fun e => (edges3 2 e).withInitial (fun _ _ => 4) (fun _ _ _ => 4) (fun _ _ _ => 4)) G3 0 (List.replicate 14 5) (fun _ _ => 3) 0 X' 0 =
      .ok (r', List.ofFn D0') ∧
    runX .debug (cramerSolve _ _ ℚ) (S1 1) (fun e => (edges3 2 e).withInitial (fun _ _ => 4) (fun _ _ _ => 4) (fun _ _ _ => 4)) G3 0 (List.replicate 14 5) (fun _ _ => 3) 0 X' 1 =
      .ok (r', List.ofFn D1') ∧
    globalResidual .debug (cramerSolve _ _ ℚ) (S1 1) (edges3 2) G3 0 0 (List.ofFn D0) (0 + (0 + 1) • (1 / 10)) (List.ofFn (0 : Fin (G3.n_hyNodes * (2 * 1)) → ℚ)) = .ok (List.ofFn R) ∧
    globalFlux .debug (cramerSolve _ _ ℚ) (S1 1) (edges3 2) G3 0 0 (List.ofFn D0) 0 (List.ofFn (X 1)) = .ok (List.ofFn (-R)) ∧
    globalResidual .debug (cramerSolve _ _ ℚ) (S1 1) (fun e => (edges3 2 e).withInitial (fun _ _ => 4) (fun _ _ _ => 4) (fun _ _ _ => 4)) G3 0 0 (List.ofFn D0') (0 + (0 + 1) • (1 / 10))
      (List.ofFn (0 : Fin (G3.n_hyNodes * (2 * 1)) → ℚ)) = .ok (List.ofFn R') ∧
    globalFlux .debug (cramerSolve _ _ ℚ) (S1 1) (fun e => (edges3 2 e).withInitial (fun _ _ => 4) (fun _ _ _ => 4) (fun _ _ _ => 4)) G3 0 0 (List.ofFn D0') 0 (List.ofFn (X' 1)) =
      .ok (List.ofFn (-R')) := by
  have key : ∀ (v v' b b' : ℚ) (E : Nat → Edge 2 1 ℚ), E = (fun e => (edges3 v e).withInitial (fun _ _ => v') (fun _ _ _ => b) (fun _ _ _ => b')) →
      ∃ (X : Nat → Fin (G3.n_hyNodes * (2 * 1)) → ℚ) (r : List ℚ) (D0 D1 : Fin G3.n_hyEdges → Data 2 1 ℚ) (R : Fin (G3.n_hyNodes * (2 * 1)) → ℚ),
      (∀ e : Fin G3.n_hyEdges, VanishesOnDirichlet (edges3 2 e).stat (faceValues G2nodes (X 1) e)) ∧
      runX .debug (cramerSolve _ _ ℚ) (S1 1) E G3 0 (List.replicate 14 5) (fun _ _ => 3) 0 X 0 = .ok (r, List.ofFn D0) ∧
      runX .debug (cramerSolve _ _ ℚ) (S1 1) E G3 0 (List.replicate 14 5) (fun _ _ => 3) 0 X 1 = .ok (r, List.ofFn D1) ∧
      globalResidual .debug (cramerSolve _ _ ℚ) (S1 1) E G3 0 0 (List.ofFn D0) (0 + (0 + 1) • (1 / 10)) (List.ofFn (0 : Fin (G3.n_hyNodes * (2 * 1)) → ℚ)) = .ok (List.ofFn R) ∧
      globalFlux .debug (cramerSolve _ _ ℚ) (S1 1) E G3 0 0 (List.ofFn D0) 0 (List.ofFn (X 1)) = .ok (List.ofFn (-R)) := by
    rintro v v' b b' E rfl
    have hist := C64_history (nB := 1) .debug (cramerSolve _ _ ℚ) (C44_example _ _ ℚ) (S1 1) one_pos one_pos (by norm_num [S1])
      (fun e => (edges3 v e).withInitial (fun _ _ => v') (fun _ _ _ => b) (fun _ _ _ => b')) (fun e => E2_laws (if e = 0 then [0] else [])) (fun e => E3_nonneg v (if e = 0 then [0] else [])) G3 G2nodes G3_wf 0 (List.replicate 14 5) (by decide) (fun _ _ => 3) 0
    obtain ⟨_, r, D0, h1, _⟩ := hist 0 0
    obtain ⟨R, h2, y, ⟨h3, h4⟩, _⟩ := C64_unique_step (nB := 1) .debug (cramerSolve _ _ ℚ) (C44_example _ _ ℚ) (S1 1) one_pos one_pos (by norm_num [S1])
      (fun e => (edges3 v e).withInitial (fun _ _ => v') (fun _ _ _ => b) (fun _ _ _ => b')) (fun e => E2_laws (if e = 0 then [0] else [])) (0 + (0 + 1) • (1 / 10)) 0 (fun e => E3_nonneg v (if e = 0 then [0] else []) 0)
      (fun e => E3_pos v (if e = 0 then [0] else []) 0) G3 G2nodes G3_wf G2_cov (· = ⟨0, by decide⟩) (Edges_dirichlet 3) (Edges_dirichlet 3) D0 D0 0 0
    obtain ⟨_, r1, D1, k1, _⟩ := hist (fun _ => y) 1
    have h1' : runX .debug (cramerSolve _ _ ℚ) (S1 1) (fun e => (edges3 v e).withInitial (fun _ _ => v') (fun _ _ _ => b) (fun _ _ _ => b')) G3 0 (List.replicate 14 5) (fun _ _ => 3) 0
      (fun _ => y) 0 = .ok (List.ofFn r, List.ofFn D0) := h1
    refine ⟨fun _ => y, List.ofFn r, D0, D1, R, fun e f => ?_, h1', ?_, h2, h4⟩
    · exact ⟨fun hf j => h3 _ ((Edges_dirichlet 3 e f).mp hf) _, fun hf j => h3 _ ((Edges_dirichlet 3 e f).mp hf) _⟩
    · rw [k1]
      have k2 : (runX .debug (cramerSolve _ _ ℚ) (S1 1) (fun e => (edges3 v e).withInitial (fun _ _ => v') (fun _ _ _ => b) (fun _ _ _ => b')) G3 0 (List.replicate 14 5) (fun _ _ => 3) 0
        (fun _ => y) 0 >>= _) = _ := k1
      rw [h1', Res.ok_bind] at k2
      obtain ⟨d, _, k3⟩ := Res.bind_eq_ok.mp k2
      rw [← (Prod.mk.inj (Res.ok.inj k3)).1]
  obtain ⟨X, r, D0, D1, R, h1, h2, h3, h4, h5⟩ := key 2 2 3 1 (edges3 2) rfl
  obtain ⟨X', r', D0', D1', R', h1', h2', h3', h4', h5'⟩ := key 2 4 4 4 _ rfl
  exact ⟨X, X', r, r', D0, D1, D0', D1', R, R', h1, h1', h2, h3, h2', h3', h4, h5, h4', h5'⟩

end Example

end HyperHDG.BilaplacianParab

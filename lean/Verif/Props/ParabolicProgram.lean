import Verif.Proofs.ParabolicProgram
import Verif.Props.DiffusionParab
import Verif.Props.BilaplacianParab
import Verif.Props.AdvectionParab

/-!
# Property C89: the programs for time-dependent problems

`program W solvers N dt data` (`Verif/Model/ParabolicProgram.lean`) are the calls the Python programs make: `N` time steps of size `dt` with the object `W`.  `Exact`, `Complete` and `Total` describe the
linear solvers (`Verif/Spec/ParabolicProgram.lean`), `Steps` the vectors of the time steps (C51, C74).
-/

/-! ## Diffusion -/

namespace HyperHDG.DiffusionParab

open Finset Spec Matrix Diffusion HyGraph
open ParabolicProgram

variable {dim nS nB : Nat} {K : Type}

/-- The object of the programs for diffusion: the global loops of `Parabolic` with the local solver `DiffusionParab` (`buf0`, `old0`, `new0`: what the arrays of the loops contain at the beginning). -/
def wrapper [CommRing K] (m : Mode) (gesv : Gesv ((dim + 1) * nS) 1 K) (gesv1 : Gesv nS 1 K) (S : Solver K) (E : Nat → Edge dim nS K) (G : HyGraph dim nB)
    (buf0 old0 new0 : LocDofs dim nB K) : Wrapper K (List (Data dim nS nB K)) where
  size_of_system := G.n_hyNodes * nB
  make_initial x time data := G.make_initial_data m (fun e lambda data => make_initial m gesv1 S lambda (E e) data time) x data
  trace_to_flux x time data := globalFlux m gesv S E G old0 new0 data time x
  residual_flux x time data := globalResidual m gesv S E G old0 new0 data time x
  set_data x time data := G.set_data m (fun e lambda data => set_data m gesv S lambda (E e) data time) buf0 x data

section
variable [Field K] [LinearOrder K] [IsStrictOrderedRing K] (m : Mode) (gesv : Gesv ((dim + 1) * nS) 1 K) (hg : GesvSpec gesv)
  (gesv1 : Gesv nS 1 K) (hg1 : GesvSpec gesv1) (S : Solver K) (ht : 0 < S.tau) (hth : 0 < S.theta) (hdt : 0 < S.delta_t)
  (E : Nat → Edge dim nS K) (hO : ∀ e, Orthonormal (E e)) (hE : ∀ e time, FormLaws (form (E e).toEdge nB time))
  (hsteady : ∀ e time, form (E e).toEdge nB time = form (E e).toEdge nB 0)
  (G : HyGraph dim nB) (nodes : Fin G.n_hyEdges → Fin (2 * dim) → Fin G.n_hyNodes) (hwf : G.WF nodes) (hcov : ∀ v, ∃ e f, nodes e f = v)
  (D : Fin G.n_hyNodes → Prop) (hD : ∀ (e : Fin G.n_hyEdges) (f : Fin (2 * dim)), (E e).node_descriptor f ∈ (E e).dirichlet_nodes ↔ D (nodes e f))
  (buf0 old0 new0 : LocDofs dim nB K) (data0 : Fin G.n_hyEdges → Data dim nS nB K)

/-- `y` is a vector of a time step: it vanishes at `D` and makes `residual_flux` vanish. -/
abbrev IsStep (time : K) (data : List (Data dim nS nB K)) (y : Fin (G.n_hyNodes * nB) → K) : Prop :=
  VanishesAt D y ∧ globalResidual m gesv S E G old0 new0 data time (List.ofFn y) = .ok (List.replicate (G.n_hyNodes * nB) 0)

include hg ht hth hdt hE hsteady in
/-- For a coefficient which does not depend on the time the operator does not either. -/
theorem flux_steady (lambda out : LocDofs dim nB K) (e : Nat) (data : Data dim nS nB K) (time : K) :
    trace_to_flux m gesv S lambda out (E e) data 0 = trace_to_flux m gesv S lambda out (E e) data time := by
  have hs := fun t => (C50_solvable S ht.le hth hdt (E e) t (hE e t)).1
  obtain ⟨q, u, h1, h2⟩ := C50_flux m gesv hg S (E e) data time (hs time) lambda out
  rw [h2]
  rw [hsteady e time] at h1
  rw [flux_to_ok m gesv hg S (E e) 0 (hs 0) h1 data out]
  unfold flux
  rw [hsteady e time]

include hg ht hth hdt hE hsteady hwf hcov hD in
/-- The system of a time step. -/
theorem step_is (data : Fin G.n_hyEdges → Data dim nS nB K) (k : Nat) :
    StepIs (wrapper m gesv gesv1 S E G buf0 old0 new0) S.delta_t (IsStep m gesv S E G D old0 new0) k (List.ofFn data) := by
  generalize htime : ((k + 1 : Nat) : K) * S.delta_t = time
  have hs := fun e => (C50_solvable S ht.le hth hdt (E e) time (hE e time)).1
  have hret : ∀ (e : Fin G.n_hyEdges) (lambda : LocDofs dim nB K), ∃ y, ∀ out, trace_to_flux m gesv S lambda out (E e) (data e) time = .ok y := by
    intro e lambda
    obtain ⟨q, u, h1, _⟩ := C50_flux m gesv hg S (E e) (data e) time (hs e) lambda 0
    exact ⟨_, fun out => flux_to_ok m gesv hg S (E e) time (hs e) h1 _ out⟩
  choose F hF using hret
  have hF0 : ∀ e, F e 0 = 0 := by
    intro e
    have := C51_linear m gesv hg S (E e) time (hF e 0 0) (hF e 0 0) 0 0 0 (data e)
    simp only [zero_smul, add_zero] at this
    rw [hF] at this
    exact Res.ok.inj this
  have hr0 : ∀ e : Fin G.n_hyEdges, ∃ r, ∀ lambda : LocDofs dim nB K, residual_flux m gesv S lambda (fun _ _ => 0) (E e) (data e) time = .ok (F e lambda + r) := by
    intro e
    obtain ⟨_, r, _, h2, _⟩ := C51_affine m gesv hg S (E e) time (hs e) (data e) (data e) 0 0 0 0
    refine ⟨r, fun lambda => ?_⟩
    obtain ⟨y, r', k1, k2, k3⟩ := C51_affine m gesv hg S (E e) time (hs e) (data e) (data e) lambda 0 0 (fun _ _ => 0)
    rw [hF] at k1; injection k1 with k1
    rw [h2] at k2; injection k2 with k2
    rw [k3, k1, k2]
  choose R0 hR0 using hr0
  have hzero : ∀ (e : Fin G.n_hyEdges) (u : LocDofs dim nB K) (f : Fin (2 * dim)), D (nodes e f) → F e u f = 0 := fun e u f h =>
    funext fun j => C50_dirichlet_zero m gesv hg S (E e) (data e) time u 0 _ (.inl (hF e u 0)) f ((hD e f).mpr h) j
  unfold StepIs
  rw [htime]
  refine solution_iff m G nodes hwf old0 new0 _ _ F R0 (fun e u => ?_) (fun e u => ?_) hF0 D hzero (fun e f h => ?_) fun x hx h => ?_
  · rw [vget_of_lt (by simp), Res.ok_bind]
    simp only [List.getElem_ofFn]
    rw [flux_steady m gesv hg S ht hth hdt E hE hsteady _ _ e _ time]
    exact hF e u _
  · rw [vget_of_lt (by simp), Res.ok_bind]
    simp only [List.getElem_ofFn]
    exact hR0 e u
  · have h1 := fun j => C50_dirichlet_zero m gesv hg S (E e) (data e) time 0 _ _ (.inr (hR0 e 0)) f ((hD e f).mpr h) j
    funext j
    have h2 := h1 j
    rw [Pi.add_apply, Pi.add_apply, hzero e 0 f h] at h2
    simpa using h2
  · have hv : ∀ e : Fin G.n_hyEdges, VanishesOnDirichlet (E e).toEdge (faceValues nodes x e) := fun e f hf j => hx _ ((hD e f).mp hf) j
    have hdef := fun e : Fin G.n_hyEdges => C51_definite m gesv hg S ht hth hdt (E e) time (hE e time) (hv e) (hF e _ 0)
    have h0 := (Finset.sum_eq_zero_iff_of_nonpos (fun e _ => (hdef e).1)).mp h
    funext k
    obtain ⟨v, j, rfl⟩ := dof_surj k
    obtain ⟨e, f, rfl⟩ := hcov v
    exact congrFun (congrFun ((hdef e).2 (h0 e (Finset.mem_univ e))) f) j

omit [LinearOrder K] [IsStrictOrderedRing K] in
/-- The calls of the program are those of the runs of C50. -/
theorem runOf_eq (X : Nat → Fin (G.n_hyNodes * nB) → K) (n : Nat) :
    runOf (wrapper m gesv gesv1 S E G buf0 old0 new0) S.delta_t (List.ofFn data0) X n = runX m gesv gesv1 S E G buf0 (List.replicate (G.n_hyNodes * nB) 0) data0 0 X n := by
  induction n with
  | zero => rfl
  | succ n ih =>
    unfold runOf runX run
    rw [ih, zero_add, nsmul_eq_mul]
    rfl

omit [LinearOrder K] [IsStrictOrderedRing K] in
theorem stepsOf_iff (X : Nat → Fin (G.n_hyNodes * nB) → K) (n : Nat) :
    StepsOf (wrapper m gesv gesv1 S E G buf0 old0 new0) S.delta_t (List.ofFn data0) (IsStep m gesv S E G D old0 new0) X n ↔
      Steps m gesv gesv1 S E G buf0 (List.replicate (G.n_hyNodes * nB) 0) data0 0 D old0 new0 X n := by
  unfold StepsOf Steps
  simp only [runOf_eq, zero_add, nsmul_eq_mul]
  constructor
  · intro h k hk
    obtain ⟨r, h1, h2, h3⟩ := h k hk
    exact ⟨h2, r, h1, h3⟩
  · intro h k hk
    obtain ⟨h2, r, h1, h3⟩ := h k hk
    exact ⟨r, h1, h2, h3⟩

include hg hg1 ht hth hdt hO hE hwf in
theorem run_ok (X : Nat → Fin (G.n_hyNodes * nB) → K) (n : Nat) :
    ∃ (r0 : Fin (G.n_hyNodes * nB) → K) (data : Fin G.n_hyEdges → Data dim nS nB K), runOf (wrapper m gesv gesv1 S E G buf0 old0 new0) S.delta_t (List.ofFn data0) X n = .ok (List.ofFn r0, List.ofFn data) := by
  obtain ⟨_, r0, data, h, _⟩ := run_stores m gesv hg gesv1 hg1 S ht.le hth hdt E hO hE G nodes hwf buf0 (List.replicate (G.n_hyNodes * nB) 0) (by simp) data0 0 X n
  exact ⟨r0, data, (runOf_eq m gesv gesv1 S E G buf0 old0 new0 data0 X n).trans h⟩

include hg hg1 ht hth hdt hO hE hsteady hwf hcov hD in
theorem step_is' (X : Nat → Fin (G.n_hyNodes * nB) → K) (k : Nat) (r : List K × List (Data dim nS nB K))
    (hr : runOf (wrapper m gesv gesv1 S E G buf0 old0 new0) S.delta_t (List.ofFn data0) X k = .ok r) :
    StepIs (wrapper m gesv gesv1 S E G buf0 old0 new0) S.delta_t (IsStep m gesv S E G D old0 new0) k r.2 := by
  obtain ⟨r0, data, h⟩ := run_ok m gesv hg gesv1 hg1 S ht hth hdt E hO hE G nodes hwf buf0 old0 new0 data0 X k
  rw [h] at hr
  cases hr
  exact step_is m gesv hg gesv1 S ht hth hdt E hE hsteady G nodes hwf hcov D hD buf0 old0 new0 data k

include hg hg1 ht hth hdt hO hE hsteady hwf hcov hD in
/-- **C89** (diffusion).  If the coefficient does not depend on the time and the linear solvers are exact, then whatever the number `N` of time steps, if the program ends without exception it has computed the
time steps of C51 from time 0: the vector it returns is the last one, and the data of which `errors` is computed is the data after `N` steps. -/
theorem C89_diffusion_partial {solvers : List (LinearSolver K)} (hex : ∀ s ∈ solvers, Exact s) (N : Nat) {x : List K} {data : List (Data dim nS nB K)}
    (h : program (wrapper m gesv gesv1 S E G buf0 old0 new0) solvers N S.delta_t (List.ofFn data0) = .ok (x, data)) :
    ∃ X, Steps m gesv gesv1 S E G buf0 (List.replicate (G.n_hyNodes * nB) 0) data0 0 D old0 new0 X N ∧
      ∃ r0, runX m gesv gesv1 S E G buf0 (List.replicate (G.n_hyNodes * nB) 0) data0 0 X N = .ok (r0, data) ∧ (N = 0 → x = r0) ∧ (0 < N → x = List.ofFn (X N)) := by
  obtain ⟨X, h1, r0, h2, h3⟩ := program_spec (fun X k r _ => step_is' m gesv hg gesv1 hg1 S ht hth hdt E hO hE hsteady G nodes hwf hcov D hD buf0 old0 new0 data0 X k r) hex h
  exact ⟨X, (stepsOf_iff m gesv gesv1 S E G D buf0 old0 new0 data0 X N).mp h1, r0, (runOf_eq m gesv gesv1 S E G buf0 old0 new0 data0 X N).symm.trans h2, h3⟩

include hg hg1 ht hth hdt hO hE hsteady hwf hcov hD in
/-- **C89** (diffusion, the program ends).  If moreover one of the solvers finds a solution whenever there is one, and none has exceptions of its own, the program ends without exception. -/
theorem C89_diffusion_ends {solvers : List (LinearSolver K)} (hex : ∀ s ∈ solvers, Exact s) {s : LinearSolver K} (hs : s ∈ solvers) (hc : Complete s) (htotal : ∀ s' ∈ solvers, Total s') (N : Nat) :
    ∃ r, program (wrapper m gesv gesv1 S E G buf0 old0 new0) solvers N S.delta_t (List.ofFn data0) = .ok r := by
  refine program_ok (P := IsStep m gesv S E G D old0 new0) (fun X k r _ => step_is' m gesv hg gesv1 hg1 S ht hth hdt E hO hE hsteady G nodes hwf hcov D hD buf0 old0 new0 data0 X k r) (fun X k _ => ?_) (fun X k r _ hr => ?_) hex hs hc htotal N
  · obtain ⟨r0, data, h⟩ := run_ok m gesv hg gesv1 hg1 S ht hth hdt E hO hE G nodes hwf buf0 old0 new0 data0 X k
    exact ⟨_, h⟩
  · obtain ⟨r0, data, h⟩ := run_ok m gesv hg gesv1 hg1 S ht hth hdt E hO hE G nodes hwf buf0 old0 new0 data0 X k
    rw [h] at hr
    cases hr
    exact (C51_unique_step m gesv hg S ht hth hdt E _ (fun e => hE e _) G nodes hwf hcov D hD data old0 new0).exists

end

end HyperHDG.DiffusionParab

/-! ## Advection -/

namespace HyperHDG.AdvectionParab

open Finset Spec Matrix HyGraph
open ParabolicProgram

variable {dim nS nB : Nat} {K : Type}

/-- The object of the programs for advection: the global loops of `Parabolic` with the local solver `AdvectionParab`. -/
def wrapper [Field K] [LinearOrder K] (m : Mode) (gesv : Gesv nS 1 K) (S : Solver K) (E : Nat → Edge dim nS K) (G : HyGraph dim nB) (buf0 old0 new0 : LocDofs dim nB K) :
    Wrapper K (List (Data dim nS nB K)) where
  size_of_system := G.n_hyNodes * nB
  make_initial x time data := G.make_initial_data m (fun e lambda data => make_initial m S lambda (E e) data time) x data
  trace_to_flux x time data := globalFlux m gesv S E G old0 new0 data time x
  residual_flux x time data := globalResidual m gesv S E G old0 new0 data time x
  set_data x time data := G.set_data m (fun e lambda data => set_data m gesv S lambda (E e) data time) buf0 x data

section
variable [Field K] [LinearOrder K] [IsStrictOrderedRing K] (m : Mode) (gesv : Gesv nS 1 K) (hg : GesvSpec gesv) (S : Solver K)
  (ht : 0 ≤ S.tau) (hth : 0 < S.theta) (hdt : 0 < S.delta_t) (E : Nat → Edge dim nS K) (hO : ∀ e, Orthonormal (E e)) (hsteady : ∀ e, Steady (E e)) (P : Nat → Points dim nS nB K)
  (hP : ∀ e time, UpwindLaws (E e) time (P e)) (hN : ∀ e time, NoSinks (E e) time (P e))
  (G : HyGraph dim nB) (nodes : Fin G.n_hyEdges → Fin (2 * dim) → Fin G.n_hyNodes) (hwf : G.WF nodes) (D : Fin G.n_hyNodes → Prop) (hD : ∀ time, NodeLaws E S.tau time P nodes D)
  (buf0 old0 new0 : LocDofs dim nB K) (data0 : Fin G.n_hyEdges → Data dim nS nB K)

/-- `y` is a vector of a time step: it vanishes at `D` and makes `residual_flux` vanish. -/
abbrev IsStep (time : K) (data : List (Data dim nS nB K)) (y : Fin (G.n_hyNodes * nB) → K) : Prop :=
  VanishesAt D y ∧ globalResidual m gesv S E G old0 new0 data time (List.ofFn y) = .ok (List.replicate (G.n_hyNodes * nB) 0)

include hg ht hth hdt hsteady hP hN in
/-- For a velocity which does not depend on the time the operator does not either. -/
theorem flux_steady (lambda out : LocDofs dim nB K) (e : Nat) (data : Data dim nS nB K) (time : K) :
    trace_to_flux m gesv S lambda out (E e) data 0 = trace_to_flux m gesv S lambda out (E e) data time := by
  have hs := fun t => solvable_of (hP e t) S ht (mul_pos hth hdt).le (hN e t)
  obtain ⟨u, h1, h2⟩ := C72_flux m gesv hg S (E e) data time (hs time) lambda out
  have h3 : IsLocal S (E e) 0 ⟨u, lambda⟩ := by
    exact h1.trans (congrArg (fun z => (S.theta * S.delta_t) • z) (steady_homRate (hsteady e) S.tau time 0 _))
  rw [h2, flux_to_ok m gesv hg S (E e) data 0 (hs 0) h3 out, steady_nodeFlux (hsteady e) _ 0 time]
  refine congrArg Res.ok (funext fun f => ?_)
  unfold offDirichlet
  simp only [steady_dirichlet (hsteady e) 0 time]

include hg ht hth hdt hsteady hP hN hwf hD in
/-- The system of a time step. -/
theorem step_is (data : Fin G.n_hyEdges → Data dim nS nB K) (k : Nat)
    (hdata : ∀ (e : Fin G.n_hyEdges) f, ¬ IsDirichlet (E e) (((k + 1 : Nat) : K) * S.delta_t) f → D (nodes e f) → ∀ j, (1 - S.theta) * toMat (data e).boundary_flux_old j f = 0) :
    StepIs (wrapper m gesv S E G buf0 old0 new0) S.delta_t (IsStep m gesv S E G D old0 new0) k (List.ofFn data) := by
  generalize htime : ((k + 1 : Nat) : K) * S.delta_t = time at *
  have hs : ∀ e, Solvable S (E e) nB time := fun e => solvable_of (hP e time) S ht (mul_pos hth hdt).le (hN e time)
  have hret : ∀ (e : Fin G.n_hyEdges) (lambda : LocDofs dim nB K), ∃ u, IsLocal S (E e) time ⟨u, lambda⟩ := by
    intro e lambda
    obtain ⟨u, h1, _⟩ := C72_flux m gesv hg S (E e) (data e) time (hs e) lambda 0
    exact ⟨u, h1⟩
  choose U hU using hret
  let F : Fin G.n_hyEdges → LocDofs dim nB K → LocDofs dim nB K := fun e l => offDirichlet (E e) time (S.theta • nodeFlux (E e) S.tau time ⟨U e l, l⟩)
  have hF : ∀ (e : Fin G.n_hyEdges) (l out : LocDofs dim nB K), trace_to_flux m gesv S l out (E e) (data e) time = .ok (F e l) := fun e l out => flux_to_ok m gesv hg S (E e) (data e) time (hs e) (hU e l) out
  have hF0 : ∀ e, F e 0 = 0 := by
    intro e
    have := C72_linear m gesv hg S (E e) (data e) time (hF e 0 0) (hF e 0 0) 0 0 0 (data e)
    simp only [zero_smul, add_zero] at this
    rw [hF] at this
    exact Res.ok.inj this
  have hnf : ∀ (e : Fin G.n_hyEdges) f (x : State dim nS nB K), ¬ IsDirichlet (E e) time f → D (nodes e f) → nodeFlux (E e) S.tau time x f = 0 := by
    intro e f x h1 h2
    rcases ((hD time).dirichlet e f).mpr h2 with h | ⟨h3, h4⟩
    · exact absurd h h1
    · rw [nodeFlux, if_pos h4]
      funext j
      simp [stabFlux, h3]
  have hr0 : ∀ e : Fin G.n_hyEdges, ∃ r, (∀ lambda : LocDofs dim nB K, residual_flux m gesv S lambda (fun _ _ => 0) (E e) (data e) time = .ok (F e lambda + r)) ∧
      ∀ f, D (nodes e f) → r f = 0 := by
    intro e
    obtain ⟨_, r, _, h2, _⟩ := C72_affine m gesv hg S (E e) (data e) time (hs e) (data e) 0 0 0 0
    refine ⟨r, fun lambda => ?_, fun f hf => ?_⟩
    · obtain ⟨y, r', k1, k2, k3⟩ := C72_affine m gesv hg S (E e) (data e) time (hs e) (data e) lambda 0 0 (fun _ _ => 0)
      rw [hF] at k1; have k1 := Res.ok.inj k1
      rw [h2] at k2; have k2 := Res.ok.inj k2
      rw [k3, k1, k2]
    · obtain ⟨u, _, h3⟩ := residual_raw m gesv hg S (E e) (data e) time (hs e) 0 0
      rw [h2] at h3
      rw [Res.ok.inj h3]
      funext j
      by_cases h : IsDirichlet (E e) time f
      · simp [offDirichlet, h]
      · simp [offDirichlet, h, hnf e f _ h hf, hdata e f h hf j]
  choose R0 hR0 hR1 using hr0
  have hzero : ∀ (e : Fin G.n_hyEdges) (u : LocDofs dim nB K) (f : Fin (2 * dim)), D (nodes e f) → F e u f = 0 := fun e u f h => by
    funext j
    by_cases h' : IsDirichlet (E e) time f
    · simp [F, offDirichlet, h']
    · simp [F, offDirichlet, h', hnf e f _ h' h]
  unfold StepIs
  rw [htime]
  refine solution_iff m G nodes hwf old0 new0 _ _ F R0 (fun e u => ?_) (fun e u => ?_) hF0 D hzero hR1 fun x hx h => ?_
  · rw [vget_of_lt (by simp), Res.ok_bind]
    simp only [List.getElem_ofFn]
    rw [flux_steady m gesv hg S ht hth hdt E hsteady P hP hN _ _ e _ time]
    exact hF e u _
  · rw [vget_of_lt (by simp), Res.ok_bind]
    simp only [List.getElem_ofFn]
    exact hR0 e u
  · refine definite S ht hth hdt (fun e => hP e time) (fun e => hN e time) (hD time) (fun e => ⟨U e (faceValues nodes x e), faceValues nodes x e⟩) x hx (fun e => rfl) (fun e => hU e _) ?_
    have h2 : ∀ e : Fin G.n_hyEdges, ∑ i, ∑ j, faceValues nodes x e i j * F e (faceValues nodes x e) i j =
        S.theta * ∑ f, faceValues nodes x e f ⬝ᵥ nodeFlux (E e) S.tau time ⟨U e (faceValues nodes x e), faceValues nodes x e⟩ f := by
      intro e
      have hv : VanishesOnDirichlet (E e) time (faceValues nodes x e) := fun f hf => funext fun j => hx _ (((hD time).dirichlet e f).mp (.inl hf)) j
      rw [show F e (faceValues nodes x e) = offDirichlet (E e) time (S.theta • nodeFlux (E e) S.tau time ⟨U e (faceValues nodes x e), faceValues nodes x e⟩) from rfl,
        pair_off hv, Finset.mul_sum]
      simp only [Pi.smul_apply, dotProduct_smul, smul_eq_mul]
    rw [Finset.sum_congr rfl fun e _ => h2 e, ← Finset.mul_sum] at h
    exact (mul_eq_zero.mp h).resolve_left hth.ne'

omit [IsStrictOrderedRing K] in
/-- The calls of the program are those of the runs of C73. -/
theorem runOf_eq (X : Nat → Fin (G.n_hyNodes * nB) → K) (n : Nat) :
    runOf (wrapper m gesv S E G buf0 old0 new0) S.delta_t (List.ofFn data0) X n = runX m gesv S E G buf0 (List.replicate (G.n_hyNodes * nB) 0) data0 0 X n := by
  induction n with
  | zero => rfl
  | succ n ih =>
    unfold runOf runX run
    rw [ih, zero_add, nsmul_eq_mul]
    rfl

omit [IsStrictOrderedRing K] in
theorem stepsOf_iff (X : Nat → Fin (G.n_hyNodes * nB) → K) (n : Nat) :
    StepsOf (wrapper m gesv S E G buf0 old0 new0) S.delta_t (List.ofFn data0) (IsStep m gesv S E G D old0 new0) X n ↔
      Steps m gesv S E G buf0 (List.replicate (G.n_hyNodes * nB) 0) data0 0 D old0 new0 X n := by
  unfold StepsOf Steps
  simp only [runOf_eq, zero_add, nsmul_eq_mul]
  constructor
  · intro h k hk
    obtain ⟨r, h1, h2, h3⟩ := h k hk
    exact ⟨h2, r, h1, h3⟩
  · intro h k hk
    obtain ⟨h2, r, h1, h3⟩ := h k hk
    exact ⟨r, h1, h2, h3⟩

include hg ht hth hdt hO hsteady hP hN hwf hD in
theorem run_ok (X : Nat → Fin (G.n_hyNodes * nB) → K) (n : Nat) (hX : ∀ k < n, VanishesAt D (X (k + 1))) :
    ∃ (r0 : Fin (G.n_hyNodes * nB) → K) (data : Fin G.n_hyEdges → Data dim nS nB K), runOf (wrapper m gesv S E G buf0 old0 new0) S.delta_t (List.ofFn data0) X n = .ok (List.ofFn r0, List.ofFn data) ∧
      ∀ time (e : Fin G.n_hyEdges) f, ¬ IsDirichlet (E e) time f → D (nodes e f) → ∀ j, (1 - S.theta) * toMat (data e).boundary_flux_old j f = 0 := by
  have hs : ∀ e (k : Nat), Solvable S (E e) nB (0 + k • S.delta_t) := fun e k => solvable_of (hP e _) S ht (mul_pos hth hdt).le (hN e _)
  obtain ⟨st, r0, data, h, _, _, _, h5⟩ := run_stores m gesv hg S E hO G nodes hwf buf0 (List.replicate (G.n_hyNodes * nB) 0) (by simp) data0 0 hs X n
    fun k hk e f hf => funext fun j => hX k hk _ (((hD _).dirichlet e f).mp (.inl hf)) j
  refine ⟨r0, data, (runOf_eq m gesv S E G buf0 old0 new0 data0 X n).trans h, fun time e f h6 h7 j => ?_⟩
  rw [(h5 e).bdr]
  rcases ((hD (0 + n • S.delta_t)).dirichlet e f).mpr h7 with h8 | ⟨h8, h9⟩
  · exact absurd ((steady_dirichlet (hsteady e) _ time f).mp h8) h6
  · rw [nodeFlux, if_pos h9]
    simp [stabFlux, h8]

include hg ht hth hdt hO hsteady hP hN hwf hD in
theorem step_is' (X : Nat → Fin (G.n_hyNodes * nB) → K) (k : Nat) (r : List K × List (Data dim nS nB K))
    (hX : StepsOf (wrapper m gesv S E G buf0 old0 new0) S.delta_t (List.ofFn data0) (IsStep m gesv S E G D old0 new0) X k)
    (hr : runOf (wrapper m gesv S E G buf0 old0 new0) S.delta_t (List.ofFn data0) X k = .ok r) :
    StepIs (wrapper m gesv S E G buf0 old0 new0) S.delta_t (IsStep m gesv S E G D old0 new0) k r.2 ∧ ∃ y, IsStep m gesv S E G D old0 new0 ((k + 1 : Nat) * S.delta_t) r.2 y := by
  obtain ⟨r0, data, h, hdata⟩ := run_ok m gesv hg S ht hth hdt E hO hsteady P hP hN G nodes hwf D hD buf0 old0 new0 data0 X k fun k hk => by
    obtain ⟨_, _, h, _⟩ := hX k hk
    exact h
  rw [h] at hr
  cases hr
  exact ⟨step_is m gesv hg S ht hth hdt E hsteady P hP hN G nodes hwf D hD buf0 old0 new0 data k (hdata _),
    (C74_unique_step m gesv hg S ht hth hdt E _ P (fun e => hP e _) (fun e => hN e _) G nodes hwf D (hD _) data (hdata _) old0 new0).exists⟩

include hg ht hth hdt hO hsteady hP hN hwf hD in
/-- **C89** (advection).  If the velocity does not depend on the time (and has no sinks, as in C74) and the linear solvers are exact, then whatever the number `N` of time steps, if the program ends without
exception it has computed the time steps of C74 from time 0: the vector it returns is the last one, and the data of which `errors` is computed is the data after `N` steps. -/
theorem C89_advection_partial {solvers : List (LinearSolver K)} (hex : ∀ s ∈ solvers, Exact s) (N : Nat) {x : List K} {data : List (Data dim nS nB K)}
    (h : program (wrapper m gesv S E G buf0 old0 new0) solvers N S.delta_t (List.ofFn data0) = .ok (x, data)) :
    ∃ X, Steps m gesv S E G buf0 (List.replicate (G.n_hyNodes * nB) 0) data0 0 D old0 new0 X N ∧
      ∃ r0, runX m gesv S E G buf0 (List.replicate (G.n_hyNodes * nB) 0) data0 0 X N = .ok (r0, data) ∧ (N = 0 → x = r0) ∧ (0 < N → x = List.ofFn (X N)) := by
  obtain ⟨X, h1, r0, h2, h3⟩ := program_spec (fun X k r hX hr => (step_is' m gesv hg S ht hth hdt E hO hsteady P hP hN G nodes hwf D hD buf0 old0 new0 data0 X k r hX hr).1) hex h
  exact ⟨X, (stepsOf_iff m gesv S E G D buf0 old0 new0 data0 X N).mp h1, r0, (runOf_eq m gesv S E G buf0 old0 new0 data0 X N).symm.trans h2, h3⟩

include hg ht hth hdt hO hsteady hP hN hwf hD in
/-- **C89** (advection, the program ends).  If moreover one of the solvers finds a solution whenever there is one, and none has exceptions of its own, the program ends without exception. -/
theorem C89_advection_ends {solvers : List (LinearSolver K)} (hex : ∀ s ∈ solvers, Exact s) {s : LinearSolver K} (hs : s ∈ solvers) (hc : Complete s) (htotal : ∀ s' ∈ solvers, Total s') (N : Nat) :
    ∃ r, program (wrapper m gesv S E G buf0 old0 new0) solvers N S.delta_t (List.ofFn data0) = .ok r := by
  refine program_ok (P := IsStep m gesv S E G D old0 new0) (fun X k r hX hr => (step_is' m gesv hg S ht hth hdt E hO hsteady P hP hN G nodes hwf D hD buf0 old0 new0 data0 X k r hX hr).1)
    (fun X k hX => ?_) (fun X k r hX hr => (step_is' m gesv hg S ht hth hdt E hO hsteady P hP hN G nodes hwf D hD buf0 old0 new0 data0 X k r hX hr).2) hex hs hc htotal N
  obtain ⟨r0, data, h, _⟩ := run_ok m gesv hg S ht hth hdt E hO hsteady P hP hN G nodes hwf D hD buf0 old0 new0 data0 X k fun k hk => by
    obtain ⟨_, _, h, _⟩ := hX k hk
    exact h
  exact ⟨_, h⟩

end

end HyperHDG.AdvectionParab

/-! ## Bilaplacian -/

namespace HyperHDG.BilaplacianParab

open Finset Spec Matrix Bilaplacian HyGraph
open Mixed (halves_cases)
open ParabolicProgram

variable {dim nS nB : Nat} {K : Type}

/-- The object of the program for the biharmonic problem: the global loops of `Parabolic` with the local solver `BilaplacianParab`. -/
def wrapper [CommRing K] (m : Mode) (gesv : Gesv (n_loc_dofs dim nS) 1 K) (S : Solver K) (E : Nat → Edge dim nS K) (G : HyGraph dim (2 * nB)) (buf0 old0 new0 : LocDofs dim (2 * nB) K) :
    Wrapper K (List (Data dim nS K)) where
  size_of_system := G.n_hyNodes * (2 * nB)
  make_initial x time data := G.make_initial_data m (fun e lambda data => make_initial lambda (E e) data time) x data
  trace_to_flux x time data := globalFlux m gesv S E G old0 new0 data time x
  residual_flux x time data := globalResidual m gesv S E G old0 new0 data time x
  set_data x time data := G.set_data m (fun e lambda data => set_data m gesv S lambda (E e) data time) buf0 x data

section
variable [Field K] [LinearOrder K] [IsStrictOrderedRing K] (m : Mode) (gesv : Gesv (n_loc_dofs dim nS) 1 K) (hg : GesvSpec gesv) (S : Solver K)
  (ht : 0 < S.tau) (hth : 0 < S.theta) (hdt : 0 < S.delta_t) (E : Nat → Edge dim nS K) (hE : ∀ e, FormLaws (form (E e).stat nB))
  (hB : ∀ e time v, v ≠ 0 → 0 < v ⬝ᵥ coupling (E e).stat time *ᵥ v) (hsteady : ∀ e time, coupling (E e).stat time = coupling (E e).stat 0)
  (G : HyGraph dim (2 * nB)) (nodes : Fin G.n_hyEdges → Fin (2 * dim) → Fin G.n_hyNodes) (hwf : G.WF nodes) (hcov : ∀ v, ∃ e f, nodes e f = v) (D : Fin G.n_hyNodes → Prop)
  (hD : ∀ (e : Fin G.n_hyEdges) (f : Fin (2 * dim)), (E e).node_descriptor f ∈ (E e).dirichlet_nodes ↔ D (nodes e f))
  (hD' : ∀ (e : Fin G.n_hyEdges) (f : Fin (2 * dim)), (E e).node_descriptor f ∈ (E e).dirichlet_laplacian_nodes ↔ D (nodes e f))
  (buf0 old0 new0 : LocDofs dim (2 * nB) K) (data0 : Fin G.n_hyEdges → Data dim nS K)

/-- `y` solves the system of a time step and vanishes at `D`. -/
abbrev IsStep (time : K) (data : List (Data dim nS K)) (y : Fin (G.n_hyNodes * (2 * nB)) → K) : Prop :=
  VanishesAt D y ∧ ∃ R : Fin (G.n_hyNodes * (2 * nB)) → K, globalResidual m gesv S E G old0 new0 data time (List.ofFn (0 : Fin (G.n_hyNodes * (2 * nB)) → K)) = .ok (List.ofFn R) ∧
    globalFlux m gesv S E G old0 new0 data 0 (List.ofFn y) = .ok (List.ofFn (-R))

include hg ht hth hdt hE hB hwf hcov hD hD' in
/-- The system of a time step. -/
theorem step_is (data : Fin G.n_hyEdges → Data dim nS K) (k : Nat) :
    StepIs (wrapper m gesv S E G buf0 old0 new0) S.delta_t (IsStep m gesv S E G D old0 new0) k (List.ofFn data) ∧ ∃ y, IsStep m gesv S E G D old0 new0 ((k + 1 : Nat) * S.delta_t) (List.ofFn data) y := by
  unfold StepIs
  generalize ((k + 1 : Nat) : K) * S.delta_t = time
  have hs : ∀ e t, StepSolvable S (E e) nB t := fun e t => C63_solvable S ht hth hdt (E e) _ (hE e) fun v => quad_nonneg (hB e t) v
  have hret : ∀ (e : Fin G.n_hyEdges) (lambda : LocDofs dim (2 * nB) K), ∃ y, ∀ out, trace_to_flux m gesv S lambda out (E e) (data e) 0 = .ok y := by
    intro e lambda
    obtain ⟨q, u, p, w, h1, _⟩ := (C63_flux m gesv hg S (E e) (data e) 0 lambda 0).1 (hs e 0)
    exact ⟨_, fun out => to_ok m gesv hg S (E e) (data e) 0 (hs e 0) h1 out⟩
  choose F hF using hret
  have hres : ∀ e : Fin G.n_hyEdges, ∃ r : LocDofs dim (2 * nB) K, residual_flux m gesv S 0 (fun _ _ => 0) (E e) (data e) time = .ok r := fun e => by
    obtain ⟨x, _, _, h⟩ := C63_residual m gesv hg S (E e) (data e) time (hs e time) _ ((storesU_iff (data e) _).mpr rfl) (0 : LocDofs dim (2 * nB) K) (fun _ _ => 0)
    exact ⟨_, h⟩
  choose R0 hR0 using hres
  have hoff : ∀ (e : Fin G.n_hyEdges) (y : LocDofs dim (2 * nB) K), VanishesOnDirichlet (E e).stat y → ∀ f, D (nodes e f) → y f = 0 := by
    intro e y hy f hf
    funext j
    obtain ⟨k, rfl | rfl⟩ := halves_cases j
    · exact (hy f).1 ((hD e f).mpr hf) k
    · exact (hy f).2 ((hD' e f).mpr hf) k
  have hRD : VanishesAt D (assemble nodes (fun e => R0 e)) :=
    assemble_vanishes nodes D _ fun e f h => hoff e _ (C63_dirichlet_zero m gesv hg S (E e) (data e) time _ _ _ (.inr (hR0 e))) f h
  have hR : globalResidual m gesv S E G old0 new0 (List.ofFn data) time (List.ofFn (0 : Fin (G.n_hyNodes * (2 * nB)) → K)) = .ok (List.ofFn (assemble nodes R0)) := by
    refine mat_vec_eq m G nodes hwf _ 0 R0 (fun e => ?_) old0 new0
    rw [vget_of_lt (by simp), Res.ok_bind]
    simp only [List.getElem_ofFn]
    exact hR0 e
  have huniq := unique_system m gesv hg S ht hth hdt E hE 0 (fun e => hB e 0) G nodes hwf hcov D hD hD' data old0 new0
  have hsol := solution_iff' m G nodes hwf old0 new0 (fun e lambda out => do let d ← vget (List.ofFn data) e; trace_to_flux m gesv S lambda out (E e) d 0) F (fun e u => by
      show (vget (List.ofFn data) e >>= fun d => trace_to_flux m gesv S u (fun _ _ => 0) (E e) d 0) = _
      rw [vget_of_lt (by simp), Res.ok_bind]
      simp only [List.getElem_ofFn]
      exact hF e u _) D (fun e u f h => hoff e _ (C63_dirichlet_zero m gesv hg S (E e) (data e) 0 _ _ _ (.inl (hF e u 0))) f h) _ hRD fun b hb => by
    obtain ⟨z, hz, _⟩ := huniq b hb
    exact ⟨z, hz.2⟩
  constructor
  · refine ⟨List.ofFn (assemble nodes R0), ?_, hsol.1, fun x => (hsol.2 x).trans ⟨?_, ?_⟩⟩
    · rw [← hR]
      exact congrArg (fun z => globalResidual m gesv S E G old0 new0 (List.ofFn data) time z) (List.ofFn_const _ _).symm
    · rintro ⟨y, h1, h2, h3⟩
      exact ⟨y, h1, h2, _, hR, h3⟩
    · rintro ⟨y, h1, h2, R, h4, h3⟩
      rw [hR] at h4
      rw [← List.ofFn_injective (Res.ok.inj h4)] at h3
      exact ⟨y, h1, h2, h3⟩
  · obtain ⟨y, hy, _⟩ := huniq (-assemble nodes R0) fun v hv j => by rw [Pi.neg_apply, hRD v hv j, neg_zero]
    exact ⟨y, hy.1, _, hR, hy.2⟩

include hg ht hth hdt hE hB hwf hsteady in
/-- The states of a run which solves the systems. -/
theorem run_states (X : Nat → Fin (G.n_hyNodes * (2 * nB)) → K) (n : Nat)
    (hX : StepsOf (wrapper m gesv S E G buf0 old0 new0) S.delta_t (List.ofFn data0) (IsStep m gesv S E G D old0 new0) X n) :
    ∃ (st : Nat → Fin G.n_hyEdges → State dim nS nB K) (r0 : List K) (data : Fin G.n_hyEdges → Data dim nS K),
      runOf (wrapper m gesv S E G buf0 old0 new0) S.delta_t (List.ofFn data0) X n = .ok (r0, List.ofFn data) ∧
      (∀ e : Fin G.n_hyEdges, (st 0 e).u = fun i : Fin nS => (E e).volUni_initial 0 i) ∧
      (∀ k < n, (∀ e : Fin G.n_hyEdges, Step S (E e) ((k + 1 : Nat) * S.delta_t) (st k e).u (st (k + 1) e) ∧ (st (k + 1) e).lambda = faceValues nodes (X (k + 1)) e) ∧
        assemble nodes (fun e : Fin G.n_hyEdges => fluxes (E e) S.tau (st (k + 1) e)) = 0) ∧
      ∀ e : Fin G.n_hyEdges, StoresU (data e) (st n e).u := by
  have hs : ∀ e t, StepSolvable S (E e) nB t := fun e t => C63_solvable S ht hth hdt (E e) _ (hE e) fun v => quad_nonneg (hB e t) v
  induction n with
  | zero =>
    have h : ∀ e : Fin G.n_hyEdges, _ := fun e => C63_make_initial (nB := nB) (E e) (data0 e) 0 (fun _ _ => 0)
    choose data' h1 h2 _ using h
    obtain ⟨r, hr1, hr2, _⟩ := C41_make_initial m G nodes hwf (fun e lambda data => make_initial lambda (E e) data 0) (List.replicate (G.n_hyNodes * (2 * nB)) 0) (by simp) data0 data' _ h1
    exact ⟨fun _ e => ⟨0, fun i => (E e).volUni_initial 0 i, 0, 0, 0⟩, _, data', hr1, fun e => rfl, fun k hk => absurd hk (Nat.not_lt_zero _), h2⟩
  | succ n ih =>
    obtain ⟨st, r0, data, h1, h2, h4, h5⟩ := ih fun k hk => hX k (by omega)
    obtain ⟨r, k1, k2, R, k3, k4⟩ := hX n (by omega)
    rw [h1] at k1
    cases k1
    obtain ⟨R', j1, j2⟩ := system m gesv hg S E G nodes hwf old0 new0 ((n + 1 : Nat) * S.delta_t) 0 (fun e => hs e _) (fun e => (hsteady e _).symm) data data _ h5
    dsimp only at k3 k4
    rw [k3] at j1
    rw [List.ofFn_injective (Res.ok.inj j1)] at k4
    obtain ⟨new, z, l1, l2, l3⟩ := j2 (X (n + 1))
    rw [k4] at l2
    rw [← List.ofFn_injective (Res.ok.inj l2), neg_add_cancel] at l3
    have h : ∀ e : Fin G.n_hyEdges, _ := fun e => C63_set_data m gesv hg S (E e) (data e) ((n + 1 : Nat) * S.delta_t) (hs e _) _ (h5 e) (faceValues nodes (X (n + 1)) e)
    choose data' new' m1 m2 m3 m4 using h
    have m5 := C41_set_data m G nodes hwf (fun e lambda data => set_data m gesv S lambda (E e) data ((n + 1 : Nat) * S.delta_t)) buf0 (X (n + 1)) data data' m1
    have hnew : ∀ e : Fin G.n_hyEdges, new' e = new e := fun e => step_unique S (E e) _ (hs e _) (m4 e) (l1 e).1 ((m3 e).trans (l1 e).2.symm)
    refine ⟨fun k => if k ≤ n then st k else new, r0, data', ?_, ?_, fun k hk => ?_, fun e => ?_⟩
    · unfold runOf
      rw [h1, Res.ok_bind]
      show (G.set_data m _ buf0 _ (List.ofFn data) >>= _) = _
      rw [m5]
      rfl
    · simpa using h2
    · rcases Nat.lt_succ_iff_lt_or_eq.mp hk with hk' | rfl
      · simp only [if_pos (show k ≤ n by omega), if_pos (show k + 1 ≤ n by omega)]
        exact h4 k hk'
      · simp only [le_refl, if_true, if_neg (show ¬ k + 1 ≤ k by omega)]
        exact ⟨l1, l3.symm⟩
    · simp only [if_neg (show ¬ n + 1 ≤ n by omega)]
      rw [← hnew e]
      exact (m2 e).toU

include hg ht hth hdt hE hB hsteady hwf hcov hD hD' in
theorem step_is' (X : Nat → Fin (G.n_hyNodes * (2 * nB)) → K) (k : Nat) (r : List K × List (Data dim nS K))
    (hX : StepsOf (wrapper m gesv S E G buf0 old0 new0) S.delta_t (List.ofFn data0) (IsStep m gesv S E G D old0 new0) X k)
    (hr : runOf (wrapper m gesv S E G buf0 old0 new0) S.delta_t (List.ofFn data0) X k = .ok r) :
    StepIs (wrapper m gesv S E G buf0 old0 new0) S.delta_t (IsStep m gesv S E G D old0 new0) k r.2 ∧ ∃ y, IsStep m gesv S E G D old0 new0 ((k + 1 : Nat) * S.delta_t) r.2 y := by
  obtain ⟨st, r0, data, h, _⟩ := run_states m gesv hg S ht hth hdt E hE hB hsteady G nodes hwf D buf0 old0 new0 data0 X k hX
  rw [h] at hr
  cases hr
  exact step_is m gesv hg S ht hth hdt E hE hB G nodes hwf hcov D hD hD' buf0 old0 new0 data k

include hg ht hth hdt hE hB hsteady hwf hcov hD hD' in
/-- **C89** (bilaplacian).  If the coefficient is positive and does not depend on the time and the linear solvers are exact, then whatever the number `N + 1` of time steps, if the program ends without
exception it has computed states `st 0, ..., st (N + 1)` on the hyperedges, the first one with the projection of the initial value, each one a step from the one before, whose traces belong to
vectors vanishing at `D` and whose fluxes add up to zero at each hypernode.  The vector it returns belongs to the last one; the data belong to the one before, so that `errors`, which makes the last step again,
measures the last one. -/
theorem C89_bilaplacian_partial {solvers : List (LinearSolver K)} (hex : ∀ s ∈ solvers, Exact s) (N : Nat) {x : List K} {data : List (Data dim nS K)}
    (h : program_late (wrapper m gesv S E G buf0 old0 new0) solvers (N + 1) S.delta_t (List.ofFn data0) = .ok (x, data)) :
    ∃ (X : Nat → Fin (G.n_hyNodes * (2 * nB)) → K) (st : Nat → Fin G.n_hyEdges → State dim nS nB K) (d : Fin G.n_hyEdges → Data dim nS K),
      x = List.ofFn (X (N + 1)) ∧ data = List.ofFn d ∧ (∀ e : Fin G.n_hyEdges, (st 0 e).u = fun i : Fin nS => (E e).volUni_initial 0 i) ∧
      (∀ k < N + 1, VanishesAt D (X (k + 1)) ∧
        (∀ e : Fin G.n_hyEdges, Step S (E e) ((k + 1 : Nat) * S.delta_t) (st k e).u (st (k + 1) e) ∧ (st (k + 1) e).lambda = faceValues nodes (X (k + 1)) e) ∧
        ∀ q, (∑ e, ∑ i, ∑ j, if dof (nodes e i) j = q then fluxes (E e) S.tau (st (k + 1) e) i j else 0) = 0) ∧
      (∀ e : Fin G.n_hyEdges, StoresU (d e) (st N e).u) ∧
      ∀ e : Fin G.n_hyEdges, (∀ c, 0 ≤ (E e).vol_diffsquare ((N + 1 : Nat) * S.delta_t) c) → errors m gesv S (faceValues nodes (X (N + 1)) e) (E e) (d e) ((N + 1 : Nat) * S.delta_t) =
        .ok (fun _ => (E e).vol_diffsquare ((N + 1 : Nat) * S.delta_t) (st (N + 1) e).u) := by
  obtain ⟨X, h1, r0, h2, h3⟩ := program_late_spec (fun X k r hX hr => (step_is' m gesv hg S ht hth hdt E hE hB hsteady G nodes hwf hcov D hD hD' buf0 old0 new0 data0 X k r hX hr).1) hex h
  obtain ⟨st, _, _, k1, k2, k3, _⟩ := run_states m gesv hg S ht hth hdt E hE hB hsteady G nodes hwf D buf0 old0 new0 data0 X (N + 1) h1
  obtain ⟨st', r0', d, j1, j2, j3, j4⟩ := run_states m gesv hg S ht hth hdt E hE hB hsteady G nodes hwf D buf0 old0 new0 data0 X N fun k hk => h1 k (by omega)
  have hs : ∀ e t, StepSolvable S (E e) nB t := fun e t => C63_solvable S ht hth hdt (E e) _ (hE e) fun v => quad_nonneg (hB e t) v
  have huu : ∀ k ≤ N, ∀ e, (st' k e).u = (st k e).u := by
    intro k
    induction k with
    | zero => exact fun _ e => (j2 e).trans (k2 e).symm
    | succ k ih =>
      intro hk e
      have a := ((j3 k (by omega)).1 e)
      have b := ((k3 k (by omega)).1 e)
      rw [ih (by omega) e] at a
      rw [step_unique S (E e) _ (hs e _) a.1 b.1 (a.2.trans b.2.symm)]
  rw [h2] at j1
  have hdd : data = List.ofFn d := (Prod.mk.inj (Res.ok.inj j1)).2
  have hst : ∀ e : Fin G.n_hyEdges, StoresU (d e) (st N e).u := fun e => huu N le_rfl e ▸ j4 e
  refine ⟨X, st, d, h3, hdd, k2, fun k hk => ⟨?_, (k3 k hk).1, fun q => congrFun (k3 k hk).2 q⟩, hst, fun e hpos => ?_⟩
  · obtain ⟨_, _, h, _⟩ := h1 k hk
    exact h
  · obtain ⟨y, y1, y2, y3⟩ := C63_errors m gesv hg S (E e) (d e) ((N + 1 : Nat) * S.delta_t) (hs e _) _ (hst e) (faceValues nodes (X (N + 1)) e) hpos
    have b := ((k3 N (by omega)).1 e)
    rw [y3, step_unique S (E e) _ (hs e _) y1 b.1 (y2.trans b.2.symm)]

include hg ht hth hdt hE hB hsteady hwf hcov hD hD' in
/-- **C89** (bilaplacian, the program ends).  If moreover one of the solvers finds a solution whenever there is one, and none has exceptions of its own, the program ends without exception. -/
theorem C89_bilaplacian_ends {solvers : List (LinearSolver K)} (hex : ∀ s ∈ solvers, Exact s) {s : LinearSolver K} (hs : s ∈ solvers) (hc : Complete s) (htotal : ∀ s' ∈ solvers, Total s') (N : Nat) :
    ∃ r, program_late (wrapper m gesv S E G buf0 old0 new0) solvers (N + 1) S.delta_t (List.ofFn data0) = .ok r := by
  refine program_late_ok (P := IsStep m gesv S E G D old0 new0) (fun X k r hX hr => (step_is' m gesv hg S ht hth hdt E hE hB hsteady G nodes hwf hcov D hD hD' buf0 old0 new0 data0 X k r hX hr).1)
    (fun X k hX => ?_) (fun X k r hX hr => (step_is' m gesv hg S ht hth hdt E hE hB hsteady G nodes hwf hcov D hD hD' buf0 old0 new0 data0 X k r hX hr).2) hex hs hc htotal N
  obtain ⟨_, r0, data, h, _⟩ := run_states m gesv hg S ht hth hdt E hE hB hsteady G nodes hwf D buf0 old0 new0 data0 X k hX
  exact ⟨_, h⟩

end

end HyperHDG.BilaplacianParab

/-! ## Examples -/

namespace HyperHDG.DiffusionParab.Example

open Finset Spec Matrix Diffusion HyGraph
open ParabolicProgram HyGraph.Example
open Diffusion.Example DiffusionUniform.Example

/-- The hypotheses of C89 can be met: implicit Euler on two parallelograms with a Dirichlet node. -/
example (w : ℚ) (N : Nat) : ∃ x data X, program (wrapper .debug (cramerSolve _ _ ℚ) (cramerSolve _ _ ℚ) (S0 1) (Edges w) G2 (fun _ _ => 7) (fun _ _ => 8) (fun _ _ => 9)) [perfect] N (S0 1).delta_t
      (List.ofFn fun _ : Fin G2.n_hyEdges => Data.init) = .ok (x, data) ∧
    Steps .debug (cramerSolve _ _ ℚ) (cramerSolve _ _ ℚ) (S0 1) (Edges w) G2 (fun _ _ => 7) (List.replicate 7 0) (fun _ => Data.init) 0 (· = ⟨0, by decide⟩) (fun _ _ => 8) (fun _ _ => 9) X N := by
  have hl : ∀ s ∈ [perfect (K := ℚ)], Exact s ∧ Complete s ∧ Total s := by simpa using perfect_laws
  obtain ⟨⟨x, data⟩, h⟩ := C89_diffusion_ends .debug (cramerSolve _ _ ℚ) (C44_example _ _ ℚ) (cramerSolve _ _ ℚ) (C44_example _ _ ℚ) (S0 1) one_pos one_pos (by norm_num [S0])
    (Edges w) (fun _ => E1_orthonormal _ _) (fun _ => E1_laws _ _) (fun _ _ => rfl) G2 G2nodes G2_wf G2_cov (· = ⟨0, by decide⟩) (Edges_dirichlet w) (fun _ _ => 7) (fun _ _ => 8) (fun _ _ => 9)
    (fun _ => Data.init) (fun s hs => (hl s hs).1) List.mem_cons_self perfect_laws.2.1 (fun s hs => (hl s hs).2.2) N
  obtain ⟨X, hX, _⟩ := C89_diffusion_partial .debug (cramerSolve _ _ ℚ) (C44_example _ _ ℚ) (cramerSolve _ _ ℚ) (C44_example _ _ ℚ) (S0 1) one_pos one_pos (by norm_num [S0])
    (Edges w) (fun _ => E1_orthonormal _ _) (fun _ => E1_laws _ _) (fun _ _ => rfl) G2 G2nodes G2_wf G2_cov (· = ⟨0, by decide⟩) (Edges_dirichlet w) (fun _ _ => 7) (fun _ _ => 8) (fun _ _ => 9)
    (fun _ => Data.init) (fun s hs => (hl s hs).1) N h
  exact ⟨x, data, X, h, hX⟩

/-- A hyperedge from node `e` to node `e + 1`, inverse diffusion coefficient `1 + time ^ 2`, initial value 3. -/
def Et (e : Nat) : Edge 1 1 ℚ where
  vol_phiphi _ _ := 1
  vol_phiphifunc time _ _ := 1 + time ^ 2
  vol_nablaphiphi _ _ _ := 0
  bdr_phiphi _ _ _ := 1
  bdr_phipsi _ _ _ := 1
  vol_phifunc _ _ := 0
  bdr_phifunc _ _ _ := 0
  bdrUni_psifunc _ _ _ := 3
  vol_diffsquare _ _ := 0
  local_normal f _ := if f = 0 then -1 else 1
  face_area _ := 1
  node_descriptor f := e + f
  dirichlet_nodes := [0, 2]
  area := 1
  volUni_initial _ _ := 3
  vol_derphi_initial _ _ _ := 0
  bdr_initial _ _ _ := 3

theorem Et_orthonormal (e : Nat) : Orthonormal (Et e) := fun i j => (if_pos (Subsingleton.elim i j)).symm

theorem one_pos' {v : Fin 1 → ℚ} (hv : v ≠ 0) (c : ℚ) (hc : 0 < c) : 0 < v ⬝ᵥ (Matrix.of fun _ _ : Fin 1 => c) *ᵥ v := by
  have h0 : v 0 ≠ 0 := fun h => hv (funext fun i => by rw [Subsingleton.elim i 0, h]; rfl)
  have : v ⬝ᵥ (Matrix.of fun _ _ : Fin 1 => c) *ᵥ v = c * (v 0 * v 0) := by simp [dotProduct, mulVec]; ring
  rw [this]
  exact mul_pos hc (mul_self_pos.mpr h0)

theorem Et_laws (e : Nat) (time : ℚ) : FormLaws (form (Et e).toEdge 1 time) where
  mass_symm := by ext i j; rfl
  mass_pos v hv := one_pos' hv _ (show (0 : ℚ) < 1 + time ^ 2 by positivity)
  mass0_symm := by ext i j; rfl
  mass0_pos v hv := one_pos' hv _ one_pos
  by_parts d := by
    ext i j
    rw [show (∑ f : Fin (2 * 1), (form (Et e).toEdge 1 time).normal f d • (form (Et e).toEdge 1 time).bdr f) = _ from Fin.sum_univ_two _]
    simp [form, Et]
  area_pos _ := one_pos
  trace f := by ext i j; simp [form, Et, Matrix.mul_apply]
  unisolvent u _ h := by
    funext i
    have := congrFun (h 0) 0
    rw [Subsingleton.elim i 0]
    simpa [form, Et, mulVec, dotProduct] using this

theorem Et_dirichlet (e : Fin path.n_hyEdges) (f : Fin (2 * 1)) : (Et e).node_descriptor f ∈ (Et e).dirichlet_nodes ↔ (pathNodes e f).1 ≠ 1 := by
  have h : (Et e).node_descriptor f = e.1 + f.1 := rfl
  have h' : (Et e).dirichlet_nodes = [0, 2] := rfl
  have h1 : e.1 < 2 := e.2
  have h2 := f.2
  rw [h, h']
  show _ ↔ e.1 + f.1 ≠ 1
  simp only [List.mem_cons, List.not_mem_nil, or_false]
  omega

/-- Implicit Euler with time step 1. -/
def St : Solver ℚ := ⟨1, 1, 1⟩

/-- The vector which is `x` at the free node. -/
def atFree (x : ℚ) : Fin (path.n_hyNodes * 1) → ℚ := fun k => if k.1 = 1 then x else 0

/-- The two hyperedges. -/
def e0 : Fin path.n_hyEdges := ⟨0, by decide⟩
def e1 : Fin path.n_hyEdges := ⟨1, by decide⟩

/-- At the free node two fluxes arrive. -/
theorem at_free (y : Fin path.n_hyEdges → LocDofs 1 1 ℚ) : assemble pathNodes y ⟨1, by decide⟩ = y e0 1 0 + y e1 0 0 := by
  have key : ∀ F : Fin 2 → Fin 2 → ℚ, (∑ e : Fin path.n_hyEdges, ∑ f : Fin (2 * 1), F e f) = F 0 0 + F 0 1 + (F 1 0 + F 1 1) := fun F =>
    (Fin.sum_univ_two _).trans (congrArg₂ (· + ·) (Fin.sum_univ_two _) (Fin.sum_univ_two _))
  unfold assemble
  refine (key _).trans ?_
  simp [dof, pathNodes, Fin.ext_iff]
  rfl

theorem solution_Et {e : Nat} {time : ℚ} {g : Fin (2 * 1) → Fin 1 → ℚ} {s : Fin 1 → ℚ} {q : Fin 1 → Fin 1 → ℚ} {u : Fin 1 → ℚ} (h : IsSolution (form (Et e).toEdge 1 time) 1 1 1 g s q u) :
    (1 + time ^ 2) * q 0 0 + (g 1 0 - g 0 0) = 0 ∧ 3 * u 0 - g 0 0 - g 1 0 = s 0 := by
  have h1 := congrFun (h.flux 0) 0
  have h2 := congrFun h.primal 0
  rw [show (∑ f : Fin (2 * 1), (form (Et e).toEdge 1 time).normal f 0 • g f) = _ from Fin.sum_univ_two _] at h1
  rw [show (∑ f : Fin (2 * 1), _) = _ from Fin.sum_univ_two _] at h2
  simp [form, Et, mulVec, dotProduct] at h1 h2
  constructor
  · linear_combination h1
  · linear_combination h2

theorem flux_Et (e : Nat) (time : ℚ) (lambda out : LocDofs 1 1 ℚ) (data : Data 1 1 1 ℚ) : ∃ y, trace_to_flux .debug (cramerSolve _ _ ℚ) St lambda out (Et e) data time = .ok y ∧
    ∀ f : Fin (2 * 1), (Et e).node_descriptor f ∉ (Et e).dirichlet_nodes →
      y f 0 = (if f = 0 then 1 else -1) * (lambda 1 0 - lambda 0 0) / (1 + time ^ 2) + (lambda 0 0 + lambda 1 0) / 3 - lambda f 0 := by
  obtain ⟨q, u, h1, h2⟩ := C50_flux .debug (cramerSolve _ _ ℚ) (C44_example _ _ ℚ) St (Et e) data time (C50_solvable St zero_le_one one_pos one_pos (Et e) time (Et_laws e time)).1 lambda out
  refine ⟨_, h2, fun f hf => ?_⟩
  obtain ⟨k1, k2⟩ := solution_Et (by simpa [St] using h1)
  have k3 : ∀ f, moments (form (Et e).toEdge 1 time) lambda f 0 = lambda f 0 := fun f => by simp [moments, form, Et, mulVec, dotProduct]
  rw [k3, k3] at k1 k2
  rw [offDirichlet, if_neg (show ¬ IsDirichlet (Et e).toEdge f from hf)]
  have k4 : (1 + time ^ 2 : ℚ) ≠ 0 := by positivity
  have k5 : q 0 0 = -(lambda 1 0 - lambda 0 0) / (1 + time ^ 2) := by
    rw [eq_div_iff k4]
    linear_combination k1
  have k6 : u 0 = (lambda 0 0 + lambda 1 0) / 3 := by
    simp at k2
    linear_combination k2 / 3
  have k7 : (St.theta • flux (Et e) St.tau time ⟨q, u, lambda⟩) f 0 = (if f = 0 then -1 else 1) * q 0 0 + u 0 - lambda f 0 := by
    by_cases h0 : f = 0 <;> simp [St, flux, faceFlux, form, Et, mulVec, dotProduct, h0]
  rw [k7, k5, k6]
  split <;> ring

theorem residual_Et (e : Nat) (time : ℚ) (out : LocDofs 1 1 ℚ) (data : Data 1 1 1 ℚ) (hdata : vecOf data.u_old 0 = 3) :
    ∃ y, residual_flux .debug (cramerSolve _ _ ℚ) St 0 out (Et e) data time = .ok y ∧ ∀ f : Fin (2 * 1), (Et e).node_descriptor f ∉ (Et e).dirichlet_nodes → y f 0 = 1 := by
  obtain ⟨q, u, h1, h2⟩ := residual_raw .debug (cramerSolve _ _ ℚ) (C44_example _ _ ℚ) St (Et e) data time (C50_solvable St zero_le_one one_pos one_pos (Et e) time (Et_laws e time)).1 0 out
  refine ⟨_, h2, fun f hf => ?_⟩
  obtain ⟨k1, k2⟩ := solution_Et (by simpa [St] using h1)
  have k3 : ∀ f, trace (Et e) time (0 : LocDofs 1 1 ℚ) f 0 = 0 := fun f => by simp [trace, moments, dirichletMoments, Et]
  rw [k3, k3] at k1 k2
  rw [offDirichlet, if_neg (show ¬ IsDirichlet (Et e).toEdge f from hf)]
  have k4 : (1 + time ^ 2 : ℚ) ≠ 0 := by positivity
  have k5 : q 0 0 = 0 := by
    simpa [k4] using k1
  have k6 : stepSource St (Et e) data time 0 = 3 := by
    simp [stepSource, St, hdata, source, Et]
  have k6' : u 0 = 1 := by
    rw [show stepSource ⟨1, 1, 1⟩ (Et e) data time 0 = 3 from k6] at k2
    linarith
  have k7 : flux (Et e) St.tau time ⟨q, u, (0 : LocDofs 1 1 ℚ)⟩ f 0 = (if f = 0 then -1 else 1) * q 0 0 + u 0 := by
    by_cases h0 : f = 0 <;> simp [St, flux, faceFlux, form, Et, mulVec, dotProduct, h0]
  rw [k7, k5, k6']
  simp [St]

noncomputable abbrev Wt : Wrapper ℚ (List (Data 1 1 1 ℚ)) := wrapper .debug (cramerSolve _ _ ℚ) (cramerSolve _ _ ℚ) St Et path (fun _ _ => 7) (fun _ _ => 8) (fun _ _ => 9)

/-- `y` solves the system of the program. -/
abbrev IsStep0 (time : ℚ) (data : List (Data 1 1 1 ℚ)) (y : Fin (path.n_hyNodes * 1) → ℚ) : Prop :=
  VanishesAt (fun v : Fin path.n_hyNodes => v.1 ≠ 1) y ∧ ∃ R : Fin (path.n_hyNodes * 1) → ℚ,
    globalResidual .debug (cramerSolve _ _ ℚ) St Et path (fun _ _ => 8) (fun _ _ => 9) data time (List.ofFn (0 : Fin (path.n_hyNodes * 1) → ℚ)) = .ok (List.ofFn R) ∧
    globalFlux .debug (cramerSolve _ _ ℚ) St Et path (fun _ _ => 8) (fun _ _ => 9) data 0 (List.ofFn y) = .ok (List.ofFn (-R))

/-- Vectors which vanish at the ends are given by the value at the free node. -/
theorem ends {y z : Fin (path.n_hyNodes * 1) → ℚ} (hy : VanishesAt (fun v : Fin path.n_hyNodes => v.1 ≠ 1) y) (hz : VanishesAt (fun v : Fin path.n_hyNodes => v.1 ≠ 1) z)
    (h : y ⟨1, by decide⟩ = z ⟨1, by decide⟩) : y = z := by
  funext k
  obtain ⟨v, j, rfl⟩ := dof_surj k
  by_cases hv : v.1 = 1
  · have : dof v j = ⟨1, by decide⟩ := Fin.ext (by simp [dof, hv])
    rw [this, h]
  · rw [hy v hv j, hz v hv j]

/-- The operator at a time. -/
theorem operator_Et (time : ℚ) (data : Fin path.n_hyEdges → Data 1 1 1 ℚ) : ∃ F : Fin path.n_hyEdges → LocDofs 1 1 ℚ → LocDofs 1 1 ℚ,
    (∀ (e : Fin path.n_hyEdges) u out, trace_to_flux .debug (cramerSolve _ _ ℚ) St u out (Et e) (data e) time = .ok (F e u)) ∧ (∀ (e : Fin path.n_hyEdges) u f, (pathNodes e f).1 ≠ 1 → F e u f = 0) ∧
    (∀ x, globalFlux .debug (cramerSolve _ _ ℚ) St Et path (fun _ _ => 8) (fun _ _ => 9) (List.ofFn data) time (List.ofFn x) = .ok (List.ofFn (assemble pathNodes fun e => F e (faceValues pathNodes x e)))) ∧
    (∀ x, VanishesAt (fun v : Fin path.n_hyNodes => v.1 ≠ 1) (assemble pathNodes fun e => F e (faceValues pathNodes x e))) ∧
    ∀ x, VanishesAt (fun v : Fin path.n_hyNodes => v.1 ≠ 1) x → assemble pathNodes (fun e => F e (faceValues pathNodes x e)) ⟨1, by decide⟩ = (-2 / (1 + time ^ 2) - 4 / 3) * x ⟨1, by decide⟩ := by
  have hret : ∀ (e : Fin path.n_hyEdges) (u : LocDofs 1 1 ℚ), ∃ y, (∀ out, trace_to_flux .debug (cramerSolve _ _ ℚ) St u out (Et e) (data e) time = .ok y) ∧
      ∀ f : Fin (2 * 1), (Et e).node_descriptor f ∉ (Et e).dirichlet_nodes →
      y f 0 = (if f = 0 then 1 else -1) * (u 1 0 - u 0 0) / (1 + time ^ 2) + (u 0 0 + u 1 0) / 3 - u f 0 := by
    intro e u
    obtain ⟨q, w, h1, _⟩ := C50_flux .debug (cramerSolve _ _ ℚ) (C44_example _ _ ℚ) St (Et e) (data e) time (C50_solvable St zero_le_one one_pos one_pos (Et e) time (Et_laws e time)).1 u 0
    have h2 := flux_to_ok .debug (cramerSolve _ _ ℚ) (C44_example _ _ ℚ) St (Et e) time (C50_solvable St zero_le_one one_pos one_pos (Et e) time (Et_laws e time)).1 h1 (data e)
    obtain ⟨y, h3, h4⟩ := flux_Et e time u 0 (data e)
    refine ⟨y, fun out => ?_, h4⟩
    rw [h2 out, ← h2 0, h3]
  choose F hF hF' using hret
  have h0 : ∀ e u f, (pathNodes e f).1 ≠ 1 → F e u f = 0 := fun e u f h =>
    funext fun j => C50_dirichlet_zero .debug (cramerSolve _ _ ℚ) (C44_example _ _ ℚ) St (Et e) (data e) time u 0 _ (.inl (hF e u 0)) f ((Et_dirichlet e f).mpr h) j
  refine ⟨F, hF, h0, fun x => mat_vec_eq .debug path pathNodes path_wf _ x _ (fun e => ?_) _ _, fun x => assemble_vanishes pathNodes _ _ fun e f h => h0 e _ f h, fun x hx => ?_⟩
  · rw [vget_of_lt (by simp), Res.ok_bind]
    simp only [List.getElem_ofFn]
    exact hF e _ _
  · rw [at_free, hF' e0 _ 1 (by decide), hF' e1 _ 0 (by decide)]
    have v0 : x ⟨0, by decide⟩ = 0 := hx ⟨0, by decide⟩ (by decide) 0
    have v2 : x ⟨2, by decide⟩ = 0 := hx ⟨2, by decide⟩ (by decide) 0
    have w1 : faceValues pathNodes x e0 0 0 = x ⟨0, by decide⟩ := rfl
    have w2 : faceValues pathNodes x e0 1 0 = x ⟨1, by decide⟩ := rfl
    have w3 : faceValues pathNodes x e1 0 0 = x ⟨1, by decide⟩ := rfl
    have w4 : faceValues pathNodes x e1 1 0 = x ⟨2, by decide⟩ := rfl
    rw [w1, w2, w3, w4, v0, v2, if_pos rfl, if_neg (by decide)]
    ring

theorem step_Et (data : Fin path.n_hyEdges → Data 1 1 1 ℚ) (k : Nat) :
    StepIs Wt St.delta_t IsStep0 k (List.ofFn data) ∧ ∃ y, IsStep0 ((k + 1 : Nat) * St.delta_t) (List.ofFn data) y := by
  unfold StepIs
  generalize ((k + 1 : Nat) : ℚ) * St.delta_t = time
  obtain ⟨F, hF, h0, hA, hAD, hA1⟩ := operator_Et 0 data
  have hres : ∀ e : Fin path.n_hyEdges, ∃ r : LocDofs 1 1 ℚ, residual_flux .debug (cramerSolve _ _ ℚ) St 0 (fun _ _ => 0) (Et e) (data e) time = .ok r := fun e => by
    obtain ⟨_, _, _, h⟩ := residual_raw .debug (cramerSolve _ _ ℚ) (C44_example _ _ ℚ) St (Et e) (data e) time (C50_solvable St zero_le_one one_pos one_pos (Et e) time (Et_laws e time)).1 0 (fun _ _ => 0)
    exact ⟨_, h⟩
  choose R0 hR0 using hres
  have hRD : VanishesAt (fun v : Fin path.n_hyNodes => v.1 ≠ 1) (assemble pathNodes R0) := assemble_vanishes pathNodes _ _ fun e f h => funext fun j =>
    C50_dirichlet_zero .debug (cramerSolve _ _ ℚ) (C44_example _ _ ℚ) St (Et e) (data e) time _ _ _ (.inr (hR0 e)) f ((Et_dirichlet e f).mpr h) j
  have hR : globalResidual .debug (cramerSolve _ _ ℚ) St Et path (fun _ _ => 8) (fun _ _ => 9) (List.ofFn data) time (List.ofFn (0 : Fin (path.n_hyNodes * 1) → ℚ)) = .ok (List.ofFn (assemble pathNodes R0)) := by
    refine mat_vec_eq .debug path pathNodes path_wf _ 0 R0 (fun e => ?_) _ _
    rw [vget_of_lt (by simp), Res.ok_bind]
    simp only [List.getElem_ofFn]
    exact hR0 e
  have hsurj : ∀ b : Fin (path.n_hyNodes * 1) → ℚ, VanishesAt (fun v : Fin path.n_hyNodes => v.1 ≠ 1) b → ∃ z : Fin (path.n_hyNodes * 1) → ℚ, VanishesAt (fun v : Fin path.n_hyNodes => v.1 ≠ 1) z ∧
      globalFlux .debug (cramerSolve _ _ ℚ) St Et path (fun _ _ => 8) (fun _ _ => 9) (List.ofFn data) 0 (List.ofFn z) = .ok (List.ofFn b) := by
    intro b hb
    have hz : VanishesAt (fun v : Fin path.n_hyNodes => v.1 ≠ 1) (atFree (-3 / 10 * b ⟨1, by decide⟩)) := fun v hv j => if_neg (by have := j.2; show ¬ v.1 * 1 + j.1 = 1; omega)
    refine ⟨_, hz, (hA _).trans (congrArg (fun z => Res.ok (List.ofFn z)) (ends (hAD _) hb ?_))⟩
    rw [hA1 _ hz]
    simp only [atFree, if_true]
    ring
  have hsol := solution_iff' .debug path pathNodes path_wf (fun _ _ => 8) (fun _ _ => 9) (fun e lambda out => do let d ← vget (List.ofFn data) e; trace_to_flux .debug (cramerSolve _ _ ℚ) St lambda out (Et e) d 0) F (fun e u => by
      show (vget (List.ofFn data) e >>= fun d => trace_to_flux .debug (cramerSolve _ _ ℚ) St u (fun _ _ => 0) (Et e) d 0) = _
      rw [vget_of_lt (by simp), Res.ok_bind]
      simp only [List.getElem_ofFn]
      exact hF e u _) (fun v : Fin path.n_hyNodes => v.1 ≠ 1) (fun e u f h => h0 e u f h) _ hRD fun b hb => by
    obtain ⟨z, _, hz⟩ := hsurj b hb
    exact ⟨z, hz⟩
  constructor
  · refine ⟨List.ofFn (assemble pathNodes R0), ?_, hsol.1, fun x => (hsol.2 x).trans ⟨?_, ?_⟩⟩
    · rw [← hR]
      exact congrArg (fun z => globalResidual .debug (cramerSolve _ _ ℚ) St Et path (fun _ _ => 8) (fun _ _ => 9) (List.ofFn data) time z) (List.ofFn_const _ _).symm
    · rintro ⟨y, h1, h2, h3⟩
      exact ⟨y, h1, h2, _, hR, h3⟩
    · rintro ⟨y, h1, h2, R, h4, h3⟩
      rw [hR] at h4
      rw [← List.ofFn_injective (Res.ok.inj h4)] at h3
      exact ⟨y, h1, h2, h3⟩
  · obtain ⟨z, h1, h2⟩ := hsurj (-assemble pathNodes R0) fun v hv j => by rw [Pi.neg_apply, hRD v hv j, neg_zero]
    exact ⟨z, h1, _, hR, h2⟩

/-- **C89** (a coefficient which depends on the time).  The programs build the operator of the linear systems at time 0.  If the coefficient depends on the time, what they return need not belong to a sequence of
time steps, although every solver is exact: here it is not, after one step on two hyperedges. -/
theorem C89_time_dependent : ∃ (E : Nat → Edge 1 1 ℚ) (S : Solver ℚ) (x : List ℚ) (data : List (Data 1 1 1 ℚ)), (∀ e, Orthonormal (E e)) ∧ (∀ e time, FormLaws (form (E e).toEdge 1 time)) ∧
    0 < S.tau ∧ 0 < S.theta ∧ 0 < S.delta_t ∧ Exact (perfect (K := ℚ)) ∧
    program (wrapper .debug (cramerSolve _ _ ℚ) (cramerSolve _ _ ℚ) S E path (fun _ _ => 7) (fun _ _ => 8) (fun _ _ => 9)) [perfect] 1 S.delta_t (List.ofFn fun _ : Fin path.n_hyEdges => Data.init) = .ok (x, data) ∧
    ¬ ∃ X, Steps .debug (cramerSolve _ _ ℚ) (cramerSolve _ _ ℚ) S E path (fun _ _ => 7) (List.replicate (path.n_hyNodes * 1) 0) (fun _ => Data.init) 0 (fun v => v.1 ≠ 1) (fun _ _ => 8) (fun _ _ => 9) X 1 ∧
      x = List.ofFn (X 1) := by
  have hl : ∀ s ∈ [perfect (K := ℚ)], Exact s ∧ Complete s ∧ Total s := by simpa using perfect_laws
  have hrun := run_ok .debug (cramerSolve _ _ ℚ) (C44_example _ _ ℚ) (cramerSolve _ _ ℚ) (C44_example _ _ ℚ) St one_pos one_pos one_pos Et Et_orthonormal Et_laws path pathNodes path_wf (fun _ _ => 7) (fun _ _ => 8)
    (fun _ _ => 9) (fun _ => Data.init)
  have hstep : ∀ (X : Nat → Fin (path.n_hyNodes * 1) → ℚ) k (r : List ℚ × List (Data 1 1 1 ℚ)), runOf Wt St.delta_t (List.ofFn fun _ : Fin path.n_hyEdges => Data.init) X k = .ok r → StepIs Wt St.delta_t IsStep0 k r.2 ∧
      ∃ y, IsStep0 ((k + 1 : Nat) * St.delta_t) r.2 y := by
    intro X k r hr
    obtain ⟨r0, data, h⟩ := hrun X k
    rw [h] at hr
    cases hr
    exact step_Et data k
  obtain ⟨⟨x, data⟩, h⟩ := program_ok (P := IsStep0) (fun X k r _ hr => (hstep X k r hr).1) (fun X k _ => by
    obtain ⟨_, _, h⟩ := hrun X k
    exact ⟨_, h⟩) (fun X k r _ hr => (hstep X k r hr).2) (fun s hs => (hl s hs).1) List.mem_cons_self perfect_laws.2.1 (fun s hs => (hl s hs).2.2) 1
  obtain ⟨X, h1, r0, h2, _, h3⟩ := program_spec (P := IsStep0) (fun X k r _ hr => (hstep X k r hr).1) (fun s hs => (hl s hs).1) h
  refine ⟨Et, St, x, data, Et_orthonormal, Et_laws, one_pos, one_pos, one_pos, perfect_laws.1, h, ?_⟩
  rintro ⟨X', k1, k2⟩
  have hXX : X 1 = X' 1 := List.ofFn_injective ((h3 one_pos).symm.trans k2)
  obtain ⟨r, j1, jv, R, j2, j3⟩ := h1 0 one_pos
  obtain ⟨_, r', l1, l2⟩ := k1 0 one_pos
  obtain ⟨st, r0, data1, i1, i2, _, _, i3⟩ := run_stores .debug (cramerSolve _ _ ℚ) (C44_example _ _ ℚ) (cramerSolve _ _ ℚ) (C44_example _ _ ℚ) St zero_le_one one_pos one_pos Et Et_orthonormal Et_laws path pathNodes
    path_wf (fun _ _ => 7) (List.replicate (path.n_hyNodes * 1) 0) (by simp) (fun _ => Data.init) 0 X 0
  rw [(runOf_eq .debug (cramerSolve _ _ ℚ) (cramerSolve _ _ ℚ) St Et path (fun _ _ => 7) (fun _ _ => 8) (fun _ _ => 9) (fun _ => Data.init) X 0).trans i1] at j1
  cases j1
  rw [show run .debug (cramerSolve _ _ ℚ) (cramerSolve _ _ ℚ) St Et path (fun _ _ => 7) (List.replicate (path.n_hyNodes * 1) 0) (List.ofFn fun _ => Data.init) 0 (fun k => List.ofFn (X' k)) 0 = _ from i1] at l1
  cases l1
  have hu : ∀ e, vecOf (data1 e).u_old 0 = 3 := fun e => by
    rw [(i3 e).u, (i2 e).primal]
    rfl
  have hres : ∀ (e : Fin path.n_hyEdges), ∃ y, (∀ out, residual_flux .debug (cramerSolve _ _ ℚ) St 0 out (Et e) (data1 e) 1 = .ok y) ∧
      ∀ f : Fin (2 * 1), (Et e).node_descriptor f ∉ (Et e).dirichlet_nodes → y f 0 = 1 := by
    intro e
    obtain ⟨q, u, a1, _⟩ := residual_raw .debug (cramerSolve _ _ ℚ) (C44_example _ _ ℚ) St (Et e) (data1 e) 1 (C50_solvable St zero_le_one one_pos one_pos (Et e) 1 (Et_laws e 1)).1 (0 : LocDofs 1 1 ℚ) 0
    obtain ⟨y, a2, a3⟩ := residual_Et e 1 0 (data1 e) (hu e)
    refine ⟨y, fun out => ?_, a3⟩
    obtain ⟨q', u', a1', a2'⟩ := residual_raw .debug (cramerSolve _ _ ℚ) (C44_example _ _ ℚ) St (Et e) (data1 e) 1 (C50_solvable St zero_le_one one_pos one_pos (Et e) 1 (Et_laws e 1)).1 (0 : LocDofs 1 1 ℚ) out
    obtain ⟨q'', u'', a1'', a2''⟩ := residual_raw .debug (cramerSolve _ _ ℚ) (C44_example _ _ ℚ) St (Et e) (data1 e) 1 (C50_solvable St zero_le_one one_pos one_pos (Et e) 1 (Et_laws e 1)).1 (0 : LocDofs 1 1 ℚ) 0
    obtain ⟨b1, b2⟩ := solution_unique (C50_solvable St zero_le_one one_pos one_pos (Et e) 1 (Et_laws e 1)).1 a1' a1''
    rw [a2', b1, b2, ← a2'', a2]
  choose R0 hR0 hR1 using hres
  obtain ⟨F0, _, _, f0, _, f1⟩ := operator_Et 0 data1
  obtain ⟨F1, g, _, _, _, g1⟩ := operator_Et 1 data1
  have t1 : ((0 + 1 : Nat) : ℚ) * St.delta_t = 1 := by norm_num [St]
  have t2 : (0 : ℚ) + (0 + 1) • St.delta_t = 1 := by norm_num [St]
  rw [t1] at j2
  rw [t2] at l2
  have hR : globalResidual .debug (cramerSolve _ _ ℚ) St Et path (fun _ _ => 8) (fun _ _ => 9) (List.ofFn data1) 1 (List.ofFn (0 : Fin (path.n_hyNodes * 1) → ℚ)) = .ok (List.ofFn (assemble pathNodes R0)) := by
    refine mat_vec_eq .debug path pathNodes path_wf _ 0 R0 (fun e => ?_) _ _
    rw [vget_of_lt (by simp), Res.ok_bind]
    simp only [List.getElem_ofFn]
    exact hR0 e _
  have hR' : globalResidual .debug (cramerSolve _ _ ℚ) St Et path (fun _ _ => 8) (fun _ _ => 9) (List.ofFn data1) 1 (List.ofFn (X' 1)) =
      .ok (List.ofFn (assemble pathNodes fun e => F1 e (faceValues pathNodes (X' 1) e) + R0 e)) := by
    refine mat_vec_eq .debug path pathNodes path_wf _ (X' 1) _ (fun e => ?_) _ _
    rw [vget_of_lt (by simp), Res.ok_bind]
    simp only [List.getElem_ofFn]
    obtain ⟨y, r, c1, c2, c3⟩ := C51_affine .debug (cramerSolve _ _ ℚ) (C44_example _ _ ℚ) St (Et e) 1 (C50_solvable St zero_le_one one_pos one_pos (Et e) 1 (Et_laws e 1)).1 (data1 e) (data1 e)
      (faceValues pathNodes (X' 1) e) 0 0 (fun _ _ => 0)
    rw [g] at c1
    rw [hR0] at c2
    rw [Res.ok.inj c1, Res.ok.inj c2]
    exact c3
  have d1 := List.ofFn_injective (Res.ok.inj (hR.symm.trans j2))
  have d2 := List.ofFn_injective (Res.ok.inj ((f0 _).symm.trans j3))
  have d3 := List.ofFn_injective ((Res.ok.inj (hR'.symm.trans l2)).trans (List.ofFn_const _ 0).symm)
  have e1' := congrFun d2 ⟨1, by decide⟩
  have e2' := congrFun d3 ⟨1, by decide⟩
  have e3 := g1 (X' 1) (hXX ▸ jv)
  rw [at_free] at e3
  rw [f1 _ jv, Pi.neg_apply, ← d1, at_free, hR1 e0 1 (by decide), hR1 e1 0 (by decide)] at e1'
  rw [at_free] at e2'
  simp only [Pi.add_apply, hR1 e0 1 (by decide), hR1 e1 0 (by decide)] at e2'
  change X 1 = X' 1 at hXX
  simp only [Nat.zero_add] at e1'
  rw [hXX] at e1'
  norm_num at e1' e3
  linarith

end HyperHDG.DiffusionParab.Example

namespace HyperHDG.AdvectionParab.Example

open Finset Spec Matrix HyGraph HyGraph.Example
open ParabolicProgram

/-- The hypotheses of C89 can be met for advection: implicit Euler on two hyperedges. -/
example (w : ℚ) (N : Nat) : ∃ x data X, program (wrapper .debug (cramerSolve _ _ ℚ) (S1 1) (E1 w) path (fun _ _ => 7) (fun _ _ => 8) (fun _ _ => 9)) [perfect] N (S1 1).delta_t
      (List.ofFn fun _ : Fin path.n_hyEdges => Data.init) = .ok (x, data) ∧
    Steps .debug (cramerSolve _ _ ℚ) (S1 1) (E1 w) path (fun _ _ => 7) (List.replicate 3 0) (fun _ => Data.init) 0 (fun v => v.1 ≠ 1) (fun _ _ => 8) (fun _ _ => 9) X N := by
  have hl : ∀ s ∈ [perfect (K := ℚ)], Exact s ∧ Complete s ∧ Total s := by simpa using perfect_laws
  obtain ⟨⟨x, data⟩, h⟩ := C89_advection_ends .debug (cramerSolve _ _ ℚ) (C44_example _ _ ℚ) (S1 1) le_rfl one_pos (by norm_num [S1]) (E1 w) (E1_orthonormal w) (E1_steady w) (fun _ => P1)
    (fun e time => E1_laws w time e) (fun e time => E1_noSinks w time e) path pathNodes path_wf (fun v => v.1 ≠ 1) (fun time => E1_nodes w time) (fun _ _ => 7) (fun _ _ => 8) (fun _ _ => 9)
    (fun _ => Data.init) (fun s hs => (hl s hs).1) List.mem_cons_self perfect_laws.2.1 (fun s hs => (hl s hs).2.2) N
  obtain ⟨X, hX, _⟩ := C89_advection_partial .debug (cramerSolve _ _ ℚ) (C44_example _ _ ℚ) (S1 1) le_rfl one_pos (by norm_num [S1]) (E1 w) (E1_orthonormal w) (E1_steady w) (fun _ => P1)
    (fun e time => E1_laws w time e) (fun e time => E1_noSinks w time e) path pathNodes path_wf (fun v => v.1 ≠ 1) (fun time => E1_nodes w time) (fun _ _ => 7) (fun _ _ => 8) (fun _ _ => 9)
    (fun _ => Data.init) (fun s hs => (hl s hs).1) N h
  exact ⟨x, data, X, h, hX⟩

end HyperHDG.AdvectionParab.Example

namespace HyperHDG.BilaplacianParab.Example

open Finset Spec Matrix Bilaplacian HyGraph
open ParabolicProgram
open Diffusion.Example DiffusionUniform.Example DiffusionParab.Example Bilaplacian.Example

/-- The hypotheses of C89 can be met for the biharmonic problem. -/
example (N : Nat) : ∃ x data, program_late (wrapper .debug (cramerSolve _ _ ℚ) (S1 1) (edges3 2) G3 (fun _ _ => 7) (fun _ _ => 8) (fun _ _ => 9)) [perfect] (N + 1) (S1 1).delta_t
      (List.ofFn fun (_ : Fin G3.n_hyEdges) _ => 3) = .ok (x, data) ∧
    ∃ (X : Nat → Fin (G3.n_hyNodes * (2 * 1)) → ℚ) (st : Nat → Fin G3.n_hyEdges → State 2 1 1 ℚ), x = List.ofFn (X (N + 1)) ∧
      ∀ k < N + 1, ∀ e : Fin G3.n_hyEdges, Step (S1 1) (edges3 2 e) ((k + 1 : Nat) * (S1 1).delta_t) (st k e).u (st (k + 1) e) := by
  have hl : ∀ s ∈ [perfect (K := ℚ)], Exact s ∧ Complete s ∧ Total s := by simpa using perfect_laws
  obtain ⟨⟨x, data⟩, h⟩ := C89_bilaplacian_ends .debug (cramerSolve _ _ ℚ) (C44_example _ _ ℚ) (S1 1) one_pos one_pos (by norm_num [S1]) (edges3 2) (fun _ => E2_laws _)
    (fun _ => E3_pos _ _) (fun _ _ => rfl) G3 G2nodes G3_wf G2_cov (· = ⟨0, by decide⟩) (Edges_dirichlet 3) (Edges_dirichlet 3) (fun _ _ => 7) (fun _ _ => 8) (fun _ _ => 9)
    (fun _ _ => 3) (fun s hs => (hl s hs).1) List.mem_cons_self perfect_laws.2.1 (fun s hs => (hl s hs).2.2) N
  obtain ⟨X, st, _, h1, _, _, h2, _⟩ := C89_bilaplacian_partial .debug (cramerSolve _ _ ℚ) (C44_example _ _ ℚ) (S1 1) one_pos one_pos (by norm_num [S1]) (edges3 2) (fun _ => E2_laws _)
    (fun _ => E3_pos _ _) (fun _ _ => rfl) G3 G2nodes G3_wf G2_cov (· = ⟨0, by decide⟩) (Edges_dirichlet 3) (Edges_dirichlet 3) (fun _ _ => 7) (fun _ _ => 8) (fun _ _ => 9)
    (fun _ _ => 3) (fun s hs => (hl s hs).1) N h
  exact ⟨x, data, h, X, st, h1, fun k hk e => ((h2 k hk).2.1 e).1⟩

end HyperHDG.BilaplacianParab.Example

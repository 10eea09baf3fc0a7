import Verif.Proofs.Timoshenko
import Verif.Proofs.GlobalOk
import Verif.Props.Elliptic

/-!
# Properties C68, C69, C70: the local solver `TimoshenkoNetwork`

`E` is what the solver knows about a beam, `form E` its integrals, `frame E` its frame (direction and normals) and `coefficients E` its stiffnesses
(`Verif/Spec/Timoshenko.lean`).  `inFrame (frame E)` takes displacement and rotation to their components in the frame, `inSpace (frame E)` takes components back to
space.  `IsBeam` is the local problem of the hybridised method for a Timoshenko beam, `beamFlux` the resulting forces and moments at its ends.
-/

namespace HyperHDG.Timoshenko

open Finset Spec Matrix

variable {nS : Nat} {K : Type}

/-- The components of the values at the ends in the frame of the beam. -/
def beamEnds [CommRing K] (E : Edge nS K) (lambda : LocDofs 1 6 K) : LocDofs 1 6 K := fun f => inFrame (frame E) (lambda f)

/-- Forces and moments in space. -/
def spaceEnds [CommRing K] (E : Edge nS K) (y : LocDofs 1 6 K) : LocDofs 1 6 K := fun f => inSpace (frame E) (y f)

/-- The trace vanishes on the Dirichlet faces. -/
def VanishesOnDirichlet [Zero K] (E : Edge nS K) (lambda : LocDofs 1 6 K) : Prop := ∀ f, IsDirichlet E f → lambda f = 0

section
variable [CommRing K]

theorem beamEnds_lin (E : Edge nS K) (a b : K) (x y : LocDofs 1 6 K) : beamEnds E (a • x + b • y) = a • beamEnds E x + b • beamEnds E y := funext fun _ => inFrame_lin _ _ _ _ _

theorem beamEnds_zero (E : Edge nS K) : beamEnds E (0 : LocDofs 1 6 K) = 0 := funext fun _ => inFrame_zero _

theorem spaceEnds_lin (E : Edge nS K) (a b : K) (x y : LocDofs 1 6 K) : spaceEnds E (a • x + b • y) = a • spaceEnds E x + b • spaceEnds E y := funext fun _ => inSpace_lin _ _ _ _ _

theorem off_lin (E : Edge nS K) (a b : K) (x y : LocDofs 1 6 K) : offDirichlet E (a • x + b • y) = a • offDirichlet E x + b • offDirichlet E y := by
  funext f
  simp only [offDirichlet, Pi.add_apply, Pi.smul_apply]
  split <;> simp

theorem pair_off {E : Edge nS K} {mu : LocDofs 1 6 K} (hm : VanishesOnDirichlet E mu) (y : LocDofs 1 6 K) :
    ∑ f, ∑ j, mu f j * offDirichlet E (spaceEnds E y) f j = beamPairing (beamEnds E mu) y := by
  refine Finset.sum_congr rfl fun f _ => ?_
  by_cases h : IsDirichlet E f
  · have h1 : beamEnds E mu f = 0 := by rw [beamEnds, hm f h, inFrame_zero]
    rw [h1, hm f h]
    simp
  · have : offDirichlet E (spaceEnds E y) f = inSpace (frame E) (y f) := by simp only [offDirichlet, if_neg h]; rfl
    rw [this]
    exact space_dot (frame E) (mu f) (y f)

end

section
variable [Field K] [LinearOrder K] [IsStrictOrderedRing K] (m : Mode) (gesv : Gesv (n_loc_dofs nS) 1 K) (hg : GesvSpec gesv) (tau : K) (E : Edge nS K) (time : K)
  (hE : Complete E) (hc : ∀ d, coefficients E d ≠ 0)

omit [IsStrictOrderedRing K] in
theorem coefficients_nonneg [IsStrictOrderedRing K] (d : Fin 6) : 0 ≤ coefficients E d := by
  unfold coefficients
  cases E.extra_data with
  | none => exact zero_le_one
  | some e => fin_cases d <;> exact abs_nonneg _

theorem coefficients_pos (hc : ∀ d, coefficients E d ≠ 0) (d : Fin 6) : 0 < coefficients E d := lt_of_le_of_ne (coefficients_nonneg E d) (hc d).symm

include hg hE hc

/-- **C68** (what `trace_to_flux` computes).  If the local problem is uniquely solvable, its solution for the given displacements and rotations of the ends (taken to the frame of the beam), without
loads, is computed, and the forces and moments at the ends (taken back to space) are added to `lambda_values_out`; the entries of the Dirichlet faces are zero.  Otherwise the debug build aborts
and the release build lets the LAPACK exception through. -/
theorem C68_flux (lambda out : LocDofs 1 6 K) :
    (BeamSolvable (form E) (coefficients E) tau → ∃ q u, IsBeam (form E) (coefficients E) tau (beamMoments (form E) (beamEnds E lambda)) 0 q u ∧
      trace_to_flux m gesv tau lambda out E time = .ok (offDirichlet E (out + spaceEnds E (beamFlux (form E) tau (beamEnds E lambda) q u)))) ∧
    (¬ BeamSolvable (form E) (coefficients E) tau → trace_to_flux m gesv tau lambda out E time = solveFailure m) :=
  fluxOf_spec m gesv hg E tau (coefficients E) (extra_coeffs_eq m E hE) hc lambda out 0 (.inl rfl)

/-- **C68** (what `residual_flux` computes).  The same with the loads, and with the prescribed displacements and rotations on the Dirichlet faces. -/
theorem C68_residual (lambda out : LocDofs 1 6 K) :
    (BeamSolvable (form E) (coefficients E) tau → ∃ q u,
      IsBeam (form E) (coefficients E) tau (beamMoments (form E) (beamEnds E lambda) + dirichletMoments E) (source E) q u ∧
      residual_flux m gesv tau lambda out E time = .ok (offDirichlet E (out + spaceEnds E (beamFlux (form E) tau (beamEnds E lambda) q u)))) ∧
    (¬ BeamSolvable (form E) (coefficients E) tau → residual_flux m gesv tau lambda out E time = solveFailure m) :=
  fluxOf_spec m gesv hg E tau (coefficients E) (extra_coeffs_eq m E hE) hc lambda out 1 (.inr rfl)

theorem of_ok {lambda y : LocDofs 1 6 K} (h : trace_to_flux m gesv tau lambda 0 E time = .ok y) : BeamSolvable (form E) (coefficients E) tau ∧
    ∃ q u, IsBeam (form E) (coefficients E) tau (beamMoments (form E) (beamEnds E lambda)) 0 q u ∧ y = offDirichlet E (spaceEnds E (beamFlux (form E) tau (beamEnds E lambda) q u)) := by
  have hf := C68_flux m gesv hg tau E time hE hc lambda 0
  by_cases hs : BeamSolvable (form E) (coefficients E) tau
  · obtain ⟨q, u, h1, h2⟩ := hf.1 hs
    rw [h, zero_add] at h2
    injection h2 with h2
    exact ⟨hs, q, u, h1, h2⟩
  · have := hf.2 hs
    rw [h] at this
    cases m <;> cases this

theorem to_ok (hs : BeamSolvable (form E) (coefficients E) tau) {lambda : LocDofs 1 6 K} {q u : Fin 6 → Fin nS → K}
    (h : IsBeam (form E) (coefficients E) tau (beamMoments (form E) (beamEnds E lambda)) 0 q u) (out : LocDofs 1 6 K) :
    trace_to_flux m gesv tau lambda out E time = .ok (offDirichlet E (out + spaceEnds E (beamFlux (form E) tau (beamEnds E lambda) q u))) := by
  obtain ⟨q', u', h1, h2⟩ := (C68_flux m gesv hg tau E time hE hc lambda out).1 hs
  obtain ⟨rfl, rfl⟩ := beam_unique hs h h1
  exact h2

/-- **C68** (linear).  `trace_to_flux` is linear in the trace. -/
theorem C68_linear {x y Fx Fy : LocDofs 1 6 K} (hx : trace_to_flux m gesv tau x 0 E time = .ok Fx) (hy : trace_to_flux m gesv tau y 0 E time = .ok Fy) (a b : K) :
    trace_to_flux m gesv tau (a • x + b • y) 0 E time = .ok (a • Fx + b • Fy) := by
  obtain ⟨hs, q, u, h1, rfl⟩ := of_ok m gesv hg tau E time hE hc hx
  obtain ⟨_, q', u', h2, rfl⟩ := of_ok m gesv hg tau E time hE hc hy
  have h3 := beam_lin a b h1 h2
  rw [← beamMoments_lin, ← beamEnds_lin, smul_zero, smul_zero, add_zero] at h3
  rw [to_ok m gesv hg tau E time hE hc hs h3, zero_add, ← off_lin, ← spaceEnds_lin, ← beamFlux_lin, ← beamEnds_lin]

/-- **C68** (affine residual).  `residual_flux(lambda) = trace_to_flux(lambda) + residual_flux(0)`. -/
theorem C68_affine (hs : BeamSolvable (form E) (coefficients E) tau) (lambda : LocDofs 1 6 K) : ∃ y r, trace_to_flux m gesv tau lambda 0 E time = .ok y ∧
    residual_flux m gesv tau 0 0 E time = .ok r ∧ residual_flux m gesv tau lambda 0 E time = .ok (y + r) := by
  obtain ⟨q, u, h1, h2⟩ := (C68_flux m gesv hg tau E time hE hc lambda 0).1 hs
  obtain ⟨q', u', h3, h4⟩ := (C68_residual m gesv hg tau E time hE hc 0 0).1 hs
  obtain ⟨q2, u2, h5, h6⟩ := (C68_residual m gesv hg tau E time hE hc lambda 0).1 hs
  refine ⟨_, _, h2, h4, ?_⟩
  rw [beamEnds_zero, beamMoments_zero, zero_add] at h3
  have h7 := beam_lin 1 1 h1 h3
  simp only [one_smul, zero_add] at h7
  obtain ⟨e1, e2⟩ := beam_unique hs h5 h7
  have h8 := beamFlux_lin (F := form E) (tau := tau) (lambda := beamEnds E lambda) (mu := beamEnds E 0) (q := q) (q' := q') (u := u) (u' := u') 1 1
  have h9 := off_lin E 1 1 (spaceEnds E (beamFlux (form E) tau (beamEnds E lambda) q u)) (spaceEnds E (beamFlux (form E) tau (beamEnds E 0) q' u'))
  rw [← spaceEnds_lin, ← h8] at h9
  simp only [one_smul] at h9
  rw [h6, zero_add, zero_add, zero_add, ← h9, e1, e2, beamEnds_zero, add_zero]

omit hE hc hg [IsStrictOrderedRing K] in
/-- **C68** (Dirichlet faces).  The results vanish on the faces where displacement and rotation are prescribed, whatever `lambda_values_out` contains. -/
theorem C68_dirichlet_zero (lambda out y : LocDofs 1 6 K) (h : trace_to_flux m gesv tau lambda out E time = .ok y ∨ residual_flux m gesv tau lambda out E time = .ok y) :
    VanishesOnDirichlet E y := by
  have key : ∀ t, fluxOf m gesv tau t lambda out E = .ok y → VanishesOnDirichlet E y := by
    intro t h
    unfold fluxOf at h
    obtain ⟨a, _, h⟩ := Res.bind_eq_ok.mp h
    obtain ⟨b, _, h⟩ := Res.bind_eq_ok.mp h
    obtain ⟨c, _, h⟩ := Res.bind_eq_ok.mp h
    obtain ⟨d, _, h⟩ := Res.bind_eq_ok.mp h
    obtain ⟨e, _, h⟩ := Res.bind_eq_ok.mp h
    rw [dirichlet_loop] at h
    injection h with h
    subst h
    intro f hf
    simp only [offDirichlet, if_pos hf]
  rcases h with h | h
  · exact key 0 h
  · exact key 1 h

/-- **C68** (values at interior points).  `bulk_values` evaluates, at each point of the tensor grid, the displacement of the solution with loads and prescribed values, as a vector in space. -/
theorem C68_bulk_values (hs : BeamSolvable (form E) (coefficients E) tau) (lin_comb : (Fin nS → K) → List K → K) (abscissas : List K) (lambda : LocDofs 1 6 K)
    (v0 r0 : Fin 3 → Fin (Hypercube.pow 1 abscissas.length) → K) : ∃ q u,
    IsBeam (form E) (coefficients E) tau (beamMoments (form E) (beamEnds E lambda) + dirichletMoments E) (source E) q u ∧
    ∃ vals, bulk_values m gesv lin_comb tau abscissas lambda E time v0 r0 = .ok vals ∧
      ∀ pt : Fin (Hypercube.pow 1 abscissas.length), ∃ p, Hypercube.tensorial_pt m 1 pt abscissas = .ok p ∧
        (fun d => vals d pt) = (frame E)ᵀ *ᵥ ![lin_comb (u 0) p, lin_comb (u 1) p, lin_comb (u 2) p] := by
  obtain ⟨x, h1, h2⟩ := (solve_local_problem_spec m gesv hg E tau (coefficients E) (extra_coeffs_eq m E hE) hc (beamEnds E lambda) 1 (.inr rfl)).1 hs
  obtain ⟨r, hr1, hr2⟩ := bulk_loop_rd (dim := 1) m lin_comb abscissas (fun (d : Fin 3) i => SmallMat.get m x ((6 + d) * nS + i)) (fun d i => Blocks.blk x (pr (Fin.castAdd 3 d)) i)
    (fun d i => Blocks.get_blk m x (pr (Fin.castAdd 3 d)) i) (fun _ => 0) v0
  refine ⟨_, _, h2, fun d q => r.2 0 q * E.inner_normal 0 d + r.2 1 q * E.outer_normal 0 d + r.2 2 q * E.outer_normal 1 d, ?_, fun pt => ?_⟩
  · unfold bulk_values
    have h1' : solve_local_problem m gesv E tau (fun f => inFrame (frame E) (lambda f)) 1 = .ok x := h1
    rw [node_to_edge, Res.ok_bind, h1', Res.ok_bind, hr1, Res.ok_bind]
    dsimp only
    rw [map_loop (fun d q _ => r.2 0 q * E.inner_normal 0 d), Res.ok_bind, map_loop (fun d q a => a + r.2 1 q * E.outer_normal 0 d), Res.ok_bind,
      map_loop (fun d q a => a + r.2 2 q * E.outer_normal 1 d)]
  · obtain ⟨p, hp1, hp2⟩ := hr2 pt
    refine ⟨p, hp1, funext fun d => ?_⟩
    have e0 : r.2 0 pt = lin_comb (Blocks.blk x (pr 0)) p := hp2 0
    have e1 : r.2 1 pt = lin_comb (Blocks.blk x (pr 1)) p := hp2 1
    have e2 : r.2 2 pt = lin_comb (Blocks.blk x (pr 2)) p := hp2 2
    simp [mulVec, dotProduct, Fin.sum_univ_three, frame, e0, e1, e2, mul_comm]

/-- **C68** (errors).  `errors` adds the squared differences of the three displacement components and the analytic displacement. -/
theorem C68_errors (hs : BeamSolvable (form E) (coefficients E) tau) (lambda : LocDofs 1 6 K) : ∃ q u,
    IsBeam (form E) (coefficients E) tau (beamMoments (form E) (beamEnds E lambda) + dirichletMoments E) (source E) q u ∧
    errors m gesv tau lambda E time = .ok (fun _ => E.vol_diffsquare (u 0) 1 time + E.vol_diffsquare (u 1) (-1) time + E.vol_diffsquare (u 2) (-2) time) := by
  obtain ⟨x, h1, h2⟩ := (solve_local_problem_spec m gesv hg E tau (coefficients E) (extra_coeffs_eq m E hE) hc (beamEnds E lambda) 1 (.inr rfl)).1 hs
  refine ⟨_, _, h2, ?_⟩
  unfold errors
  have h1' : solve_local_problem m gesv E tau (fun f => inFrame (frame E) (lambda f)) 1 = .ok x := h1
  rw [node_to_edge, Res.ok_bind, h1', Res.ok_bind, displacementCoeffs_eq m x 0 (by omega), Res.ok_bind]
  rw [displacementCoeffs_eq m x 1 (by omega), Res.ok_bind]
  rw [displacementCoeffs_eq m x 2 (by omega), Res.ok_bind, zero_add]
  rfl

variable (hF : FormLaws (form E))

include hF

/-- **C68** (solvable).  For `tau > 0` and positive stiffnesses the local problem is uniquely solvable; all functions return. -/
theorem C68_solvable (ht : 0 < tau) (lambda out : LocDofs 1 6 K) : BeamSolvable (form E) (coefficients E) tau ∧ (∃ y, trace_to_flux m gesv tau lambda out E time = .ok y) ∧
    ∃ y, residual_flux m gesv tau lambda out E time = .ok y := by
  have hs := beam_solvable hF (coefficients_pos E hc) ht
  obtain ⟨_, _, _, h1⟩ := (C68_flux m gesv hg tau E time hE hc lambda out).1 hs
  obtain ⟨_, _, _, h2⟩ := (C68_residual m gesv hg tau E time hE hc lambda out).1 hs
  exact ⟨hs, ⟨_, h1⟩, ⟨_, h2⟩⟩

/-- **C68** (symmetric).  For traces which vanish on the Dirichlet faces the local operator is symmetric (the reciprocity of Betti). -/
theorem C68_symmetric {lambda mu y z : LocDofs 1 6 K} (hl : VanishesOnDirichlet E lambda) (hm : VanishesOnDirichlet E mu)
    (hy : trace_to_flux m gesv tau lambda 0 E time = .ok y) (hz : trace_to_flux m gesv tau mu 0 E time = .ok z) : ∑ f, ∑ j, mu f j * y f j = ∑ f, ∑ j, lambda f j * z f j := by
  obtain ⟨_, q, u, h1, rfl⟩ := of_ok m gesv hg tau E time hE hc hy
  obtain ⟨_, q', u', h2, rfl⟩ := of_ok m gesv hg tau E time hE hc hz
  rw [pair_off hm, pair_off hl, beam_flux_form hF h1 h2, beam_flux_form hF h2 h1, energy_symm hF (coefficients_pos E hc)]
  simp

/-- **C68** (semidefinite).  For `tau >= 0` the local operator is negative semidefinite: the energy of the beam is not negative. -/
theorem C68_semidefinite (ht : 0 ≤ tau) {lambda y : LocDofs 1 6 K} (hl : VanishesOnDirichlet E lambda) (hy : trace_to_flux m gesv tau lambda 0 E time = .ok y) :
    ∑ f, ∑ j, lambda f j * y f j ≤ 0 := by
  obtain ⟨_, q, u, h1, rfl⟩ := of_ok m gesv hg tau E time hE hc hy
  rw [pair_off hl, beam_flux_form hF h1 h1]
  have := energy_nonneg (q := q) (u := u) (lambda := beamEnds E lambda) hF (coefficients_pos E hc) ht
  simpa using this

end

/-! ## C69: the global operator of a network -/

/-- The local part of the global `trace_to_flux`; `E e` is what is known about beam number `e`. -/
def localOperator [Field K] [LinearOrder K] (m : Mode) (gesv : Gesv (n_loc_dofs nS) 1 K) (tau : K) (E : Nat → Edge nS K) (time : K) : HyGraph.LocalFun 1 6 K :=
  fun e u out => trace_to_flux m gesv tau u out (E e) time

/-- The local part of the global `residual_flux`. -/
def localResidual [Field K] [LinearOrder K] (m : Mode) (gesv : Gesv (n_loc_dofs nS) 1 K) (tau : K) (E : Nat → Edge nS K) (time : K) : HyGraph.LocalFun 1 6 K :=
  fun e u out => residual_flux m gesv tau u out (E e) time

section
variable [Field K] [LinearOrder K] [IsStrictOrderedRing K] (m : Mode) (gesv : Gesv (n_loc_dofs nS) 1 K) (hg : GesvSpec gesv) (tau : K) (ht : 0 < tau)
    (E : Nat → Edge nS K) (time : K) (hE : ∀ e, Complete (E e)) (hc : ∀ e d, coefficients (E e) d ≠ 0) (hF : ∀ e, FormLaws (form (E e)))

include hg ht hE hc hF

theorem operator_local : ∃ L : Nat → LocDofs 1 6 K →ₗ[K] LocDofs 1 6 K, ∀ e lambda, trace_to_flux m gesv tau lambda 0 (E e) time = .ok (L e lambda) := by
  have hret : ∀ (e : Nat) (lambda : LocDofs 1 6 K), ∃ y, trace_to_flux m gesv tau lambda 0 (E e) time = .ok y := fun e lambda =>
    (C68_solvable m gesv hg tau (E e) time (hE e) (hc e) (hF e) ht lambda 0).2.1
  choose F hF' using hret
  have hlin : ∀ (e : Nat) (a b : K) (x y : LocDofs 1 6 K), F e (a • x + b • y) = a • F e x + b • F e y := by
    intro e a b x y
    have := C68_linear m gesv hg tau (E e) time (hE e) (hc e) (hF' e x) (hF' e y) a b
    rw [hF'] at this
    injection this
  exact ⟨fun e =>
    { toFun := F e
      map_add' := fun x y => by
        have := hlin e 1 1 x y
        simpa only [one_smul] using this
      map_smul' := fun a x => by
        have := hlin e a 0 x 0
        simpa only [zero_smul, add_zero, RingHom.id_apply] using this }, hF'⟩

variable (G : HyGraph 1 6) (nodes : Fin G.n_hyEdges → Fin (2 * 1) → Fin G.n_hyNodes) (hwf : G.WF nodes) (old0 new0 : LocDofs 1 6 K)

include hwf

/-- **C69** (the global operator).  On each network of beams and for `tau > 0` the global `trace_to_flux` is a linear map `A`; it is symmetric and negative semidefinite on the vectors which vanish
where displacement and rotation are prescribed. -/
theorem C69_global :
    ∃ A : (Fin (G.n_hyNodes * 6) → K) →ₗ[K] (Fin (G.n_hyNodes * 6) → K),
      (∀ x, G.mat_vec_multiply m (localOperator m gesv tau E time) old0 new0 (List.ofFn x) = .ok (List.ofFn (A x))) ∧
      (∀ x z, (∀ e : Fin G.n_hyEdges, VanishesOnDirichlet (E e) (faceValues nodes x e)) → (∀ e : Fin G.n_hyEdges, VanishesOnDirichlet (E e) (faceValues nodes z e)) →
        ∑ k, z k * A x k = ∑ k, x k * A z k) ∧
      (∀ x, (∀ e : Fin G.n_hyEdges, VanishesOnDirichlet (E e) (faceValues nodes x e)) → ∑ k, x k * A x k ≤ 0) := by
  obtain ⟨L, hL⟩ := operator_local m gesv hg tau ht E time hE hc hF
  have hloc : ∀ (e : Fin G.n_hyEdges) (u : LocDofs 1 6 K), localOperator m gesv tau E time e u (fun _ _ => 0) = .ok (L e u) := fun e u => hL e u
  obtain ⟨A, hA⟩ := HyGraph.C18_linear m G nodes hwf old0 new0 (localOperator m gesv tau E time) (fun e => L e) hloc
  have hAx : ∀ x, A x = assemble nodes (fun e => L e (faceValues nodes x e)) := by
    intro x
    have h1 := HyGraph.mat_vec_eq m G nodes hwf (localOperator m gesv tau E time) x _ (fun e => hloc e _) old0 new0
    rw [hA x] at h1
    injection h1 with h1
    exact List.ofFn_injective h1
  refine ⟨A, hA, fun x z hx hz => ?_, fun x hx => ?_⟩
  · rw [hAx, hAx, HyGraph.pairing_assemble, HyGraph.pairing_assemble]
    exact Finset.sum_congr rfl fun e _ => C68_symmetric m gesv hg tau (E e) time (hE e) (hc e) (hF e) (hx e) (hz e) (hL e _) (hL e _)
  · rw [hAx, HyGraph.pairing_assemble]
    exact Finset.sum_nonpos fun e _ => C68_semidefinite m gesv hg tau (E e) time (hE e) (hc e) (hF e) ht.le (hx e) (hL e _)

variable (hR : ∀ e, Rigid (form (E e))) (hO : ∀ e, (frame (E e))ᵀ * frame (E e) = 1) (D : Fin G.n_hyNodes → Prop)
  (hD : ∀ (e : Fin G.n_hyEdges) (f : Fin (2 * 1)), (E e).node_descriptor f ∈ (E e).dirichlet_nodes ↔ D (nodes e f)) (hcon : Anchored nodes D)

include hR hO hD hcon

/-- **C69** (exactly one equilibrium).  If each hypernode of the network is connected by beams to a hypernode of `D`, where displacement and rotation are prescribed, and the frames are orthonormal,
then for `tau > 0` exactly one vector which vanishes in `D` makes the global `residual_flux` vanish: forces and moments are in equilibrium at all other hypernodes. -/
theorem C69_unique : ∃! y : Fin (G.n_hyNodes * 6) → K, HyGraph.VanishesAt D y ∧
    G.mat_vec_multiply m (localResidual m gesv tau E time) old0 new0 (List.ofFn y) = .ok (List.replicate (G.n_hyNodes * 6) 0) := by
  obtain ⟨L, hL⟩ := operator_local m gesv hg tau ht E time hE hc hF
  have hs := fun e => (C68_solvable m gesv hg tau (E e) time (hE e) (hc e) (hF e) ht 0 0).1
  have hres : ∀ e : Nat, ∃ r : LocDofs 1 6 K, residual_flux m gesv tau 0 0 (E e) time = .ok r := fun e =>
    (C68_solvable m gesv hg tau (E e) time (hE e) (hc e) (hF e) ht 0 0).2.2
  choose R0 hR0 using hres
  have haff : ∀ (e : Fin G.n_hyEdges) (u : LocDofs 1 6 K), localResidual m gesv tau E time e u (fun _ _ => 0) = .ok (L e u + R0 e) := by
    intro e u
    obtain ⟨y, r, h1, h2, h3⟩ := C68_affine m gesv hg tau (E e) time (hE e) (hc e) (hs e) u
    have h4 : L e u = y := Res.ok.inj ((hL e u).symm.trans h1)
    have h5 : R0 e = r := Res.ok.inj ((hR0 e).symm.trans h2)
    rw [h4, h5]
    exact h3
  have hLD : ∀ (e : Fin G.n_hyEdges) (u : LocDofs 1 6 K) (f : Fin (2 * 1)), D (nodes e f) → L e u f = 0 := fun e u f h =>
    C68_dirichlet_zero m gesv tau (E e) time _ _ _ (.inl (hL e u)) f ((hD e f).mpr h)
  have hRD : ∀ (e : Fin G.n_hyEdges) (f : Fin (2 * 1)), D (nodes e f) → R0 e f = 0 := fun e f h =>
    C68_dirichlet_zero m gesv tau (E e) time _ _ _ (.inr (hR0 e)) f ((hD e f).mpr h)
  refine HyGraph.unique_zero m G nodes hwf old0 new0 (localResidual m gesv tau E time) (fun e => L e) (fun e => R0 e) haff D hLD hRD fun x hx h0 => ?_
  have hvan : ∀ e : Fin G.n_hyEdges, VanishesOnDirichlet (E e) (faceValues nodes x e) := fun e f hf => funext fun j => hx _ ((hD e f).mp hf) _
  have hle : ∀ e : Fin G.n_hyEdges, ∑ i, ∑ j, faceValues nodes x e i j * L e (faceValues nodes x e) i j ≤ 0 := fun e =>
    C68_semidefinite m gesv hg tau (E e) time (hE e) (hc e) (hF e) ht.le (hvan e) (hL e _)
  have hzero := (Finset.sum_eq_zero_iff_of_nonpos fun e _ => hle e).mp h0
  have hstep : ∀ (e : Fin G.n_hyEdges) (f g : Fin (2 * 1)), (fun j => x (dof (nodes e f) j)) = 0 → (fun j => x (dof (nodes e g) j)) = 0 := by
    intro e f g h
    obtain ⟨_, q, u, h1, h2⟩ := of_ok m gesv hg tau (E e) time (hE e) (hc e) (hL e (faceValues nodes x e))
    have h3 := hzero e (Finset.mem_univ e)
    rw [h2, pair_off (hvan e), beam_flux_form (hF e) h1 h1] at h3
    have h4 : beamEnergy (form (E e)) (coefficients (E e)) tau q u (beamEnds (E e) (faceValues nodes x e)) q u (beamEnds (E e) (faceValues nodes x e)) = 0 := by
      simpa using h3
    obtain ⟨rfl, htr⟩ := energy_zero (hF e) (coefficients_pos (E e) (hc e)) ht h4
    have h5 : beamEnds (E e) (faceValues nodes x e) f = 0 := by
      show inFrame (frame (E e)) (fun j => x (dof (nodes e f) j)) = 0
      rw [h, inFrame_zero]
    have h6 := kernel_step (hF e) (hR e) h1 htr h5 g
    have h7 := congrArg (inSpace (frame (E e))) h6
    rw [inSpace_zero] at h7
    exact (space_frame _ (hO e) _).symm.trans h7
  have hall := hcon.all (fun v => (fun j => x (dof v j)) = 0) (fun v hv => funext fun j => hx v hv j) hstep
  funext k
  obtain ⟨v, j, rfl⟩ := HyGraph.dof_surj k
  exact congrFun (hall v) j

end

/-! ## C70: stiffness coefficients -/

section
variable [Field K] [LinearOrder K] [IsStrictOrderedRing K]

/-- **C70** (stiffnesses of the cross section).  `n 0`, `n 1` are the two orthonormal normals of the cross section given with the beam, `k 0`, `k 1` the corresponding shear stiffnesses and
`b 0`, `b 1` the corresponding bending stiffnesses, none of them negative.  If the normals of the frame are, up to sign, those of the cross section (`sigma` tells in which order), then the
coefficients used are the stiffnesses in the units of the program.  Missing for the full property: frames whose normals are not those of the cross section (wrong, see `C70_isotropic`,
`C70_degenerate`). -/
theorem C70_aligned_partial (E : Edge nS K) (n : Fin 2 → Fin 3 → K) (k b : Fin 2 → K) (a t : K) (hd : E.extra_data = some ([a, k 0, k 1, t, b 0, b 1] ++ List.ofFn (n 0) ++ List.ofFn (n 1)))
    (ha : 0 ≤ a) (ht : 0 ≤ t) (hk : ∀ i, 0 ≤ k i) (hb : ∀ i, 0 ≤ b i)
    (hn : ∀ i j, n i ⬝ᵥ n j = if i = j then 1 else 0) (sigma : Fin 2 → Fin 2) (ho : ∀ i : Fin 2, E.outer_normal i = n (sigma i) ∨ E.outer_normal i = -n (sigma i)) :
    Complete E ∧ coefficients E = ![a * 10 ^ 4, k (sigma 0) * 10 ^ 4, k (sigma 1) * 10 ^ 4, t * 10 ^ 12, b (sigma 0) * 10 ^ 12, b (sigma 1) * 10 ^ 12] := by
  constructor
  · intro e he
    rw [hd] at he
    injection he with he
    subst he
    simp
  have key : ∀ (x : Fin 2 → K) (c : K) (i : Fin 2), 0 ≤ c → (∀ i, 0 ≤ x i) → |(x 0 * (E.outer_normal i ⬝ᵥ n 0) + x 1 * (E.outer_normal i ⬝ᵥ n 1)) * c| = x (sigma i) * c := by
    intro x c i hc hx
    have h1 : x 0 * (n (sigma i) ⬝ᵥ n 0) + x 1 * (n (sigma i) ⬝ᵥ n 1) = x (sigma i) := by
      rw [hn, hn]
      generalize sigma i = j
      fin_cases j <;> simp
    rcases ho i with h | h
    · rw [h, h1, abs_of_nonneg (mul_nonneg (hx _) hc)]
    · rw [h, neg_dotProduct, neg_dotProduct, mul_neg, mul_neg, ← neg_add, h1, neg_mul, abs_neg, abs_of_nonneg (mul_nonneg (hx _) hc)]
  have e1 : (![n 0 0, n 0 1, n 0 2] : Fin 3 → K) = n 0 := by funext i; fin_cases i <;> rfl
  have e2 : (![n 1 0, n 1 1, n 1 2] : Fin 3 → K) = n 1 := by funext i; fin_cases i <;> rfl
  have c4 : (0 : K) ≤ 10 ^ 4 := by positivity
  have c12 : (0 : K) ≤ 10 ^ 12 := by positivity
  unfold coefficients
  rw [hd]
  simp only [List.ofFn_succ, List.ofFn_zero, List.cons_append, List.nil_append, List.getD_cons_zero, List.getD_cons_succ]
  have f1 : (![n 0 0, n 0 (Fin.succ 0), n 0 (Fin.succ (Fin.succ 0))] : Fin 3 → K) = n 0 := e1
  have f2 : (![n 1 0, n 1 (Fin.succ 0), n 1 (Fin.succ (Fin.succ 0))] : Fin 3 → K) = n 1 := e2
  simp only [f1, f2]
  have k0 : ∀ (x : Fin 2 → K) (c : K), 0 ≤ c → (∀ i, 0 ≤ x i) → |(x 0 * (E.outer_normal 0 ⬝ᵥ n 0) + x 1 * (E.outer_normal 0 ⬝ᵥ n 1)) * c| = x (sigma 0) * c := fun x c => key x c 0
  have k1 : ∀ (x : Fin 2 → K) (c : K), 0 ≤ c → (∀ i, 0 ≤ x i) → |(x 0 * (E.outer_normal 1 ⬝ᵥ n 0) + x 1 * (E.outer_normal 1 ⬝ᵥ n 1)) * c| = x (sigma 1) * c := fun x c => key x c 1
  rw [k0 k _ c4 hk, k1 k _ c4 hk, k0 b _ c12 hb, k1 b _ c12 hb, abs_of_nonneg (mul_nonneg ha c4), abs_of_nonneg (mul_nonneg ht c12)]

/-- **C70** (vanishing coefficient).  If one of the coefficients is zero the local matrix cannot be computed (division by zero): no function returns a result. -/
theorem C70_zero_coefficient (m : Mode) (gesv : Gesv (n_loc_dofs nS) 1 K) (tau : K) (E : Edge nS K) (time : K) (hE : Complete E) (hn : 0 < nS) {d : Fin 6} (h0 : coefficients E d = 0)
    (lambda out y : LocDofs 1 6 K) : trace_to_flux m gesv tau lambda out E time ≠ .ok y ∧ residual_flux m gesv tau lambda out E time ≠ .ok y := by
  have hA : ∀ A, assemble_loc_matrix m E tau ≠ .ok A := by
    intro A h
    unfold assemble_loc_matrix at h
    rw [extra_coeffs_eq m E hE, Res.ok_bind] at h
    obtain ⟨M1, M2, h⟩ := forUp_ok _ _ _ _ h 0 hn
    obtain ⟨M1, M2, h⟩ := forUp_ok _ _ _ _ h 0 hn
    unfold locMatrixStep at h
    obtain ⟨s1, _, h⟩ := Res.bind_eq_ok.mp h
    obtain ⟨M3, h, _⟩ := Res.bind_eq_ok.mp h
    obtain ⟨M4, M5, h⟩ := forUp_ok _ _ _ _ h d d.2
    rw [arrGet_lt _ d.2, Res.ok_bind] at h
    obtain ⟨x, h, _⟩ := Res.bind_eq_ok.mp h
    unfold divide at h
    rw [if_pos h0] at h
    cases h
  have key : ∀ t, fluxOf m gesv tau t lambda out E ≠ .ok y := by
    intro t h
    unfold fluxOf at h
    obtain ⟨loc, _, h⟩ := Res.bind_eq_ok.mp h
    obtain ⟨c, h, _⟩ := Res.bind_eq_ok.mp h
    unfold solve_local_problem at h
    generalize hx : (do
      let rhs ← (if t = 0 then assemble_rhs_from_lambda m E tau loc
        else if t = 1 then do
          let a ← assemble_rhs_from_lambda m E tau loc
          let b ← assemble_rhs_from_global_rhs m E tau
          SmallMat.add_mat a b
        else do
          hyAssert m (0 = 1)
          return SmallMat.fill _ _ 0)
      let A ← assemble_loc_matrix m E tau
      solve gesv rhs A : Res (SmallVec (n_loc_dofs nS) K)) = r at h
    cases r with
    | ok v =>
      obtain ⟨rhs, _, hx⟩ := Res.bind_eq_ok.mp hx
      obtain ⟨A, hx, _⟩ := Res.bind_eq_ok.mp hx
      exact hA A hx
    | abort => cases h
    | ub => cases h
    | throw e => cases e <;> cases m <;> cases h
  exact ⟨key 0, key 1⟩

/-- A beam with the given frame and stiffnesses. -/
def sample (extra : Option (List ℚ)) (t o1 o2 : Fin 3 → ℚ) : Edge 1 ℚ where
  vol_phiphi _ _ := 1
  vol_nablaphiphi _ _ _ := 0
  bdr_phiphi _ _ _ := 1
  bdr_phipsi _ _ _ := 1
  vol_phi_n _ _ _ := 1
  vol_phi_m _ _ _ := 0
  bdr_phi_u _ _ _ _ := 0
  bdr_phi_phi _ _ _ _ := 0
  vol_diffsquare _ _ _ := 0
  local_normal f _ := if f = 0 then -1 else 1
  inner_normal _ := t
  outer_normal i := if i = 0 then o1 else o2
  extra_data := extra
  node_descriptor f := f
  dirichlet_nodes := [0]

/-- **C70** (degenerate frame).  The full property is wrong: all stiffnesses are positive and the normals of the cross section as well as the frame are orthonormal, but the frame is rotated against the
cross section; a coefficient is zero, and the solver never returns a result. -/
theorem C70_degenerate : ∃ E : Edge 1 ℚ, E.extra_data = some [1, 4, 3, 1, 1, 1, 0, 1, 0, 0, 0, 1] ∧ (frame E)ᵀ * frame E = 1 ∧ frame E * (frame E)ᵀ = 1 ∧ coefficients E 1 = 0 ∧
    ∀ m gesv tau lambda out y time, trace_to_flux m gesv tau lambda out E time ≠ .ok y := by
  refine ⟨sample (some [1, 4, 3, 1, 1, 1, 0, 1, 0, 0, 0, 1]) ![1, 0, 0] ![0, 3/5, -4/5] ![0, 4/5, 3/5], rfl, ?_, ?_, ?_, ?_⟩
  · ext i j; fin_cases i <;> fin_cases j <;> simp [frame, sample, Matrix.mul_apply, Fin.sum_univ_three] <;> norm_num
  · ext i j; fin_cases i <;> fin_cases j <;> simp [frame, sample, Matrix.mul_apply, Fin.sum_univ_three] <;> norm_num
  · simp [coefficients, sample, dotProduct, Fin.sum_univ_three]; norm_num
  · intro m gesv tau lambda out y time
    refine (C70_zero_coefficient m gesv tau _ time ?_ one_pos (d := 1) ?_ lambda out y).1
    · intro e he
      injection he with he
      subst he
      simp
    · simp [coefficients, sample, dotProduct, Fin.sum_univ_three]; norm_num

/-- **C70** (isotropic cross section).  The full property is wrong: both shear stiffnesses are `k`, so that the stiffness does not depend on the direction, but the coefficient for a frame which is
rotated against the cross section is `7/5 k`. -/
theorem C70_isotropic (k : ℚ) (hk : 0 < k) : ∃ E : Edge 1 ℚ, E.extra_data = some [1, k, k, 1, 1, 1, 0, 1, 0, 0, 0, 1] ∧ (frame E)ᵀ * frame E = 1 ∧ frame E * (frame E)ᵀ = 1 ∧
    coefficients E 1 = 7 / 5 * (k * 10 ^ 4) := by
  refine ⟨sample (some [1, k, k, 1, 1, 1, 0, 1, 0, 0, 0, 1]) ![1, 0, 0] ![0, 3/5, 4/5] ![0, -4/5, 3/5], rfl, ?_, ?_, ?_⟩
  · ext i j; fin_cases i <;> fin_cases j <;> simp [frame, sample, Matrix.mul_apply, Fin.sum_univ_three] <;> norm_num
  · ext i j; fin_cases i <;> fin_cases j <;> simp [frame, sample, Matrix.mul_apply, Fin.sum_univ_three] <;> norm_num
  · simp only [coefficients, sample, dotProduct, Fin.sum_univ_three]
    simp
    rw [abs_of_pos (by linarith)]
    ring

omit [IsStrictOrderedRing K] in
/-- **C70** (incomplete data).  If fewer than twelve numbers are given with the beam, the code reads beyond the end of them. -/
theorem C70_incomplete (m : Mode) (E : Edge nS K) (l : List K) (h : E.extra_data = some l) (hl : l.length < 12) : extra_coeffs m E = .ub := by
  have key : ∀ {α : Type} (k : Nat) (f : K → Res α), (∀ x, k < l.length → f x = .ub) → (vget l k >>= f) = .ub := by
    intro α k f hf
    by_cases hk : k < l.length
    · rw [vget_of_lt hk, Res.ok_bind]
      exact hf _ hk
    · rw [vget_ub (by omega)]
      rfl
  have : materialCoeffs m E l = .ub := by
    unfold materialCoeffs
    refine key _ _ fun _ _ => key _ _ fun _ _ => key _ _ fun _ _ => ?_
    dsimp only
    refine key _ _ fun _ _ => key _ _ fun _ _ => key _ _ fun _ h11 => ?_
    omega
  unfold extra_coeffs
  rw [h]
  dsimp only
  rw [this]
  rfl

end

/-! ## C71: rigid motions -/

section
variable [Field K] [LinearOrder K] [IsStrictOrderedRing K] (m : Mode) (gesv : Gesv (n_loc_dofs nS) 1 K) (hg : GesvSpec gesv) (tau : K) (ht : 0 < tau) (E : Edge nS K) (time : K)
  (hE : Complete E) (hc : ∀ d, coefficients E d ≠ 0) (hF : FormLaws (form E)) (hO : frame E * (frame E)ᵀ = 1)
  {one lin : Fin nS → K} {x : Fin (2 * 1) → K} (arc : IsArcLength (form E) one lin x)

omit [LinearOrder K] [IsStrictOrderedRing K] in
theorem frame_direction (hO : frame E * (frame E)ᵀ = 1) : frame E *ᵥ E.inner_normal 0 = ![1, 0, 0] := by
  funext i
  have h := congrFun (congrFun hO i) 0
  have h1 : (frame E * (frame E)ᵀ) i 0 = (frame E *ᵥ E.inner_normal 0) i := rfl
  rw [← h1, h]
  fin_cases i <;> rfl

include hg ht hE hc hF hO arc

/-- **C71** (rigid motions).  The ends of the beam are at `p0 + x f t`, `t` the direction of the beam; they are moved by a rigid motion.  If the rotation is described with the sign which fits to the
orientation of the frame (the usual one, `-1`, for left-handed frames), the beam transmits neither forces nor moments.  Missing for the full property: the usual sign for right-handed frames (wrong, see
`C71_wrong_sign`), which `C71_frame` shows to be those of all beams but the ones in direction of the first axis. -/
theorem C71_rigid_partial (a r p0 : Fin 3 → K) :
    trace_to_flux m gesv tau (fun f => rigidMotion (frame E).det a r (p0 + x f • E.inner_normal 0)) 0 E time = .ok 0 := by
  set R := frame E with hRdef
  set s := R.det with hs
  have hb := beam_solvable hF (coefficients_pos E hc) ht
  let rho := R *ᵥ r
  let c0 := R *ᵥ (a + s • (p0 ⨯₃ r))
  let e1 : Fin 3 → K := ![1, 0, 0] ⨯₃ rho
  let u : Fin 6 → Fin nS → K := fun d => both c0 rho d • one + both e1 0 d • lin
  have hcross : s • (R *ᵥ (E.inner_normal 0 ⨯₃ r)) = e1 := by
    show _ = ![1, 0, 0] ⨯₃ (R *ᵥ r)
    rw [← frame_direction E hO, cross_mulVec _ hO]
  have hlam : ∀ f, beamEnds E (fun f => rigidMotion s a r (p0 + x f • E.inner_normal 0)) f = both c0 rho + x f • both e1 0 := by
    intro f
    have h1 : R *ᵥ (a + s • ((p0 + x f • E.inner_normal 0) ⨯₃ r)) = c0 + x f • e1 := by
      rw [← hcross, map_add, LinearMap.add_apply, map_smul, LinearMap.smul_apply, smul_add, ← add_assoc, mulVec_add, mulVec_smul, mulVec_smul, smul_comm s]
    have h2 : ∀ a' b' : Fin 3 → K, linPart (both a' b') = a' := fun a' b' => by funext i; fin_cases i <;> rfl
    have h3 : ∀ a' b' : Fin 3 → K, angPart (both a' b') = b' := fun a' b' => by funext i; fin_cases i <;> rfl
    show inFrame R (both _ r) = _
    rw [inFrame, h2, h3, h1]
    funext d
    fin_cases d <;> simp [both, rho]
  have htr : ∀ d f, IsTrace (form E) (u d) f (fun _ => beamEnds E (fun f => rigidMotion s a r (p0 + x f • E.inner_normal 0)) f d) := by
    intro d f
    unfold IsTrace
    show (1 : K) • _ = ((form E).psi f)ᵀ *ᵥ (both c0 rho d • one + both e1 0 d • lin)
    rw [mulVec_add, mulVec_smul, mulVec_smul, arc.one_trace, arc.lin_trace, hlam, one_smul]
    funext j
    simp [mul_comm]
  have hmom : ∀ f d, beamMoments (form E) (beamEnds E (fun f => rigidMotion s a r (p0 + x f • E.inner_normal 0))) f d = (form E).bdr f *ᵥ u d := fun f d => trace_moments hF (htr d) f
  have hder : ∀ d, ((form E).grad 0)ᵀ *ᵥ u d = (form E).mass *ᵥ shear u d := by
    intro d
    have h1 : ((form E).grad 0)ᵀ *ᵥ u d = both e1 0 d • (form E).mass *ᵥ one := by
      show ((form E).grad 0)ᵀ *ᵥ (both c0 rho d • one + both e1 0 d • lin) = _
      rw [mulVec_add, mulVec_smul, mulVec_smul, arc.one_const, arc.lin_deriv, smul_zero, zero_add]
    rw [h1, ← mulVec_smul]
    congr 1
    fin_cases d <;> simp [shear, u, both, e1, cross_apply]
  have hsol : IsBeam (form E) (coefficients E) tau (beamMoments (form E) (beamEnds E (fun f => rigidMotion s a r (p0 + x f • E.inner_normal 0)))) 0 0 u := by
    refine ⟨fun d => ?_, fun d => ?_⟩
    · have h1 : ∑ f, (form E).normal f 0 • (form E).bdr f *ᵥ u d = (form E).grad 0 *ᵥ u d + ((form E).grad 0)ᵀ *ᵥ u d := by
        rw [← add_mulVec, hF.by_parts 0, sum_mulVec]
        simp only [smul_mulVec]
      simp only [hmom]
      rw [h1, hder, Pi.zero_apply, mulVec_zero, smul_zero]
      abel
    · simp only [hmom]
      have h2 : lever (0 : Fin 6 → Fin nS → K) d = 0 := by fin_cases d <;> simp [lever]
      rw [h2]
      simp [mulVec_smul]
  rw [to_ok m gesv hg tau E time hE hc hb hsol, zero_add]
  have h3 : beamFlux (form E) tau (beamEnds E (fun f => rigidMotion s a r (p0 + x f • E.inner_normal 0))) 0 u = 0 := by
    funext f d
    exact congrFun (congrFun (const_flux (F := form E) (tau := tau) (htr d)) f) 0
  rw [h3]
  congr 1
  funext f
  unfold offDirichlet spaceEnds
  split
  · rfl
  · exact inSpace_zero _

omit hO arc in
/-- A beam without forces and moments which is not moved at one end is not moved at the other. -/
theorem kernel_local (hO' : (frame E)ᵀ * frame E = 1) (hR : Rigid (form E)) {lambda : LocDofs 1 6 K} (hv : VanishesOnDirichlet E lambda)
    (h : trace_to_flux m gesv tau lambda 0 E time = .ok 0) {f : Fin (2 * 1)} (h0 : lambda f = 0) (g : Fin (2 * 1)) : lambda g = 0 := by
  obtain ⟨_, q, u, h5, h6⟩ := of_ok m gesv hg tau E time hE hc h
  have h7 := pair_off hv (beamFlux (form E) tau (beamEnds E lambda) q u)
  rw [← h6, beam_flux_form hF h5 h5] at h7
  obtain ⟨rfl, htr⟩ := energy_zero hF (coefficients_pos E hc) ht (by simpa using h7)
  have h9 := kernel_step hF hR h5 htr (f := f) (by
    show inFrame _ _ = 0
    rw [h0, inFrame_zero]) g
  have h10 := congrArg (inSpace (frame E)) h9
  rw [inSpace_zero] at h10
  exact (space_frame _ hO' _).symm.trans h10

/-- **C71** (wrong sign).  The full property is wrong: a rigid motion described with another sign makes the beam transmit forces, unless the rotation is about the direction of the beam.  (`x 0 ≠ x 1`: the
beam has a length.) -/
theorem C71_wrong_sign (hR : Rigid (form E)) (hD : ∀ f, ¬ IsDirichlet E f) (hx : x 0 ≠ x 1) (sign : K) (a r p0 : Fin 3 → K)
    (h : trace_to_flux m gesv tau (fun f => rigidMotion sign a r (p0 + x f • E.inner_normal 0)) 0 E time = .ok 0) : sign = (frame E).det ∨ E.inner_normal 0 ⨯₃ r = 0 := by
  set s := (frame E).det with hs
  have h1 := C71_rigid_partial m gesv hg tau ht E time hE hc hF hO arc a r p0
  have h2 := C71_rigid_partial m gesv hg tau ht E time hE hc hF hO arc ((sign - s) • ((p0 + x 0 • E.inner_normal 0) ⨯₃ r)) 0 p0
  have h3 := C68_linear m gesv hg tau E time hE hc h h1 1 (-1)
  have h4 := C68_linear m gesv hg tau E time hE hc h3 h2 1 (-1)
  simp only [smul_zero, add_zero] at h4
  have hcomp : ∀ f, ((1 : K) • ((1 : K) • (fun f => rigidMotion sign a r (p0 + x f • E.inner_normal 0)) + (-1 : K) • fun f => rigidMotion s a r (p0 + x f • E.inner_normal 0)) +
      (-1 : K) • fun f => rigidMotion s ((sign - s) • ((p0 + x 0 • E.inner_normal 0) ⨯₃ r)) 0 (p0 + x f • E.inner_normal 0) : LocDofs 1 6 K) f =
        both (((sign - s) * (x f - x 0)) • (E.inner_normal 0 ⨯₃ r)) 0 := by
    intro f
    funext d
    fin_cases d <;> simp [rigidMotion, both, cross_apply] <;> ring
  have h11 := kernel_local m gesv hg tau ht E time hE hc hF (mul_eq_one_comm.mp hO) hR (fun f hf => absurd hf (hD f)) h4 (f := 0) (by
    rw [hcomp 0, sub_self, mul_zero, zero_smul]
    funext d
    fin_cases d <;> rfl) 1
  rw [hcomp 1] at h11
  have h12 : ((sign - s) * (x 1 - x 0)) • (E.inner_normal 0 ⨯₃ r) = 0 := by
    funext i
    fin_cases i
    · exact congrFun h11 0
    · exact congrFun h11 1
    · exact congrFun h11 2
  rcases smul_eq_zero.mp h12 with h13 | h13
  · rcases mul_eq_zero.mp h13 with h14 | h14
    · exact .inl (sub_eq_zero.mp h14)
    · exact absurd (sub_eq_zero.mp h14).symm hx
  · exact .inr h13

end

end HyperHDG.Timoshenko

import Verif.Proofs.BilaplacianUniform
import Verif.Props.Bilaplacian

/-!
# Property C62: the local solver `BilaplacianUniform`

`I` are the integrals over the reference cube supplied by the integrator, `cubeForm I dim nS nB` the same as data of the abstract LDG-H method (`Verif/Spec/LDG.lean`), `mass I nS` the matrix of the
integrals of `phi_i phi_j`, `S` an object returned by the constructor.  `IsMixedSolution` (`Verif/Spec/Mixed.lean`) is the local problem.  The first half of the coefficients of a face (`upper`)
belongs to `u`, the second half (`lower`) to `w`; other than in `Bilaplacian`, the result has the flux of `u` in the first half and that of `w` in the second.
-/

set_option linter.unusedSimpArgs false

namespace HyperHDG.BilaplacianUniform

open Finset Spec Matrix LDG Mixed DiffusionUniform
open HyGraph (Elliptic C23_zero_at_declared)
open Bilaplacian (mixed_unique mixed_lin upper_lin lower_lin ofNodes ofNodes_dof)

variable {dim nS nB : Nat} {K : Type}

theorem of_construct [CommRing K] {m : Mode} {I : Integrator K} {tau : K} {S : Solver dim nS K} (hS : construct m I dim nS tau = .ok S) :
    S.tau = tau ∧ assemble_loc_matrix m I dim nS tau = .ok S.loc_mat := by
  obtain ⟨A, h1, _⟩ := assemble_loc_matrix_spec m I dim nS 0 tau
  rw [construct, h1, Res.ok_bind] at hS
  injection hS with hS
  subst hS
  exact ⟨rfl, h1⟩

/-- **C62** (constructor).  The constructor returns for each `tau`. -/
theorem C62_constructor [CommRing K] (m : Mode) (I : Integrator K) (tau : K) : ∃ S : Solver dim nS K, construct m I dim nS tau = .ok S := by
  obtain ⟨A, h1, _⟩ := assemble_loc_matrix_spec m I dim nS 0 tau
  exact ⟨⟨tau, A⟩, by rw [construct, h1]; rfl⟩

section
variable [Field K] (m : Mode) (I : Integrator K) (gesv : Gesv (n_loc_dofs dim nS) 1 K) (hg : GesvSpec gesv) (tau : K) (S : Solver dim nS K)
  (hS : construct m I dim nS tau = .ok S)

include hg hS

/-- **C62** (what is computed).  If the local problem of diffusion is uniquely solvable, `trace_to_flux` and `residual_flux` return the numerical fluxes of the solution of the mixed problem for the
traces `upper lambda` (of `u`) and `lower lambda` (of `w`): first that of `u`, then that of `w`.  Otherwise the debug build aborts and the release build lets the LAPACK exception through. -/
theorem C62_flux (lambda out : LocDofs dim (2 * nB) K) :
    (Solvable (cubeForm I dim nS nB) tau 0 1 → ∃ q u p w,
      IsMixedSolution (cubeForm I dim nS nB) (mass I nS) 0 tau 1 (moments (cubeForm I dim nS nB) (upper lambda)) (moments (cubeForm I dim nS nB) (lower lambda)) 0 0 q u p w ∧
      trace_to_flux m I gesv S lambda out = .ok (halves (faceFlux (cubeForm I dim nS nB) tau (upper lambda) q u) (faceFlux (cubeForm I dim nS nB) tau (lower lambda) p w)) ∧
      residual_flux m I gesv S lambda out = .ok (halves (faceFlux (cubeForm I dim nS nB) tau (upper lambda) q u) (faceFlux (cubeForm I dim nS nB) tau (lower lambda) p w))) ∧
    (¬ Solvable (cubeForm I dim nS nB) tau 0 1 → trace_to_flux m I gesv S lambda out = solveFailure m ∧ residual_flux m I gesv S lambda out = solveFailure m) := by
  obtain ⟨rfl, hA⟩ := of_construct hS
  obtain ⟨h1, h2⟩ := solve_local_problem_spec m I gesv hg S.tau S.loc_mat hA lambda
  refine ⟨fun hs => ?_, fun hs => ?_⟩
  · obtain ⟨x, hx1, hx2⟩ := h1 hs
    have key : trace_to_flux m I gesv S lambda out = .ok (halves (faceFlux (cubeForm I dim nS nB) S.tau (upper lambda) (qOf (half 0 (toMat x))) (uOf (half 0 (toMat x))))
        (faceFlux (cubeForm I dim nS nB) S.tau (lower lambda) (qOf (half 1 (toMat x))) (uOf (half 1 (toMat x))))) := by
      rw [trace_to_flux, hx1, Res.ok_bind, primal_spec, Res.ok_bind, dual_spec, Res.ok_bind, writeFlux_eq]
      refine congrArg Res.ok (eq_halves (fun f j => ?_) (fun f j => ?_))
      · simp only [halves_up, faceFlux, mulVec_add, mulVec_smul, Pi.add_apply, Pi.sub_apply, Pi.smul_apply, smul_eq_mul]
        simp only [cubeForm, upper, up]
        ring
      · simp only [halves_lo, faceFlux, mulVec_add, mulVec_smul, Pi.add_apply, Pi.sub_apply, Pi.smul_apply, smul_eq_mul]
        simp only [cubeForm, lower, lo]
        ring
    exact ⟨_, _, _, _, hx2, key, key⟩
  · have key : trace_to_flux m I gesv S lambda out = solveFailure m := by
      rw [trace_to_flux, h2 hs]
      cases m <;> rfl
    exact ⟨key, key⟩

theorem of_ok {lambda out y : LocDofs dim (2 * nB) K} (h : trace_to_flux m I gesv S lambda out = .ok y) :
    Solvable (cubeForm I dim nS nB) tau 0 1 ∧ ∃ q u p w,
      IsMixedSolution (cubeForm I dim nS nB) (mass I nS) 0 tau 1 (moments (cubeForm I dim nS nB) (upper lambda)) (moments (cubeForm I dim nS nB) (lower lambda)) 0 0 q u p w ∧
      y = halves (faceFlux (cubeForm I dim nS nB) tau (upper lambda) q u) (faceFlux (cubeForm I dim nS nB) tau (lower lambda) p w) := by
  have hf := C62_flux m I gesv hg tau S hS lambda out
  by_cases hs : Solvable (cubeForm I dim nS nB) tau 0 1
  · obtain ⟨q, u, p, w, h1, h2, _⟩ := hf.1 hs
    rw [h] at h2
    injection h2 with h2
    exact ⟨hs, q, u, p, w, h1, h2⟩
  · have := (hf.2 hs).1
    rw [h] at this
    cases m <;> cases this

theorem to_ok (hs : Solvable (cubeForm I dim nS nB) tau 0 1) {lambda : LocDofs dim (2 * nB) K} {q p : Fin dim → Fin nS → K} {u w : Fin nS → K}
    (h : IsMixedSolution (cubeForm I dim nS nB) (mass I nS) 0 tau 1 (moments (cubeForm I dim nS nB) (upper lambda)) (moments (cubeForm I dim nS nB) (lower lambda)) 0 0 q u p w)
    (out : LocDofs dim (2 * nB) K) : trace_to_flux m I gesv S lambda out =
      .ok (halves (faceFlux (cubeForm I dim nS nB) tau (upper lambda) q u) (faceFlux (cubeForm I dim nS nB) tau (lower lambda) p w)) := by
  obtain ⟨q', u', p', w', h1, h2, _⟩ := (C62_flux m I gesv hg tau S hS lambda out).1 hs
  obtain ⟨rfl, rfl, rfl, rfl⟩ := mixed_unique hs h h1
  exact h2

/-- **C62** (linearity). -/
theorem C62_linear {lambda mu out out' y z : LocDofs dim (2 * nB) K} (hy : trace_to_flux m I gesv S lambda out = .ok y)
    (hz : trace_to_flux m I gesv S mu out' = .ok z) (a b : K) (out'' : LocDofs dim (2 * nB) K) :
    trace_to_flux m I gesv S (a • lambda + b • mu) out'' = .ok (a • y + b • z) := by
  obtain ⟨hs, q, u, p, w, h1, rfl⟩ := of_ok m I gesv hg tau S hS hy
  obtain ⟨_, q', u', p', w', h1', rfl⟩ := of_ok m I gesv hg tau S hS hz
  have h2 := mixed_lin a b h1 h1'
  rw [← moments_lin, ← moments_lin, smul_zero, smul_zero, add_zero, ← upper_lin, ← lower_lin] at h2
  rw [to_ok m I gesv hg tau S hS hs h2 out'', upper_lin, lower_lin, flux_lin, flux_lin]
  refine congrArg Res.ok (eq_halves (fun f j => ?_) (fun f j => ?_)).symm
  · simp only [Pi.add_apply, Pi.smul_apply, halves_up]
  · simp only [Pi.add_apply, Pi.smul_apply, halves_lo]

/-- **C62** (bulk values).  `bulk_values` returns in component `d < dim` the values of the `d`-th component of `q`, in component `dim` those of `u`, at the points of the tensor grid of the abscissas
in lexicographic order. -/
theorem C62_bulk_values (hs : Solvable (cubeForm I dim nS nB) tau 0 1) (lin_comb : (Fin nS → K) → List K → K) (abscissas : List K) (lambda : LocDofs dim (2 * nB) K)
    (vals0 : Fin (dim + 1) → Fin (Hypercube.pow dim abscissas.length) → K) :
    ∃ q u p w, IsMixedSolution (cubeForm I dim nS nB) (mass I nS) 0 tau 1 (moments (cubeForm I dim nS nB) (upper lambda)) (moments (cubeForm I dim nS nB) (lower lambda)) 0 0 q u p w ∧
      ∃ vals, bulk_values m I gesv lin_comb S abscissas lambda vals0 = .ok vals ∧
      ∀ pt : Fin (Hypercube.pow dim abscissas.length), ∃ x, Hypercube.tensorial_pt m dim pt abscissas = .ok x ∧
        (∀ d : Fin dim, vals d.castSucc pt = lin_comb (q d) x) ∧ vals (Fin.last dim) pt = lin_comb u x := by
  obtain ⟨rfl, hA⟩ := of_construct hS
  obtain ⟨x, h1, h2⟩ := (solve_local_problem_spec m I gesv hg S.tau S.loc_mat hA lambda).1 hs
  obtain ⟨r, hr1, hr2⟩ := bulk_loop_get (dim := dim) m lin_comb abscissas x (fun d i => half 0 (toMat x) (ix d i) 0) (fun d i => by
    have h3 := get_fin m x (pos (emb 0 (ix d i)) 0)
    have h4 : (pos (emb 0 (ix d i)) (0 : Fin 1)).1 = d * nS + i := by simp [pos, ix, emb]
    rw [h4] at h3
    exact h3) (fun _ => 0) vals0
  refine ⟨_, _, _, _, h2, r.2, ?_, fun pt => ?_⟩
  · unfold bulk_values
    rw [h1, Res.ok_bind, hr1]
    rfl
  · obtain ⟨x, hp1, hp2⟩ := hr2 pt
    exact ⟨x, hp1, fun d => hp2 d.castSucc, hp2 (Fin.last dim)⟩

end

/-! ## The integrals over the cube -/

section
variable [Field K]

theorem cube_eq (I : Integrator K) : cubeForm I dim nS nB = affineForm I ⟨1, 1, fun _ => 1, fun f d => if axis f = d then normal f else 0⟩ (.of fun i j => I.vol_phiphi i j) := by
  unfold cubeForm affineForm
  congr 1
  · ext i j; simp
  · funext d; ext i j; simp [Matrix.one_apply]
  · funext f; ext i j; simp
  · funext f; ext i j; simp

theorem cube_flux_eq (I : Integrator K) (tau : K) (lambda : LocDofs dim nB K) (q : Fin dim → Fin nS → K) (u : Fin nS → K) :
    faceFlux (cubeForm I dim nS nB) tau lambda q u = numericalFlux I tau lambda q u := by
  funext f j
  have hn : (∑ d, (cubeForm I dim nS nB).normal f d • q d) = (normal f : K) • q (axis f) := by
    rw [Finset.sum_eq_single (axis f)] <;> simp +contextual [cubeForm, eq_comm]
  unfold faceFlux numericalFlux
  rw [hn]
  simp [cubeForm, mulVec, dotProduct]

theorem cube_solution_iff (I : Integrator K) (tau : K) (lambda : LocDofs dim nB K) (q : Fin dim → Fin nS → K) (u : Fin nS → K) :
    IsSolution (cubeForm I dim nS nB) tau 0 1 (moments (cubeForm I dim nS nB) lambda) 0 q u ↔ IsLocalSolution I tau lambda q u := by
  have hn : ∀ f, (∑ d, (cubeForm I dim nS nB).normal f d • q d) = (normal f : K) • q (axis f) := fun f => by
    rw [Finset.sum_eq_single (axis f)] <;> simp +contextual [cubeForm, eq_comm]
  have e1 : ∀ d i, ((cubeForm I dim nS nB).mass *ᵥ q d - (cubeForm I dim nS nB).grad d *ᵥ u + ∑ f, (cubeForm I dim nS nB).normal f d • moments (cubeForm I dim nS nB) lambda f) i =
      (∑ j : Fin nS, I.vol_phiphi i j * q d j) - (∑ j : Fin nS, I.vol_Dphiphi i j d * u j) +
      (∑ f : Fin (2 * dim), if axis f = d then ∑ j : Fin nB, normal f * (I.bdr_phipsi i j f * lambda f j) else 0) := by
    intro d i
    rw [Pi.add_apply, Pi.sub_apply, Finset.sum_apply]
    refine congrArg₂ _ rfl (Finset.sum_congr rfl fun f _ => ?_)
    simp only [cubeForm, moments, mulVec, dotProduct, Pi.smul_apply, smul_eq_mul, Matrix.of_apply]
    split
    · rw [Finset.mul_sum]
    · rw [zero_mul]
  have e2 : ∀ i, ((0 : K) • (cubeForm I dim nS nB).mass0 *ᵥ u + (1 : K) • (-(∑ d, (cubeForm I dim nS nB).grad d *ᵥ q d) +
      ∑ f, ((cubeForm I dim nS nB).bdr f *ᵥ (∑ d, (cubeForm I dim nS nB).normal f d • q d + tau • u) - tau • moments (cubeForm I dim nS nB) lambda f))) i =
      -(∑ d : Fin dim, ∑ j : Fin nS, I.vol_Dphiphi i j d * q d j) +
      (∑ f : Fin (2 * dim), ((∑ j : Fin nS, I.bdr_phiphi i j f * (normal f * q (axis f) j + tau * u j)) -
        ∑ j : Fin nB, tau * (I.bdr_phipsi i j f * lambda f j))) := by
    intro i
    simp only [hn, zero_smul, one_smul, Pi.add_apply, Pi.neg_apply, Finset.sum_apply, Pi.sub_apply, Pi.smul_apply]
    simp only [cubeForm, moments, mulVec, dotProduct, Matrix.of_apply, Pi.add_apply, Pi.smul_apply, smul_eq_mul, Finset.mul_sum]
    exact zero_add _
  constructor
  · intro h
    exact ⟨fun d i => (e1 d i).symm.trans (congrFun (h.flux d) i), fun i => (e2 i).symm.trans (congrFun h.primal i)⟩
  · intro h
    exact ⟨fun d => funext fun i => (e1 d i).trans (h.flux d i), funext fun i => (e2 i).trans (h.primal i)⟩

/-- **C62** (the second unknown is that of diffusion).  If `trace_to_flux` returns, so does `trace_to_flux` of `DiffusionUniform` (with the same `tau`) for the trace of `w`, and its result is the second
half. -/
theorem C62_diffusion (m : Mode) (I : Integrator K) (gesv : Gesv (n_loc_dofs dim nS) 1 K) (hg : GesvSpec gesv) (tau : K) (S : Solver dim nS K)
    (hS : construct m I dim nS tau = .ok S) (gesv' : Gesv ((dim + 1) * nS) 1 K) (hg' : GesvSpec gesv') (S' : DiffusionUniform.Solver dim nS K)
    (hS' : DiffusionUniform.construct m I dim nS tau = .ok S') {lambda out y : LocDofs dim (2 * nB) K}
    (h : trace_to_flux m I gesv S lambda out = .ok y) (out' : LocDofs dim nB K) :
    DiffusionUniform.trace_to_flux m I gesv' S' (lower lambda) out' = .ok (lower y) := by
  obtain ⟨hs, q, u, p, w, h1, rfl⟩ := of_ok m I gesv hg tau S hS h
  have hl : LocallySolvable I dim nS nB tau := by
    intro mu
    obtain ⟨_, _, p', w', h3, _⟩ := (C62_flux m I gesv hg tau S hS (halves 0 mu) 0).1 hs
    have h3 := h3.second
    rw [zero_mulVec, sub_zero, lower_halves] at h3
    exact ⟨p', w', (cube_solution_iff I tau mu p' w').mp h3, fun p'' w'' h4 => solution_unique hs ((cube_solution_iff I tau mu p'' w'').mpr h4) h3⟩
  have h2 := h1.second
  rw [zero_mulVec, sub_zero] at h2
  rw [DiffusionUniform.to_ok m I gesv' hg' tau S' hS' hl ((cube_solution_iff I tau _ p w).mp h2) out', lower_halves, cube_flux_eq]

end

section
variable [Field K] [LinearOrder K] [IsStrictOrderedRing K]

theorem cube_affine : AffineLaws (⟨1, 1, fun _ => 1, fun f d => if axis f = d then normal f else 0⟩ : Affine dim K) :=
  { vol_pos := one_pos
    cof_inv := isUnit_one
    area_pos := fun _ => one_pos
    piola := fun f d => by simp [Matrix.one_apply] }

theorem cube_laws {I : Integrator K} (hI : Lawful I dim nS nB) : FormLaws (cubeForm I dim nS nB) := by
  rw [cube_eq]
  refine affine_laws I hI _ cube_affine _ ?_ fun v hv => ?_
  · ext i j; exact hI.vol_symm j i
  · have := hI.vol_pos v hv
    simpa [dotProduct, mulVec, Finset.mul_sum] using this

theorem cube_rigid {I : Integrator K} (hR : RigidIntegrator I dim nS nB) : Rigid (cubeForm I dim nS nB) := by
  rw [cube_eq]
  exact affine_rigid I hR _ cube_affine _

variable (m : Mode) (I : Integrator K) (hI : Lawful I dim nS nB) (gesv : Gesv (n_loc_dofs dim nS) 1 K) (hg : GesvSpec gesv) (tau : K) (S : Solver dim nS K)
  (hS : construct m I dim nS tau = .ok S)

include hI hg hS

/-- **C62** (symmetry after exchange of the halves).  `(mu_w, mu_u) . trace_to_flux(lambda) = (lambda_w, lambda_u) . trace_to_flux(mu)`.  Without the exchange this is false (`C62_not_symmetric`). -/
theorem C62_symmetric {lambda mu out out' y z : LocDofs dim (2 * nB) K} (hy : trace_to_flux m I gesv S lambda out = .ok y) (hz : trace_to_flux m I gesv S mu out' = .ok z) :
    ∑ f, ∑ j, halves (lower mu) (upper mu) f j * y f j = ∑ f, ∑ j, halves (lower lambda) (upper lambda) f j * z f j := by
  have hE := cube_laws hI
  obtain ⟨hs, q, u, p, w, h1, rfl⟩ := of_ok m I gesv hg tau S hS hy
  obtain ⟨_, q', u', p', w', h1', rfl⟩ := of_ok m I gesv hg tau S hS hz
  have hp : ∀ a b c d : LocDofs dim nB K, ∑ f, ∑ j, halves a b f j * halves c d f j = ∑ f, a f ⬝ᵥ c f + ∑ f, b f ⬝ᵥ d f := by
    intro a b c d
    rw [← Finset.sum_add_distrib]
    refine Finset.sum_congr rfl fun f _ => ?_
    rw [sum_halves]
    simp only [halves_up, halves_lo, dotProduct]
  rw [hp, hp]
  rw [flux_form hE one_ne_zero h1.first h1'.second, flux_form hE one_ne_zero h1.second h1'.first, flux_form hE one_ne_zero h1'.first h1.second, flux_form hE one_ne_zero h1'.second h1.first]
  rw [bilin_symm hE (q := p) (u := w), bilin_symm hE (q := p') (u := w')]
  have hB : (mass I nS)ᵀ = mass I nS := hE.mass_symm
  have := symm_dot hB w w'
  simp only [zero_mulVec, sub_zero, dotProduct_zero, zero_add, zero_mul, inv_one, one_mul, mul_zero, add_zero]
  rw [this]
  ring

/-- **C62** (solvability).  For `tau > 0` the local problem is uniquely solvable, so `trace_to_flux` and `residual_flux` return for each trace. -/
theorem C62_solvable (ht : 0 < tau) (lambda out : LocDofs dim (2 * nB) K) : Solvable (cubeForm I dim nS nB) tau 0 1 ∧
    ∃ y, trace_to_flux m I gesv S lambda out = .ok y ∧ residual_flux m I gesv S lambda out = .ok y := by
  have hs := solvable_of (cube_laws hI) ht.le le_rfl one_pos (.inl ht) (rho := 0)
  obtain ⟨_, _, _, _, _, h1, h2⟩ := (C62_flux m I gesv hg tau S hS lambda out).1 hs
  exact ⟨hs, _, h1, h2⟩

/-- **C62** (constants).  If the trace of `w` vanishes and that of `u` is the trace of a function without derivatives, the result is zero. -/
theorem C62_constant (ht : 0 < tau) (c : Fin nS → K) (hc : Constant I dim c) (out : LocDofs dim (2 * nB) K) :
    trace_to_flux m I gesv S (halves (traceOf I nB c) 0) out = .ok 0 := by
  have hE := cube_laws hI
  have hs := solvable_of hE ht.le le_rfl one_pos (.inl ht) (rho := 0)
  have hc' : IsConst (cubeForm I dim nS nB) c := fun d => funext fun j => hc d j
  have hu : ∀ f, IsTrace (cubeForm I dim nS nB) c f (traceOf I nB c f) := fun f => by
    unfold IsTrace
    rw [show (cubeForm I dim nS nB).area f = 1 from rfl, one_smul]
    rfl
  have hzero : IsMixedSolution (cubeForm I dim nS nB) (mass I nS) 0 tau 1 (moments (cubeForm I dim nS nB) (upper (halves (traceOf I nB c) 0)))
      (moments (cubeForm I dim nS nB) (lower (halves (traceOf I nB c) 0))) 0 0 0 c 0 0 := by
    rw [upper_halves, lower_halves]
    refine ⟨?_, ?_⟩
    · rw [mulVec_zero, add_zero]; exact const_solution hE hc' hu tau 1
    · rw [zero_mulVec, sub_zero]
      have h0 : moments (cubeForm I dim nS nB) (0 : LocDofs dim nB K) = 0 := by funext f; exact mulVec_zero _
      rw [h0]
      have := solution_lin (0 : K) 0 (const_solution hE hc' hu tau 1) (const_solution hE hc' hu tau 1)
      simpa using this
  rw [to_ok m I gesv hg tau S hS hs hzero out, upper_halves, lower_halves, const_flux hu]
  refine congrArg Res.ok (eq_halves (fun f j => ?_) (fun f j => ?_)).symm
  · rfl
  · simp [faceFlux]

end

/-! ## The condensed problem -/

/-- A trace which gives no flux against itself and is anchored vanishes. -/
theorem half_zero [Field K] [LinearOrder K] [IsStrictOrderedRing K] {I : Integrator K} (hI : Lawful I dim nS nB) {tau : K} (ht : 0 < tau) {G' : HyGraph dim (2 * nB)} {nodes : Fin G'.n_hyEdges → Fin (2 * dim) → Fin G'.n_hyNodes} (hR : RigidIntegrator I dim nS nB) (D : Fin G'.n_hyNodes → Prop) (hcon : Anchored nodes D)
    (y : Fin G'.n_hyNodes → Fin nB → K) (hy : ∀ v, D v → y v = 0) (q : Fin G'.n_hyEdges → Fin dim → Fin nS → K) (u : Fin G'.n_hyEdges → Fin nS → K)
    (hsol : ∀ e, IsSolution (cubeForm I dim nS nB) tau 0 1 (moments (cubeForm I dim nS nB) (fun f => y (nodes e f))) 0 (q e) (u e))
    (h0 : ∑ e, ∑ f, y (nodes e f) ⬝ᵥ faceFlux (cubeForm I dim nS nB) tau (fun f => y (nodes e f)) (q e) (u e) f = 0) : y = 0 := by
  have hE := cube_laws hI
  have h2 : ∀ e, ∑ f, y (nodes e f) ⬝ᵥ faceFlux (cubeForm I dim nS nB) tau (fun f => y (nodes e f)) (q e) (u e) f =
      -bilin (cubeForm I dim nS nB) tau (q e) (u e) (fun f => y (nodes e f)) (q e) (u e) (fun f => y (nodes e f)) := fun e => by
    have := flux_form hE one_ne_zero (hsol e) (hsol e)
    simpa only [dotProduct_zero, zero_mul, sub_zero, mul_zero, add_zero] using this
  rw [Finset.sum_congr rfl fun e _ => h2 e] at h0
  have h3 := (Finset.sum_eq_zero_iff_of_nonpos (fun e _ => by simpa using bilin_nonneg hE ht.le (q e) (u e) (fun f => y (nodes e f)))).mp h0
  refine funext fun v => hcon.all (fun v => y v = 0) hy (fun e f g hf => ?_) v
  have h3 := h3 e (Finset.mem_univ e)
  rw [neg_eq_zero] at h3
  have h4 := bilin_q_zero hE ht.le h3
  have h5 := bilin_trace_zero hE ht h3
  have h6 := hsol e
  rw [h4] at h6
  have hc := const_of hE h6 h5
  have h1 := h5 f
  unfold IsTrace at h1
  rw [hf, smul_zero] at h1
  have h7 := cube_rigid hR (u e) f hc h1.symm
  have h8 := h5 g
  unfold IsTrace at h8
  rw [h7, mulVec_zero] at h8
  exact (smul_eq_zero.mp h8).resolve_left (hE.area_pos g).ne'

/-- The local function of the global loop: each hyperedge uses the same solver. -/
def localOperator [CommRing K] (m : Mode) (I : Integrator K) (gesv : Gesv (n_loc_dofs dim nS) 1 K) (S : Solver dim nS K) : HyGraph.LocalFun dim (2 * nB) K :=
  fun _ lambda out => trace_to_flux m I gesv S lambda out

section
variable [Field K] [LinearOrder K] [IsStrictOrderedRing K] (m : Mode) (I : Integrator K) (hI : Lawful I dim nS nB) (gesv : Gesv (n_loc_dofs dim nS) 1 K) (hg : GesvSpec gesv) (tau : K)
  (ht : 0 < tau) (S : Solver dim nS K) (hS : construct m I dim nS tau = .ok S) (G : HyGraph dim (2 * nB)) (nodes : Fin G.n_hyEdges → Fin (2 * dim) → Fin G.n_hyNodes)
  (hwf : G.WF nodes) (old0 new0 : LocDofs dim (2 * nB) K)

include hI hg ht hS hwf

theorem operator_exists : ∃ (F : LocDofs dim (2 * nB) K → LocDofs dim (2 * nB) K) (A : (Fin (G.n_hyNodes * (2 * nB)) → K) →ₗ[K] (Fin (G.n_hyNodes * (2 * nB)) → K)),
      (∀ lambda out, trace_to_flux m I gesv S lambda out = .ok (F lambda)) ∧
      (∀ x, G.mat_vec_multiply m (localOperator m I gesv S) old0 new0 (List.ofFn x) = .ok (List.ofFn (A x))) ∧
      (∀ x, A x = assemble nodes (fun e => F (faceValues nodes x e))) := by
  have hret : ∀ lambda : LocDofs dim (2 * nB) K, ∃ y, ∀ out, trace_to_flux m I gesv S lambda out = .ok y := by
    intro lambda
    have hs := (C62_solvable m I hI gesv hg tau S hS ht lambda 0).1
    obtain ⟨q, u, p, w, h1, _⟩ := (C62_flux m I gesv hg tau S hS lambda 0).1 hs
    exact ⟨_, fun out => to_ok m I gesv hg tau S hS hs h1 out⟩
  choose F hF using hret
  have hlin : ∀ (a b : K) (x y : LocDofs dim (2 * nB) K), F (a • x + b • y) = a • F x + b • F y := by
    intro a b x y
    have := C62_linear m I gesv hg tau S hS (hF x 0) (hF y 0) a b 0
    rw [hF] at this
    injection this
  let L : LocDofs dim (2 * nB) K →ₗ[K] LocDofs dim (2 * nB) K :=
    { toFun := F
      map_add' := fun x y => by
        have := hlin 1 1 x y
        simpa only [one_smul] using this
      map_smul' := fun a x => by
        have := hlin a 0 x 0
        simpa only [zero_smul, add_zero, RingHom.id_apply] using this }
  have hloc : ∀ (e : Fin G.n_hyEdges) (u : LocDofs dim (2 * nB) K), localOperator m I gesv S e u (fun _ _ => 0) = .ok (L u) := fun e u => hF u _
  obtain ⟨A, hA⟩ := HyGraph.C18_linear m G nodes hwf old0 new0 (localOperator m I gesv S) (fun _ => L) hloc
  refine ⟨F, A, hF, hA, fun x => ?_⟩
  have h1 := HyGraph.mat_vec_eq m G nodes hwf (localOperator m I gesv S) x _ (fun e => hloc e _) old0 new0
  rw [hA x] at h1
  injection h1 with h1
  exact List.ofFn_injective h1

variable (hR : RigidIntegrator I dim nS nB) (indices : List Nat) (hind : ∀ d ∈ indices, d < G.n_hyNodes * (2 * nB))
  (hcon : Anchored nodes (fun v => ∀ j : Fin (2 * nB), (dof v j).1 ∈ indices))

include hR hind hcon

/-- **C62** (exactly one discrete solution).  Let the declared indices contain all dofs of some hypernodes, such that each hypernode is connected to one of these by a chain of hyperedges.  For `tau > 0`
and each right-hand side `b` which vanishes at the declared indices there is exactly one vector which has the given values at the declared indices and for which `trace_to_flux` returns `b` (after the
indices have been declared). -/
theorem C62_unique (values b : Fin (G.n_hyNodes * (2 * nB)) → K) (hb : ∀ k, k.1 ∈ indices → b k = 0) : ∃ E', (HyGraph.Elliptic.mk' G).read_dirichlet_indices m indices = .ok E' ∧
    ∃! y : Fin (G.n_hyNodes * (2 * nB)) → K, (∀ k, k.1 ∈ indices → y k = values k) ∧
      E'.apply m (localOperator m I gesv S) old0 new0 (List.ofFn y) = .ok (List.ofFn b) := by
  obtain ⟨F, A, hF, hA, hAx⟩ := operator_exists m I hI gesv hg tau ht S hS G nodes hwf old0 new0
  obtain ⟨E', h1, h2, h3⟩ := C23_zero_at_declared (K := K) m (HyGraph.Elliptic.mk' G) hwf.fits indices (fun d hd => by
    show d < G.n_global_dofs
    rw [HyGraph.n_global_dofs_eq G hwf.fits]
    exact hind d hd)
  let A' : (Fin (G.n_hyNodes * (2 * nB)) → K) →ₗ[K] (Fin (G.n_hyNodes * (2 * nB)) → K) :=
    { toFun := fun x k => if k.1 ∈ indices then 0 else A x k
      map_add' := fun x y => by
        funext k
        simp only [map_add, Pi.add_apply]
        split <;> simp
      map_smul' := fun a x => by
        funext k
        simp only [map_smul, Pi.smul_apply, smul_eq_mul, RingHom.id_apply]
        split <;> simp }
  have hA' : ∀ x, E'.apply m (localOperator m I gesv S) old0 new0 (List.ofFn x) = .ok (List.ofFn (A' x)) := fun x => h3 _ _ _ _ _ (hA x)
  have hp : ∀ x z : Fin (G.n_hyNodes * (2 * nB)) → K, (∀ k : Fin (G.n_hyNodes * (2 * nB)), k.1 ∈ indices → z k = 0) → ∑ k, z k * A' x k = ∑ k, z k * A x k := by
    intro x z hz
    refine Finset.sum_congr rfl fun k _ => ?_
    show z k * (if k.1 ∈ indices then 0 else A x k) = _
    split
    next h => rw [hz k h]; simp
    next => rfl
  have hA0 : ∀ x (k : Fin (G.n_hyNodes * (2 * nB))), k.1 ∈ indices → A' x k = 0 := fun x k hk => if_pos hk
  refine ⟨E', h1, ?_⟩
  have hz : ∀ y, E'.apply m (localOperator m I gesv S) old0 new0 (List.ofFn y) = .ok (List.ofFn b) ↔ A' y = b := by
    intro y
    rw [hA']
    exact ⟨fun h => List.ofFn_injective (Res.ok.inj h), fun h => by rw [h]⟩
  simp only [hz]
  have hinj : ∀ x, (∀ k : Fin (G.n_hyNodes * (2 * nB)), k.1 ∈ indices → x k = 0) → A' x = 0 → x = 0 := by
    intro x hx h0
    have hsol : ∀ e : Fin G.n_hyEdges, ∃ q u p w,
        IsMixedSolution (cubeForm I dim nS nB) (mass I nS) 0 tau 1 (moments (cubeForm I dim nS nB) (upper (faceValues nodes x e))) (moments (cubeForm I dim nS nB) (lower (faceValues nodes x e))) 0 0 q u p w ∧
        F (faceValues nodes x e) = halves (faceFlux (cubeForm I dim nS nB) tau (upper (faceValues nodes x e)) q u) (faceFlux (cubeForm I dim nS nB) tau (lower (faceValues nodes x e)) p w) := by
      intro e
      obtain ⟨_, q, u, p, w, h1, h2⟩ := of_ok m I gesv hg tau S hS (hF (faceValues nodes x e) 0)
      exact ⟨q, u, p, w, h1, h2⟩
    choose q u p w hq hFq using hsol
    have hpair : ∀ (z1 z2 : Fin G.n_hyNodes → Fin nB → K), (∀ v j, (dof v (up j)).1 ∈ indices → z1 v j = 0) → (∀ v j, (dof v (lo j)).1 ∈ indices → z2 v j = 0) →
        ∑ e : Fin G.n_hyEdges, (∑ f, z1 (nodes e f) ⬝ᵥ faceFlux (cubeForm I dim nS nB) tau (upper (faceValues nodes x e)) (q e) (u e) f +
          ∑ f, z2 (nodes e f) ⬝ᵥ faceFlux (cubeForm I dim nS nB) tau (lower (faceValues nodes x e)) (p e) (w e) f) = 0 := by
      intro z1 z2 hz1 hz2
      let g : Fin G.n_hyNodes → Fin (2 * nB) → K := fun v j => if h : j.1 < nB then z1 v ⟨j, h⟩ else z2 v ⟨j - nB, by omega⟩
      have hg1 : ∀ e, faceValues nodes (ofNodes g) e = halves (fun f => z1 (nodes e f)) (fun f => z2 (nodes e f)) := fun e => funext fun f => funext fun j => ofNodes_dof g _ j
      have hv : ∀ k : Fin (G.n_hyNodes * (2 * nB)), k.1 ∈ indices → ofNodes g k = 0 := by
        intro k hk
        obtain ⟨v, j, rfl⟩ := HyGraph.dof_surj k
        rw [ofNodes_dof]
        obtain ⟨i, rfl | rfl⟩ := halves_cases j
        · show (if h : (up i).1 < nB then z1 v ⟨up i, h⟩ else z2 v ⟨up i - nB, _⟩) = 0
          rw [dif_pos (show (up i).1 < nB from i.2)]
          exact hz1 v i hk
        · show (if h : (lo i).1 < nB then z1 v ⟨lo i, h⟩ else z2 v ⟨lo i - nB, _⟩) = 0
          rw [dif_neg (show ¬ (lo i).1 < nB by simp [lo])]
          have : (⟨(lo i).1 - nB, by simp [lo]⟩ : Fin nB) = i := Fin.ext (by simp [lo])
          rw [this]
          exact hz2 v i hk
      have h4 : ∑ k, ofNodes g k * A' x k = 0 := by rw [h0]; simp
      rw [hp x _ hv, hAx, HyGraph.pairing_assemble] at h4
      rw [← h4]
      refine Finset.sum_congr rfl fun e _ => ?_
      rw [hFq e, hg1 e, ← Finset.sum_add_distrib]
      refine Finset.sum_congr rfl fun f _ => ?_
      rw [sum_halves]
      simp only [halves_up, halves_lo, dotProduct]
    have hw : (fun v k => x (dof v (lo k)) : Fin G.n_hyNodes → Fin nB → K) = 0 := by
      refine half_zero hI ht hR _ hcon _ (fun v hv => funext fun k => hx _ (hv _)) p w (fun e => ?_) ?_
      · have := (hq e).second
        rw [zero_mulVec, sub_zero] at this
        exact this
      · have := hpair 0 (fun v k => x (dof v (lo k))) (fun _ _ _ => rfl) (fun v j hj => hx _ hj)
        simp only [Pi.zero_apply, zero_dotProduct, Finset.sum_const_zero, zero_add] at this
        exact this
    have hw0 : ∀ e : Fin G.n_hyEdges, w e = 0 := by
      intro e
      have h5 := (hq e).second
      have hlow : lower (faceValues nodes x e) = 0 := funext fun f => congrFun hw (nodes e f)
      have h0 : moments (cubeForm I dim nS nB) (0 : LocDofs dim nB K) = 0 := by funext f; exact mulVec_zero _
      rw [zero_mulVec, sub_zero, hlow, h0] at h5
      exact ((C62_solvable m I hI gesv hg tau S hS ht (0 : LocDofs dim (2 * nB) K) 0).1 _ _ h5).2
    have hu : (fun v k => x (dof v (up k)) : Fin G.n_hyNodes → Fin nB → K) = 0 := by
      refine half_zero hI ht hR _ hcon _ (fun v hv => funext fun k => hx _ (hv _)) q u (fun e => ?_) ?_
      · have := (hq e).first
        rw [hw0 e, mulVec_zero, add_zero] at this
        exact this
      · have := hpair (fun v k => x (dof v (up k))) 0 (fun v j hj => hx _ hj) (fun _ _ _ => rfl)
        simp only [Pi.zero_apply, zero_dotProduct, Finset.sum_const_zero, add_zero] at this
        exact this
    funext k
    obtain ⟨v, j, rfl⟩ := HyGraph.dof_surj k
    obtain ⟨i, rfl | rfl⟩ := halves_cases j
    · exact congrFun (congrFun hu v) i
    · exact congrFun (congrFun hw v) i
  obtain ⟨y, ⟨hy1, hy2⟩, hy3⟩ := EllipticProgram.unique_masked_inj A' (fun k => k.1 ∈ indices) hA0 hinj (b - A' values) (fun k hk => by rw [Pi.sub_apply, hb k hk, hA0 _ k hk, sub_zero])
  refine ⟨y + values, ⟨fun k hk => by rw [Pi.add_apply, hy1 k hk, zero_add], by rw [map_add, hy2, sub_add_cancel]⟩, fun y' ⟨h5, h6⟩ => ?_⟩
  rw [← hy3 (y' - values) ⟨fun k hk => by rw [Pi.sub_apply, h5 k hk, sub_self], by rw [map_sub, h6]⟩, sub_add_cancel]

end

/-! ## Concrete instances -/

namespace Example

open DiffusionUniform.Example HyGraph.Example

/-- **C62** (`trace_to_flux` is not symmetric).  On the interval with piecewise constants and `tau = 1`: for `lambda` with trace 1 of `w` and 0 of `u`, and `mu` with trace 1 of `u` and 0 of `w`,
`mu . trace_to_flux(lambda) = 1` and `lambda . trace_to_flux(mu) = 0`. -/
theorem C62_not_symmetric : ∃ (S : Solver 1 1 ℚ) (lambda mu y z : LocDofs 1 (2 * 1) ℚ), construct .debug I0 1 1 1 = .ok S ∧ Lawful I0 1 1 1 ∧
    trace_to_flux .debug I0 (cramerSolve _ _ ℚ) S lambda (fun _ _ => 0) = .ok y ∧ trace_to_flux .debug I0 (cramerSolve _ _ ℚ) S mu (fun _ _ => 0) = .ok z ∧
    ∑ f, ∑ j, mu f j * y f j = 1 ∧ ∑ f, ∑ j, lambda f j * z f j = 0 := by
  obtain ⟨S, hS⟩ := C62_constructor (dim := 1) (nS := 1) .debug I0 (1 : ℚ)
  have hs := (C62_solvable .debug I0 I0_lawful (cramerSolve _ _ ℚ) (C44_example _ _ ℚ) 1 S hS one_pos (0 : LocDofs 1 (2 * 1) ℚ) 0).1
  have hpsi : ∀ f, (cubeForm I0 1 1 1).psi f = .of fun _ _ => 1 := by
    intro f; ext i j; fin_cases f <;> fin_cases i <;> fin_cases j <;> simp [cubeForm, I0, tensorIntegrator, SameFace, B0]
  have hbdr : ∀ f, (cubeForm I0 1 1 1).bdr f = .of fun _ _ => 1 := by
    intro f; ext i j; fin_cases f <;> fin_cases i <;> fin_cases j <;> simp [cubeForm, I0, tensorIntegrator, SameExcept, B0]
  have hgrad : ∀ d, (cubeForm I0 1 1 1).grad d = 0 := by
    intro d; ext i j; fin_cases d; fin_cases i; fin_cases j; simp [cubeForm, I0, tensorIntegrator, B0]
  have hmass : mass I0 1 = .of fun _ _ => 1 := by
    ext i j; fin_cases i; fin_cases j; simp [mass, I0, tensorIntegrator]
  have hn0 : (cubeForm I0 1 1 1).normal 0 0 = -1 := by simp [cubeForm, axis, normal]
  have hn1 : (cubeForm I0 1 1 1).normal 1 0 = 1 := by simp [cubeForm, axis, normal]
  let a : LocDofs 1 1 ℚ := fun _ _ => 1
  have h1 : IsMixedSolution (cubeForm I0 1 1 1) (mass I0 1) 0 1 1 (moments (cubeForm I0 1 1 1) (upper (halves 0 a))) (moments (cubeForm I0 1 1 1) (lower (halves 0 a))) 0 0
      0 (fun _ => 1 / 2) 0 (fun _ => 1) := by
    rw [upper_halves, lower_halves]
    refine ⟨⟨fun d => ?_, ?_⟩, ⟨fun d => ?_, ?_⟩⟩
    · fin_cases d; funext i; fin_cases i
      simp [moments, hgrad, hpsi, mulVec, dotProduct]
    · funext i; fin_cases i
      simp [moments, hgrad, hpsi, hbdr, hmass, mulVec, dotProduct, Fin.sum_univ_two]
      try norm_num
    · fin_cases d; funext i; fin_cases i
      simp [moments, hgrad, hpsi, mulVec, dotProduct, Fin.sum_univ_two, hn0, hn1, a]
    · funext i; fin_cases i
      simp [moments, hgrad, hpsi, hbdr, hmass, mulVec, dotProduct, Fin.sum_univ_two, a]
  have h2 : IsMixedSolution (cubeForm I0 1 1 1) (mass I0 1) 0 1 1 (moments (cubeForm I0 1 1 1) (upper (halves a 0))) (moments (cubeForm I0 1 1 1) (lower (halves a 0))) 0 0
      0 (fun _ => 1) 0 0 := by
    rw [upper_halves, lower_halves]
    refine ⟨⟨fun d => ?_, ?_⟩, ⟨fun d => ?_, ?_⟩⟩
    · fin_cases d; funext i; fin_cases i
      simp [moments, hgrad, hpsi, mulVec, dotProduct, Fin.sum_univ_two, hn0, hn1, a]
    · funext i; fin_cases i
      simp [moments, hgrad, hpsi, hbdr, hmass, mulVec, dotProduct, Fin.sum_univ_two, a]
    · fin_cases d; funext i; fin_cases i
      simp [moments, hgrad, hpsi, mulVec, dotProduct]
    · funext i; fin_cases i
      simp [moments, hgrad, hpsi, hbdr, mulVec, dotProduct]
  refine ⟨S, halves 0 a, halves a 0, _, _, hS, I0_lawful, to_ok .debug I0 _ (C44_example _ _ ℚ) 1 S hS hs h1 _, to_ok .debug I0 _ (C44_example _ _ ℚ) 1 S hS hs h2 _, ?_, ?_⟩
  · have : ∀ f, ∑ j, halves a 0 f j * halves (faceFlux (cubeForm I0 1 1 1) 1 (upper (halves 0 a)) 0 fun _ => 1 / 2) (faceFlux (cubeForm I0 1 1 1) 1 (lower (halves 0 a)) 0 fun _ => 1) f j = 1 / 2 := by
      intro f
      rw [sum_halves]
      simp only [halves_up, halves_lo, upper_halves, lower_halves]
      simp [faceFlux, hpsi, mulVec, dotProduct, a]
    rw [Finset.sum_congr rfl fun f _ => this f]
    norm_num
  · have : ∀ f, ∑ j, halves 0 a f j * halves (faceFlux (cubeForm I0 1 1 1) 1 (upper (halves a 0)) 0 fun _ => 1) (faceFlux (cubeForm I0 1 1 1) 1 (lower (halves a 0)) 0 0) f j = 0 := by
      intro f
      rw [sum_halves]
      simp only [halves_up, halves_lo, upper_halves, lower_halves]
      simp [faceFlux, hpsi, mulVec, dotProduct, a]
    rw [Finset.sum_congr rfl fun f _ => this f]
    simp

/-- The path of two intervals with two dofs per node. -/
def path2 : HyGraph 1 (2 * 1) := ⟨2, 3, fun e i => e + i⟩

theorem path2_wf : path2.WF pathNodes := ⟨fun _ _ => rfl, by decide⟩

theorem path2_anchored : Anchored pathNodes (fun v => ∀ j : Fin (2 * 1), (dof v j).1 ∈ [0, 1, 4, 5]) := by
  intro v
  obtain ⟨w, hw, h⟩ := EllipticProgram.Example.path_anchored v
  refine ⟨w, fun j => ?_, h⟩
  have h0 := hw 0
  simp only [dof, List.mem_cons, List.not_mem_nil, or_false] at h0 ⊢
  have := j.2
  omega

/-- The hypotheses of the other parts of C62 can be met: an interval with constants, and the path with two intervals, both ends declared. -/
example := fun S hS => C62_solvable .debug I0 I0_lawful (cramerSolve _ _ ℚ) (C44_example _ _ ℚ) 1 S hS one_pos (fun f (j : Fin (2 * 1)) => f.1 + j.1) (fun _ _ => 7)

example := fun S hS (out : LocDofs 1 (2 * 1) ℚ) => C62_constant (dim := 1) (nS := 1) .debug I0 I0_lawful (cramerSolve _ _ ℚ) (C44_example _ _ ℚ) 1 S hS one_pos (fun _ => 3)
  (fun d i => by simp [I0, tensorIntegrator, B0]) out

example := fun S hS hs => C62_bulk_values (dim := 1) (nS := 1) (nB := 1) .release I0 (cramerSolve _ _ ℚ) (C44_example _ _ ℚ) 1 S hS hs (fun c _ => c 0) [0, 1/2, 1] (fun f _ => f.1) (fun _ _ => 7)

example := fun S hS S' hS' (y : LocDofs 1 (2 * 1) ℚ) h => C62_diffusion (dim := 1) (nS := 1) (nB := 1) .debug I0 (cramerSolve _ _ ℚ) (C44_example _ _ ℚ) 1 S hS (cramerSolve _ _ ℚ) (C44_example _ _ ℚ) S' hS'
  (lambda := fun f j => f.1 + j.1) (out := 0) (y := y) h 0

example := fun S hS => C62_unique .debug I0 I0_lawful (cramerSolve _ _ ℚ) (C44_example _ _ ℚ) 1 one_pos S hS path2 pathNodes path2_wf (fun _ _ => 7) (fun _ _ => 8)
  (tensor_rigid (d := 0) B0 B0_lawful) [0, 1, 4, 5] (by decide) path2_anchored (fun k => k.1) 0 (fun _ _ => rfl)

end Example

end HyperHDG.BilaplacianUniform

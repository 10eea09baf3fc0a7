import Verif.Proofs.DiffusionAdvectionReaction
import Verif.Proofs.AdvectionReaction
import Verif.Proofs.GlobalSolve
import Verif.Props.Diffusion
import Verif.Proofs.EllipticProgram
import Verif.Proofs.Rigid
import Verif.Props.GlobalClasses
import Mathlib.Tactic.FinCases

/-!
# Properties C81, C82: the local solver for diffusion, advection and reaction

`E` is what the solver knows about a hyperedge, `form E.toEdge nB time` its integrals without velocity and reaction as data of the abstract LDG-H method (`Verif/Spec/LDG.lean`),
`coeffs E t t'` those with the velocity at time `t` and the reaction rate at time `t'`; `Spec.DAR.IsSolution` is the weak form of the local problem (`Verif/Spec/AdvectionReaction.lean`),
`faceFlux` the numerical flux `q . n + tau (u - lambda)` tested by the face shape functions.
-/

namespace HyperHDG.DAR

open Finset Matrix
open Spec hiding IsSolution Solvable solution_lin solution_unique flux_test primal_test
open Spec.DAR
open DiffusionUniform (qOf uOf)
open HyGraph (VanishesAt dof_surj)
open Diffusion (form IsDirichlet dirichletMoments source offDirichlet dataOf writeFlux_eq writeMassFlux_eq VanishesOnDirichlet pair_off)

variable {dim nS nB : Nat} {K : Type}

/-! ## C81: what is computed -/

section
variable [Field K] (m : Mode) (gesv : Gesv ((dim + 1) * nS) 1 K) (hg : GesvSpec gesv) (tau : K) (E : Edge dim nS K) (time : K)

include hg

/-- **C81** (what `trace_to_flux` computes).  If the local problem with the velocity at time 0 and the other coefficients at the given time is uniquely solvable, the result is zero on the
Dirichlet faces and the numerical flux of the solution for the trace `lambda`, without source and Dirichlet data, on the other ones, whatever the output array contained.  Otherwise the
debug build aborts and the release build lets the LAPACK exception through. -/
theorem C81_flux (lambda out : LocDofs dim nB K) :
    (Solvable (form E.toEdge nB time) (coeffs E 0 time) tau → ∃ q u, IsSolution (form E.toEdge nB time) (coeffs E 0 time) tau (moments (form E.toEdge nB time) lambda) 0 q u ∧
      trace_to_flux m gesv tau lambda out E time = .ok (offDirichlet E.toEdge (faceFlux (form E.toEdge nB time) tau lambda q u))) ∧
    (¬ Solvable (form E.toEdge nB time) (coeffs E 0 time) tau → trace_to_flux m gesv tau lambda out E time = solveFailure m) := by
  obtain ⟨h1, h2⟩ := solve_local_problem_spec m gesv hg E tau time lambda 0 (.inl rfl)
  refine ⟨fun hs => ?_, fun hs => ?_⟩
  · obtain ⟨x, hx1, hx2⟩ := h1 hs
    refine ⟨_, _, hx2, ?_⟩
    rw [trace_to_flux, hx1, Res.ok_bind]
    exact writeFlux_eq m E.toEdge tau time x lambda out
  · rw [trace_to_flux, h2 hs]
    cases m <;> rfl

/-- **C81** (what `residual_flux` computes).  As `trace_to_flux`, but for the local problem with the source and with the Dirichlet data added to the trace. -/
theorem C81_residual (lambda out : LocDofs dim nB K) :
    (Solvable (form E.toEdge nB time) (coeffs E 0 time) tau → ∃ q u, IsSolution (form E.toEdge nB time) (coeffs E 0 time) tau
        (moments (form E.toEdge nB time) lambda + dirichletMoments E.toEdge time) (source E.toEdge time) q u ∧
      residual_flux m gesv tau lambda out E time = .ok (offDirichlet E.toEdge (faceFlux (form E.toEdge nB time) tau lambda q u))) ∧
    (¬ Solvable (form E.toEdge nB time) (coeffs E 0 time) tau → residual_flux m gesv tau lambda out E time = solveFailure m) := by
  obtain ⟨h1, h2⟩ := solve_local_problem_spec m gesv hg E tau time lambda 1 (.inr rfl)
  refine ⟨fun hs => ?_, fun hs => ?_⟩
  · obtain ⟨x, hx1, hx2⟩ := h1 hs
    refine ⟨_, _, hx2, ?_⟩
    rw [residual_flux, hx1, Res.ok_bind]
    exact writeFlux_eq m E.toEdge tau time x lambda out
  · rw [residual_flux, h2 hs]
    cases m <;> rfl

theorem of_ok {lambda out y : LocDofs dim nB K} (h : trace_to_flux m gesv tau lambda out E time = .ok y) :
    Solvable (form E.toEdge nB time) (coeffs E 0 time) tau ∧ ∃ q u, IsSolution (form E.toEdge nB time) (coeffs E 0 time) tau (moments (form E.toEdge nB time) lambda) 0 q u ∧
      y = offDirichlet E.toEdge (faceFlux (form E.toEdge nB time) tau lambda q u) := by
  have hf := C81_flux m gesv hg tau E time lambda out
  by_cases hs : Solvable (form E.toEdge nB time) (coeffs E 0 time) tau
  · obtain ⟨q, u, h1, h2⟩ := hf.1 hs
    rw [h] at h2
    injection h2 with h2
    exact ⟨hs, q, u, h1, h2⟩
  · have := hf.2 hs
    rw [h] at this
    cases m <;> cases this

theorem of_res {lambda out y : LocDofs dim nB K} (h : residual_flux m gesv tau lambda out E time = .ok y) :
    Solvable (form E.toEdge nB time) (coeffs E 0 time) tau ∧ ∃ q u, IsSolution (form E.toEdge nB time) (coeffs E 0 time) tau
        (moments (form E.toEdge nB time) lambda + dirichletMoments E.toEdge time) (source E.toEdge time) q u ∧
      y = offDirichlet E.toEdge (faceFlux (form E.toEdge nB time) tau lambda q u) := by
  have hf := C81_residual m gesv hg tau E time lambda out
  by_cases hs : Solvable (form E.toEdge nB time) (coeffs E 0 time) tau
  · obtain ⟨q, u, h1, h2⟩ := hf.1 hs
    rw [h] at h2
    injection h2 with h2
    exact ⟨hs, q, u, h1, h2⟩
  · have := hf.2 hs
    rw [h] at this
    cases m <;> cases this

theorem to_ok (hs : Solvable (form E.toEdge nB time) (coeffs E 0 time) tau) {lambda : LocDofs dim nB K} {q : Fin dim → Fin nS → K} {u : Fin nS → K}
    (h : IsSolution (form E.toEdge nB time) (coeffs E 0 time) tau (moments (form E.toEdge nB time) lambda) 0 q u) (out : LocDofs dim nB K) :
    trace_to_flux m gesv tau lambda out E time = .ok (offDirichlet E.toEdge (faceFlux (form E.toEdge nB time) tau lambda q u)) := by
  obtain ⟨q', u', h1, h2⟩ := (C81_flux m gesv hg tau E time lambda out).1 hs
  obtain ⟨rfl, rfl⟩ := solution_unique hs h h1
  exact h2

/-- **C81** (Dirichlet rows).  `trace_to_flux` and `residual_flux` return exactly zero on the faces of Dirichlet type. -/
theorem C81_dirichlet_zero (lambda out y : LocDofs dim nB K)
    (h : trace_to_flux m gesv tau lambda out E time = .ok y ∨ residual_flux m gesv tau lambda out E time = .ok y) (f : Fin (2 * dim))
    (hf : E.node_descriptor f ∈ E.dirichlet_nodes) (j : Fin nB) : y f j = 0 := by
  have key : ∀ z : LocDofs dim nB K, offDirichlet E.toEdge z f j = 0 := fun z => by
    simp only [offDirichlet]
    exact if_pos hf
  rcases h with h | h
  · obtain ⟨_, q, u, _, rfl⟩ := of_ok m gesv hg tau E time h
    exact key _
  · obtain ⟨_, q, u, _, rfl⟩ := of_res m gesv hg tau E time h
    exact key _

/-- **C81** (linearity).  If `trace_to_flux` returns `y` for `lambda` and `z` for `mu`, then it returns `a y + b z` for `a lambda + b mu`. -/
theorem C81_linear {lambda mu out out' y z : LocDofs dim nB K} (hy : trace_to_flux m gesv tau lambda out E time = .ok y)
    (hz : trace_to_flux m gesv tau mu out' E time = .ok z) (a b : K) (out'' : LocDofs dim nB K) :
    trace_to_flux m gesv tau (a • lambda + b • mu) out'' E time = .ok (a • y + b • z) := by
  obtain ⟨hs, q, u, h1, rfl⟩ := of_ok m gesv hg tau E time hy
  obtain ⟨_, q', u', h1', rfl⟩ := of_ok m gesv hg tau E time hz
  have h2 := solution_lin a b h1 h1'
  rw [← moments_lin, smul_zero, smul_zero, add_zero] at h2
  rw [to_ok m gesv hg tau E time hs h2 out'', flux_lin]
  refine congrArg Res.ok ?_
  funext f j
  simp only [offDirichlet, Pi.add_apply, Pi.smul_apply, smul_eq_mul]
  split <;> simp

/-- **C81** (affine residual).  `residual_flux(lambda) = trace_to_flux(lambda) + residual_flux(0)`, whenever the local problem is uniquely solvable. -/
theorem C81_affine (hs : Solvable (form E.toEdge nB time) (coeffs E 0 time) tau) (lambda out out' out'' : LocDofs dim nB K) :
    ∃ y r, trace_to_flux m gesv tau lambda out E time = .ok y ∧ residual_flux m gesv tau 0 out' E time = .ok r ∧
      residual_flux m gesv tau lambda out'' E time = .ok (y + r) := by
  obtain ⟨q, u, h1, h2⟩ := (C81_flux m gesv hg tau E time lambda out).1 hs
  obtain ⟨q', u', h1', h2'⟩ := (C81_residual m gesv hg tau E time 0 out').1 hs
  obtain ⟨q'', u'', h1'', h2''⟩ := (C81_residual m gesv hg tau E time lambda out'').1 hs
  refine ⟨_, _, h2, h2', h2''.trans ?_⟩
  have h3 := solution_lin 1 1 h1 h1'
  have h4 : moments (form E.toEdge nB time) (0 : LocDofs dim nB K) = 0 := by funext f; simp [moments]
  simp only [one_smul, zero_add, h4] at h3
  obtain ⟨rfl, rfl⟩ := solution_unique hs h1'' h3
  refine congrArg Res.ok ?_
  have h5 := flux_lin (F := form E.toEdge nB time) (tau := tau) (lambda := lambda) (mu := 0) (q := q) (q' := q') (u := u) (u' := u') 1 1
  simp only [one_smul, add_zero] at h5
  rw [h5]
  funext f j
  simp only [offDirichlet, Pi.add_apply]
  split <;> simp

/-- **C81** (mass fluxes).  `trace_to_mass_flux` and `total_numerical_flux_mass` solve a second local problem, with the primal solution of the first one as source, and return its flux;
the first problem is that of `trace_to_flux` and that of `residual_flux`, respectively. -/
theorem C81_mass_flux (hs : Solvable (form E.toEdge nB time) (coeffs E 0 time) tau) (lambda out : LocDofs dim nB K) :
    (∃ q u q' u', IsSolution (form E.toEdge nB time) (coeffs E 0 time) tau (moments (form E.toEdge nB time) lambda) 0 q u ∧
      IsSolution (form E.toEdge nB time) (coeffs E 0 time) tau 0 ((form E.toEdge nB time).mass0 *ᵥ u) q' u' ∧
      trace_to_mass_flux m gesv tau lambda out E time = .ok (offDirichlet E.toEdge (faceFlux (form E.toEdge nB time) tau 0 q' u'))) ∧
    (∃ q u q' u', IsSolution (form E.toEdge nB time) (coeffs E 0 time) tau (moments (form E.toEdge nB time) lambda + dirichletMoments E.toEdge time) (source E.toEdge time) q u ∧
      IsSolution (form E.toEdge nB time) (coeffs E 0 time) tau 0 ((form E.toEdge nB time).mass0 *ᵥ u) q' u' ∧
      total_numerical_flux_mass m gesv tau lambda out E time = .ok (offDirichlet E.toEdge (faceFlux (form E.toEdge nB time) tau 0 q' u'))) := by
  constructor
  · obtain ⟨x, hx1, hx2⟩ := (solve_local_problem_spec m gesv hg E tau time lambda 0 (.inl rfl)).1 hs
    obtain ⟨y, hy1, hy2⟩ := solve_mass_problem_spec m gesv hg E tau time x hs
    refine ⟨_, _, _, _, hx2, hy2, ?_⟩
    rw [trace_to_mass_flux, hx1, Res.ok_bind, hy1, Res.ok_bind]
    exact writeMassFlux_eq m E.toEdge tau time y out
  · obtain ⟨x, hx1, hx2⟩ := (solve_local_problem_spec m gesv hg E tau time lambda 1 (.inr rfl)).1 hs
    obtain ⟨y, hy1, hy2⟩ := solve_mass_problem_spec m gesv hg E tau time x hs
    refine ⟨_, _, _, _, hx2, hy2, ?_⟩
    rw [total_numerical_flux_mass, hx1, Res.ok_bind, hy1, Res.ok_bind]
    exact writeMassFlux_eq m E.toEdge tau time y out

/-- **C81** (bulk values).  `bulk_values` returns in component `d < dim` the values of the `d`-th component of the total flux, in component `dim` those of the primal unknown of the local
solution with source and Dirichlet data, at the points of the tensor grid of the abscissas in lexicographic order. -/
theorem C81_bulk_values (hs : Solvable (form E.toEdge nB time) (coeffs E 0 time) tau) (lin_comb : (Fin nS → K) → List K → K) (abscissas : List K) (lambda : LocDofs dim nB K)
    (vals0 : Fin (dim + 1) → Fin (Hypercube.pow dim abscissas.length) → K) :
    ∃ q u, IsSolution (form E.toEdge nB time) (coeffs E 0 time) tau (moments (form E.toEdge nB time) lambda + dirichletMoments E.toEdge time) (source E.toEdge time) q u ∧
      ∃ vals, bulk_values m gesv lin_comb tau abscissas lambda E time vals0 = .ok vals ∧
      ∀ pt : Fin (Hypercube.pow dim abscissas.length), ∃ p, Hypercube.tensorial_pt m dim pt abscissas = .ok p ∧
        (∀ d : Fin dim, vals d.castSucc pt = lin_comb (q d) p) ∧ vals (Fin.last dim) pt = lin_comb u p := by
  obtain ⟨x, h1, h2⟩ := (solve_local_problem_spec m gesv hg E tau time lambda 1 (.inr rfl)).1 hs
  obtain ⟨r, hr1, hr2⟩ := bulk_loop (dim := dim) m lin_comb abscissas x (fun _ => 0) vals0
  refine ⟨qOf (toMat x), uOf (toMat x), h2, r.2, ?_, fun pt => ?_⟩
  · unfold bulk_values
    rw [h1, Res.ok_bind, hr1]
    rfl
  · obtain ⟨p, hp1, hp2⟩ := hr2 pt
    exact ⟨p, hp1, fun d => hp2 d.castSucc, hp2 (Fin.last dim)⟩

/-- **C81** (errors).  `errors` compares the primal unknown of that solution with the analytic result. -/
theorem C81_errors (hs : Solvable (form E.toEdge nB time) (coeffs E 0 time) tau) (lambda : LocDofs dim nB K) :
    ∃ q u, IsSolution (form E.toEdge nB time) (coeffs E 0 time) tau (moments (form E.toEdge nB time) lambda + dirichletMoments E.toEdge time) (source E.toEdge time) q u ∧
      errors m gesv tau lambda E time = .ok (fun _ => E.vol_diffsquare time u) := by
  obtain ⟨x, h1, h2⟩ := (solve_local_problem_spec m gesv hg E tau time lambda 1 (.inr rfl)).1 hs
  refine ⟨qOf (toMat x), uOf (toMat x), h2, ?_⟩
  unfold errors
  rw [h1, Res.ok_bind, forFin_write nS _ (uOf (toMat x))]
  · rfl
  · intro i c
    rw [show i.1 + dim * nS = dim * nS + i.1 from Nat.add_comm _ _, vec_get_lt m x (Diffusion.hl i), Res.ok_bind]
    rfl

/-- **C81** (the intended problem, partial).  If the velocity does not depend on time, `trace_to_flux` and `residual_flux` use all coefficients at the given time.  (Missing: velocities which
depend on time, see `C81_time`.) -/
theorem C81_steady_partial (hb : ∀ t, E.vol_phiphivecfunc t = E.vol_phiphivecfunc 0) (hs : Solvable (form E.toEdge nB time) (coeffs E time time) tau) (lambda out : LocDofs dim nB K) :
    (∃ q u, IsSolution (form E.toEdge nB time) (coeffs E time time) tau (moments (form E.toEdge nB time) lambda) 0 q u ∧
      trace_to_flux m gesv tau lambda out E time = .ok (offDirichlet E.toEdge (faceFlux (form E.toEdge nB time) tau lambda q u))) ∧
    (∃ q u, IsSolution (form E.toEdge nB time) (coeffs E time time) tau (moments (form E.toEdge nB time) lambda + dirichletMoments E.toEdge time) (source E.toEdge time) q u ∧
      residual_flux m gesv tau lambda out E time = .ok (offDirichlet E.toEdge (faceFlux (form E.toEdge nB time) tau lambda q u))) := by
  have hc : coeffs E time time = coeffs E 0 time := by simp only [coeffs, hb time]
  rw [hc] at hs ⊢
  exact ⟨(C81_flux m gesv hg tau E time lambda out).1 hs, (C81_residual m gesv hg tau E time lambda out).1 hs⟩

/-- **C81** (pure diffusion).  Without velocity and reaction the fluxes are those of the local solver for diffusion. -/
theorem C81_diffusion (hb : E.vol_phiphivecfunc 0 = 0) (hr : E.vol_phiphireact time = 0) (lambda out : LocDofs dim nB K) :
    trace_to_flux m gesv tau lambda out E time = Diffusion.trace_to_flux m gesv tau lambda out E.toEdge time ∧
    residual_flux m gesv tau lambda out E time = Diffusion.residual_flux m gesv tau lambda out E.toEdge time := by
  have h0 : coeffs E 0 time = ⟨0, 0⟩ := by
    simp only [coeffs, hb, hr]
    rfl
  have hiff : ∀ g s q u, IsSolution (form E.toEdge nB time) (coeffs E 0 time) tau g s q u ↔ Spec.IsSolution (form E.toEdge nB time) tau 0 1 g s q u := fun g s q u => by
    rw [h0]
    constructor
    · rintro ⟨h1, h2⟩
      refine ⟨fun d => ?_, ?_⟩
      · simpa using h1 d
      · simpa using h2
    · rintro ⟨h1, h2⟩
      refine ⟨fun d => ?_, ?_⟩
      · simpa using h1 d
      · simpa using h2
  have hsol : Solvable (form E.toEdge nB time) (coeffs E 0 time) tau ↔ Spec.Solvable (form E.toEdge nB time) tau 0 1 := by
    simp only [Solvable, Spec.Solvable, hiff]
  have h1 := C81_flux m gesv hg tau E time lambda out
  have h2 := C81_residual m gesv hg tau E time lambda out
  have k1 := Diffusion.C21_flux m gesv hg tau E.toEdge time lambda out
  have k2 := Diffusion.C21_residual m gesv hg tau E.toEdge time lambda out
  by_cases hs : Solvable (form E.toEdge nB time) (coeffs E 0 time) tau
  · obtain ⟨q, u, h3, h4⟩ := h1.1 hs
    obtain ⟨q', u', k3, k4⟩ := k1.1 (hsol.mp hs)
    obtain ⟨rfl, rfl⟩ := Spec.solution_unique (hsol.mp hs) ((hiff _ _ _ _).mp h3) k3
    obtain ⟨q2, u2, h5, h6⟩ := h2.1 hs
    obtain ⟨q2', u2', k5, k6⟩ := k2.1 (hsol.mp hs)
    obtain ⟨rfl, rfl⟩ := Spec.solution_unique (hsol.mp hs) ((hiff _ _ _ _).mp h5) k5
    exact ⟨h4.trans k4.symm, h6.trans k6.symm⟩
  · exact ⟨(h1.2 hs).trans (k1.2 fun h => hs (hsol.mpr h)).symm, (h2.2 hs).trans (k2.2 fun h => hs (hsol.mpr h)).symm⟩

variable [LinearOrder K] [IsStrictOrderedRing K] (hE : FormLaws (form E.toEdge nB time))

include hE

/-- **C81** (conservation).  On a hyperedge without Dirichlet faces the fluxes returned, tested by a constant function, add up to the integral of the right-hand side less that of the
reaction, times that function. -/
theorem C81_conservation {one : Fin nS → K} {oneF : Fin (2 * dim) → Fin nB → K} (h1 : IsConst (form E.toEdge nB time) one) (h1F : ∀ f, IsTrace (form E.toEdge nB time) one f (oneF f))
    (hD : ∀ f : Fin (2 * dim), E.node_descriptor f ∉ E.dirichlet_nodes) {lambda out y : LocDofs dim nB K} :
    (residual_flux m gesv tau lambda out E time = .ok y → ∃ q u,
      IsSolution (form E.toEdge nB time) (coeffs E 0 time) tau (moments (form E.toEdge nB time) lambda) (source E.toEdge time) q u ∧
      ∑ f, oneF f ⬝ᵥ y f = (∑ i : Fin nS, one i * E.vol_phifunc time i) - ∑ i : Fin nS, ∑ j : Fin nS, one i * E.vol_phiphireact time i j * u j) ∧
    (trace_to_flux m gesv tau lambda out E time = .ok y → ∃ q u,
      IsSolution (form E.toEdge nB time) (coeffs E 0 time) tau (moments (form E.toEdge nB time) lambda) 0 q u ∧
      ∑ f, oneF f ⬝ᵥ y f = -∑ i : Fin nS, ∑ j : Fin nS, one i * E.vol_phiphireact time i j * u j) := by
  have hoff : ∀ z : LocDofs dim nB K, offDirichlet E.toEdge z = z := fun z => by
    funext f j
    exact if_neg (hD f)
  have hdm : dirichletMoments E.toEdge time = 0 := by
    funext f i
    exact if_neg (hD f)
  have hr : ∀ u : Fin nS → K, one ⬝ᵥ (coeffs E 0 time).react *ᵥ u = ∑ i : Fin nS, ∑ j : Fin nS, one i * E.vol_phiphireact time i j * u j := fun u => by
    simp only [coeffs, dotProduct, mulVec, of_apply, Finset.mul_sum, mul_assoc]
  refine ⟨fun h => ?_, fun h => ?_⟩
  · obtain ⟨_, q, u, hu, rfl⟩ := of_res m gesv hg tau E time h
    rw [hdm, add_zero] at hu
    refine ⟨q, u, hu, ?_⟩
    rw [hoff, conservation hE h1 h1F hu, hr]
    rfl
  · obtain ⟨_, q, u, hu, rfl⟩ := of_ok m gesv hg tau E time h
    refine ⟨q, u, hu, ?_⟩
    rw [hoff, conservation hE h1 h1F hu, hr, dotProduct_zero, zero_sub]

/-- **C81** (consistency).  If polynomials `q`, `u` of the discrete space satisfy the equations `q = - kappa grad u + b u` and `div q + r u = 0` (tested by the shape functions), then
`trace_to_flux` returns for the trace of `u` the exact flux `q . n`, for any `tau` for which it returns. -/
theorem C81_exact (hs : Solvable (form E.toEdge nB time) (coeffs E 0 time) tau) {lambda : LocDofs dim nB K} {q : Fin dim → Fin nS → K} {u : Fin nS → K}
    (htr : ∀ f, IsTrace (form E.toEdge nB time) u f (lambda f))
    (h1 : ∀ d (i : Fin nS), ∑ j : Fin nS, E.vol_phiphifunc time i j * q d j = (∑ j : Fin nS, E.vol_phiphivecfunc 0 i j d * u j) - ∑ j : Fin nS, E.vol_nablaphiphi j i d * u j)
    (h2 : ∀ i : Fin nS, (∑ d, ∑ j : Fin nS, E.vol_nablaphiphi j i d * q d j) + ∑ j : Fin nS, E.vol_phiphireact time i j * u j = 0) (out : LocDofs dim nB K) :
    trace_to_flux m gesv tau lambda out E time =
      .ok (offDirichlet E.toEdge fun f k => ∑ d, E.local_normal f d * ∑ j : Fin nS, E.bdr_phipsi j k f * q d j) := by
  have h := exact_solution (C := coeffs E 0 time) (tau := tau) (q := q) (s := 0) hE htr (fun d => funext fun i => h1 d i) (by
    funext i
    have := h2 i
    rw [Pi.add_apply, Finset.sum_apply]
    exact this)
  rw [to_ok m gesv hg tau E time hs h out]
  refine congrArg (fun z => Res.ok (offDirichlet E.toEdge z)) (funext fun f => funext fun k => ?_)
  rw [trace_flux htr, mulVec_sum, Finset.sum_apply]
  refine Finset.sum_congr rfl fun d _ => ?_
  rw [mulVec_smul]
  rfl

/-- **C81** (free stream).  For a velocity `b` which is constant on the hyperedge, and no reaction, `trace_to_flux` returns for the trace of a constant function the flux `b . n` times it. -/
theorem C81_free_stream (hs : Solvable (form E.toEdge nB time) (coeffs E 0 time) tau) {b : Fin dim → K}
    (hb : ∀ (i j : Fin nS) (d : Fin dim), E.vol_phiphivecfunc 0 i j d = b d * E.vol_phiphifunc time i j) (hr : E.vol_phiphireact time = 0)
    {lambda : LocDofs dim nB K} {u : Fin nS → K} (hu : IsConst (form E.toEdge nB time) u) (htr : ∀ f, IsTrace (form E.toEdge nB time) u f (lambda f)) (out : LocDofs dim nB K) :
    trace_to_flux m gesv tau lambda out E time = .ok (offDirichlet E.toEdge fun f k => (∑ d, E.local_normal f d * b d) * (E.face_area f * lambda f k)) := by
  have hc : ∀ d (i : Fin nS), ∑ j : Fin nS, E.vol_nablaphiphi j i d * u j = 0 := fun d i => congrFun (hu d) i
  rw [C81_exact m gesv hg tau E time hE hs (q := fun d => b d • u) htr (fun d i => ?_) (fun i => ?_) out]
  · refine congrArg (fun z => Res.ok (offDirichlet E.toEdge z)) (funext fun f => funext fun k => ?_)
    have h3 : E.face_area f * lambda f k = ∑ j : Fin nS, E.bdr_phipsi j k f * u j := congrFun (htr f) k
    rw [h3, Finset.sum_mul]
    refine Finset.sum_congr rfl fun d _ => ?_
    rw [mul_assoc, Finset.mul_sum (s := Finset.univ) (a := b d)]
    refine congrArg _ (Finset.sum_congr rfl fun j _ => ?_)
    simp only [Pi.smul_apply, smul_eq_mul]
    ring
  · rw [hc, sub_zero]
    refine Finset.sum_congr rfl fun j _ => ?_
    rw [hb]
    simp only [Pi.smul_apply, smul_eq_mul]
    ring
  · have : ∀ d, ∑ j : Fin nS, E.vol_nablaphiphi j i d * (b d • u) j = 0 := fun d => by
      refine Eq.trans ?_ ((congrArg (b d * ·) (hc d i)).trans (mul_zero _))
      rw [Finset.mul_sum]
      refine Finset.sum_congr rfl fun j _ => ?_
      simp only [Pi.smul_apply, smul_eq_mul]
      ring
    simp only [this, Finset.sum_const_zero, zero_add, hr, Pi.zero_apply, zero_mul]

end

/-! ## C82: stability -/

section
variable [Field K] [LinearOrder K] [IsStrictOrderedRing K] (m : Mode) (gesv : Gesv ((dim + 1) * nS) 1 K) (hg : GesvSpec gesv) (tau : K) (E : Edge dim nS K) (time : K)
  (hE : FormLaws (form E.toEdge nB time))

include hg hE

/-- **C82** (dominating reaction).  If the reaction dominates the velocity and `tau > 0`, the local problem is uniquely solvable, and `lambda . trace_to_flux(lambda) < 0` for all traces but
zero which vanish on the Dirichlet faces. -/
theorem C82_dominated (ht : 0 < tau) (hC : Dominated (form E.toEdge nB time) (coeffs E 0 time)) :
    Solvable (form E.toEdge nB time) (coeffs E 0 time) tau ∧ ∀ lambda : LocDofs dim nB K, VanishesOnDirichlet E.toEdge lambda → lambda ≠ 0 → ∀ out,
      ∃ y, trace_to_flux m gesv tau lambda out E time = .ok y ∧ ∑ f, ∑ j, lambda f j * y f j < 0 := by
  have hs := solvable_dominated hE ht.le hC
  refine ⟨hs, fun lambda hl hne out => ?_⟩
  obtain ⟨q, u, h1, h2⟩ := (C81_flux m gesv hg tau E time lambda out).1 hs
  refine ⟨_, h2, ?_⟩
  rw [pair_off hl, energy hE h1, dotProduct_zero]
  have hj := mul_nonneg ht.le (Finset.sum_nonneg fun f (_ : f ∈ Finset.univ) => jump_nonneg hE u lambda f)
  by_cases h0 : q = 0 ∧ u = 0
  · obtain ⟨rfl, rfl⟩ := h0
    have hpos : 0 < ∑ f, jump (form E.toEdge nB time) 0 lambda f := by
      refine lt_of_le_of_ne (Finset.sum_nonneg fun f _ => jump_nonneg hE 0 lambda f) fun h => hne ?_
      funext f
      have h3 := jump_zero hE ((Finset.sum_eq_zero_iff_of_nonneg fun f _ => jump_nonneg hE 0 lambda f).mp h.symm f (Finset.mem_univ f))
      unfold IsTrace at h3
      rw [mulVec_zero] at h3
      exact (smul_eq_zero.mp h3).resolve_left (hE.area_pos f).ne'
    have := mul_pos ht hpos
    simp only [Pi.zero_apply, mulVec_zero, dotProduct_zero, Finset.sum_const_zero, sub_zero, add_zero]
    linarith
  · have := hC q u h0
    linarith

omit hg in
/-- **C82** (when reaction dominates).  For constant diffusion coefficient `kappa = 1 / a`, velocity `b` and reaction rate `r` it is enough that `a |b|^2 < 4 r`. -/
theorem C82_dominated_const {a r : K} {b : Fin dim → K} (ha : 0 < a) (hm : ∀ i j : Fin nS, E.vol_phiphifunc time i j = a * E.vol_phiphi i j)
    (hb : ∀ (i j : Fin nS) (d : Fin dim), E.vol_phiphivecfunc 0 i j d = b d * E.vol_phiphifunc time i j) (hr : ∀ i j : Fin nS, E.vol_phiphireact time i j = r * E.vol_phiphi i j)
    (h : a * ∑ d, b d ^ 2 < 4 * r) : Dominated (form E.toEdge nB time) (coeffs E 0 time) :=
  dominated_const hE ha (Matrix.ext hm) (fun d => Matrix.ext fun i j => hb i j d) (Matrix.ext hr) h

/-- **C82** (constant velocity).  If the velocity is constant on the hyperedge, the reaction rate is not negative, and `tau` is greater than half of `-b . n` on each face, the local problem
is uniquely solvable. -/
theorem C82_solvable {b : Fin dim → K} (hC : ConstantVelocity (form E.toEdge nB time) (coeffs E 0 time) b)
    (ht : ∀ f, 0 < tau + normalVelocity (form E.toEdge nB time) b f / 2) (lambda out : LocDofs dim nB K) : Solvable (form E.toEdge nB time) (coeffs E 0 time) tau ∧
      (∃ y, trace_to_flux m gesv tau lambda out E time = .ok y) ∧ ∃ y, residual_flux m gesv tau lambda out E time = .ok y := by
  have hs := solvable_const hE hC ht
  obtain ⟨_, _, _, h1⟩ := (C81_flux m gesv hg tau E time lambda out).1 hs
  obtain ⟨_, _, _, h2⟩ := (C81_residual m gesv hg tau E time lambda out).1 hs
  exact ⟨hs, ⟨_, h1⟩, ⟨_, h2⟩⟩

/-- **C82** (energy).  For constant velocity and traces vanishing on the Dirichlet faces, `lambda . trace_to_flux(lambda)` is at most half of what `|lambda|^2` transports out of the
hyperedge; equality implies that `lambda` is the trace of a constant. -/
theorem C82_energy {b : Fin dim → K} (hC : ConstantVelocity (form E.toEdge nB time) (coeffs E 0 time) b)
    (ht : ∀ f, 0 < tau + normalVelocity (form E.toEdge nB time) b f / 2) {lambda out y : LocDofs dim nB K} (hl : VanishesOnDirichlet E.toEdge lambda)
    (hy : trace_to_flux m gesv tau lambda out E time = .ok y) :
    ∑ f, ∑ j, lambda f j * y f j ≤ (∑ f, normalVelocity (form E.toEdge nB time) b f * E.face_area f * (lambda f ⬝ᵥ lambda f)) / 2 ∧
    ((∑ f, normalVelocity (form E.toEdge nB time) b f * E.face_area f * (lambda f ⬝ᵥ lambda f)) / 2 ≤ ∑ f, ∑ j, lambda f j * y f j →
      ∃ u, IsConst (form E.toEdge nB time) u ∧ ∀ f, IsTrace (form E.toEdge nB time) u f (lambda f)) := by
  obtain ⟨hs, q, u, h1, rfl⟩ := of_ok m gesv hg tau E time hy
  rw [pair_off hl, energy_const hE hC.advect h1, dotProduct_zero]
  have e : ∑ f, normalVelocity (form E.toEdge nB time) b f * E.face_area f * (lambda f ⬝ᵥ lambda f) =
      ∑ f, normalVelocity (form E.toEdge nB time) b f * (form E.toEdge nB time).area f * (lambda f ⬝ᵥ lambda f) := rfl
  rw [e]
  refine ⟨?_, fun h => ?_⟩
  · have h2 := Finset.sum_nonneg fun d (_ : d ∈ Finset.univ) => quad_nonneg hE.mass_pos (q d - b d • u)
    have h3 := hC.react u
    have h4 := Finset.sum_nonneg fun f (_ : f ∈ Finset.univ) => mul_nonneg (ht f).le (jump_nonneg hE u lambda f)
    linarith
  · obtain ⟨h2, h3⟩ := energy_parts (lambda := lambda) (q := q) (u := u) hE hC ht (by linarith)
    exact ⟨u, const_of' hE hC.advect h1 h2 h3, h3⟩

end

/-! ## The global problem -/

/-- The local operators handed to the global loop; `E e` is hyperedge `e`. -/
def localOperator [CommRing K] (m : Mode) (gesv : Gesv ((dim + 1) * nS) 1 K) (tau : K) (E : Nat → Edge dim nS K) (time : K) : HyGraph.LocalFun dim nB K :=
  fun e lambda out => trace_to_flux m gesv tau lambda out (E e) time

def localResidual [CommRing K] (m : Mode) (gesv : Gesv ((dim + 1) * nS) 1 K) (tau : K) (E : Nat → Edge dim nS K) (time : K) : HyGraph.LocalFun dim nB K :=
  fun e lambda out => residual_flux m gesv tau lambda out (E e) time

theorem flow_sum [Field K] [LinearOrder K] [IsStrictOrderedRing K] {N M F : Nat} {nodes : Fin M → Fin F → Fin N} {w : Fin M → Fin F → K} {D : Fin N → Prop}
    (hB : Balanced nodes w D) (Q : Fin N → K) (h0 : ∀ v, 0 ≤ Q v) (hD : ∀ v, D v → Q v = 0) : ∑ e, ∑ f, w e f * Q (nodes e f) ≤ 0 := by
  have h1 : ∀ e f, w e f * Q (nodes e f) = ∑ v, (if nodes e f = v then w e f else 0) * Q v := fun e f => by
    rw [Finset.sum_eq_single (nodes e f)]
    · simp
    · intro v _ hv
      rw [if_neg (Ne.symm hv), zero_mul]
    · simp
  simp only [h1]
  have h2 : ∑ e, ∑ f, ∑ v, (if nodes e f = v then w e f else 0) * Q v = ∑ v, (∑ e, ∑ f, (if nodes e f = v then w e f else 0)) * Q v := by
    simp only [Finset.sum_mul]
    rw [Finset.sum_comm (s := (Finset.univ : Finset (Fin N)))]
    exact Finset.sum_congr rfl fun e _ => Finset.sum_comm
  rw [h2]
  refine Finset.sum_nonpos fun v _ => ?_
  by_cases hv : D v
  · rw [hD v hv, mul_zero]
  · exact mul_nonpos_of_nonpos_of_nonneg (hB v hv) (h0 v)

section
variable [Field K] [LinearOrder K] [IsStrictOrderedRing K] (m : Mode) (gesv : Gesv ((dim + 1) * nS) 1 K) (hg : GesvSpec gesv) (tau : K) (E : Nat → Edge dim nS K) (time : K)
  (G : HyGraph dim nB) (nodes : Fin G.n_hyEdges → Fin (2 * dim) → Fin G.n_hyNodes) (hwf : G.WF nodes) (old0 new0 : LocDofs dim nB K)

include hg hwf

theorem unique_of (hs : ∀ e, Solvable (form (E e).toEdge nB time) (coeffs (E e) 0 time) tau)
    (D : Fin G.n_hyNodes → Prop) (hD : ∀ (e : Fin G.n_hyEdges) (f : Fin (2 * dim)), (E e).node_descriptor f ∈ (E e).dirichlet_nodes ↔ D (nodes e f))
    (hdef : ∀ (x : Fin (G.n_hyNodes * nB) → K) (y : Nat → LocDofs dim nB K), VanishesAt D x → (∀ e : Fin G.n_hyEdges, VanishesOnDirichlet (E e).toEdge (faceValues nodes x e)) →
      (∀ e : Fin G.n_hyEdges, trace_to_flux m gesv tau (faceValues nodes x e) 0 (E e) time = .ok (y e)) →
      ∑ e : Fin G.n_hyEdges, ∑ i, ∑ j, faceValues nodes x e i j * y e i j = 0 → x = 0) : ∃! y : Fin (G.n_hyNodes * nB) → K, VanishesAt D y ∧
      G.mat_vec_multiply m (localResidual m gesv tau E time) old0 new0 (List.ofFn y) = .ok (List.replicate (G.n_hyNodes * nB) 0) := by
  have hret : ∀ (e : Nat) (lambda : LocDofs dim nB K), ∃ y, ∀ out, trace_to_flux m gesv tau lambda out (E e) time = .ok y := by
    intro e lambda
    obtain ⟨q, u, h1, _⟩ := (C81_flux m gesv hg tau (E e) time lambda 0).1 (hs e)
    exact ⟨_, fun out => to_ok m gesv hg tau (E e) time (hs e) h1 out⟩
  choose F hF using hret
  have hlin : ∀ (e : Nat) (a b : K) (x y : LocDofs dim nB K), F e (a • x + b • y) = a • F e x + b • F e y := by
    intro e a b x y
    have := C81_linear m gesv hg tau (E e) time (hF e x 0) (hF e y 0) a b 0
    rw [hF] at this
    injection this
  let L : Nat → LocDofs dim nB K →ₗ[K] LocDofs dim nB K := fun e =>
    { toFun := F e
      map_add' := fun x y => by
        have := hlin e 1 1 x y
        simpa only [one_smul] using this
      map_smul' := fun a x => by
        have := hlin e a 0 x 0
        simpa only [zero_smul, add_zero, RingHom.id_apply] using this }
  have hr0 : ∀ e : Nat, ∃ r : LocDofs dim nB K, residual_flux m gesv tau 0 (fun _ _ => 0) (E e) time = .ok r ∧
      ∀ lambda : LocDofs dim nB K, residual_flux m gesv tau lambda (fun _ _ => 0) (E e) time = .ok (F e lambda + r) := by
    intro e
    obtain ⟨_, r, _, h2, _⟩ := C81_affine m gesv hg tau (E e) time (hs e) 0 0 (fun _ _ => 0) 0
    refine ⟨r, h2, fun lambda => ?_⟩
    obtain ⟨y, r', k1, k2, k3⟩ := C81_affine m gesv hg tau (E e) time (hs e) lambda (fun _ _ => 0) (fun _ _ => 0) (fun _ _ => 0)
    rw [h2] at k2; injection k2 with k2
    rw [hF] at k1; injection k1 with k1
    rw [k3, k2, k1]
  choose R0 hR00 hR0 using hr0
  refine HyGraph.unique_zero m G nodes hwf old0 new0 (localResidual m gesv tau E time) (fun e => L e) (fun e => R0 e) (fun e u => hR0 e u) D (fun e u f h => ?_) (fun e f h => ?_)
    fun x hx h => ?_
  · exact funext fun j => C81_dirichlet_zero m gesv hg tau (E e) time _ _ _ (.inl (hF e u 0)) f ((hD e f).mpr h) j
  · exact funext fun j => C81_dirichlet_zero m gesv hg tau (E e) time _ _ _ (.inr (hR00 e)) f ((hD e f).mpr h) j
  · refine hdef x (fun e => if h : e < G.n_hyEdges then F e (faceValues nodes x ⟨e, h⟩) else 0) hx (fun e f hf => fun j => hx _ ((hD e f).mp hf) j) (fun e => ?_) ?_
    · rw [dif_pos e.2]
      exact hF e _ 0
    · rw [← h]
      refine Finset.sum_congr rfl fun e _ => ?_
      rw [dif_pos e.2]
      rfl

/-- **C82** (exactly one discrete solution, dominating reaction).  Let being of Dirichlet type be a property `D` of the hypernodes and let each other hypernode be a face of some hyperedge.  If
on each hyperedge the reaction dominates the velocity and `tau > 0`, there is exactly one vector vanishing at the Dirichlet nodes for which the residual returned is zero. -/
theorem C82_unique_dominated (hE : ∀ e, FormLaws (form (E e).toEdge nB time)) (ht : 0 < tau) (hC : ∀ e, Dominated (form (E e).toEdge nB time) (coeffs (E e) 0 time))
    (D : Fin G.n_hyNodes → Prop) (hD : ∀ (e : Fin G.n_hyEdges) (f : Fin (2 * dim)), (E e).node_descriptor f ∈ (E e).dirichlet_nodes ↔ D (nodes e f))
    (hcov : ∀ v, ¬ D v → ∃ e f, nodes e f = v) : ∃! y : Fin (G.n_hyNodes * nB) → K, VanishesAt D y ∧
      G.mat_vec_multiply m (localResidual m gesv tau E time) old0 new0 (List.ofFn y) = .ok (List.replicate (G.n_hyNodes * nB) 0) := by
  refine unique_of m gesv hg tau E time G nodes hwf old0 new0 (fun e => solvable_dominated (hE e) ht.le (hC e)) D hD fun x y hx hv hy h => ?_
  have key : ∀ e : Fin G.n_hyEdges, faceValues nodes x e ≠ 0 → ∑ i, ∑ j, faceValues nodes x e i j * y e i j < 0 := fun e hne => by
    obtain ⟨z, hz, hlt⟩ := (C82_dominated m gesv hg tau (E e) time (hE e) ht (hC e)).2 _ (hv e) hne 0
    rw [hy e] at hz
    rw [Res.ok.inj hz]
    exact hlt
  have key' : ∀ e : Fin G.n_hyEdges, ∑ i, ∑ j, faceValues nodes x e i j * y e i j ≤ 0 := fun e => by
    by_cases hne : faceValues nodes x e = 0
    · simp [hne]
    · exact (key e hne).le
  have hz : ∀ e : Fin G.n_hyEdges, faceValues nodes x e = 0 := fun e => by
    by_contra hne
    exact (key e hne).ne ((Finset.sum_eq_zero_iff_of_nonpos fun e _ => key' e).mp h e (Finset.mem_univ e))
  funext k
  obtain ⟨v, j, rfl⟩ := HyGraph.dof_surj k
  by_cases hDv : D v
  · exact hx v hDv j
  · obtain ⟨e, f, rfl⟩ := hcov v hDv
    exact congrFun (congrFun (hz e) f) j

/-- **C82** (exactly one discrete solution, velocity constant on each hyperedge).  Let being of Dirichlet type be a property `D` of the hypernodes, let each hypernode be connected to a
Dirichlet node by a chain of hyperedges, and let the flow be balanced: at each other hypernode not more flows in from the hyperedges than flows out to them.  If reaction rates are not negative
and `tau` is greater than half of `-b . n` on each face, there is exactly one vector vanishing at the Dirichlet nodes for which the residual returned is zero. -/
theorem C82_unique (hE : ∀ e, FormLaws (form (E e).toEdge nB time)) (hR : ∀ e, Rigid (form (E e).toEdge nB time)) (b : Nat → Fin dim → K)
    (hC : ∀ e, ConstantVelocity (form (E e).toEdge nB time) (coeffs (E e) 0 time) (b e))
    (ht : ∀ e f, 0 < tau + normalVelocity (form (E e).toEdge nB time) (b e) f / 2)
    (D : Fin G.n_hyNodes → Prop) (hD : ∀ (e : Fin G.n_hyEdges) (f : Fin (2 * dim)), (E e).node_descriptor f ∈ (E e).dirichlet_nodes ↔ D (nodes e f))
    (hB : Balanced nodes (fun e f => normalVelocity (form (E e).toEdge nB time) (b e) f * (E e).face_area f) D)
    (hcon : Anchored nodes D) : ∃! y : Fin (G.n_hyNodes * nB) → K, VanishesAt D y ∧
      G.mat_vec_multiply m (localResidual m gesv tau E time) old0 new0 (List.ofFn y) = .ok (List.replicate (G.n_hyNodes * nB) 0) := by
  refine unique_of m gesv hg tau E time G nodes hwf old0 new0 (fun e => solvable_const (hE e) (hC e) (ht e)) D hD fun x y hx hv hy h => ?_
  have hen := fun e : Fin G.n_hyEdges => C82_energy m gesv hg tau (E e) time (hE e) (hC e) (ht e) (hv e) (hy e)
  have hflow : ∑ e : Fin G.n_hyEdges, ∑ f, normalVelocity (form (E e).toEdge nB time) (b e) f * (E e).face_area f * (faceValues nodes x e f ⬝ᵥ faceValues nodes x e f) ≤ 0 :=
    flow_sum hB (fun v => (fun j => x (dof v j)) ⬝ᵥ fun j => x (dof v j)) (fun v => dot_self_nonneg _) fun v hDv => by simp [dotProduct, hx v hDv]
  have hhalf : ∑ e : Fin G.n_hyEdges, (∑ f, normalVelocity (form (E e).toEdge nB time) (b e) f * (E e).face_area f * (faceValues nodes x e f ⬝ᵥ faceValues nodes x e f)) / 2 ≤ 0 := by
    rw [← Finset.sum_div]
    linarith
  have hsum := Finset.sum_le_sum fun (e : Fin G.n_hyEdges) (_ : e ∈ Finset.univ) => (hen e).1
  have heq : ∀ e : Fin G.n_hyEdges, ∑ i, ∑ j, faceValues nodes x e i j * y e i j =
      (∑ f, normalVelocity (form (E e).toEdge nB time) (b e) f * (E e).face_area f * (faceValues nodes x e f ⬝ᵥ faceValues nodes x e f)) / 2 := fun e =>
    (Finset.sum_eq_sum_iff_of_le fun e _ => (hen e).1).mp (le_antisymm hsum (by rw [h]; exact hhalf)) e (Finset.mem_univ e)
  have key : ∀ v, ∀ j, x (dof v j) = 0 := by
    refine hcon.all (fun v => ∀ j, x (dof v j) = 0) hx fun e f g hf => ?_
    obtain ⟨u, hu, htr⟩ := (hen e).2 (heq e).ge
    have h1 := htr f
    have h2 : faceValues nodes x e f = 0 := funext hf
    unfold IsTrace at h1
    rw [h2, smul_zero] at h1
    have h3 := hR e u f hu h1.symm
    have h4 := htr g
    unfold IsTrace at h4
    rw [h3, mulVec_zero] at h4
    exact congrFun ((smul_eq_zero.mp h4).resolve_left ((hE e).area_pos g).ne')
  funext k
  obtain ⟨v, j, rfl⟩ := HyGraph.dof_surj k
  exact key v j

end

/-! ## Witnesses -/

namespace Example

/-- The unit interval with the constants as shape functions, diffusion coefficient 1, velocity `b`, reaction rate `r`, right-hand side 6; `D` are the Dirichlet types, the left end has type 1, the
right end type 2. -/
def E1 (b : ℚ → ℚ) (r : ℚ) (D : List Nat) : Edge 1 1 ℚ where
  vol_phiphi := fun _ _ => 1
  vol_phiphifunc := fun _ _ _ => 1
  vol_nablaphiphi := fun _ _ _ => 0
  bdr_phiphi := fun _ _ _ => 1
  bdr_phipsi := fun _ _ _ => 1
  vol_phifunc := fun _ _ => 6
  bdr_phifunc := fun _ _ _ => 5
  bdrUni_psifunc := fun _ _ _ => 3
  vol_diffsquare := fun _ c => c 0 ^ 2
  local_normal := fun f _ => if f = 0 then -1 else 1
  face_area := fun _ => 1
  node_descriptor := fun f => f + 1
  dirichlet_nodes := D
  vol_phiphireact := fun _ _ _ => r
  vol_phiphivecfunc := fun t _ _ _ => b t

variable (b : ℚ → ℚ) (r : ℚ) (D : List Nat) (time : ℚ)

theorem sum2 (h : Fin (2 * 1) → ℚ) : ∑ f, h f = h 0 + h 1 := Fin.sum_univ_two h

theorem face_two (f : Fin (2 * 1)) : f = 0 ∨ f = 1 := (by decide : ∀ f : Fin (2 * 1), f = 0 ∨ f = 1) f

theorem E1_laws : FormLaws (form (E1 b r D).toEdge 1 time) where
  mass_symm := rfl
  mass_pos v hv := by
    have h0 : v 0 ≠ 0 := fun h => hv (funext fun i => by rw [Subsingleton.elim i 0, h]; rfl)
    simpa [dotProduct, mulVec, form, E1] using mul_self_pos.mpr h0
  mass0_symm := rfl
  mass0_pos v hv := by
    have h0 : v 0 ≠ 0 := fun h => hv (funext fun i => by rw [Subsingleton.elim i 0, h]; rfl)
    simpa [dotProduct, mulVec, form, E1] using mul_self_pos.mpr h0
  by_parts d := by
    ext i j
    rw [Matrix.sum_apply, sum2]
    simp [form, E1]
  area_pos f := by simp [form, E1]
  trace f := by
    ext i j
    simp [form, E1, Matrix.mul_apply]
  unisolvent u _ h := by
    funext i
    rw [Subsingleton.elim i 0]
    simpa [form, E1, mulVec, dotProduct] using congrFun (h 0) 0

theorem E1_rigid : Rigid (form (E1 b r D).toEdge 1 time) := fun u f _ h => by
  funext i
  rw [Subsingleton.elim i 0]
  simpa [form, E1, mulVec, dotProduct] using congrFun h 0

theorem E1_solution (tau : ℚ) (g : Fin (2 * 1) → Fin 1 → ℚ) (s : Fin 1 → ℚ) (q : Fin 1 → Fin 1 → ℚ) (u : Fin 1 → ℚ) :
    IsSolution (form (E1 b r D).toEdge 1 time) (coeffs (E1 b r D) 0 time) tau g s q u ↔
      q 0 0 = b 0 * u 0 + g 0 0 - g 1 0 ∧ (r + 2 * tau) * u 0 = tau * (g 0 0 + g 1 0) + s 0 := by
  constructor
  · rintro ⟨h1, h2⟩
    have h1 := congrFun (h1 0) 0
    have h2 := congrFun h2 0
    simp only [Pi.add_apply, Pi.sub_apply, Pi.smul_apply, Finset.sum_apply, sum2] at h1 h2
    simp [form, coeffs, E1, mulVec, dotProduct] at h1 h2
    exact ⟨by linear_combination h1, by linear_combination h2⟩
  · rintro ⟨h1, h2⟩
    refine ⟨fun d => funext fun i => ?_, funext fun i => ?_⟩
    · rw [Subsingleton.elim i 0, Subsingleton.elim d 0]
      simp only [Pi.add_apply, Pi.sub_apply, Pi.smul_apply, Finset.sum_apply, sum2]
      simp [form, coeffs, E1, mulVec, dotProduct]
      linear_combination h1
    · rw [Subsingleton.elim i 0]
      simp only [Pi.add_apply, Pi.sub_apply, Pi.smul_apply, Finset.sum_apply, sum2]
      simp [form, coeffs, E1, mulVec, dotProduct]
      linear_combination h2

theorem E1_solvable {tau : ℚ} (h : r + 2 * tau ≠ 0) : Solvable (form (E1 b r D).toEdge 1 time) (coeffs (E1 b r D) 0 time) tau := by
  intro q u hs
  obtain ⟨h1, h2⟩ := (E1_solution b r D time tau 0 0 q u).mp hs
  simp at h1 h2
  have hu : u 0 = 0 := h2.resolve_left h
  refine ⟨funext fun d => funext fun i => ?_, funext fun i => ?_⟩
  · rw [Subsingleton.elim i 0, Subsingleton.elim d 0, h1, hu]; simp
  · rw [Subsingleton.elim i 0, hu]; rfl

/-- The fluxes returned. -/
theorem E1_flux (m : Mode) {tau : ℚ} (h : r + 2 * tau ≠ 0) (lambda out : LocDofs 1 1 ℚ) : ∃ y, trace_to_flux m (cramerSolve _ _ ℚ) tau lambda out (E1 b r D) time = .ok y ∧
    ∃ u, (r + 2 * tau) * u = tau * (lambda 0 0 + lambda 1 0) ∧
      (1 ∉ D → y 0 0 = -(b 0 * u + lambda 0 0 - lambda 1 0) + tau * (u - lambda 0 0)) ∧
      (2 ∉ D → y 1 0 = b 0 * u + lambda 0 0 - lambda 1 0 + tau * (u - lambda 1 0)) := by
  obtain ⟨q, u, h1, h2⟩ := (C81_flux (nB := 1) m _ (C44_example _ _ ℚ) tau (E1 b r D) time lambda out).1 (E1_solvable b r D time h)
  rw [E1_solution] at h1
  have hm : ∀ f, moments (form (E1 b r D).toEdge 1 time) lambda f 0 = lambda f 0 := fun f => by simp [moments, form, E1, mulVec, dotProduct]
  rw [hm, hm, Pi.zero_apply, add_zero] at h1
  refine ⟨_, h2, u 0, h1.2, fun hD => ?_, fun hD => ?_⟩
  · rw [offDirichlet, if_neg (by simpa [IsDirichlet, E1] using hD), ← h1.1]
    simp [faceFlux, form, E1, mulVec, dotProduct]
    ring
  · rw [offDirichlet, if_neg (by simpa [IsDirichlet, E1] using hD), ← h1.1]
    simp [faceFlux, form, E1, mulVec, dotProduct]
    ring

end Example

open Example in
/-- **C81** (time-dependent velocity, violated).  The velocity is not taken at the given time: on the unit interval the velocities `t` and `1` agree at time 1, so do all integrals at time 1; but
`trace_to_flux` at time 1 returns for the trace of the constant 1 the fluxes 0 and 1 at the right end (the exact flux is 1). -/
theorem C81_time : ∃ E E' : Edge 1 1 ℚ, E.toEdge = E'.toEdge ∧ E.vol_phiphireact = E'.vol_phiphireact ∧ E.vol_phiphivecfunc 1 = E'.vol_phiphivecfunc 1 ∧
    ∃ y y' : LocDofs 1 1 ℚ, trace_to_flux .release (cramerSolve _ _ ℚ) 1 (fun _ _ => 1) 0 E 1 = .ok y ∧
      trace_to_flux .release (cramerSolve _ _ ℚ) 1 (fun _ _ => 1) 0 E' 1 = .ok y' ∧ y 1 0 = 0 ∧ y' 1 0 = 1 := by
  refine ⟨E1 (fun t => t) 0 [], E1 (fun _ => 1) 0 [], rfl, rfl, rfl, ?_⟩
  obtain ⟨y, h1, u, h2, _, h3⟩ := E1_flux (fun t => t) 0 [] 1 .release (tau := 1) (by norm_num) (fun _ _ => 1) 0
  obtain ⟨y', k1, u', k2, _, k3⟩ := E1_flux (fun _ => 1) 0 [] 1 .release (tau := 1) (by norm_num) (fun _ _ => 1) 0
  refine ⟨y, y', h1, k1, ?_, ?_⟩
  · rw [h3 (by simp)]; linarith
  · rw [k3 (by simp)]; linarith

open Example in
/-- **C82** (not symmetric, not semidefinite).  With a velocity the operator is not symmetric, and without reaction it is not semidefinite (unlike that for diffusion, and unlike what the method of
conjugate gradients needs): on the unit interval with diffusion coefficient 1 and velocity 1, `mu . trace_to_flux(lambda)` and `lambda . trace_to_flux(mu)` differ, and both signs of
`lambda . trace_to_flux(lambda)` occur, although `tau > |b . n| / 2`. -/
theorem C82_not_symmetric : ∃ E : Edge 1 1 ℚ, FormLaws (form E.toEdge 1 0) ∧ ConstantVelocity (form E.toEdge 1 0) (coeffs E 0 0) (fun _ => 1) ∧
    ∃ l1 l2 l3 y1 y2 y3 : LocDofs 1 1 ℚ, VanishesOnDirichlet E.toEdge l1 ∧ VanishesOnDirichlet E.toEdge l2 ∧ VanishesOnDirichlet E.toEdge l3 ∧
      trace_to_flux .release (cramerSolve _ _ ℚ) 1 l1 0 E 0 = .ok y1 ∧ trace_to_flux .release (cramerSolve _ _ ℚ) 1 l2 0 E 0 = .ok y2 ∧
      trace_to_flux .release (cramerSolve _ _ ℚ) 1 l3 0 E 0 = .ok y3 ∧ ∑ f, ∑ j, l2 f j * y1 f j ≠ ∑ f, ∑ j, l1 f j * y2 f j ∧
      ∑ f, ∑ j, l1 f j * y1 f j < 0 ∧ 0 < ∑ f, ∑ j, l3 f j * y3 f j := by
  have hv : ∀ l : LocDofs 1 1 ℚ, VanishesOnDirichlet (E1 (fun _ => 1) 0 []).toEdge l := fun l f hf => absurd hf (by simp [IsDirichlet, E1])
  refine ⟨E1 (fun _ => 1) 0 [], E1_laws _ _ _ _, ⟨fun d => ?_, fun u => ?_⟩, fun f _ => if f = 0 then 1 else 0, fun f _ => if f = 0 then 0 else 1, fun f _ => if f = 0 then 2 else 3, ?_⟩
  · ext i j
    simp [coeffs, form, E1]
  · simp [coeffs, E1, dotProduct, mulVec]
  obtain ⟨y1, h1, u1, e1, a1, c1⟩ := E1_flux (fun _ => 1) 0 [] 0 .release (tau := 1) (by norm_num) (fun f _ => if f = 0 then 1 else 0) 0
  obtain ⟨y2, h2, u2, e2, a2, c2⟩ := E1_flux (fun _ => 1) 0 [] 0 .release (tau := 1) (by norm_num) (fun f _ => if f = 0 then 0 else 1) 0
  obtain ⟨y3, h3, u3, e3, a3, c3⟩ := E1_flux (fun _ => 1) 0 [] 0 .release (tau := 1) (by norm_num) (fun f _ => if f = 0 then 2 else 3) 0
  refine ⟨y1, y2, y3, hv _, hv _, hv _, h1, h2, h3, ?_⟩
  have a1 := a1 (by simp)
  have a2 := a2 (by simp)
  have a3 := a3 (by simp)
  have c1 := c1 (by simp)
  have c2 := c2 (by simp)
  have c3 := c3 (by simp)
  simp only [sum2, Fin.sum_univ_one]
  norm_num at *
  refine ⟨fun h => ?_, ?_, ?_⟩ <;> linarith

open Example HyGraph.Example in
/-- **C82** (the balance is needed).  One hyperedge with a Dirichlet node at the left end, from which the flow comes, and a free node at the right end, where it stops: all assumptions of
`C82_unique` but the balance hold (diffusion coefficient 1, velocity 8, `tau` 6), and the discrete problem without right-hand side has a solution which is not zero. -/
theorem C82_unbalanced : ∃ (E : Edge 1 1 ℚ) (G : HyGraph 1 1) (nodes : Fin G.n_hyEdges → Fin (2 * 1) → Fin G.n_hyNodes) (D : Fin G.n_hyNodes → Prop), G.WF nodes ∧
    FormLaws (form E.toEdge 1 0) ∧ Rigid (form E.toEdge 1 0) ∧ ConstantVelocity (form E.toEdge 1 0) (coeffs E 0 0) (fun _ => 8) ∧
    (∀ f, 0 < 6 + normalVelocity (form E.toEdge 1 0) (fun _ => 8) f / 2) ∧
    (∀ (e : Fin G.n_hyEdges) (f : Fin (2 * 1)), E.node_descriptor f ∈ E.dirichlet_nodes ↔ D (nodes e f)) ∧ Anchored nodes D ∧
    ∃ x : Fin (G.n_hyNodes * 1) → ℚ, x ≠ 0 ∧ VanishesAt D x ∧
      G.mat_vec_multiply .release (localOperator .release (cramerSolve _ _ ℚ) 6 (fun _ => E) 0) 0 0 (List.ofFn x) = .ok (List.replicate (G.n_hyNodes * 1) 0) := by
  let nodes : Fin 1 → Fin (2 * 1) → Fin 2 := fun _ f => ⟨f.1, f.2⟩
  have hwf : HyGraph.WF (⟨1, 2, fun _ f => f⟩ : HyGraph 1 1) nodes := ⟨fun _ _ => rfl, by decide⟩
  refine ⟨E1 (fun _ => 8) 0 [1], ⟨1, 2, fun _ f => f⟩, nodes, fun v => v.1 = 0, hwf, E1_laws _ _ _ _, E1_rigid _ _ _ _, ⟨fun d => ?_, fun u => ?_⟩, fun f => ?_, fun e f => ?_, fun v => ?_, ?_⟩
  · ext i j
    simp [coeffs, form, E1]
  · simp [coeffs, E1, dotProduct, mulVec]
  · rcases face_two f with rfl | rfl <;> norm_num [normalVelocity, form, E1]
  · simp [E1, nodes]
  · refine ⟨⟨0, by decide⟩, rfl, Relation.ReflTransGen.single ⟨⟨0, by decide⟩, 0, ⟨v.1, v.2⟩, rfl, rfl⟩⟩
  refine ⟨fun k => if k.1 = 0 then 0 else 1, fun h => ?_, fun v hv j => ?_, ?_⟩
  · have := congrFun h ⟨1, by decide⟩
    simp at this
  · have h0 : (dof v j).1 = 0 := by
      have := j.2
      show v.1 * 1 + j.1 = 0
      omega
    exact if_pos h0
  · let x : Fin (2 * 1) → ℚ := fun k => if k.1 = 0 then 0 else 1
    have hx0 : ∀ e, faceValues nodes x e 0 0 = 0 := fun e => by simp [faceValues, x, nodes, dof]
    have hx1 : ∀ e, faceValues nodes x e 1 0 = 1 := fun e => by simp [faceValues, x, nodes, dof]
    have hz : ∀ e : Fin 1, trace_to_flux .release (cramerSolve _ _ ℚ) 6 (faceValues nodes x e) (fun _ _ => 0) (E1 (fun _ => 8) 0 [1]) 0 = .ok 0 := fun e => by
      obtain ⟨y, h1, u, h2, _, h3⟩ := E1_flux (fun _ => 8) 0 [1] 0 .release (tau := 6) (by norm_num) (faceValues nodes x e) (fun _ _ => 0)
      rw [h1]
      refine congrArg Res.ok (funext fun f => funext fun j => ?_)
      rw [Subsingleton.elim j 0]
      rcases face_two f with rfl | rfl
      · exact C81_dirichlet_zero .release _ (C44_example _ _ ℚ) 6 _ 0 _ _ y (.inl h1) 0 (by simp [E1]) 0
      · rw [h3 (by simp), hx0, hx1]
        rw [hx0, hx1] at h2
        show _ = (0 : ℚ)
        linarith
    refine (HyGraph.mat_vec_eq .release ⟨1, 2, fun _ f => f⟩ nodes hwf (localOperator .release (cramerSolve _ _ ℚ) 6 (fun _ => E1 (fun _ => 8) 0 [1]) 0) x (fun _ => 0)
      (fun e => hz e) 0 0).trans ?_
    refine congrArg Res.ok ?_
    have : assemble (K := ℚ) nodes (fun _ _ (_ : Fin 1) => 0) = fun _ => 0 := by
      funext k
      simp [assemble]
    rw [show (fun _ => 0 : Fin 1 → LocDofs 1 1 ℚ) = fun _ _ _ => 0 from rfl, this]
    rfl

/-! ## The hypotheses can be met -/

namespace Example

/-- C81: a velocity which depends on time, reaction, a Dirichlet face. -/
example := C81_affine (nB := 1) .debug _ (C44_example _ _ ℚ) 1 (E1 (fun t => 2 + t) 3 [1]) 7 (E1_solvable _ _ _ _ (by norm_num)) (fun _ _ => 2) 0 0 0
example := C81_mass_flux (nB := 1) .debug _ (C44_example _ _ ℚ) 1 (E1 (fun t => 2 + t) 3 [1]) 7 (E1_solvable _ _ _ _ (by norm_num)) (fun _ _ => 2) 0
example := C81_errors (nB := 1) .debug _ (C44_example _ _ ℚ) 1 (E1 (fun t => 2 + t) 3 [1]) 7 (E1_solvable _ _ _ _ (by norm_num)) (fun _ _ => 2)
example := C81_bulk_values (nB := 1) .debug _ (C44_example _ _ ℚ) 1 (E1 (fun t => 2 + t) 3 [1]) 7 (E1_solvable _ _ _ _ (by norm_num)) (fun c _ => c 0) [0, 1/2] (fun _ _ => 2) 0
example := C81_steady_partial (nB := 1) .debug _ (C44_example _ _ ℚ) 1 (E1 (fun _ => 2) 3 [1]) 7 (fun _ => rfl) (E1_solvable _ _ _ _ (by norm_num)) (fun _ _ => 2) 0
example := C81_diffusion (nB := 1) .debug _ (C44_example _ _ ℚ) 1 (E1 (fun t => t) 0 [1]) 7 rfl rfl (fun _ _ => 2) 0

theorem one_trace (b : ℚ → ℚ) (r : ℚ) (D : List Nat) (time : ℚ) (f : Fin (2 * 1)) : IsTrace (form (E1 b r D).toEdge 1 time) (fun _ => 1) f (fun _ => 1) := by
  funext j
  simp [form, E1, mulVec, dotProduct]

theorem one_const (b : ℚ → ℚ) (r : ℚ) (D : List Nat) (time : ℚ) : IsConst (form (E1 b r D).toEdge 1 time) (fun _ => 1) := fun d => by
  funext j
  simp [form, E1, mulVec, dotProduct]

example {lambda y : LocDofs 1 1 ℚ} := C81_conservation (nB := 1) .debug _ (C44_example _ _ ℚ) 1 (E1 (fun t => 2 + t) 3 []) 7 (E1_laws _ _ _ _) (one_const _ _ _ _) (one_trace _ _ _ _)
  (fun f => by simp [E1]) (lambda := lambda) (out := 0) (y := y)

example := C81_free_stream (nB := 1) .debug _ (C44_example _ _ ℚ) 1 (E1 (fun t => 2 + t) 0 [1]) 7 (E1_laws _ _ _ _) (E1_solvable _ _ _ _ (by norm_num)) (b := fun _ => 2)
  (fun i j d => by simp [E1]) rfl (one_const _ _ _ _) (one_trace _ _ _ _) 0

/-- C82: reaction rate 1 dominates velocity 1. -/
theorem E1_dominated (D : List Nat) : Dominated (form (E1 (fun _ => 1) 1 D).toEdge 1 0) (coeffs (E1 (fun _ => 1) 1 D) 0 0) :=
  C82_dominated_const (nB := 1) _ 0 (E1_laws _ _ _ _) (a := 1) (r := 1) (b := fun _ => 1) one_pos (fun i j => by simp [E1]) (fun i j d => by simp [E1]) (fun i j => by simp [E1]) (by norm_num)

example := C82_dominated (nB := 1) .debug _ (C44_example _ _ ℚ) 1 _ 0 (E1_laws _ _ _ _) one_pos (E1_dominated [1])

/-- One hyperedge without Dirichlet nodes. -/
example := C82_unique_dominated (nB := 1) .debug _ (C44_example _ _ ℚ) 1 (fun _ => E1 (fun _ => 1) 1 []) 0 ⟨1, 2, fun _ f => f⟩ (fun _ f => ⟨f.1, f.2⟩) ⟨fun _ _ => rfl, by decide⟩ 0 0
  (fun _ => E1_laws _ _ _ _) one_pos (fun _ => E1_dominated []) (fun _ => False) (fun e f => by simp [E1]) (fun v _ => ⟨⟨0, by decide⟩, ⟨v.1, v.2⟩, rfl⟩)

/-- Two hyperedges in a row, the flow enters at the left end (free, from outside) and leaves at the right end (Dirichlet node). -/
def nodes2 : Fin 2 → Fin (2 * 1) → Fin 3 := fun e f => ⟨e.1 + f.1, by omega⟩

example := C82_unique (nB := 1) .debug _ (C44_example _ _ ℚ) 1 (fun e => E1 (fun _ => 1) 0 (if e = 1 then [2] else [])) 0 ⟨2, 3, fun e f => e + f⟩ nodes2 ⟨fun _ _ => rfl, by decide⟩ 0 0
  (fun _ => E1_laws _ _ _ _) (fun _ => E1_rigid _ _ _ _) (fun _ _ => 1)
  (fun e => ⟨fun d => by ext i j; simp [coeffs, form, E1], fun u => by simp [coeffs, E1, dotProduct, mulVec]⟩)
  (fun e f => by rcases face_two f with rfl | rfl <;> norm_num [normalVelocity, form, E1])
  (fun v => v.1 = 2) (fun e f => by
    revert e f
    show ∀ (e : Fin 2) (f : Fin (2 * 1)), _ ↔ e.1 + f.1 = 2
    intro e f
    rcases face_two f with rfl | rfl <;> fin_cases e <;> simp [E1])
  (fun v hv => by
    change ∑ e : Fin 2, _ ≤ (0 : ℚ)
    simp only [sum2, Fin.sum_univ_two]
    change Fin 3 at v
    fin_cases v <;> simp_all [nodes2, normalVelocity, form, E1])
  (fun v => ⟨⟨2, by decide⟩, rfl, by
    have h1 : ∀ e : Fin 2, Adjacent nodes2 ⟨e.1 + 1, by omega⟩ ⟨e.1, by omega⟩ := fun e => ⟨e, 1, 0, rfl, rfl⟩
    change Fin 3 at v
    fin_cases v
    · exact .tail (.single (h1 1)) (h1 0)
    · exact .single (h1 1)
    · exact .refl⟩)

end Example

end HyperHDG.DAR

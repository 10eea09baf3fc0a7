import Verif.Proofs.DiffusionIPCube
import Verif.Proofs.Legendre
import Verif.Proofs.EllipticProgram
import Verif.Proofs.GlobalSolve
import Verif.Props.GlobalClasses
import Verif.Props.Diffusion
import Mathlib.Analysis.Real.Sqrt
import Mathlib.Tactic.FieldSimp
import Mathlib.Tactic.FinCases

/-!
# Properties C79 and C80: the local solver with interior penalty

`IP.IsSolution` is the local problem, `IP.faceFlux` its numerical flux (`Verif/Spec/DiffusionIP.lean`); `form E nB time` are the integrals over the hyperedge `E` with which the
solver works; `gesv` is LAPACK's dense solve (`GesvSpec` is its documentation).
-/

namespace HyperHDG.DiffusionIP

open Finset Matrix
open Spec hiding Form IsSolution faceFlux Solvable moments IsTrace Rigid traceOf
open Spec.IP HyGraph
open DiffusionParab (vecOf)

variable {dim nS nB : Nat} {K : Type}

/-! ## C79: what is computed -/

section
variable [Field K] (m : Mode) (gesv : Gesv nS 1 K) (hg : GesvSpec gesv) (tau : K) (E : Edge dim nS K) (time : K)

include hg

/-- **C79** (`trace_to_flux`).  If the local problem is uniquely solvable, the result is zero on the Dirichlet faces and the numerical flux of the local solution for the trace `lambda` on
the other ones, whatever the output array contained.  Otherwise the debug build aborts and the release build lets the LAPACK exception through. -/
theorem C79_flux (lambda out : LocDofs dim nB K) :
    (Solvable (form E nB time) tau → ∃ u, IsSolution (form E nB time) tau (moments (form E nB time) lambda) 0 u ∧
      trace_to_flux m gesv tau lambda out E time = .ok (offDirichlet E (faceFlux (form E nB time) tau lambda u))) ∧
    (¬ Solvable (form E nB time) tau → trace_to_flux m gesv tau lambda out E time = solveFailure m) := by
  obtain ⟨h1, h2⟩ := solve_local_problem_spec m gesv hg E tau time lambda 0 (.inl rfl)
  refine ⟨fun hs => ?_, fun hs => ?_⟩
  · obtain ⟨c, hc1, hc2⟩ := h1 hs
    obtain ⟨P, hP1, hP2⟩ := primal_spec m E nB time c
    obtain ⟨D, hD1, hD2⟩ := dual_spec m E nB time c
    refine ⟨vecOf c, by simpa [dataOf] using hc2, ?_⟩
    rw [trace_to_flux, hc1, Res.ok_bind, hP1, Res.ok_bind, hD1, Res.ok_bind, writeFlux_eq m E tau time c P D hP2 hD2]
  · rw [trace_to_flux, h2 hs]
    cases m <;> rfl

/-- **C79** (`residual_flux`).  The same with the right-hand side and the Dirichlet values in the local problem. -/
theorem C79_residual (lambda out : LocDofs dim nB K) :
    (Solvable (form E nB time) tau → ∃ u, IsSolution (form E nB time) tau (moments (form E nB time) lambda + dirichletMoments E time) (source E time) u ∧
      residual_flux m gesv tau lambda out E time = .ok (offDirichlet E (faceFlux (form E nB time) tau lambda u))) ∧
    (¬ Solvable (form E nB time) tau → residual_flux m gesv tau lambda out E time = solveFailure m) := by
  obtain ⟨h1, h2⟩ := solve_local_problem_spec m gesv hg E tau time lambda 1 (.inr rfl)
  refine ⟨fun hs => ?_, fun hs => ?_⟩
  · obtain ⟨c, hc1, hc2⟩ := h1 hs
    obtain ⟨P, hP1, hP2⟩ := primal_spec m E nB time c
    obtain ⟨D, hD1, hD2⟩ := dual_spec m E nB time c
    refine ⟨vecOf c, by simpa [dataOf] using hc2, ?_⟩
    rw [residual_flux, hc1, Res.ok_bind, hP1, Res.ok_bind, hD1, Res.ok_bind, writeFlux_eq m E tau time c P D hP2 hD2]
  · rw [residual_flux, h2 hs]
    cases m <;> rfl

theorem of_ok {lambda out y : LocDofs dim nB K} (h : trace_to_flux m gesv tau lambda out E time = .ok y) :
    Solvable (form E nB time) tau ∧ ∃ u, IsSolution (form E nB time) tau (moments (form E nB time) lambda) 0 u ∧
      y = offDirichlet E (faceFlux (form E nB time) tau lambda u) := by
  by_cases hs : Solvable (form E nB time) tau
  · obtain ⟨u, h1, h2⟩ := (C79_flux m gesv hg tau E time lambda out).1 hs
    rw [h] at h2
    injection h2 with h2
    exact ⟨hs, u, h1, h2⟩
  · have := (C79_flux m gesv hg tau E time lambda out).2 hs
    rw [h] at this
    cases m <;> cases this

theorem to_ok (hs : Solvable (form E nB time) tau) {lambda : LocDofs dim nB K} {u : Fin nS → K}
    (h : IsSolution (form E nB time) tau (moments (form E nB time) lambda) 0 u) (out : LocDofs dim nB K) :
    trace_to_flux m gesv tau lambda out E time = .ok (offDirichlet E (faceFlux (form E nB time) tau lambda u)) := by
  obtain ⟨u', h1, h2⟩ := (C79_flux m gesv hg tau E time lambda out).1 hs
  rw [h2, solution_unique hs h h1]

/-- **C79** (Dirichlet rows).  `trace_to_flux` and `residual_flux` return exactly zero on the faces of Dirichlet type. -/
theorem C79_dirichlet_zero (lambda out y : LocDofs dim nB K)
    (h : trace_to_flux m gesv tau lambda out E time = .ok y ∨ residual_flux m gesv tau lambda out E time = .ok y) (f : Fin (2 * dim))
    (hf : E.node_descriptor f ∈ E.dirichlet_nodes) (j : Fin nB) : y f j = 0 := by
  have key : ∀ z : LocDofs dim nB K, offDirichlet E z f j = 0 := fun z => if_pos hf
  by_cases hs : Solvable (form E nB time) tau
  · rcases h with h | h
    · obtain ⟨u, _, h2⟩ := (C79_flux m gesv hg tau E time lambda out).1 hs
      rw [h] at h2; injection h2 with h2
      rw [h2]; exact key _
    · obtain ⟨u, _, h2⟩ := (C79_residual m gesv hg tau E time lambda out).1 hs
      rw [h] at h2; injection h2 with h2
      rw [h2]; exact key _
  · have h1 := (C79_flux m gesv hg tau E time lambda out).2 hs
    have h2 := (C79_residual m gesv hg tau E time lambda out).2 hs
    rcases h with h | h
    · rw [h] at h1; cases m <;> cases h1
    · rw [h] at h2; cases m <;> cases h2

/-- **C79** (linearity).  If `trace_to_flux` returns `y` for `lambda` and `z` for `mu`, then it returns `a y + b z` for `a lambda + b mu`. -/
theorem C79_linear {lambda mu out out' y z : LocDofs dim nB K} (hy : trace_to_flux m gesv tau lambda out E time = .ok y)
    (hz : trace_to_flux m gesv tau mu out' E time = .ok z) (a b : K) (out'' : LocDofs dim nB K) :
    trace_to_flux m gesv tau (a • lambda + b • mu) out'' E time = .ok (a • y + b • z) := by
  obtain ⟨hs, u, h1, rfl⟩ := of_ok m gesv hg tau E time hy
  obtain ⟨_, u', h1', rfl⟩ := of_ok m gesv hg tau E time hz
  have h2 := solution_comb h1 h1' a b
  rw [smul_zero, smul_zero, add_zero, ← moments_comb] at h2
  rw [to_ok m gesv hg tau E time hs h2, faceFlux_comb, off_comb]

/-- **C79** (affine residual).  `residual_flux(lambda) = trace_to_flux(lambda) + residual_flux(0)`. -/
theorem C79_affine (hs : Solvable (form E nB time) tau) (lambda out out' out'' : LocDofs dim nB K) :
    ∃ y r, trace_to_flux m gesv tau lambda out E time = .ok y ∧ residual_flux m gesv tau 0 out' E time = .ok r ∧
      residual_flux m gesv tau lambda out'' E time = .ok (y + r) := by
  obtain ⟨u, h1, h2⟩ := (C79_flux m gesv hg tau E time lambda out).1 hs
  obtain ⟨u', h1', h2'⟩ := (C79_residual m gesv hg tau E time 0 out').1 hs
  obtain ⟨u'', h1'', h2''⟩ := (C79_residual m gesv hg tau E time lambda out'').1 hs
  refine ⟨_, _, h2, h2', h2''.trans (congrArg Res.ok ?_)⟩
  have h3 := solution_comb h1 h1' 1 1
  have h0 : moments (form E nB time) (0 : LocDofs dim nB K) = 0 := by funext f; simp [moments]
  simp only [one_smul, zero_add, h0] at h3
  rw [solution_unique hs h1'' h3]
  have h4 := faceFlux_comb (form E nB time) tau 1 1 lambda 0 u u'
  simp only [one_smul, add_zero] at h4
  have h5 := off_comb E 1 1 (faceFlux (form E nB time) tau lambda u) (faceFlux (form E nB time) tau 0 u')
  simp only [one_smul] at h5
  rw [h4, h5]

/-- **C79** (bulk values).  `bulk_values` returns the values of the local solution with right-hand side and Dirichlet values at the points of the tensor grid of the abscissas in
lexicographic order. -/
theorem C79_bulk_values (hs : Solvable (form E nB time) tau) (lin_comb : (Fin nS → K) → List K → K) (abscissas : List K) (lambda : LocDofs dim nB K)
    (vals0 : Fin 1 → Fin (Hypercube.pow dim abscissas.length) → K) :
    ∃ u, IsSolution (form E nB time) tau (moments (form E nB time) lambda + dirichletMoments E time) (source E time) u ∧
      ∃ vals, bulk_values m gesv lin_comb tau abscissas lambda E time vals0 = .ok vals ∧
      ∀ pt : Fin (Hypercube.pow dim abscissas.length), ∃ p, Hypercube.tensorial_pt m dim pt abscissas = .ok p ∧ vals 0 pt = lin_comb u p := by
  obtain ⟨c, h1, h2⟩ := (solve_local_problem_spec m gesv hg E tau time lambda 1 (.inr rfl)).1 hs
  obtain ⟨r, hr1, hr2⟩ := bulk_loop_get (D := 1) (dim := dim) m lin_comb abscissas c (fun _ => vecOf c) (fun d i => by
    rw [Subsingleton.elim d 0, show (0 : Fin 1).1 * nS + i.1 = i.1 by simp, vec_get_lt m c i.2]
    rfl) (fun _ => 0) vals0
  refine ⟨vecOf c, by simpa [dataOf] using h2, r.2, ?_, fun pt => ?_⟩
  · unfold bulk_values
    rw [h1, Res.ok_bind, hr1]
    rfl
  · obtain ⟨p, hp1, hp2⟩ := hr2 pt
    exact ⟨p, hp1, hp2 0⟩

/-- **C79** (errors).  `errors` compares that solution with the analytic result. -/
theorem C79_errors (hs : Solvable (form E nB time) tau) (lambda : LocDofs dim nB K) :
    ∃ u, IsSolution (form E nB time) tau (moments (form E nB time) lambda + dirichletMoments E time) (source E time) u ∧
      errors m gesv tau lambda E time = .ok (fun _ => E.vol_diffsquare time u) := by
  obtain ⟨c, h1, h2⟩ := (solve_local_problem_spec m gesv hg E tau time lambda 1 (.inr rfl)).1 hs
  refine ⟨vecOf c, by simpa [dataOf] using h2, ?_⟩
  unfold errors
  rw [h1, Res.ok_bind]
  refine congrArg Res.ok (funext fun _ => congrArg _ (funext fun i => ?_))
  exact congrArg c (Fin.ext (by simp [pos]))

/-- **C79** (conservation).  On a hyperedge without Dirichlet faces the fluxes returned by `residual_flux`, tested by the function 1, add up to the integral of the right-hand side; those
returned by `trace_to_flux` add up to zero. -/
theorem C79_conservation {one : Fin nS → K} {oneF : Fin (2 * dim) → Fin nB → K} (h1 : IsOne (form E nB time) one oneF)
    (hD : ∀ f : Fin (2 * dim), E.node_descriptor f ∉ E.dirichlet_nodes) {lambda out y : LocDofs dim nB K} :
    (residual_flux m gesv tau lambda out E time = .ok y → ∑ f, oneF f ⬝ᵥ y f = ∑ i : Fin nS, one i * E.vol_phifunc time i) ∧
    (trace_to_flux m gesv tau lambda out E time = .ok y → ∑ f, oneF f ⬝ᵥ y f = 0) := by
  have hoff : ∀ z : LocDofs dim nB K, offDirichlet E z = z := fun z => by
    funext f j
    exact if_neg (hD f)
  have hdm : ∀ f, dirichletMoments E time f = 0 := fun f => by
    funext i
    exact if_neg (hD f)
  refine ⟨fun h => ?_, fun h => ?_⟩
  · by_cases hs : Solvable (form E nB time) tau
    · obtain ⟨u, hu, h2⟩ := (C79_residual m gesv hg tau E time lambda out).1 hs
      rw [h] at h2; injection h2 with h2
      rw [h2, hoff, conservation h1 tau hu]
      simp only [hdm, dotProduct_zero, Finset.sum_const_zero, mul_zero, add_zero]
      rfl
    · have h2 := (C79_residual m gesv hg tau E time lambda out).2 hs
      rw [h] at h2
      cases m <;> cases h2
  · obtain ⟨hs, u, hu, rfl⟩ := of_ok m gesv hg tau E time h
    rw [hoff, conservation (g := 0) h1 tau (by simpa using hu)]
    simp

/-- **C79** (constants).  For the trace of a constant function `trace_to_flux` returns zero. -/
theorem C79_constants (hs : Solvable (form E nB time) tau) {one : Fin nS → K} {oneF : Fin (2 * dim) → Fin nB → K} (h1 : IsOne (form E nB time) one oneF) (c : K)
    (out : LocDofs dim nB K) : trace_to_flux m gesv tau (c • oneF) out E time = .ok 0 := by
  have h2 := to_ok m gesv hg tau E time hs (const_solution h1 tau) 0
  rw [const_flux h1] at h2
  have h3 := C79_linear m gesv hg tau E time h2 h2 c 0 out
  simp only [zero_smul, add_zero] at h3
  rw [h3]
  congr 1
  funext f j
  simp [offDirichlet]

end

/-- **C79** (`node_types`).  The node types reported are 1 for the faces of Dirichlet type and 0 for all others. -/
theorem C79_node_types (E : Edge dim nS K) : ∃ t, node_types E = .ok t ∧ ∀ f : Fin (2 * dim),
    t f = if E.node_descriptor f ∈ E.dirichlet_nodes then 1 else 0 := by
  obtain ⟨t, h1, h2, h3⟩ := forFin_inv (2 * dim) (fun i result => .ok (if is_dirichlet E i then arrSet result i 1 else result)) (fun _ : Fin (2 * dim) => 0)
    (fun k t => (∀ a : Fin (2 * dim), a.1 < k → t a = if is_dirichlet E a then 1 else 0) ∧ ∀ a : Fin (2 * dim), k ≤ a.1 → t a = 0)
    ⟨fun a ha => absurd ha (Nat.not_lt_zero _), fun _ _ => rfl⟩ (fun i t ht => by
      refine ⟨_, rfl, fun a ha => ?_, fun a ha => ?_⟩
      · by_cases h : a = i
        · subst h
          cases hb : is_dirichlet E a.1
          · simp [ht.2 a le_rfl]
          · simp [arrSet]
        · have hlt : a.1 < i.1 := by have : a.1 ≠ i.1 := fun h' => h (Fin.ext h'); omega
          rw [← ht.1 a hlt]
          split
          · simp [arrSet, h]
          · rfl
      · have h : a ≠ i := fun h => by subst h; omega
        rw [← ht.2 a (by omega)]
        split
        · simp [arrSet, h]
        · rfl)
  refine ⟨t, h1, fun f => ?_⟩
  rw [h2 f f.2]
  have hd : _ ↔ E.node_descriptor f ∈ E.dirichlet_nodes := is_dirichlet_iff E f
  by_cases h : E.node_descriptor f ∈ E.dirichlet_nodes
  · rw [if_pos h, if_pos (hd.mpr h)]
  · rw [if_neg h, if_neg (fun h' => h (hd.mp h'))]

/-! ## Time-dependent diffusion coefficients -/

/-- The integrals of the documented method at time `time`: the diffusion coefficient is taken at this time everywhere. -/
def formAt [CommRing K] (E : Edge dim nS K) (nB : Nat) (time : K) : IP.Form dim nS nB K where
  stiff := .of fun i j => E.vol_nablaphinablaphifunc time i j
  conorm := fun f => .of fun i j => E.bdr_nablaphiphinufunc time j i f
  conormPsi := fun f => .of fun i j => E.bdr_nablaphipsinufunc time j i f
  bdr := fun f => .of fun i j => E.bdr_phiphi i j f
  psi := fun f => .of fun i j => E.bdr_phipsi i j f
  area := fun f => E.face_area f

/-- **C79** (steady coefficients).  If the integrals of the normal derivatives do not depend on time (in particular for a steady diffusion coefficient), or at time 0, the integrals
the solver works with are those of the documented method at the given time. -/
theorem C79_steady_partial [CommRing K] (E : Edge dim nS K) (nB : Nat) (time : K)
    (h : time = 0 ∨ E.bdr_nablaphiphinufunc time = E.bdr_nablaphiphinufunc 0 ∧ E.bdr_nablaphipsinufunc time = E.bdr_nablaphipsinufunc 0) :
    form E nB time = formAt E nB time := by
  rcases h with rfl | ⟨h1, h2⟩
  · rfl
  · simp only [form, formAt, h1, h2]

/-! ## C80: penalty, definiteness, unique solvability -/

/-- The trace vanishes on Dirichlet faces. -/
def VanishesOnDirichlet [Zero K] (E : Edge dim nS K) (lambda : LocDofs dim nB K) : Prop :=
  ∀ f : Fin (2 * dim), E.node_descriptor f ∈ E.dirichlet_nodes → lambda f = 0

theorem pair_off [CommRing K] {E : Edge dim nS K} {mu : LocDofs dim nB K} (hmu : VanishesOnDirichlet E mu) (y : LocDofs dim nB K) :
    ∑ f, ∑ j, mu f j * offDirichlet E y f j = ∑ f, mu f ⬝ᵥ y f := by
  refine Finset.sum_congr rfl fun f _ => ?_
  by_cases hf : IsDirichlet E f
  · rw [hmu f hf]
    simp
  · simp [offDirichlet, hf, dotProduct]

section
variable [Field K] [LinearOrder K] [IsStrictOrderedRing K] (m : Mode) (gesv : Gesv nS 1 K) (hg : GesvSpec gesv) (tau : K) (E : Edge dim nS K) (time : K)
  {C : K} (hE : Laws (form E nB time) C)

include hg hE

/-- **C80** (local solvability).  If `4 tau` exceeds the constant of the discrete trace inequality, the local problem is uniquely solvable, so `trace_to_flux` and `residual_flux` return. -/
theorem C80_solvable (ht : 0 < tau) (hC : C < 4 * tau) (lambda out : LocDofs dim nB K) : Solvable (form E nB time) tau ∧
    (∃ y, trace_to_flux m gesv tau lambda out E time = .ok y) ∧ ∃ y, residual_flux m gesv tau lambda out E time = .ok y := by
  have hs := solvable_of hE ht hC
  obtain ⟨_, _, h1⟩ := (C79_flux m gesv hg tau E time lambda out).1 hs
  obtain ⟨_, _, h2⟩ := (C79_residual m gesv hg tau E time lambda out).1 hs
  exact ⟨hs, ⟨_, h1⟩, ⟨_, h2⟩⟩

/-- **C80** (semidefiniteness).  `lambda . trace_to_flux(lambda) ≤ 0` for traces vanishing on the Dirichlet faces, if `4 tau` is at least that constant. -/
theorem C80_semidefinite (ht : 0 ≤ tau) (hC : C ≤ 4 * tau) {lambda out y : LocDofs dim nB K} (hl : VanishesOnDirichlet E lambda)
    (hy : trace_to_flux m gesv tau lambda out E time = .ok y) : ∑ f, ∑ j, lambda f j * y f j ≤ 0 := by
  obtain ⟨hs, u, h1, rfl⟩ := of_ok m gesv hg tau E time hy
  rw [pair_off hl]
  exact form_nonpos hE ht hC h1

/-- **C80** (where it vanishes).  If `4 tau` exceeds the constant, the form vanishes only for traces of functions without energy. -/
theorem C80_kernel (ht : 0 < tau) (hC : C < 4 * tau) {lambda out y : LocDofs dim nB K} (hl : VanishesOnDirichlet E lambda)
    (hy : trace_to_flux m gesv tau lambda out E time = .ok y) (h : ∑ f, ∑ j, lambda f j * y f j = 0) :
    ∃ u, u ⬝ᵥ (form E nB time).stiff *ᵥ u = 0 ∧ ∀ f, IsTrace (form E nB time) u f (lambda f) := by
  obtain ⟨hs, u, h1, rfl⟩ := of_ok m gesv hg tau E time hy
  rw [pair_off hl] at h
  exact ⟨u, form_zero hE ht hC h1 h⟩

end

/-- **C80** (symmetry in one dimension).  On hyperedges of dimension 1, `mu . trace_to_flux(lambda) = lambda . trace_to_flux(mu)` for traces vanishing on the Dirichlet faces. -/
theorem C80_symmetric_1d [Field K] (m : Mode) (gesv : Gesv nS 1 K) (hg : GesvSpec gesv) (tau : K) (E : Edge 1 nS K) (time : K)
    {one : Fin nS → K} {oneF : Fin (2 * 1) → Fin 1 → K} (h1 : IsOne (form E 1 time) one oneF) (hne : ∀ f, oneF f 0 ≠ 0)
    {lambda mu out out' y z : LocDofs 1 1 K} (hl : VanishesOnDirichlet E lambda) (hm : VanishesOnDirichlet E mu)
    (hy : trace_to_flux m gesv tau lambda out E time = .ok y) (hz : trace_to_flux m gesv tau mu out' E time = .ok z) :
    ∑ f, ∑ j, mu f j * y f j = ∑ f, ∑ j, lambda f j * z f j := by
  obtain ⟨hs, u, hu, rfl⟩ := of_ok m gesv hg tau E time hy
  obtain ⟨_, v, hv, rfl⟩ := of_ok m gesv hg tau E time hz
  rw [pair_off hm, pair_off hl, fluxMap_eq hs hu, fluxMap_eq hs hv]
  exact symm_1d h1 hne hs mu lambda

/-- The local operator handed to the global loop; `E e` is hyperedge `e`. -/
def localOperator [CommRing K] (m : Mode) (gesv : Gesv nS 1 K) (tau : K) (E : Nat → Edge dim nS K) (time : K) : LocalFun dim nB K :=
  fun e lambda out => trace_to_flux m gesv tau lambda out (E e) time

/-- The local residual handed to the global loop. -/
def localResidual [CommRing K] (m : Mode) (gesv : Gesv nS 1 K) (tau : K) (E : Nat → Edge dim nS K) (time : K) : LocalFun dim nB K :=
  fun e lambda out => residual_flux m gesv tau lambda out (E e) time

section
variable [Field K] [LinearOrder K] [IsStrictOrderedRing K] (m : Mode) (gesv : Gesv nS 1 K) (hg : GesvSpec gesv) (tau : K) (ht : 0 < tau)
  (E : Nat → Edge dim nS K) (time : K) (C : Nat → K) (hE : ∀ e, Laws (form (E e) nB time) (C e)) (hC : ∀ e, C e < 4 * tau)
  (G : HyGraph dim nB) (nodes : Fin G.n_hyEdges → Fin (2 * dim) → Fin G.n_hyNodes) (hwf : G.WF nodes) (old0 new0 : LocDofs dim nB K)

include hg ht hE hC hwf

/-- **C80** (globally).  On each well-formed hypergraph the global `trace_to_flux` is a linear map `A` with `x . A x ≤ 0` for the vectors vanishing on the Dirichlet faces, if `4 tau` exceeds
the constants of the discrete trace inequality. -/
theorem C80_global : ∃ A : (Fin (G.n_hyNodes * nB) → K) →ₗ[K] (Fin (G.n_hyNodes * nB) → K),
    (∀ x, G.mat_vec_multiply m (localOperator m gesv tau E time) old0 new0 (List.ofFn x) = .ok (List.ofFn (A x))) ∧
    ∀ x, (∀ e : Fin G.n_hyEdges, VanishesOnDirichlet (E e) (faceValues nodes x e)) → ∑ k, x k * A x k ≤ 0 := by
  have hret : ∀ (e : Nat) (lambda : LocDofs dim nB K), ∃ y, ∀ out, trace_to_flux m gesv tau lambda out (E e) time = .ok y := by
    intro e lambda
    have hs := solvable_of (hE e) ht (hC e)
    obtain ⟨u, h1, _⟩ := (C79_flux m gesv hg tau (E e) time lambda 0).1 hs
    exact ⟨_, fun out => to_ok m gesv hg tau (E e) time hs h1 out⟩
  choose F hF using hret
  have hlin : ∀ (e : Nat) (a b : K) (x y : LocDofs dim nB K), F e (a • x + b • y) = a • F e x + b • F e y := by
    intro e a b x y
    have := C79_linear m gesv hg tau (E e) time (hF e x 0) (hF e y 0) a b 0
    rw [hF] at this
    injection this
  let L : Nat → LocDofs dim nB K →ₗ[K] LocDofs dim nB K := fun e =>
    { toFun := F e
      map_add' := fun x y => by
        have := hlin e 1 1 x y
        simpa only [one_smul] using this
      map_smul' := fun a x => by
        have := hlin e a 0 x 0
        simpa only [zero_smul, add_zero, RingHom.id_apply] using this }
  have hloc : ∀ (e : Fin G.n_hyEdges) (u : LocDofs dim nB K), localOperator m gesv tau E time e u (fun _ _ => 0) = .ok (L e u) := fun e u => hF e u _
  obtain ⟨A, hA⟩ := C18_linear m G nodes hwf old0 new0 (localOperator m gesv tau E time) (fun e => L e) hloc
  have hAx : ∀ x, A x = assemble nodes (fun e => F e (faceValues nodes x e)) := by
    intro x
    have h1 := mat_vec_eq m G nodes hwf (localOperator m gesv tau E time) x _ (fun e => hloc e _) old0 new0
    rw [hA x] at h1
    injection h1 with h1
    exact List.ofFn_injective h1
  refine ⟨A, hA, fun x hx => ?_⟩
  rw [hAx, pairing_assemble]
  exact Finset.sum_nonpos fun e _ => C80_semidefinite m gesv hg tau (E e) time (hE e) ht.le (hC e).le (hx e) (hF e _ 0)

/-- **C80** (exactly one discrete solution).  Let being of Dirichlet type be a property `D` of the hypernodes, and let each hypernode be connected to a Dirichlet node by a chain of hyperedges.
If `4 tau` exceeds the constants of the discrete trace inequality, there is exactly one vector vanishing at the Dirichlet nodes for which the residual returned is zero. -/
theorem C80_unique (hR : ∀ e, Rigid (form (E e) nB time))
    (D : Fin G.n_hyNodes → Prop) (hD : ∀ (e : Fin G.n_hyEdges) (f : Fin (2 * dim)), (E e).node_descriptor f ∈ (E e).dirichlet_nodes ↔ D (nodes e f))
    (hcon : Anchored nodes D) : ∃! y : Fin (G.n_hyNodes * nB) → K, VanishesAt D y ∧
      G.mat_vec_multiply m (localResidual m gesv tau E time) old0 new0 (List.ofFn y) = .ok (List.replicate (G.n_hyNodes * nB) 0) := by
  have hret : ∀ (e : Nat) (lambda : LocDofs dim nB K), ∃ y, ∀ out, trace_to_flux m gesv tau lambda out (E e) time = .ok y := by
    intro e lambda
    have hs := solvable_of (hE e) ht (hC e)
    obtain ⟨u, h1, _⟩ := (C79_flux m gesv hg tau (E e) time lambda 0).1 hs
    exact ⟨_, fun out => to_ok m gesv hg tau (E e) time hs h1 out⟩
  choose F hF using hret
  have hlin : ∀ (e : Nat) (a b : K) (x y : LocDofs dim nB K), F e (a • x + b • y) = a • F e x + b • F e y := by
    intro e a b x y
    have := C79_linear m gesv hg tau (E e) time (hF e x 0) (hF e y 0) a b 0
    rw [hF] at this
    injection this
  let L : Nat → LocDofs dim nB K →ₗ[K] LocDofs dim nB K := fun e =>
    { toFun := F e
      map_add' := fun x y => by
        have := hlin e 1 1 x y
        simpa only [one_smul] using this
      map_smul' := fun a x => by
        have := hlin e a 0 x 0
        simpa only [zero_smul, add_zero, RingHom.id_apply] using this }
  have hr0 : ∀ e : Nat, ∃ r : LocDofs dim nB K, residual_flux m gesv tau 0 (fun _ _ => 0) (E e) time = .ok r ∧
      ∀ lambda : LocDofs dim nB K, residual_flux m gesv tau lambda (fun _ _ => 0) (E e) time = .ok (F e lambda + r) := by
    intro e
    have hs := solvable_of (hE e) ht (hC e)
    obtain ⟨_, r, _, h2, _⟩ := C79_affine m gesv hg tau (E e) time hs 0 0 (fun _ _ => 0) 0
    refine ⟨r, h2, fun lambda => ?_⟩
    obtain ⟨y, r', k1, k2, k3⟩ := C79_affine m gesv hg tau (E e) time hs lambda (fun _ _ => 0) (fun _ _ => 0) (fun _ _ => 0)
    rw [h2] at k2; injection k2 with k2
    rw [hF] at k1; injection k1 with k1
    rw [k3, k2, k1]
  choose R0 hR00 hR0 using hr0
  refine unique_zero m G nodes hwf old0 new0 (localResidual m gesv tau E time) (fun e => L e) (fun e => R0 e) (fun e u => hR0 e u) D (fun e u f h => ?_) (fun e f h => ?_)
    fun x hx h => ?_
  · exact funext fun j => C79_dirichlet_zero m gesv hg tau (E e) time _ _ _ (.inl (hF e u 0)) f ((hD e f).mpr h) j
  · exact funext fun j => C79_dirichlet_zero m gesv hg tau (E e) time _ _ _ (.inr (hR00 e)) f ((hD e f).mpr h) j
  · have hv : ∀ e : Fin G.n_hyEdges, VanishesOnDirichlet (E e) (faceValues nodes x e) := fun e f hf => funext fun j => hx _ ((hD e f).mp hf) j
    have hc : ∀ e : Fin G.n_hyEdges, ∃ u, u ⬝ᵥ (form (E e) nB time).stiff *ᵥ u = 0 ∧ ∀ f, IsTrace (form (E e) nB time) u f (faceValues nodes x e f) := fun e =>
      C80_kernel m gesv hg tau (E e) time (hE e) ht (hC e) (hv e) (hF e _ 0)
        ((Finset.sum_eq_zero_iff_of_nonpos (fun (e : Fin G.n_hyEdges) _ => C80_semidefinite m gesv hg tau (E e) time (hE e) ht.le (hC e).le (hv e) (hF e _ 0))).mp h e (Finset.mem_univ e))
    have key : ∀ v, ∀ j, x (dof v j) = 0 := by
      refine hcon.all (fun v => ∀ j, x (dof v j) = 0) hx fun e f g hf => ?_
      obtain ⟨u, hu, htr⟩ := hc e
      have h1 := htr f
      have h2 : faceValues nodes x e f = 0 := funext hf
      unfold IsTrace at h1
      rw [h2, smul_zero] at h1
      have h3 := hR e u f hu h1.symm
      have h4 := htr g
      unfold IsTrace at h4
      rw [h3, mulVec_zero] at h4
      exact congrFun ((smul_eq_zero.mp h4).resolve_left ((hE e).area_pos g).ne')
    funext k
    obtain ⟨v, j, rfl⟩ := dof_surj k
    exact key v j

end

/-- **C80** (unit cubes).  For the unit cube of any dimension, a constant diffusion coefficient and tensor products of orthonormal polynomials (for example Legendre polynomials) of any degree the
assumptions of C80 hold; the constant is the diffusion coefficient times the sum of the squares of the traces of the shape functions. -/
theorem C80_unit_cube {p d : Nat} (P : Fin (p + 1) → Polynomial ℝ) (hP : OrthonormalPolys p P) {kappa : ℝ} (hk : 0 < kappa) :
    Laws (cubeForm (tensorIntegrator (p + 1) (d + 1) (exactBasis P)) (d + 1) ((p + 1) ^ (d + 1)) ((p + 1) ^ d) kappa)
      (kappa * cubeTrace (tensorIntegrator (p + 1) (d + 1) (exactBasis P)) (d + 1) ((p + 1) ^ (d + 1)) ((p + 1) ^ d)) ∧
    Rigid (cubeForm (tensorIntegrator (p + 1) (d + 1) (exactBasis P)) (d + 1) ((p + 1) ^ (d + 1)) ((p + 1) ^ d) kappa) :=
  ⟨cube_laws _ (tensor_lawful _ (exact_lawful hP)) hk, cube_rigid _ (tensor_rigid _ (exact_lawful hP)) hk⟩

/-! ## Counterexamples and examples -/

namespace Example

/-- The unit interval with shape functions `1` and `2 x - 1`, diffusion coefficient `kappa` (a function of time), right-hand side 6 and Dirichlet value 5; no Dirichlet faces. -/
def E1 (kappa : ℚ → ℚ) : Edge 1 2 ℚ where
  vol_nablaphinablaphifunc := fun t i j => if i = 1 ∧ j = 1 then 4 * kappa t else 0
  bdr_phiphi := fun i j f => (if f = 0 then (-1) ^ i else 1) * (if f = 0 then (-1) ^ j else 1)
  bdr_nablaphiphinufunc := fun t i j f => if i = 1 then (if f = 0 then -1 else 1) * (2 * kappa t) * (if f = 0 then (-1) ^ j else 1) else 0
  bdr_phipsi := fun i _ f => if f = 0 then (-1) ^ i else 1
  bdr_nablaphipsinufunc := fun t i _ f => if i = 1 then (if f = 0 then -1 else 1) * (2 * kappa t) else 0
  vol_phifunc := fun _ i => if i = 0 then 6 else 0
  bdr_phifunc := fun _ i f => 5 * (if f = 0 then (-1) ^ i else 1)
  vol_diffsquare := fun _ c => c 0 ^ 2 + c 1 ^ 2 / 3
  face_area := fun _ => 1
  node_descriptor := fun _ => 0
  dirichlet_nodes := [1]

theorem E1_solution (kappa : ℚ → ℚ) (time tau : ℚ) (g : Fin (2 * 1) → Fin 2 → ℚ) (s u : Fin 2 → ℚ) :
    IsSolution (form (E1 kappa) 1 time) tau g s u ↔ 2 * tau * u 0 = tau * (g 0 0 + g 1 0) + s 0 ∧
      (4 * (kappa time - kappa 0) + 2 * tau) * u 1 = tau * (g 0 1 + g 1 1) + s 1 := by
  have hF : ∀ h : Fin (2 * 1) → ℚ, ∑ f, h f = h 0 + h 1 := fun h => Fin.sum_univ_two h
  unfold IsSolution
  rw [funext_iff, Fin.forall_fin_two]
  simp only [form, E1, Pi.add_apply, Pi.sub_apply, Pi.smul_apply, Finset.sum_apply, mulVec, dotProduct, of_apply, smul_eq_mul, Fin.sum_univ_two, hF]
  simp only [Fin.val_zero, Fin.val_one, show ((0 : Fin (2 * 1)).1 = 0) = True from by simp, show ((1 : Fin (2 * 1)).1 = 0) = False from by simp, if_true, if_false]
  norm_num
  constructor
  · rintro ⟨h1, h2⟩
    exact ⟨by linear_combination h1, by linear_combination h2⟩
  · rintro ⟨h1, h2⟩
    exact ⟨by linear_combination h1, by linear_combination h2⟩

theorem E1_solvable (kappa : ℚ → ℚ) (time tau : ℚ) (ht : tau ≠ 0) (hk : 4 * (kappa time - kappa 0) + 2 * tau ≠ 0) : Solvable (form (E1 kappa) 1 time) tau := by
  intro u hu
  rw [E1_solution] at hu
  simp only [Pi.zero_apply, add_zero, mul_zero] at hu
  funext i
  have hi : i = 0 ∨ i = 1 := by omega
  rcases hi with rfl | rfl
  · exact (mul_eq_zero.mp hu.1).resolve_left (mul_ne_zero two_ne_zero ht)
  · exact (mul_eq_zero.mp hu.2).resolve_left hk

theorem E1_one (kappa : ℚ → ℚ) (time : ℚ) : IsOne (form (E1 kappa) 1 time) ![1, 0] (fun _ _ => 1) where
  grad := by ext i; fin_cases i <;> simp [form, E1, mulVec, dotProduct]
  grad_test := by ext i; fin_cases i <;> simp [form, E1, vecMul, dotProduct]
  conorm f := by ext i; fin_cases i <;> simp [form, E1, mulVec, dotProduct]
  conormPsi f := by ext i; simp [form, E1, mulVec, dotProduct]
  test_conorm f := by ext i; fin_cases i <;> simp [form, E1, vecMul, dotProduct]
  test_bdr f := by ext i; fin_cases i <;> fin_cases f <;> simp [form, E1, vecMul, dotProduct]
  bdr_one f := by ext i; fin_cases i <;> fin_cases f <;> simp [form, E1, mulVec, dotProduct]
  trace f := by ext i; fin_cases f <;> simp [form, E1, mulVec, dotProduct]

/-- The trace 0 at the left and 1 at the right end. -/
def trace1 : LocDofs 1 1 ℚ := fun f _ => if f = 0 then 0 else 1

theorem E1_flux (kappa : ℚ → ℚ) (time : ℚ) (u : Fin 2 → ℚ) : faceFlux (form (E1 kappa) 1 time) 1 trace1 u 1 0 = -(2 * kappa 0 * u 1) + (u 0 + u 1 - 1) := by
  simp [faceFlux, form, E1, mulVec, dotProduct, trace1, Fin.sum_univ_two]

end Example

open Example in
/-- **C79** (time-dependent coefficients, violated).  The diffusion coefficient in the normal derivatives is not taken at the given time.  On the unit interval with linear shape functions, the
coefficients `1 + t` and `2` agree at time 1, so do all integrals over the hyperedge and its faces at time 1; but `trace_to_flux` at time 1 returns different fluxes at the right end
(`-2/3` and `-2`; the exact flux is `-2`). -/
theorem C79_time : ∃ E E' : Edge 1 2 ℚ, E.vol_nablaphinablaphifunc 1 = E'.vol_nablaphinablaphifunc 1 ∧ E.bdr_nablaphiphinufunc 1 = E'.bdr_nablaphiphinufunc 1 ∧
    E.bdr_nablaphipsinufunc 1 = E'.bdr_nablaphipsinufunc 1 ∧ E.bdr_phiphi = E'.bdr_phiphi ∧ E.bdr_phipsi = E'.bdr_phipsi ∧ E.face_area = E'.face_area ∧
    E.node_descriptor = E'.node_descriptor ∧ E.dirichlet_nodes = E'.dirichlet_nodes ∧
    ∃ y y' : LocDofs 1 1 ℚ, trace_to_flux .release (cramerSolve _ _ ℚ) 1 trace1 0 E 1 = .ok y ∧ trace_to_flux .release (cramerSolve _ _ ℚ) 1 trace1 0 E' 1 = .ok y' ∧
      y 1 0 = -2/3 ∧ y' 1 0 = -2 := by
  have h2 : (1 : ℚ) + 1 = 2 := by norm_num
  have hoff : ∀ (kappa : ℚ → ℚ) (z : LocDofs 1 1 ℚ), offDirichlet (E1 kappa) z = z := fun kappa z => by
    funext f j
    exact if_neg (by simp [IsDirichlet, E1])
  have hmom : ∀ (kappa : ℚ → ℚ), (moments (form (E1 kappa) 1 1) trace1 0 0 = 0 ∧ moments (form (E1 kappa) 1 1) trace1 1 0 = 1) ∧
      moments (form (E1 kappa) 1 1) trace1 0 1 = 0 ∧ moments (form (E1 kappa) 1 1) trace1 1 1 = 1 := fun kappa => by
    simp [moments, form, E1, mulVec, dotProduct, trace1]
  refine ⟨E1 (fun t => 1 + t), E1 (fun _ => 2), ?_, ?_, ?_, rfl, rfl, rfl, rfl, rfl, ?_⟩
  · funext i j; simp only [E1, h2]
  · funext i j f; simp only [E1, h2]
  · funext i j f; simp only [E1, h2]
  obtain ⟨u, hu, h3⟩ := (C79_flux (nB := 1) .release _ (C44_example _ _ ℚ) 1 (E1 fun t => 1 + t) 1 trace1 0).1 (E1_solvable _ 1 1 one_ne_zero (by norm_num))
  obtain ⟨u', hu', h3'⟩ := (C79_flux (nB := 1) .release _ (C44_example _ _ ℚ) 1 (E1 fun _ => 2) 1 trace1 0).1 (E1_solvable _ 1 1 one_ne_zero (by norm_num))
  refine ⟨_, _, h3, h3', ?_, ?_⟩
  · rw [E1_solution, (hmom _).1.1, (hmom _).1.2, (hmom _).2.1, (hmom _).2.2] at hu
    rw [hoff, E1_flux]
    have e0 := hu.1
    have e1 := hu.2
    norm_num at e0 e1
    linarith
  · rw [E1_solution, (hmom _).1.1, (hmom _).1.2, (hmom _).2.1, (hmom _).2.2] at hu'
    rw [hoff, E1_flux]
    have e0 := hu'.1
    have e1 := hu'.2
    norm_num at e0 e1
    linarith

namespace Example

/-- The hypotheses of C79 and of the one-dimensional statement of C80 can be met. -/
example := C79_affine (nB := 1) .debug _ (C44_example _ _ ℚ) 1 (E1 fun t => 1 + t) 3 (E1_solvable _ 3 1 one_ne_zero (by norm_num)) trace1 trace1 trace1 trace1

example : ∃ y, residual_flux (nB := 1) .debug (cramerSolve _ _ ℚ) 1 trace1 0 (E1 fun _ => 2) 0 = .ok y ∧ y 0 0 + y 1 0 = 6 := by
  obtain ⟨u, _, h⟩ := (C79_residual (nB := 1) .debug _ (C44_example _ _ ℚ) 1 (E1 fun _ => 2) 0 trace1 0).1 (E1_solvable _ 0 1 one_ne_zero (by norm_num))
  have h1 := (C79_conservation (nB := 1) .debug _ (C44_example _ _ ℚ) 1 _ 0 (E1_one (fun _ => 2) 0) (fun f => by simp [E1]) (lambda := trace1) (out := 0)).1 h
  refine ⟨_, h, Eq.trans ?_ (h1.trans ?_)⟩
  · rw [show (∑ f : Fin (2 * 1), _) = _ from Fin.sum_univ_two _]
    simp [dotProduct]
  · simp [E1, Fin.sum_univ_two]

example {y z : LocDofs 1 1 ℚ} (hy : trace_to_flux .debug (cramerSolve _ _ ℚ) 1 trace1 0 (E1 fun t => 1 + t) 3 = .ok y)
    (hz : trace_to_flux .debug (cramerSolve _ _ ℚ) 1 (fun _ _ => 1) 0 (E1 fun t => 1 + t) 3 = .ok z) :=
  C80_symmetric_1d .debug _ (C44_example _ _ ℚ) 1 _ 3 (E1_one (fun t => 1 + t) 3) (fun _ => one_ne_zero) (fun f hf => absurd hf (by simp [E1]))
    (fun f hf => absurd hf (by simp [E1])) hy hz

/-- The normalised Legendre polynomials of degree up to 1 on the unit interval: `1` and `r (2 x - 1)` with `r` the square root of 3. -/
noncomputable def B2 : Basis1D 2 ℝ where
  at0 i := if i = 0 then 1 else -√3
  at1 i := if i = 0 then 1 else √3
  D i j := if i = 1 ∧ j = 0 then 2 * √3 else 0

theorem B2_lawful : B2.Lawful where
  by_parts i j := by
    have h3 : √3 * √3 = (3 : ℝ) := Real.mul_self_sqrt (by norm_num)
    fin_cases i <;> fin_cases j <;> simp [B2] <;> linarith
  unisolvent u h1 h2 := by
    have h3 : √(3 : ℝ) ≠ 0 := Real.sqrt_ne_zero'.mpr (by norm_num)
    have e1 := h1 0
    simp [B2, h3] at e1 h2
    rw [e1] at h2
    funext i
    fin_cases i
    · simpa using h2
    · exact e1

end Example

namespace Example

/-- Digit of the number of a shape function in direction of the axis of a face, and in the other direction. -/
def along (f i : Nat) : Nat := if f / 2 = 0 then i % 2 else i / 2
def across (f i : Nat) : Nat := if f / 2 = 0 then i / 2 else i % 2

/-- Value of a one-dimensional shape function at the end which face `f` belongs to. -/
noncomputable def endVal (f i : Nat) : ℝ := if f % 2 = 0 then B2.at0 i else B2.at1 i

/-- Derivative of a one-dimensional shape function. -/
noncomputable def slope (i : Nat) : ℝ := if i = 1 then 2 * √3 else 0

/-- Outer normal. -/
def sgn (f : Nat) : ℝ := if f % 2 = 0 then -1 else 1

/-- The unit square with bilinear shape functions and diffusion coefficient 1, without source and Dirichlet nodes. -/
noncomputable def E2 : Edge 2 4 ℝ where
  vol_nablaphinablaphifunc := fun _ i j => (if i / 2 = j / 2 then slope (i % 2) * slope (j % 2) else 0) + if i % 2 = j % 2 then slope (i / 2) * slope (j / 2) else 0
  bdr_phiphi := fun i j f => if across f i = across f j then endVal f (along f i) * endVal f (along f j) else 0
  bdr_nablaphiphinufunc := fun _ i j f => if across f i = across f j then sgn f * slope (along f i) * endVal f (along f j) else 0
  bdr_phipsi := fun i j f => if across f i = j then endVal f (along f i) else 0
  bdr_nablaphipsinufunc := fun _ i j f => if across f i = j then sgn f * slope (along f i) else 0
  vol_phifunc := fun _ _ => 0
  bdr_phifunc := fun _ _ _ => 0
  vol_diffsquare := fun _ c => c ⬝ᵥ c
  face_area := fun _ => 1
  node_descriptor := fun _ => 0
  dirichlet_nodes := [1]

theorem r3 : √(3 : ℝ) * √3 = 3 := Real.mul_self_sqrt (by norm_num)

theorem sum4 (h : Fin (2 * 2) → ℝ) : ∑ f, h f = h 0 + h 1 + h 2 + h 3 := Fin.sum_univ_four h

theorem E2_mat (time tau : ℝ) : locMat (form E2 2 time) tau = tau • !![4, 0, 0, 0; 0, 8, 0, 0; 0, 0, 8, 0; 0, 0, 0, 12] := by
  ext i j
  simp only [locMat, Matrix.add_apply, Matrix.sub_apply, Matrix.smul_apply, Matrix.sum_apply, sum4, form, of_apply, E2, smul_eq_mul]
  fin_cases i <;> fin_cases j <;> simp [along, across, endVal, slope, sgn, B2] <;> ring_nf <;> simp

theorem E2_solution (time : ℝ) {tau : ℝ} (ht : tau ≠ 0) (lambda : LocDofs 2 2 ℝ) (u : Fin 4 → ℝ) :
    IsSolution (form E2 2 time) tau (moments (form E2 2 time) lambda) 0 u ↔
      4 * u 0 = lambda 0 0 + lambda 1 0 + lambda 2 0 + lambda 3 0 ∧ 8 * u 1 = √3 * (lambda 1 0 - lambda 0 0) + lambda 2 1 + lambda 3 1 ∧
      8 * u 2 = √3 * (lambda 3 0 - lambda 2 0) + lambda 0 1 + lambda 1 1 ∧ 12 * u 3 = √3 * (lambda 1 1 - lambda 0 1 + lambda 3 1 - lambda 2 1) := by
  rw [isSolution_iff, E2_mat, smul_mulVec, add_zero, (smul_right_injective _ ht).eq_iff, funext_iff]
  have hF : ∀ p : Fin 4 → Prop, (∀ i, p i) ↔ p 0 ∧ p 1 ∧ p 2 ∧ p 3 := fun p => by
    constructor
    · exact fun h => ⟨h 0, h 1, h 2, h 3⟩
    · rintro ⟨h0, h1, h2, h3⟩ i
      fin_cases i <;> assumption
  rw [hF]
  simp only [Finset.sum_apply, sum4, moments, form, E2, mulVec, dotProduct, of_apply, Fin.sum_univ_four, Fin.sum_univ_two]
  simp [along, across, endVal, B2]
  refine fun _ => and_congr ?_ (and_congr ?_ ?_) <;>
    exact ⟨fun h => by linear_combination h, fun h => by linear_combination h⟩

theorem E2_solvable (time : ℝ) {tau : ℝ} (ht : tau ≠ 0) : Solvable (form E2 2 time) tau := by
  intro u hu
  have h0 : moments (form E2 2 time) (0 : LocDofs 2 2 ℝ) = 0 := by funext f; simp [moments]
  rw [← h0, E2_solution time ht] at hu
  simp at hu
  funext i
  fin_cases i
  · exact hu.1
  · exact hu.2.1
  · exact hu.2.2.1
  · exact hu.2.2.2

/-- The fluxes of the local solution. -/
theorem E2_flux (time tau : ℝ) (lambda : LocDofs 2 2 ℝ) (u : Fin 4 → ℝ) (f : Fin (2 * 2)) : faceFlux (form E2 2 time) tau lambda u f 0 =
      (if f = 0 then 2 * √3 * u 1 + tau * (u 0 - √3 * u 1 - lambda f 0) else if f = 1 then -(2 * √3 * u 1) + tau * (u 0 + √3 * u 1 - lambda f 0)
      else if f = 2 then 2 * √3 * u 2 + tau * (u 0 - √3 * u 2 - lambda f 0) else -(2 * √3 * u 2) + tau * (u 0 + √3 * u 2 - lambda f 0)) ∧
    faceFlux (form E2 2 time) tau lambda u f 1 =
      (if f = 0 then 2 * √3 * u 3 + tau * (u 2 - √3 * u 3 - lambda f 1) else if f = 1 then -(2 * √3 * u 3) + tau * (u 2 + √3 * u 3 - lambda f 1)
      else if f = 2 then 2 * √3 * u 3 + tau * (u 1 - √3 * u 3 - lambda f 1) else -(2 * √3 * u 3) + tau * (u 1 + √3 * u 3 - lambda f 1)) := by
  constructor <;> fin_cases f <;>
    simp [faceFlux, form, E2, mulVec, dotProduct, Fin.sum_univ_four, along, across, endVal, slope, sgn, B2] <;> exact .inl (by ring)

theorem E2_off (z : LocDofs 2 2 ℝ) : offDirichlet E2 z = z := by
  funext f j
  exact if_neg (by simp [IsDirichlet, E2])

/-- The trace of the function `x`, and the trace which is 1 on the left face and 0 on the others. -/
noncomputable def traceX : LocDofs 2 2 ℝ := fun f j => if j = 0 then (if f = 0 then 0 else if f = 1 then 1 else 1 / 2) else if f = 0 ∨ f = 1 then 0 else √3 / 6
def traceL : LocDofs 2 2 ℝ := fun f j => if j = 0 ∧ f = 0 then 1 else 0

/-- The trace of `x` plus `t` times a trace whose jump term is orthogonal to the shape functions. -/
noncomputable def traceT (t : ℝ) : LocDofs 2 2 ℝ := fun f j =>
  if j = 0 then (if f = 0 then t / 4 else if f = 1 then 1 - t / 4 else 1 / 2) else if f = 0 ∨ f = 1 then 0 else (1 / 2 + 3 * t / 4) * √3 / 3

theorem E2_cube (time : ℝ) : form E2 2 time = cubeForm (tensorIntegrator 2 2 B2) 2 4 2 1 := by
  have hse : ∀ d i j, SameExcept 2 2 d i j ↔ (d ≠ 0 → i % 2 = j % 2) ∧ (d ≠ 1 → i / 2 % 2 = j / 2 % 2) := fun d i j => by
    constructor
    · intro h
      exact ⟨fun hd => by simpa [digitOf] using h 0 (by omega) (Ne.symm hd), fun hd => by simpa [digitOf] using h 1 (by omega) (Ne.symm hd)⟩
    · rintro ⟨h0, h1⟩ k hk hkd
      have : k = 0 ∨ k = 1 := by omega
      rcases this with rfl | rfl
      · simpa [digitOf] using h0 (Ne.symm hkd)
      · simpa [digitOf] using h1 (Ne.symm hkd)
  have hsf : ∀ d i j, SameFace 2 2 d i j ↔ j % 2 = i / 2 ^ (if 0 < d then 0 else 1) % 2 := fun d i j => by
    constructor
    · intro h
      simpa [digitOf] using h 0 (by omega)
    · intro h k hk
      have : k = 0 := by omega
      subst this
      simpa [digitOf] using h
  unfold form cubeForm
  congr 1
  · ext i j
    simp only [of_apply, tensorIntegrator, hse, E2]
    fin_cases i <;> fin_cases j <;> simp [digitOf, slope, B2, Fin.sum_univ_four]
  · funext f
    ext i j
    simp only [of_apply, tensorIntegrator, hse, E2]
    fin_cases f <;> fin_cases i <;> fin_cases j <;> simp [digitOf, slope, B2, Fin.sum_univ_four, along, across, endVal, sgn, normal, axis]
  · funext f
    ext i j
    simp only [of_apply, tensorIntegrator, hse, hsf, E2]
    fin_cases f <;> fin_cases i <;> fin_cases j <;> simp [digitOf, slope, B2, Fin.sum_univ_four, along, across, sgn, normal, axis]
  · funext f
    ext i j
    simp only [of_apply, tensorIntegrator, hse, E2]
    fin_cases f <;> fin_cases i <;> fin_cases j <;> simp [digitOf, B2, along, across, endVal]
  · funext f
    ext i j
    simp only [of_apply, tensorIntegrator, hsf, E2]
    fin_cases f <;> fin_cases i <;> fin_cases j <;> simp [digitOf, B2, along, across, endVal]

end Example

open Example in
/-- **C80** (symmetry, violated).  The operator is not symmetric in general.  On the unit square with bilinear shape functions, diffusion coefficient 1 and any penalty `tau ≠ 0`, for `lambda` the trace of
the function `x` and `mu` the trace which is 1 on the left face and 0 on the others, `mu . trace_to_flux(lambda) = 1` but `lambda . trace_to_flux(mu) = 3/4`. -/
theorem C80_not_symmetric (tau : ℝ) (ht : tau ≠ 0) : ∃ y z : LocDofs 2 2 ℝ, trace_to_flux .release (cramerSolve _ _ ℝ) tau traceX 0 E2 0 = .ok y ∧
    trace_to_flux .release (cramerSolve _ _ ℝ) tau traceL 0 E2 0 = .ok z ∧ ∑ f, ∑ j, traceL f j * y f j = 1 ∧ ∑ f, ∑ j, traceX f j * z f j = 3 / 4 := by
  obtain ⟨u, hu, h1⟩ := (C79_flux .release _ (C44_example _ _ ℝ) tau E2 0 traceX 0).1 (E2_solvable 0 ht)
  obtain ⟨v, hv, h2⟩ := (C79_flux .release _ (C44_example _ _ ℝ) tau E2 0 traceL 0).1 (E2_solvable 0 ht)
  refine ⟨_, _, h1, h2, ?_, ?_⟩
  · rw [E2_solution 0 ht] at hu
    rw [E2_off, sum4]
    simp only [Fin.sum_univ_two, (E2_flux _ _ _ _ _).1, (E2_flux _ _ _ _ _).2]
    simp [traceL, traceX] at hu ⊢
    obtain ⟨e0, e1, e2, e3⟩ := hu
    have k1 : u 1 = √3 / 6 := by linarith
    have k0 : u 0 = 1 / 2 := by linarith
    rw [k1, k0]
    linear_combination (1 / 3 - tau / 6) * r3
  · rw [E2_solution 0 ht] at hv
    rw [E2_off, sum4]
    simp only [Fin.sum_univ_two, (E2_flux _ _ _ _ _).1, (E2_flux _ _ _ _ _).2]
    simp [traceL, traceX] at hv ⊢
    obtain ⟨e0, e1, e2, e3⟩ := hv
    have k1 : v 1 = -√3 / 8 := by linarith
    have k0 : v 0 = 1 / 4 := by linarith
    rw [k1, k0, e2, e3]
    linear_combination (1 / 4 - tau / 8 - tau / 24) * r3

open Example in
/-- **C80** (small penalties).  The condition on the penalty cannot be dropped: on the same square the operator is not negative semidefinite for `0 < tau < 1/8`. -/
theorem C80_small_penalty (tau : ℝ) (ht : 0 < tau) (ht' : tau < 1 / 8) : ∃ lambda y : LocDofs 2 2 ℝ,
    trace_to_flux .release (cramerSolve _ _ ℝ) tau lambda 0 E2 0 = .ok y ∧ 0 < ∑ f, ∑ j, lambda f j * y f j := by
  obtain ⟨u, hu, h1⟩ := (C79_flux .release _ (C44_example _ _ ℝ) tau E2 0 (traceT (1 / (2 * tau))) 0).1 (E2_solvable 0 ht.ne')
  refine ⟨_, _, h1, ?_⟩
  generalize hT : 1 / (2 * tau) = t at *
  have htt : tau * t = 1 / 2 := by
    rw [← hT]
    field_simp
  rw [E2_solution 0 ht.ne'] at hu
  rw [E2_off, sum4]
  simp only [Fin.sum_univ_two, (E2_flux _ _ _ _ _).1, (E2_flux _ _ _ _ _).2]
  simp [traceT] at hu ⊢
  obtain ⟨e0, e1, e2, e3⟩ := hu
  have k1 : u 1 = √3 / 6 := by linarith
  have k0 : u 0 = 1 / 2 := by linarith
  have h4 : 4 < t := by
    by_contra h
    have := mul_le_mul_of_nonneg_left (not_lt.mp h) ht.le
    linarith
  rw [k1, k0, e2, e3]
  refine lt_of_lt_of_eq (show (0 : ℝ) < t / 4 - 1 by linarith) ?_
  have hq : tau * t * t = t / 2 := by rw [htt]; ring
  linear_combination (-t / 6 + t * tau / 6 + t ^ 2 * tau / 8 + 1 / 3 - tau / 6) * r3 + (1 / 2) * hq

open Example in
/-- The hypotheses of C80 can be met: the square above, with a penalty for which the operator is definite although it is not symmetric. -/
example : Laws (form E2 2 0) (cubeTrace (tensorIntegrator 2 2 B2) 2 4 2) ∧ Rigid (form E2 2 0) := by
  rw [E2_cube]
  have h1 := cube_laws (tensorIntegrator 2 2 B2) (tensor_lawful (d := 1) B2 B2_lawful) one_pos
  rw [one_mul] at h1
  exact ⟨h1, cube_rigid _ (tensor_rigid (d := 1) B2 B2_lawful) one_pos⟩

end HyperHDG.DiffusionIP

import Verif.Proofs.Diffusion
import Verif.Proofs.BulkValues
import Verif.Proofs.AffineForm

import Verif.Props.GlobalLoop
import Verif.Props.DiffusionUniform

/-!
# Properties C21, C47, C48: the local solver `Diffusion`

`E` is what the solver knows about a hyperedge (integrals, normals, face areas, types of the nodes), `form E nB time` its integrals as data of the abstract LDG-H
method (`Verif/Spec/LDG.lean`), `FormLaws` what is assumed of them; `gesv` is LAPACK's dense solve (`GesvSpec` is its documentation).  `IsSolution F tau 0 1 g s q u` is
the weak form of the local problem with trace moments `g` and source `s`, `faceFlux` is the numerical flux `q . n + tau (u - lambda)` tested by the face shape
functions.
-/

namespace HyperHDG.Diffusion

open Finset Spec Matrix DiffusionUniform

variable {dim nS nB : Nat} {K : Type}

section
variable [Field K] (m : Mode) (gesv : Gesv ((dim + 1) * nS) 1 K) (hg : GesvSpec gesv) (tau : K) (E : Edge dim nS K) (time : K)

include hg

/-- **C21** (what `trace_to_flux` computes).  If the local problem is uniquely solvable, the result is zero on the Dirichlet faces and the numerical flux of the
solution for the trace `lambda`, without source and Dirichlet data, on the other ones, whatever the output array contained.  Otherwise the debug build aborts and the
release build lets the LAPACK exception through. -/
theorem C21_flux (lambda out : LocDofs dim nB K) :
    (Solvable (form E nB time) tau 0 1 → ∃ q u, IsSolution (form E nB time) tau 0 1 (moments (form E nB time) lambda) 0 q u ∧
      trace_to_flux m gesv tau lambda out E time = .ok (offDirichlet E (faceFlux (form E nB time) tau lambda q u))) ∧
    (¬ Solvable (form E nB time) tau 0 1 → trace_to_flux m gesv tau lambda out E time = solveFailure m) := by
  obtain ⟨h1, h2⟩ := solve_local_problem_spec m gesv hg E tau time lambda 0 (.inl rfl)
  refine ⟨fun hs => ?_, fun hs => ?_⟩
  · obtain ⟨x, hx1, hx2⟩ := h1 hs
    refine ⟨_, _, hx2, ?_⟩
    rw [trace_to_flux, hx1, Res.ok_bind]
    exact writeFlux_eq m E tau time x lambda out
  · rw [trace_to_flux, h2 hs]
    cases m <;> rfl

/-- **C21** (what `residual_flux` computes).  As `trace_to_flux`, but for the local problem with the source and with the Dirichlet data added to the trace. -/
theorem C21_residual (lambda out : LocDofs dim nB K) :
    (Solvable (form E nB time) tau 0 1 → ∃ q u,
      IsSolution (form E nB time) tau 0 1 (moments (form E nB time) lambda + dirichletMoments E time) (source E time) q u ∧
      residual_flux m gesv tau lambda out E time = .ok (offDirichlet E (faceFlux (form E nB time) tau lambda q u))) ∧
    (¬ Solvable (form E nB time) tau 0 1 → residual_flux m gesv tau lambda out E time = solveFailure m) := by
  obtain ⟨h1, h2⟩ := solve_local_problem_spec m gesv hg E tau time lambda 1 (.inr rfl)
  refine ⟨fun hs => ?_, fun hs => ?_⟩
  · obtain ⟨x, hx1, hx2⟩ := h1 hs
    refine ⟨_, _, hx2, ?_⟩
    rw [residual_flux, hx1, Res.ok_bind]
    exact writeFlux_eq m E tau time x lambda out
  · rw [residual_flux, h2 hs]
    cases m <;> rfl

theorem of_ok {lambda out y : LocDofs dim nB K} (h : trace_to_flux m gesv tau lambda out E time = .ok y) :
    Solvable (form E nB time) tau 0 1 ∧ ∃ q u, IsSolution (form E nB time) tau 0 1 (moments (form E nB time) lambda) 0 q u ∧
      y = offDirichlet E (faceFlux (form E nB time) tau lambda q u) := by
  have hf := C21_flux m gesv hg tau E time lambda out
  by_cases hs : Solvable (form E nB time) tau 0 1
  · obtain ⟨q, u, h1, h2⟩ := hf.1 hs
    rw [h] at h2
    injection h2 with h2
    exact ⟨hs, q, u, h1, h2⟩
  · have := hf.2 hs
    rw [h] at this
    cases m <;> cases this

theorem to_ok (hs : Solvable (form E nB time) tau 0 1) {lambda : LocDofs dim nB K} {q : Fin dim → Fin nS → K} {u : Fin nS → K}
    (h : IsSolution (form E nB time) tau 0 1 (moments (form E nB time) lambda) 0 q u) (out : LocDofs dim nB K) :
    trace_to_flux m gesv tau lambda out E time = .ok (offDirichlet E (faceFlux (form E nB time) tau lambda q u)) := by
  obtain ⟨q', u', h1, h2⟩ := (C21_flux m gesv hg tau E time lambda out).1 hs
  obtain ⟨rfl, rfl⟩ := solution_unique hs h h1
  exact h2

/-- **C21** (Dirichlet rows).  `trace_to_flux` and `residual_flux` return exactly zero on the faces of Dirichlet type. -/
theorem C21_dirichlet_zero (lambda out y : LocDofs dim nB K)
    (h : trace_to_flux m gesv tau lambda out E time = .ok y ∨ residual_flux m gesv tau lambda out E time = .ok y) (f : Fin (2 * dim))
    (hf : E.node_descriptor f ∈ E.dirichlet_nodes) (j : Fin nB) : y f j = 0 := by
  have key : ∀ z : LocDofs dim nB K, offDirichlet E z f j = 0 := fun z => by
    simp only [offDirichlet]
    exact if_pos hf
  rcases h with h | h
  · obtain ⟨_, q, u, _, rfl⟩ := of_ok m gesv hg tau E time h
    exact key _
  · by_cases hs : Solvable (form E nB time) tau 0 1
    · obtain ⟨q, u, _, h2⟩ := (C21_residual m gesv hg tau E time lambda out).1 hs
      rw [h] at h2
      injection h2 with h2
      rw [h2]; exact key _
    · have := (C21_residual m gesv hg tau E time lambda out).2 hs
      rw [h] at this
      cases m <;> cases this

/-- **C21** (linearity).  If `trace_to_flux` returns `y` for `lambda` and `z` for `mu`, then it returns `a y + b z` for `a lambda + b mu`. -/
theorem C21_linear {lambda mu out out' y z : LocDofs dim nB K} (hy : trace_to_flux m gesv tau lambda out E time = .ok y)
    (hz : trace_to_flux m gesv tau mu out' E time = .ok z) (a b : K) (out'' : LocDofs dim nB K) :
    trace_to_flux m gesv tau (a • lambda + b • mu) out'' E time = .ok (a • y + b • z) := by
  obtain ⟨hs, q, u, h1, rfl⟩ := of_ok m gesv hg tau E time hy
  obtain ⟨_, q', u', h1', rfl⟩ := of_ok m gesv hg tau E time hz
  have h2 := solution_lin a b h1 h1'
  rw [← moments_lin, smul_zero, smul_zero, add_zero] at h2
  rw [to_ok m gesv hg tau E time hs h2 out'', flux_lin]
  refine congrArg Res.ok ?_
  funext f j
  simp only [offDirichlet, Pi.add_apply, Pi.smul_apply, smul_eq_mul]
  split <;> simp

/-- **C21** (affine residual).  `residual_flux(lambda) = trace_to_flux(lambda) + residual_flux(0)`, whenever the local problem is uniquely solvable. -/
theorem C21_affine (hs : Solvable (form E nB time) tau 0 1) (lambda out out' out'' : LocDofs dim nB K) :
    ∃ y r, trace_to_flux m gesv tau lambda out E time = .ok y ∧ residual_flux m gesv tau 0 out' E time = .ok r ∧
      residual_flux m gesv tau lambda out'' E time = .ok (y + r) := by
  obtain ⟨q, u, h1, h2⟩ := (C21_flux m gesv hg tau E time lambda out).1 hs
  obtain ⟨q', u', h1', h2'⟩ := (C21_residual m gesv hg tau E time 0 out').1 hs
  obtain ⟨q'', u'', h1'', h2''⟩ := (C21_residual m gesv hg tau E time lambda out'').1 hs
  refine ⟨_, _, h2, h2', h2''.trans ?_⟩
  have h3 := solution_lin 1 1 h1 h1'
  have h4 : moments (form E nB time) (0 : LocDofs dim nB K) = 0 := by funext f; simp [moments]
  simp only [one_smul, zero_add, h4] at h3
  obtain ⟨rfl, rfl⟩ := solution_unique hs h1'' h3
  refine congrArg Res.ok ?_
  have h5 := flux_lin (F := form E nB time) (tau := tau) (lambda := lambda) (mu := 0) (q := q) (q' := q') (u := u) (u' := u') 1 1
  simp only [one_smul, add_zero] at h5
  rw [h5]
  funext f j
  simp only [offDirichlet, Pi.add_apply]
  split <;> simp

end

/-- The trace vanishes on the faces of Dirichlet type. -/
def VanishesOnDirichlet [Zero K] (E : Edge dim nS K) (lambda : LocDofs dim nB K) : Prop := ∀ f : Fin (2 * dim), IsDirichlet E f → ∀ j, lambda f j = 0

theorem pair_off [CommRing K] {E : Edge dim nS K} {mu : LocDofs dim nB K} (hmu : VanishesOnDirichlet E mu) (y : LocDofs dim nB K) :
    ∑ f, ∑ j, mu f j * offDirichlet E y f j = ∑ f, mu f ⬝ᵥ y f := by
  refine Finset.sum_congr rfl fun f _ => Finset.sum_congr rfl fun j _ => ?_
  simp only [offDirichlet]
  split
  next h => simp [hmu f h j]
  next h => rfl

section
variable [Field K] [LinearOrder K] [IsStrictOrderedRing K] (m : Mode) (gesv : Gesv ((dim + 1) * nS) 1 K) (hg : GesvSpec gesv) (tau : K)
  (E : Edge dim nS K) (time : K) (hE : FormLaws (form E nB time))

include hg hE

/-- **C21** (symmetry).  `mu . trace_to_flux(lambda) = lambda . trace_to_flux(mu)` for traces vanishing on the Dirichlet faces. -/
theorem C21_symmetric {lambda mu out out' y z : LocDofs dim nB K} (hl : VanishesOnDirichlet E lambda) (hm : VanishesOnDirichlet E mu)
    (hy : trace_to_flux m gesv tau lambda out E time = .ok y) (hz : trace_to_flux m gesv tau mu out' E time = .ok z) :
    ∑ f, ∑ j, mu f j * y f j = ∑ f, ∑ j, lambda f j * z f j := by
  obtain ⟨hs, q, u, h1, rfl⟩ := of_ok m gesv hg tau E time hy
  obtain ⟨_, q', u', h1', rfl⟩ := of_ok m gesv hg tau E time hz
  rw [pair_off hm, pair_off hl, flux_form hE one_ne_zero h1 h1', flux_form hE one_ne_zero h1' h1, bilin_symm hE]
  simp

/-- **C21** (definiteness).  `lambda . trace_to_flux(lambda) ≤ 0` for `tau ≥ 0` and traces vanishing on the Dirichlet faces. -/
theorem C21_semidefinite (ht : 0 ≤ tau) {lambda out y : LocDofs dim nB K} (hl : VanishesOnDirichlet E lambda)
    (hy : trace_to_flux m gesv tau lambda out E time = .ok y) : ∑ f, ∑ j, lambda f j * y f j ≤ 0 := by
  obtain ⟨hs, q, u, h1, rfl⟩ := of_ok m gesv hg tau E time hy
  rw [pair_off hl, flux_form hE one_ne_zero h1 h1]
  simpa using bilin_nonneg hE ht q u lambda

/-- **C21** (null space).  For `tau > 0` and traces vanishing on the Dirichlet faces, the form vanishes exactly for the traces of constants, and then so does the result. -/
theorem C21_kernel (ht : 0 < tau) {lambda out y : LocDofs dim nB K} (hl : VanishesOnDirichlet E lambda)
    (hy : trace_to_flux m gesv tau lambda out E time = .ok y) :
    (∑ f, ∑ j, lambda f j * y f j = 0 ↔ ∃ u : Fin nS → K, IsConst (form E nB time) u ∧ ∀ f, IsTrace (form E nB time) u f (lambda f)) ∧
    (∑ f, ∑ j, lambda f j * y f j = 0 ↔ y = 0) := by
  obtain ⟨hs, q, u, h1, rfl⟩ := of_ok m gesv hg tau E time hy
  have key : ∑ f, ∑ j, lambda f j * offDirichlet E (faceFlux (form E nB time) tau lambda q u) f j = 0 →
      IsConst (form E nB time) u ∧ ∀ f, IsTrace (form E nB time) u f (lambda f) := by
    intro h
    rw [pair_off hl, flux_form hE one_ne_zero h1 h1] at h
    simp only [dotProduct_zero, zero_mul, sub_zero, mul_zero, add_zero, neg_eq_zero] at h
    have hq := bilin_q_zero hE ht.le h
    have htr := bilin_trace_zero hE ht h
    subst hq
    exact ⟨const_of hE h1 htr, htr⟩
  have back : ∀ v : Fin nS → K, IsConst (form E nB time) v → (∀ f, IsTrace (form E nB time) v f (lambda f)) →
      offDirichlet E (faceFlux (form E nB time) tau lambda q u) = 0 := by
    intro v hv htr
    obtain ⟨rfl, rfl⟩ := solution_unique hs h1 (const_solution hE hv htr tau 1)
    rw [const_flux htr]
    funext f j
    simp [offDirichlet]
  refine ⟨⟨fun h => ⟨u, key h⟩, fun ⟨v, hv, h⟩ => ?_⟩, fun h => back u (key h).1 (key h).2, fun h => ?_⟩
  · rw [back v hv h]; simp
  · rw [h]; simp

/-- **C21** (solvability).  For `tau > 0` the local problem is uniquely solvable, so `trace_to_flux`, `residual_flux` and the mass fluxes return. -/
theorem C21_solvable (ht : 0 < tau) (lambda out : LocDofs dim nB K) :
    Solvable (form E nB time) tau 0 1 ∧ (∃ y, trace_to_flux m gesv tau lambda out E time = .ok y) ∧
      (∃ y, residual_flux m gesv tau lambda out E time = .ok y) := by
  have hs := solvable_of hE ht.le le_rfl one_pos (.inl ht) (rho := 0)
  obtain ⟨_, _, _, h1⟩ := (C21_flux m gesv hg tau E time lambda out).1 hs
  obtain ⟨_, _, _, h2⟩ := (C21_residual m gesv hg tau E time lambda out).1 hs
  exact ⟨hs, ⟨_, h1⟩, ⟨_, h2⟩⟩

end

/-- **C21** (`node_types`).  The node types reported are 1 for the faces of Dirichlet type and 0 for all others. -/
theorem C21_node_types (E : Edge dim nS K) (f : Fin (2 * dim)) :
    ∃ t, node_types E = .ok t ∧ (t f = 1 ↔ E.node_descriptor f ∈ E.dirichlet_nodes) ∧ (t f = 0 ↔ E.node_descriptor f ∉ E.dirichlet_nodes) := by
  obtain ⟨t, h1, h2, h3⟩ := forFin_inv (2 * dim) (fun i result => .ok (if is_dirichlet E i then arrSet result i 1 else result)) (fun _ : Fin (2 * dim) => 0)
    (fun k t => (∀ a : Fin (2 * dim), a.1 < k → t a = if is_dirichlet E a then 1 else 0) ∧ ∀ a : Fin (2 * dim), k ≤ a.1 → t a = 0)
    ⟨fun a ha => absurd ha (Nat.not_lt_zero _), fun _ _ => rfl⟩ (fun i t ht => by
      refine ⟨_, rfl, fun a ha => ?_, fun a ha => ?_⟩
      · by_cases h : a = i
        · subst h
          cases hb : is_dirichlet E a.1
          · simp [ht.2 a le_rfl]
          · simp [arrSet]
        · have hlt : a.1 < i.1 := by have : a.1 ≠ i.1 := fun h' => h (Fin.ext h'); omega
          rw [← ht.1 a hlt]
          split
          · simp [arrSet, h]
          · rfl
      · have h : a ≠ i := fun h => by subst h; omega
        rw [← ht.2 a (by omega)]
        split
        · simp [arrSet, h]
        · rfl)
  refine ⟨t, h1, ?_, ?_⟩
  · have hd : _ ↔ E.node_descriptor f ∈ E.dirichlet_nodes := is_dirichlet_iff E f
    rw [h2 f f.2, ← hd]
    cases is_dirichlet E f.1 <;> simp
  · have hd : _ ↔ E.node_descriptor f ∈ E.dirichlet_nodes := is_dirichlet_iff E f
    rw [h2 f f.2, ← hd]
    cases is_dirichlet E f.1 <;> simp

/-- **C21** (`make_initial`).  The initial trace is the projection of the initial value, and zero on Dirichlet faces, whatever the array contained. -/
theorem C21_make_initial [Field K] (E : Edge dim nS K) (time : K) (lambda : LocDofs dim nB K) :
    make_initial lambda E time = .ok (offDirichlet E (fun f j => E.bdrUni_psifunc time j f)) :=
  faces_loop E _ (fun i j (out : LocDofs dim nB K) => .ok (arrSet out i (arrSet (out i) j (E.bdrUni_psifunc time j i)))) (fun _ _ _ => rfl) lambda

/-! ## C47: mass fluxes -/

section
variable [Field K] (m : Mode) (gesv : Gesv ((dim + 1) * nS) 1 K) (hg : GesvSpec gesv) (tau : K)
  (E : Edge dim nS K) (time : K) (hs : Solvable (form E nB time) tau 0 1)

include hg hs

/-- **C47** (what is computed).  `trace_to_mass_flux` solves a second local problem, with the primal solution of the first one as source, and returns its flux. -/
theorem C47_flux (lambda out : LocDofs dim nB K) : ∃ q u q' u', IsSolution (form E nB time) tau 0 1 (moments (form E nB time) lambda) 0 q u ∧
      IsSolution (form E nB time) tau 0 1 0 ((form E nB time).mass0 *ᵥ u) q' u' ∧
      trace_to_mass_flux m gesv tau lambda out E time = .ok (offDirichlet E (faceFlux (form E nB time) tau 0 q' u')) := by
  obtain ⟨x, hx1, hx2⟩ := (solve_local_problem_spec m gesv hg E tau time lambda 0 (.inl rfl)).1 hs
  obtain ⟨y, hy1, hy2⟩ := solve_mass_problem_spec m gesv hg E tau time x hs
  refine ⟨_, _, _, _, hx2, hy2, ?_⟩
  rw [trace_to_mass_flux, hx1, Res.ok_bind, hy1, Res.ok_bind]
  exact writeMassFlux_eq m E tau time y out

/-- **C47** (with data).  The same for `total_numerical_flux_mass`, with source and Dirichlet data in the first problem. -/
theorem C47_total (lambda out : LocDofs dim nB K) : ∃ q u q' u',
      IsSolution (form E nB time) tau 0 1 (moments (form E nB time) lambda + dirichletMoments E time) (source E time) q u ∧
      IsSolution (form E nB time) tau 0 1 0 ((form E nB time).mass0 *ᵥ u) q' u' ∧
      total_numerical_flux_mass m gesv tau lambda out E time = .ok (offDirichlet E (faceFlux (form E nB time) tau 0 q' u')) := by
  obtain ⟨x, hx1, hx2⟩ := (solve_local_problem_spec m gesv hg E tau time lambda 1 (.inr rfl)).1 hs
  obtain ⟨y, hy1, hy2⟩ := solve_mass_problem_spec m gesv hg E tau time x hs
  refine ⟨_, _, _, _, hx2, hy2, ?_⟩
  rw [total_numerical_flux_mass, hx1, Res.ok_bind, hy1, Res.ok_bind]
  exact writeMassFlux_eq m E tau time y out

variable [LinearOrder K] [IsStrictOrderedRing K] (hE : FormLaws (form E nB time))

include hE

/-- **C47** (mass form).  For traces vanishing on the Dirichlet faces, `mu . trace_to_mass_flux(lambda)` is the L2 product over the hyperedge of the primal local
solutions for `lambda` and `mu`; so the operator is symmetric and positive semidefinite. -/
theorem C47_mass_product (lambda mu out : LocDofs dim nB K) (hm : VanishesOnDirichlet E mu) :
    ∃ y q u q' u', trace_to_mass_flux m gesv tau lambda out E time = .ok y ∧
      IsSolution (form E nB time) tau 0 1 (moments (form E nB time) lambda) 0 q u ∧
      IsSolution (form E nB time) tau 0 1 (moments (form E nB time) mu) 0 q' u' ∧
      ∑ f, ∑ j, mu f j * y f j = u' ⬝ᵥ (form E nB time).mass0 *ᵥ u := by
  obtain ⟨q, u, q2, u2, h1, h2, h3⟩ := C47_flux m gesv hg tau E time hs lambda out
  obtain ⟨q', u', h4, _⟩ := (C21_flux m gesv hg tau E time mu out).1 hs
  refine ⟨_, q, u, q', u', h3, h1, h4, ?_⟩
  have h0 : (0 : Fin (2 * dim) → Fin nS → K) = moments (form E nB time) (0 : LocDofs dim nB K) := by funext f; simp [moments]
  rw [h0] at h2
  rw [pair_off hm, flux_form hE one_ne_zero h2 h4]
  have h5 := flux_form hE one_ne_zero h4 h2
  simp only [Pi.zero_apply, zero_dotProduct, Finset.sum_const_zero, dotProduct_zero, zero_mul, sub_zero, mul_zero, add_zero] at h5
  rw [bilin_symm hE]
  simp only [zero_mul, sub_zero, inv_one, one_mul]
  linear_combination -h5

theorem C47_symmetric {lambda mu out out' y z : LocDofs dim nB K} (hl : VanishesOnDirichlet E lambda) (hm : VanishesOnDirichlet E mu)
    (hy : trace_to_mass_flux m gesv tau lambda out E time = .ok y) (hz : trace_to_mass_flux m gesv tau mu out' E time = .ok z) :
    ∑ f, ∑ j, mu f j * y f j = ∑ f, ∑ j, lambda f j * z f j := by
  obtain ⟨y', q, u, q', u', h1, h2, h3, h4⟩ := C47_mass_product m gesv hg tau E time hs hE lambda mu out hm
  obtain ⟨z', p, v, p', v', k1, k2, k3, k4⟩ := C47_mass_product m gesv hg tau E time hs hE mu lambda out' hl
  rw [hy] at h1; injection h1 with h1
  rw [hz] at k1; injection k1 with k1
  subst h1 k1
  obtain ⟨rfl, rfl⟩ := solution_unique hs h2 k3
  obtain ⟨rfl, rfl⟩ := solution_unique hs h3 k2
  rw [h4, k4]
  exact symm_dot hE.mass0_symm _ _

theorem C47_semidefinite {lambda out y : LocDofs dim nB K} (hl : VanishesOnDirichlet E lambda)
    (hy : trace_to_mass_flux m gesv tau lambda out E time = .ok y) : 0 ≤ ∑ f, ∑ j, lambda f j * y f j := by
  obtain ⟨y', q, u, q', u', h1, h2, h3, h4⟩ := C47_mass_product m gesv hg tau E time hs hE lambda lambda out hl
  rw [hy] at h1; injection h1 with h1
  subst h1
  obtain ⟨rfl, rfl⟩ := solution_unique hs h2 h3
  rw [h4]
  exact quad_nonneg hE.mass0_pos _

end

/-! ## C48: bulk values and errors -/

section
variable [Field K] (m : Mode) (gesv : Gesv ((dim + 1) * nS) 1 K) (hg : GesvSpec gesv) (tau : K) (E : Edge dim nS K) (time : K)
  (hs : Solvable (form E nB time) tau 0 1)

include hg hs

/-- **C48** (bulk values).  `bulk_values` returns in component `d < dim` the values of the `d`-th component of the dual unknown, in component `dim` those of the primal
unknown of the local solution with source and Dirichlet data, at the points of the tensor grid of the abscissas in lexicographic order. -/
theorem C48_bulk_values (lin_comb : (Fin nS → K) → List K → K) (abscissas : List K) (lambda : LocDofs dim nB K)
    (vals0 : Fin (dim + 1) → Fin (Hypercube.pow dim abscissas.length) → K) :
    ∃ q u, IsSolution (form E nB time) tau 0 1 (moments (form E nB time) lambda + dirichletMoments E time) (source E time) q u ∧
      ∃ vals, bulk_values m gesv lin_comb tau abscissas lambda E time vals0 = .ok vals ∧
      ∀ pt : Fin (Hypercube.pow dim abscissas.length), ∃ p, Hypercube.tensorial_pt m dim pt abscissas = .ok p ∧
        (∀ d : Fin dim, vals d.castSucc pt = lin_comb (q d) p) ∧ vals (Fin.last dim) pt = lin_comb u p := by
  obtain ⟨x, h1, h2⟩ := (solve_local_problem_spec m gesv hg E tau time lambda 1 (.inr rfl)).1 hs
  obtain ⟨r, hr1, hr2⟩ := bulk_loop (dim := dim) m lin_comb abscissas x (fun _ => 0) vals0
  refine ⟨qOf (toMat x), uOf (toMat x), h2, r.2, ?_, fun pt => ?_⟩
  · unfold bulk_values
    rw [h1, Res.ok_bind, hr1]
    rfl
  · obtain ⟨p, hp1, hp2⟩ := hr2 pt
    exact ⟨p, hp1, fun d => hp2 d.castSucc, hp2 (Fin.last dim)⟩

/-- **C48** (errors).  `errors` compares the primal unknown of that solution with the analytic result. -/
theorem C48_errors (lambda : LocDofs dim nB K) :
    ∃ q u, IsSolution (form E nB time) tau 0 1 (moments (form E nB time) lambda + dirichletMoments E time) (source E time) q u ∧
      errors m gesv tau lambda E time = .ok (fun _ => E.vol_diffsquare time u) := by
  obtain ⟨x, h1, h2⟩ := (solve_local_problem_spec m gesv hg E tau time lambda 1 (.inr rfl)).1 hs
  refine ⟨qOf (toMat x), uOf (toMat x), h2, ?_⟩
  unfold errors
  rw [h1, Res.ok_bind, forFin_write nS _ (uOf (toMat x))]
  · rfl
  · intro i c
    rw [show i.1 + dim * nS = dim * nS + i.1 from Nat.add_comm _ _, vec_get_lt m x (hl i), Res.ok_bind]
    rfl

end

/-! ## The global operator -/

/-- The local operator handed to the global loop; `E e` is hyperedge `e`. -/
def localOperator [CommRing K] (m : Mode) (gesv : Gesv ((dim + 1) * nS) 1 K) (tau : K) (E : Nat → Edge dim nS K) (time : K) : HyGraph.LocalFun dim nB K :=
  fun e lambda out => trace_to_flux m gesv tau lambda out (E e) time

/-- **C21** (globally).  On each well-formed hypergraph and for `tau > 0` the global `trace_to_flux` is a linear map `A`.  On the vectors vanishing at the Dirichlet
nodes it is symmetric and negative semidefinite, and `x . A x = 0` exactly if `x` restricts to the trace of a constant on each hyperedge; then `A x = 0`. -/
theorem C21_global [Field K] [LinearOrder K] [IsStrictOrderedRing K] (m : Mode) (gesv : Gesv ((dim + 1) * nS) 1 K) (hg : GesvSpec gesv) (tau : K) (ht : 0 < tau)
    (E : Nat → Edge dim nS K) (time : K) (hE : ∀ e, FormLaws (form (E e) nB time))
    (G : HyGraph dim nB) (nodes : Fin G.n_hyEdges → Fin (2 * dim) → Fin G.n_hyNodes) (hwf : G.WF nodes) (old0 new0 : LocDofs dim nB K) :
    ∃ A : (Fin (G.n_hyNodes * nB) → K) →ₗ[K] (Fin (G.n_hyNodes * nB) → K),
      (∀ x, G.mat_vec_multiply m (localOperator m gesv tau E time) old0 new0 (List.ofFn x) = .ok (List.ofFn (A x))) ∧
      (∀ x z, (∀ e : Fin G.n_hyEdges, VanishesOnDirichlet (E e) (faceValues nodes x e)) → (∀ e : Fin G.n_hyEdges, VanishesOnDirichlet (E e) (faceValues nodes z e)) →
        ∑ k, z k * A x k = ∑ k, x k * A z k) ∧
      (∀ x, (∀ e : Fin G.n_hyEdges, VanishesOnDirichlet (E e) (faceValues nodes x e)) → ∑ k, x k * A x k ≤ 0 ∧
        (∑ k, x k * A x k = 0 ↔ ∀ e : Fin G.n_hyEdges, ∃ u, IsConst (form (E e) nB time) u ∧ ∀ f, IsTrace (form (E e) nB time) u f (faceValues nodes x e f)) ∧
        (∑ k, x k * A x k = 0 → A x = 0)) := by
  have hret : ∀ (e : Nat) (lambda : LocDofs dim nB K), ∃ y, ∀ out, trace_to_flux m gesv tau lambda out (E e) time = .ok y := by
    intro e lambda
    have hs := (C21_solvable m gesv hg tau (E e) time (hE e) ht lambda 0).1
    obtain ⟨q, u, h1, _⟩ := (C21_flux m gesv hg tau (E e) time lambda 0).1 hs
    exact ⟨_, fun out => to_ok m gesv hg tau (E e) time hs h1 out⟩
  choose F hF using hret
  have hlin : ∀ (e : Nat) (a b : K) (x y : LocDofs dim nB K), F e (a • x + b • y) = a • F e x + b • F e y := by
    intro e a b x y
    have := C21_linear m gesv hg tau (E e) time (hF e x 0) (hF e y 0) a b 0
    rw [hF] at this
    injection this
  let L : Nat → LocDofs dim nB K →ₗ[K] LocDofs dim nB K := fun e =>
    { toFun := F e
      map_add' := fun x y => by
        have := hlin e 1 1 x y
        simpa only [one_smul] using this
      map_smul' := fun a x => by
        have := hlin e a 0 x 0
        simpa only [zero_smul, add_zero, RingHom.id_apply] using this }
  have hloc : ∀ (e : Fin G.n_hyEdges) (u : LocDofs dim nB K), localOperator m gesv tau E time e u (fun _ _ => 0) = .ok (L e u) := fun e u => hF e u _
  obtain ⟨A, hA⟩ := HyGraph.C18_linear m G nodes hwf old0 new0 (localOperator m gesv tau E time) (fun e => L e) hloc
  have hAx : ∀ x, A x = assemble nodes (fun e => F e (faceValues nodes x e)) := by
    intro x
    have h1 := HyGraph.mat_vec_eq m G nodes hwf (localOperator m gesv tau E time) x _ (fun e => hloc e _) old0 new0
    rw [hA x] at h1
    injection h1 with h1
    exact List.ofFn_injective h1
  have hneg : ∀ x, (∀ e : Fin G.n_hyEdges, VanishesOnDirichlet (E e) (faceValues nodes x e)) → ∀ e : Fin G.n_hyEdges,
      ∑ i, ∑ j, faceValues nodes x e i j * F e (faceValues nodes x e) i j ≤ 0 := fun x hx e =>
    C21_semidefinite m gesv hg tau (E e) time (hE e) ht.le (hx e) (hF e _ 0)
  have hker : ∀ x, (∀ e : Fin G.n_hyEdges, VanishesOnDirichlet (E e) (faceValues nodes x e)) → ∑ k, x k * A x k = 0 → ∀ e : Fin G.n_hyEdges,
      ∑ i, ∑ j, faceValues nodes x e i j * F e (faceValues nodes x e) i j = 0 := by
    intro x hx h e
    rw [hAx, HyGraph.pairing_assemble] at h
    exact (Finset.sum_eq_zero_iff_of_nonpos (fun e _ => hneg x hx e)).mp h e (Finset.mem_univ e)
  have hzero : ∀ x, (∀ e : Fin G.n_hyEdges, F e (faceValues nodes x e) = 0) → A x = 0 := by
    intro x h
    have h1 := HyGraph.C16_sum_of_contributions m G nodes hwf (localOperator m gesv tau E time) x (fun e => F e (faceValues nodes x e)) (fun e => hF e _ _) old0 new0
    rw [hA x] at h1
    injection h1 with h1
    have h2 := List.ofFn_injective h1
    rw [h2]
    funext k
    simp [h]
  refine ⟨A, hA, fun x z hx hz => ?_, fun x hx => ⟨?_, ⟨fun h e => ?_, fun h => ?_⟩, fun h => ?_⟩⟩
  · rw [hAx, hAx, HyGraph.pairing_assemble, HyGraph.pairing_assemble]
    exact Finset.sum_congr rfl fun e _ => C21_symmetric m gesv hg tau (E e) time (hE e) (hx e) (hz e) (hF e _ 0) (hF e _ 0)
  · rw [hAx, HyGraph.pairing_assemble]
    exact Finset.sum_nonpos fun e _ => hneg x hx e
  · exact (C21_kernel m gesv hg tau (E e) time (hE e) ht (hx e) (hF e _ 0)).1.mp (hker x hx h e)
  · rw [hzero x]
    · simp
    · intro e
      have hk := C21_kernel m gesv hg tau (E e) time (hE e) ht (hx e) (hF e _ 0)
      exact hk.2.mp (hk.1.mpr (h e))
  · refine hzero x fun e => ?_
    exact (C21_kernel m gesv hg tau (E e) time (hE e) ht (hx e) (hF e _ 0)).2.mp (hker x hx h e)

/-! ## The hypotheses can be met -/

namespace Example

open DiffusionUniform.Example

/-- A parallelogram spanned by `(5, 0)` and `(3, 4)`. -/
def A0 : Affine 2 ℚ := ⟨20, !![4, -3; 0, 5], fun _ => 5, fun f => ![![-4/5, 3/5], ![4/5, -3/5], ![0, -1], ![0, 1]] ⟨f, by omega⟩⟩

theorem A0_laws : AffineLaws A0 where
  vol_pos := by norm_num [A0]
  cof_inv := by
    rw [Matrix.isUnit_iff_isUnit_det, Matrix.det_fin_two, isUnit_iff_ne_zero]
    norm_num [A0]
  area_pos := fun _ => by norm_num [A0]
  piola := fun f d => by
    fin_cases f <;> fin_cases d <;> norm_num [A0, Spec.normal, axis]

noncomputable def I2 := tensorIntegrator 1 2 B0

theorem I2_lawful : Lawful I2 2 1 1 := tensor_lawful (d := 1) B0 B0_lawful

/-- The parallelogram with the constants as shape functions, diffusion coefficient 1/3, a source, Dirichlet data 2, and the first face of Dirichlet type. -/
noncomputable def E0 : Edge 2 1 ℚ where
  vol_phiphi := fun i j => 20 * I2.vol_phiphi i j
  vol_phiphifunc := fun _ i j => 60 * I2.vol_phiphi i j
  vol_nablaphiphi := fun i j d => ∑ a : Fin 2, A0.cof a d * I2.vol_Dphiphi i j a
  bdr_phiphi := fun i j f => 5 * I2.bdr_phiphi i j f
  bdr_phipsi := fun i j f => 5 * I2.bdr_phipsi i j f
  vol_phifunc := fun time _ => 20 * time
  bdr_phifunc := fun _ _ _ => 10
  bdrUni_psifunc := fun _ _ _ => 3
  vol_diffsquare := fun _ c => 20 * (c 0 - 1) ^ 2
  local_normal := fun f => if h : f < 4 then A0.normal ⟨f, h⟩ else 0
  face_area := fun _ => 5
  node_descriptor := fun f => f
  dirichlet_nodes := [0]

theorem E0_laws (time : ℚ) : FormLaws (form E0 1 time) := by
  have h : form E0 1 time = affineForm I2 A0 (.of fun i j => 60 * I2.vol_phiphi i j) := by
    simp only [form, affineForm, E0]
    congr 1
    funext f d
    rw [dif_pos f.2]
  rw [h]
  refine affine_laws I2 I2_lawful A0 A0_laws _ ?_ fun v hv => ?_
  · ext i j
    simp only [transpose_apply, of_apply, I2_lawful.vol_symm i j]
  · refine lt_of_lt_of_eq (mul_pos (show (0 : ℚ) < 60 by norm_num) (I2_lawful.vol_pos v hv)) ?_
    simp only [dotProduct, mulVec, of_apply, Finset.mul_sum]
    exact Finset.sum_congr rfl fun i _ => Finset.sum_congr rfl fun j _ => by ring

/-- A trace which vanishes on the Dirichlet face. -/
def trace0 : LocDofs 2 1 ℚ := fun f _ => f.1

theorem trace0_vanishes : VanishesOnDirichlet E0 trace0 := by
  intro f hf j
  have : f.1 ∈ [0] := hf
  simp only [List.mem_singleton] at this
  simp [trace0, this]

/-- The hypotheses of C21 can be met, and the form is not zero. -/
example : ∃ y, trace_to_flux .debug (cramerSolve _ _ ℚ) 1 trace0 (fun _ _ => 7) E0 0 = .ok y ∧ y 0 0 = 0 ∧ ∑ f, ∑ j, trace0 f j * y f j < 0 := by
  obtain ⟨hs, ⟨y, hy⟩, _⟩ := C21_solvable (nB := 1) .debug _ (C44_example _ _ ℚ) 1 E0 0 (E0_laws 0) one_pos trace0 (fun _ _ => 7)
  refine ⟨y, hy, C21_dirichlet_zero .debug _ (C44_example _ _ ℚ) 1 E0 0 _ _ y (.inl hy) 0 (by simp [E0]) 0,
    lt_of_le_of_ne (C21_semidefinite .debug _ (C44_example _ _ ℚ) 1 E0 0 (E0_laws 0) zero_le_one trace0_vanishes hy) fun h => ?_⟩
  obtain ⟨u, _, hu⟩ := (C21_kernel .debug _ (C44_example _ _ ℚ) 1 E0 0 (E0_laws 0) one_pos trace0_vanishes hy).1.mp h
  have h0 := congrFun (hu 0) 0
  have h1 := congrFun (hu 1) 0
  simp [trace0, form, E0, mulVec, dotProduct, I2, tensorIntegrator, SameFace, B0] at h0 h1
  have hd : digitOf 1 0 0 = digitOf 1 1 0 := by simp [digitOf]
  rw [if_pos hd, h0 hd] at h1
  norm_num at h1

/-- The hypotheses of C47 and C48 can be met. -/
example := C47_mass_product .debug (cramerSolve _ _ ℚ) (C44_example _ _ ℚ) 1 E0 0
  (C21_solvable (nB := 1) .debug _ (C44_example _ _ ℚ) 1 E0 0 (E0_laws 0) one_pos trace0 trace0).1 (E0_laws 0) trace0 trace0 trace0 trace0_vanishes

example := C48_bulk_values .release (cramerSolve _ _ ℚ) (C44_example _ _ ℚ) 1 E0 0
  (C21_solvable (nB := 1) .debug _ (C44_example _ _ ℚ) 1 E0 0 (E0_laws 0) one_pos trace0 trace0).1 (fun c _ => c 0) [0, 1/2, 1] trace0 (fun _ _ => 7)

/-- Two such parallelograms glued along their faces 1 and 0. -/
def G2 : HyGraph 2 1 := ⟨2, 7, fun e f => if e = 0 then f else if f = 0 then 1 else f + 3⟩

def G2nodes : Fin G2.n_hyEdges → Fin (2 * 2) → Fin G2.n_hyNodes := fun e f =>
  ⟨G2.hyNodes e f, by have := f.2; show (if e.1 = 0 then f.1 else if f = 0 then 1 else f.1 + 3) < 7; split <;> [skip; split] <;> omega⟩

theorem G2_wf : G2.WF G2nodes := ⟨fun _ _ => rfl, by decide⟩

/-- The hypotheses of the global statement can be met. -/
example := C21_global (nB := 1) .debug (cramerSolve _ _ ℚ) (C44_example _ _ ℚ) 1 one_pos (fun e => if e = 0 then E0 else { E0 with dirichlet_nodes := [] }) 0
  (fun e => by split <;> exact E0_laws 0) G2 G2nodes G2_wf (fun _ _ => 7) (fun _ _ => 8)

end Example

end HyperHDG.Diffusion

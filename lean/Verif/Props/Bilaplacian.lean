import Verif.Proofs.Bilaplacian
import Verif.Props.Elliptic

/-!
# Properties C59, C60, C61: the local solver `Bilaplacian`

`E` is what the solver knows about a hyperedge, `form E nB` its integrals as data of the abstract LDG-H method (`Verif/Spec/LDG.lean`), `coupling E time` the matrix of
the integrals of `b phi_i phi_j`.  `IsMixedSolution` (`Verif/Spec/Mixed.lean`) is the local problem: `(q, u)` solves the diffusion problem with source `b w`, and `(p, w)`
the diffusion problem with the right-hand side as source.  The first half of the coefficients of a face (`upper`) belongs to `u`, the second half (`lower`) to `w`; in the
result, the first half is the flux of `w` and the second half that of `u`.
-/

namespace HyperHDG.Bilaplacian

open Finset Spec Matrix LDG Mixed

variable {dim nS nB : Nat} {K : Type}

section
variable [CommRing K]

theorem mixed_unique {F : Form dim nS nB K} {B : Matrix (Fin nS) (Fin nS) K} {tau : K} (hs : Solvable F tau 0 1) {g h : Fin (2 * dim) → Fin nS → K} {s t : Fin nS → K}
    {q p q' p' : Fin dim → Fin nS → K} {u w u' w' : Fin nS → K} (h1 : IsMixedSolution F B 0 tau 1 g h s t q u p w)
    (h2 : IsMixedSolution F B 0 tau 1 g h s t q' u' p' w') : q = q' ∧ u = u' ∧ p = p' ∧ w = w' := by
  have e1 := h1.second; have e2 := h2.second
  rw [zero_mulVec, sub_zero] at e1 e2
  obtain ⟨rfl, rfl⟩ := solution_unique hs e1 e2
  obtain ⟨rfl, rfl⟩ := solution_unique hs h1.first h2.first
  exact ⟨rfl, rfl, rfl, rfl⟩

theorem mixed_lin {F : Form dim nS nB K} {B : Matrix (Fin nS) (Fin nS) K} {tau : K} {g h g' h' : Fin (2 * dim) → Fin nS → K} {s t s' t' : Fin nS → K}
    {q p q' p' : Fin dim → Fin nS → K} {u w u' w' : Fin nS → K} (a b : K) (h1 : IsMixedSolution F B 0 tau 1 g h s t q u p w)
    (h2 : IsMixedSolution F B 0 tau 1 g' h' s' t' q' u' p' w') :
    IsMixedSolution F B 0 tau 1 (a • g + b • g') (a • h + b • h') (a • s + b • s') (a • t + b • t') (a • q + b • q') (a • u + b • u') (a • p + b • p')
      (a • w + b • w') := by
  refine ⟨?_, ?_⟩
  · have := solution_lin a b h1.first h2.first
    rwa [show a • (s + B *ᵥ w) + b • (s' + B *ᵥ w') = a • s + b • s' + B *ᵥ (a • w + b • w') by
      rw [mulVec_add, mulVec_smul, mulVec_smul]; module] at this
  · have := solution_lin a b h1.second h2.second
    simpa only [zero_mulVec, sub_zero] using this

theorem off_lin (E : Edge dim nS K) (a b : K) (y z y' z' : LocDofs dim nB K) :
    offDirichlet E (a • y + b • y') (a • z + b • z') = a • offDirichlet E y z + b • offDirichlet E y' z' := by
  funext f j
  obtain ⟨k, rfl | rfl⟩ := halves_cases j
  · simp only [offDirichlet_up, Pi.add_apply, Pi.smul_apply, smul_eq_mul]
    split <;> simp
  · simp only [offDirichlet_lo, Pi.add_apply, Pi.smul_apply, smul_eq_mul]
    split <;> simp

theorem upper_lin (a b : K) (x y : LocDofs dim (2 * nB) K) : upper (a • x + b • y) = a • upper x + b • upper y := rfl

theorem lower_lin (a b : K) (x y : LocDofs dim (2 * nB) K) : lower (a • x + b • y) = a • lower x + b • lower y := rfl

end

section
variable [Field K] (m : Mode) (gesv : Gesv (n_loc_dofs dim nS) 1 K) (hg : GesvSpec gesv) (tau : K) (E : Edge dim nS K) (time : K)

include hg

/-- **C59** (what `trace_to_flux` computes).  If the local problem of diffusion is uniquely solvable, the result is made of the numerical fluxes of the solution of the mixed
problem for the traces `upper lambda` (of `u`) and `lower lambda` (of `w`), without source and Dirichlet data: first the flux of `w`, zero where `u` is prescribed, then that of
`u`, zero where the Laplacian is prescribed.  Otherwise the debug build aborts and the release build lets the LAPACK exception through. -/
theorem C59_flux (lambda out : LocDofs dim (2 * nB) K) :
    (Solvable (form E nB) tau 0 1 → ∃ q u p w,
      IsMixedSolution (form E nB) (coupling E time) 0 tau 1 (moments (form E nB) (upper lambda)) (moments (form E nB) (lower lambda)) 0 0 q u p w ∧
      trace_to_flux m gesv tau lambda out E time =
        .ok (offDirichlet E (faceFlux (form E nB) tau (lower lambda) p w) (faceFlux (form E nB) tau (upper lambda) q u))) ∧
    (¬ Solvable (form E nB) tau 0 1 → trace_to_flux m gesv tau lambda out E time = solveFailure m) := by
  obtain ⟨h1, h2⟩ := solve_local_problem_spec m gesv hg E tau time lambda 0 (.inl rfl)
  refine ⟨fun hs => ?_, fun hs => ?_⟩
  · obtain ⟨x, hx1, hx2⟩ := h1 hs
    refine ⟨_, _, _, _, by simpa [dataOf, Solves] using hx2, ?_⟩
    rw [trace_to_flux, hx1, Res.ok_bind]
    exact writeFlux_eq E tau x lambda out
  · rw [trace_to_flux, h2 hs]
    cases m <;> rfl

/-- **C60** (what `residual_flux` computes).  The mixed problem is solved with the source and the Dirichlet data, but the trace subtracted from `w` in the flux is that of `u` and
vice versa. -/
theorem C60_residual (lambda out : LocDofs dim (2 * nB) K) :
    (Solvable (form E nB) tau 0 1 → ∃ q u p w,
      IsMixedSolution (form E nB) (coupling E time) 0 tau 1 (moments (form E nB) (upper lambda) + dirichletMoments E time)
        (moments (form E nB) (lower lambda) + laplacianMoments E time) 0 (source E time) q u p w ∧
      residual_flux m gesv tau lambda out E time =
        .ok (offDirichlet E (faceFlux (form E nB) tau (upper lambda) p w) (faceFlux (form E nB) tau (lower lambda) q u))) ∧
    (¬ Solvable (form E nB) tau 0 1 → residual_flux m gesv tau lambda out E time = solveFailure m) := by
  obtain ⟨h1, h2⟩ := solve_local_problem_spec m gesv hg E tau time lambda 1 (.inr rfl)
  refine ⟨fun hs => ?_, fun hs => ?_⟩
  · obtain ⟨x, hx1, hx2⟩ := h1 hs
    refine ⟨_, _, _, _, by simpa [dataOf, Solves] using hx2, ?_⟩
    rw [residual_flux, hx1, Res.ok_bind]
    exact writeResidual_eq E tau x lambda out
  · rw [residual_flux, h2 hs]
    cases m <;> rfl

theorem of_ok {lambda out y : LocDofs dim (2 * nB) K} (h : trace_to_flux m gesv tau lambda out E time = .ok y) :
    Solvable (form E nB) tau 0 1 ∧ ∃ q u p w,
      IsMixedSolution (form E nB) (coupling E time) 0 tau 1 (moments (form E nB) (upper lambda)) (moments (form E nB) (lower lambda)) 0 0 q u p w ∧
      y = offDirichlet E (faceFlux (form E nB) tau (lower lambda) p w) (faceFlux (form E nB) tau (upper lambda) q u) := by
  have hf := C59_flux m gesv hg tau E time lambda out
  by_cases hs : Solvable (form E nB) tau 0 1
  · obtain ⟨q, u, p, w, h1, h2⟩ := hf.1 hs
    rw [h] at h2
    injection h2 with h2
    exact ⟨hs, q, u, p, w, h1, h2⟩
  · have := hf.2 hs
    rw [h] at this
    cases m <;> cases this

theorem to_ok (hs : Solvable (form E nB) tau 0 1) {lambda : LocDofs dim (2 * nB) K} {q p : Fin dim → Fin nS → K} {u w : Fin nS → K}
    (h : IsMixedSolution (form E nB) (coupling E time) 0 tau 1 (moments (form E nB) (upper lambda)) (moments (form E nB) (lower lambda)) 0 0 q u p w)
    (out : LocDofs dim (2 * nB) K) : trace_to_flux m gesv tau lambda out E time =
      .ok (offDirichlet E (faceFlux (form E nB) tau (lower lambda) p w) (faceFlux (form E nB) tau (upper lambda) q u)) := by
  obtain ⟨q', u', p', w', h1, h2⟩ := (C59_flux m gesv hg tau E time lambda out).1 hs
  obtain ⟨rfl, rfl, rfl, rfl⟩ := mixed_unique hs h h1
  exact h2

/-- **C59** (Dirichlet rows).  `trace_to_flux` and `residual_flux` return exactly zero in the first half on the faces where `u` is prescribed, and in the second half on those where
the Laplacian is. -/
theorem C59_dirichlet_zero (lambda out y : LocDofs dim (2 * nB) K)
    (h : trace_to_flux m gesv tau lambda out E time = .ok y ∨ residual_flux m gesv tau lambda out E time = .ok y) : VanishesOnDirichlet E y := by
  have key : ∀ a b : LocDofs dim nB K, VanishesOnDirichlet E (offDirichlet E a b) := fun a b f =>
    ⟨fun hf j => (offDirichlet_up E a b f j).trans (if_pos hf), fun hf j => (offDirichlet_lo E a b f j).trans (if_pos hf)⟩
  rcases h with h | h
  · obtain ⟨_, q, u, p, w, _, rfl⟩ := of_ok m gesv hg tau E time h
    exact key _ _
  · by_cases hs : Solvable (form E nB) tau 0 1
    · obtain ⟨q, u, p, w, _, h2⟩ := (C60_residual m gesv hg tau E time lambda out).1 hs
      rw [h] at h2
      injection h2 with h2
      rw [h2]; exact key _ _
    · have := (C60_residual m gesv hg tau E time lambda out).2 hs
      rw [h] at this
      cases m <;> cases this

/-- **C59** (linearity).  If `trace_to_flux` returns `y` for `lambda` and `z` for `mu`, then it returns `a y + b z` for `a lambda + b mu`. -/
theorem C59_linear {lambda mu out out' y z : LocDofs dim (2 * nB) K} (hy : trace_to_flux m gesv tau lambda out E time = .ok y)
    (hz : trace_to_flux m gesv tau mu out' E time = .ok z) (a b : K) (out'' : LocDofs dim (2 * nB) K) :
    trace_to_flux m gesv tau (a • lambda + b • mu) out'' E time = .ok (a • y + b • z) := by
  obtain ⟨hs, q, u, p, w, h1, rfl⟩ := of_ok m gesv hg tau E time hy
  obtain ⟨_, q', u', p', w', h1', rfl⟩ := of_ok m gesv hg tau E time hz
  have h2 := mixed_lin a b h1 h1'
  rw [← moments_lin, ← moments_lin, smul_zero, smul_zero, add_zero, ← upper_lin, ← lower_lin] at h2
  rw [to_ok m gesv hg tau E time hs h2 out'', upper_lin, lower_lin, flux_lin, flux_lin, off_lin]

/-- **C60** (the defect of the residual).  `residual_flux(lambda)` is `trace_to_flux(lambda) + residual_flux(0)` plus a defect: on each face where nothing is prescribed, `tau |face|`
times the difference of the traces of `w` and of `u` (with opposite signs in the two halves). -/
theorem C60_defect (hs : Solvable (form E nB) tau 0 1) (lambda out out' out'' : LocDofs dim (2 * nB) K) :
    ∃ y r, trace_to_flux m gesv tau lambda out E time = .ok y ∧ residual_flux m gesv tau 0 out' E time = .ok r ∧
      residual_flux m gesv tau lambda out'' E time = .ok (y + r + offDirichlet E (fun f j => tau * E.face_area f * (lower lambda f j - upper lambda f j))
        (fun f j => tau * E.face_area f * (upper lambda f j - lower lambda f j))) := by
  obtain ⟨q, u, p, w, h1, h2⟩ := (C59_flux m gesv hg tau E time lambda out).1 hs
  obtain ⟨q', u', p', w', h1', h2'⟩ := (C60_residual m gesv hg tau E time 0 out').1 hs
  obtain ⟨q'', u'', p'', w'', h1'', h2''⟩ := (C60_residual m gesv hg tau E time lambda out'').1 hs
  refine ⟨_, _, h2, h2', h2''.trans ?_⟩
  have h3 := mixed_lin 1 1 h1 h1'
  have h4 : moments (form E nB) (upper (0 : LocDofs dim (2 * nB) K)) = 0 := by funext f; simp [moments]; exact mulVec_zero _
  have h4' : moments (form E nB) (lower (0 : LocDofs dim (2 * nB) K)) = 0 := by funext f; simp [moments]; exact mulVec_zero _
  simp only [one_smul, zero_add, add_zero, h4, h4'] at h3
  obtain ⟨rfl, rfl, rfl, rfl⟩ := mixed_unique hs h1'' h3
  refine congrArg Res.ok ?_
  funext f j
  obtain ⟨k, rfl | rfl⟩ := halves_cases j
  · simp only [offDirichlet_up, Pi.add_apply]
    split
    · simp
    · simp only [faceFlux, mulVec_add, Pi.sub_apply, Pi.add_apply, Pi.smul_apply, smul_eq_mul, smul_add, Finset.sum_add_distrib, upper, lower, form, Pi.zero_apply]
      ring
  · simp only [offDirichlet_lo, Pi.add_apply]
    split
    · simp
    · simp only [faceFlux, mulVec_add, Pi.sub_apply, Pi.add_apply, Pi.smul_apply, smul_eq_mul, smul_add, Finset.sum_add_distrib, upper, lower, form, Pi.zero_apply]
      ring

end

theorem pair_off [CommRing K] {E : Edge dim nS K} {mu : LocDofs dim (2 * nB) K} (hmu : VanishesOnDirichlet E mu) (y z : LocDofs dim nB K) :
    ∑ f, ∑ j, mu f j * offDirichlet E y z f j = ∑ f, upper mu f ⬝ᵥ y f + ∑ f, lower mu f ⬝ᵥ z f := by
  rw [← Finset.sum_add_distrib]
  refine Finset.sum_congr rfl fun f _ => ?_
  rw [sum_halves]
  congr 1
  · refine Finset.sum_congr rfl fun j _ => ?_
    rw [offDirichlet_up]
    split
    next h => rw [show mu f (up j) = 0 from (hmu f).1 h j, (hmu f).1 h j, zero_mul, zero_mul]
    next h => rfl
  · refine Finset.sum_congr rfl fun j _ => ?_
    rw [offDirichlet_lo]
    split
    next h => rw [show mu f (lo j) = 0 from (hmu f).2 h j, (hmu f).2 h j, zero_mul, zero_mul]
    next h => rfl

section
variable [Field K] [LinearOrder K] [IsStrictOrderedRing K] (m : Mode) (gesv : Gesv (n_loc_dofs dim nS) 1 K) (hg : GesvSpec gesv) (tau : K)
  (E : Edge dim nS K) (time : K) (hE : FormLaws (form E nB))

include hg hE

/-- **C59** (symmetry).  If the integrals of `b phi_i phi_j` are symmetric in `i` and `j`, then `mu . trace_to_flux(lambda) = lambda . trace_to_flux(mu)` for traces vanishing where they are
prescribed. -/
theorem C59_symmetric (hB : (coupling E time)ᵀ = coupling E time) {lambda mu out out' y z : LocDofs dim (2 * nB) K} (hl : VanishesOnDirichlet E lambda) (hm : VanishesOnDirichlet E mu)
    (hy : trace_to_flux m gesv tau lambda out E time = .ok y) (hz : trace_to_flux m gesv tau mu out' E time = .ok z) :
    ∑ f, ∑ j, mu f j * y f j = ∑ f, ∑ j, lambda f j * z f j := by
  obtain ⟨hs, q, u, p, w, h1, rfl⟩ := of_ok m gesv hg tau E time hy
  obtain ⟨_, q', u', p', w', h1', rfl⟩ := of_ok m gesv hg tau E time hz
  rw [pair_off hm, pair_off hl]
  rw [flux_form hE one_ne_zero h1.second h1'.first, flux_form hE one_ne_zero h1.first h1'.second, flux_form hE one_ne_zero h1'.second h1.first,
    flux_form hE one_ne_zero h1'.first h1.second]
  rw [bilin_symm hE (q := p) (u := w), bilin_symm hE (q := p') (u := w')]
  have := symm_dot hB w w'
  simp only [zero_mulVec, sub_zero, dotProduct_zero, zero_add, zero_mul, inv_one, one_mul, mul_zero, add_zero]
  rw [this]
  ring

/-- **C59** (solvability).  For `tau > 0` the local problem is uniquely solvable, so `trace_to_flux` and `residual_flux` return. -/
theorem C59_solvable (ht : 0 < tau) (lambda out : LocDofs dim (2 * nB) K) :
    Solvable (form E nB) tau 0 1 ∧ (∃ y, trace_to_flux m gesv tau lambda out E time = .ok y) ∧ (∃ y, residual_flux m gesv tau lambda out E time = .ok y) := by
  have hs := solvable_of hE ht.le le_rfl one_pos (.inl ht) (rho := 0)
  obtain ⟨_, _, _, _, _, h1⟩ := (C59_flux m gesv hg tau E time lambda out).1 hs
  obtain ⟨_, _, _, _, _, h2⟩ := (C60_residual m gesv hg tau E time lambda out).1 hs
  exact ⟨hs, ⟨_, h1⟩, ⟨_, h2⟩⟩

/-- **C59** (constants).  If the trace of `w` vanishes and the trace of `u` is that of a constant, the result is zero. -/
theorem C59_constant (ht : 0 < tau) (lambda out : LocDofs dim (2 * nB) K) (hw : lower lambda = 0) (c : Fin nS → K) (hc : IsConst (form E nB) c)
    (hu : ∀ f, IsTrace (form E nB) c f (upper lambda f)) : trace_to_flux m gesv tau lambda out E time = .ok 0 := by
  have hs := solvable_of hE ht.le le_rfl one_pos (.inl ht) (rho := 0)
  have hzero : IsMixedSolution (form E nB) (coupling E time) 0 tau 1 (moments (form E nB) (upper lambda)) (moments (form E nB) (lower lambda)) 0 0 0 c 0 0 := by
    refine ⟨?_, ?_⟩
    · rw [mulVec_zero, add_zero]; exact const_solution hE hc hu tau 1
    · rw [zero_mulVec, sub_zero, hw]
      have h0 : moments (form E nB) (0 : LocDofs dim nB K) = 0 := by funext f; exact mulVec_zero _
      rw [h0]
      have := solution_lin (0 : K) 0 (const_solution hE hc hu tau 1) (const_solution hE hc hu tau 1)
      simpa using this
  rw [to_ok m gesv hg tau E time hs hzero out, hw, const_flux hu]
  refine congrArg Res.ok (funext fun f => funext fun j => ?_)
  obtain ⟨k, rfl | rfl⟩ := halves_cases j
  · rw [offDirichlet_up]; simp [faceFlux]
  · rw [offDirichlet_lo]; simp

end

/-- **C59** (`node_types`).  The node types reported are 1 for the faces where `u` is prescribed and 0 for all others; where the Laplacian is prescribed has no influence. -/
theorem C59_node_types (E : Edge dim nS K) (f : Fin (2 * dim)) :
    ∃ t, node_types E = .ok t ∧ (t f = 1 ↔ E.node_descriptor f ∈ E.dirichlet_nodes) ∧ (t f = 0 ↔ E.node_descriptor f ∉ E.dirichlet_nodes) :=
  Diffusion.C21_node_types E.toEdge f

/-- **C60** (what `make_initial` computes).  On the faces where `u` is not prescribed, coefficient `j` is obtained from the integrator by asking for the shape function with the number of the
*face* on the face with the number `j`; where only the Laplacian is prescribed, nothing is set to zero. -/
theorem C60_make_initial [CommRing K] (E : Edge dim nS K) (time : K) (lambda : LocDofs dim (2 * nB) K) :
    make_initial lambda E time = .ok (fun f j => if E.node_descriptor f ∈ E.dirichlet_nodes then 0 else
      if j.1 < nB then E.bdrUni_psifunc time f j else E.bdrUni_psifunc_laplace time f j) := by
  rw [make_initial_eq]
  refine congrArg Res.ok (funext fun f => funext fun j => ?_)
  by_cases h : E.node_descriptor f ∈ E.dirichlet_nodes
  · rw [if_pos h]; exact if_pos h
  · rw [if_neg h]; exact if_neg h

/-! ## Mass fluxes, bulk values, errors -/

section
variable [Field K] (m : Mode) (gesv : Gesv (n_loc_dofs dim nS) 1 K) (hg : GesvSpec gesv) (tau : K)
  (E : Edge dim nS K) (time : K) (hs : Solvable (form E nB) tau 0 1)

include hg hs

/-- **C59** (mass flux).  `trace_to_mass_flux` solves a second local problem, with the primal solution of the first one as right-hand side, and returns its fluxes. -/
theorem C59_mass_flux (lambda out : LocDofs dim (2 * nB) K) : ∃ q u p w q' u' p' w',
      IsMixedSolution (form E nB) (coupling E time) 0 tau 1 (moments (form E nB) (upper lambda)) (moments (form E nB) (lower lambda)) 0 0 q u p w ∧
      IsMixedSolution (form E nB) (coupling E time) 0 tau 1 0 0 0 ((form E nB).mass0 *ᵥ u) q' u' p' w' ∧
      trace_to_mass_flux m gesv tau lambda out E time = .ok (offDirichlet E (faceFlux (form E nB) tau 0 p' w') (faceFlux (form E nB) tau 0 q' u')) := by
  obtain ⟨x, hx1, hx2⟩ := (solve_local_problem_spec m gesv hg E tau time lambda 0 (.inl rfl)).1 hs
  obtain ⟨y, hy1, hy2⟩ := solve_mass_problem_spec m gesv hg E tau time x hs
  refine ⟨_, _, _, _, _, _, _, _, by simpa [dataOf, Solves] using hx2, hy2, ?_⟩
  rw [trace_to_mass_flux, hx1, Res.ok_bind, hy1, Res.ok_bind]
  exact writeMassFlux_eq E tau y out

/-- **C59** (mass flux with data).  The same for `total_numerical_flux_mass`, with right-hand side and Dirichlet data in the first problem. -/
theorem C59_mass_total (lambda out : LocDofs dim (2 * nB) K) : ∃ q u p w q' u' p' w',
      IsMixedSolution (form E nB) (coupling E time) 0 tau 1 (moments (form E nB) (upper lambda) + dirichletMoments E time)
        (moments (form E nB) (lower lambda) + laplacianMoments E time) 0 (source E time) q u p w ∧
      IsMixedSolution (form E nB) (coupling E time) 0 tau 1 0 0 0 ((form E nB).mass0 *ᵥ u) q' u' p' w' ∧
      total_numerical_flux_mass m gesv tau lambda out E time = .ok (offDirichlet E (faceFlux (form E nB) tau 0 p' w') (faceFlux (form E nB) tau 0 q' u')) := by
  obtain ⟨x, hx1, hx2⟩ := (solve_local_problem_spec m gesv hg E tau time lambda 1 (.inr rfl)).1 hs
  obtain ⟨y, hy1, hy2⟩ := solve_mass_problem_spec m gesv hg E tau time x hs
  refine ⟨_, _, _, _, _, _, _, _, by simpa [dataOf, Solves] using hx2, hy2, ?_⟩
  rw [total_numerical_flux_mass, hx1, Res.ok_bind, hy1, Res.ok_bind]
  exact writeMassFlux_eq E tau y out

/-- **C59** (bulk values).  `bulk_values` returns in component `d < dim` the values of the `d`-th component of the dual unknown `q`, in component `dim` those of `u`, at the points of the
tensor grid of the abscissas in lexicographic order, for the solution with right-hand side and Dirichlet data. -/
theorem C59_bulk_values (lin_comb : (Fin nS → K) → List K → K) (abscissas : List K) (lambda : LocDofs dim (2 * nB) K)
    (vals0 : Fin (dim + 1) → Fin (Hypercube.pow dim abscissas.length) → K) :
    ∃ q u p w, IsMixedSolution (form E nB) (coupling E time) 0 tau 1 (moments (form E nB) (upper lambda) + dirichletMoments E time)
        (moments (form E nB) (lower lambda) + laplacianMoments E time) 0 (source E time) q u p w ∧
      ∃ vals, bulk_values m gesv lin_comb tau abscissas lambda E time vals0 = .ok vals ∧
      ∀ pt : Fin (Hypercube.pow dim abscissas.length), ∃ x, Hypercube.tensorial_pt m dim pt abscissas = .ok x ∧
        (∀ d : Fin dim, vals d.castSucc pt = lin_comb (q d) x) ∧ vals (Fin.last dim) pt = lin_comb u x := by
  obtain ⟨x, h1, h2⟩ := (solve_local_problem_spec m gesv hg E tau time lambda 1 (.inr rfl)).1 hs
  obtain ⟨r, hr1, hr2⟩ := bulk_loop_get (dim := dim) m lin_comb abscissas x (fun d i => half 0 (toMat x) (ix d i) 0) (fun d i => by
    have h3 := get_fin m x (pos (emb 0 (ix d i)) 0)
    have h4 : (pos (emb 0 (ix d i)) (0 : Fin 1)).1 = d * nS + i := by simp [pos, ix, emb]
    rw [h4] at h3
    exact h3) (fun _ => 0) vals0
  refine ⟨_, _, _, _, by simpa [dataOf, Solves] using h2, r.2, ?_, fun pt => ?_⟩
  · unfold bulk_values
    rw [h1, Res.ok_bind, hr1]
    rfl
  · obtain ⟨x, hp1, hp2⟩ := hr2 pt
    exact ⟨x, hp1, fun d => hp2 d.castSucc, hp2 (Fin.last dim)⟩

variable [LinearOrder K] [IsStrictOrderedRing K]

/-- **C59** (errors).  `errors` compares `u` of that solution with the analytic result (a difference is not negative). -/
theorem C59_errors (lambda : LocDofs dim (2 * nB) K) (hpos : ∀ c, 0 ≤ E.vol_diffsquare time c) :
    ∃ q u p w, IsMixedSolution (form E nB) (coupling E time) 0 tau 1 (moments (form E nB) (upper lambda) + dirichletMoments E time)
        (moments (form E nB) (lower lambda) + laplacianMoments E time) 0 (source E time) q u p w ∧
      errors m gesv tau lambda E time = .ok (fun _ => E.vol_diffsquare time u) := by
  obtain ⟨x, h1, h2⟩ := (solve_local_problem_spec m gesv hg E tau time lambda 1 (.inr rfl)).1 hs
  refine ⟨_, _, _, _, by simpa [dataOf, Solves] using h2, ?_⟩
  unfold errors
  rw [h1, Res.ok_bind, forFin_write nS _ (DiffusionUniform.uOf (half 0 (toMat x)))]
  · show (hyAssert m (0 ≤ E.vol_diffsquare time (DiffusionUniform.uOf (half 0 (toMat x)))) >>= fun _ => _) = _
    rw [hyAssert_of (hpos _)]
    rfl
  · intro i c
    rw [show i.1 + dim * nS = dim * nS + i.1 from Nat.add_comm _ _, get_l, Res.ok_bind]
    rfl

variable (hE : FormLaws (form E nB)) (hB : (coupling E time)ᵀ = coupling E time)

include hE hB

/-- **C59** (mass form).  For traces vanishing where they are prescribed, `mu . trace_to_mass_flux(lambda)` is the L2 product over the hyperedge of the unknowns `u` of the local solutions for
`lambda` and `mu`; so the operator is symmetric and positive semidefinite. -/
theorem C59_mass_product (lambda mu out : LocDofs dim (2 * nB) K) (hm : VanishesOnDirichlet E mu) :
    ∃ y q u p w q' u' p' w', trace_to_mass_flux m gesv tau lambda out E time = .ok y ∧
      IsMixedSolution (form E nB) (coupling E time) 0 tau 1 (moments (form E nB) (upper lambda)) (moments (form E nB) (lower lambda)) 0 0 q u p w ∧
      IsMixedSolution (form E nB) (coupling E time) 0 tau 1 (moments (form E nB) (upper mu)) (moments (form E nB) (lower mu)) 0 0 q' u' p' w' ∧
      ∑ f, ∑ j, mu f j * y f j = u' ⬝ᵥ (form E nB).mass0 *ᵥ u := by
  obtain ⟨q, u, p, w, q2, u2, p2, w2, h1, h2, h3⟩ := C59_mass_flux m gesv hg tau E time hs lambda out
  obtain ⟨q', u', p', w', h4, _⟩ := (C59_flux m gesv hg tau E time mu out).1 hs
  refine ⟨_, q, u, p, w, q', u', p', w', h3, h1, h4, ?_⟩
  have h0 : (0 : Fin (2 * dim) → Fin nS → K) = moments (form E nB) (0 : LocDofs dim nB K) := by funext f; simp [moments]
  have h2a := h2.first; have h2b := h2.second
  rw [h0] at h2a h2b
  rw [pair_off hm, flux_form hE one_ne_zero h2b h4.first, flux_form hE one_ne_zero h2a h4.second]
  have h5 := flux_form hE one_ne_zero h4.first h2b
  have h6 := flux_form hE one_ne_zero h4.second h2a
  simp only [Pi.zero_apply, zero_dotProduct, Finset.sum_const_zero, zero_mulVec, sub_zero, zero_add, dotProduct_zero, zero_mul, mul_zero, add_zero, inv_one, one_mul] at h5 h6 ⊢
  rw [bilin_symm hE (q := p2) (u := w2), bilin_symm hE (q := q2) (u := u2)]
  have := symm_dot hB w' w2
  linear_combination -h5 - h6 + this

theorem C59_mass_semidefinite {lambda out y : LocDofs dim (2 * nB) K} (hl : VanishesOnDirichlet E lambda)
    (hy : trace_to_mass_flux m gesv tau lambda out E time = .ok y) : 0 ≤ ∑ f, ∑ j, lambda f j * y f j := by
  obtain ⟨y', q, u, p, w, q', u', p', w', h1, h2, h3, h4⟩ := C59_mass_product m gesv hg tau E time hs hE hB lambda lambda out hl
  rw [hy] at h1; injection h1 with h1
  subst h1
  obtain ⟨rfl, rfl, rfl, rfl⟩ := mixed_unique hs h2 h3
  rw [h4]
  exact quad_nonneg hE.mass0_pos _

end

/-! ## The global operator -/

/-- The local operator and the local residual handed to the global loop; `E e` is hyperedge `e`. -/
def localOperator [CommRing K] (m : Mode) (gesv : Gesv (n_loc_dofs dim nS) 1 K) (tau : K) (E : Nat → Edge dim nS K) (time : K) : HyGraph.LocalFun dim (2 * nB) K :=
  fun e lambda out => trace_to_flux m gesv tau lambda out (E e) time

def localResidual [CommRing K] (m : Mode) (gesv : Gesv (n_loc_dofs dim nS) 1 K) (tau : K) (E : Nat → Edge dim nS K) (time : K) : HyGraph.LocalFun dim (2 * nB) K :=
  fun e lambda out => residual_flux m gesv tau lambda out (E e) time

/-- The vector with given values at the nodes. -/
noncomputable def ofNodes {N n : Nat} (g : Fin N → Fin n → K) : Fin (N * n) → K := fun k => g (HyGraph.dof_surj k).choose (HyGraph.dof_surj k).choose_spec.choose

theorem ofNodes_dof {N n : Nat} (g : Fin N → Fin n → K) (v : Fin N) (j : Fin n) : ofNodes g (dof v j) = g v j := by
  obtain ⟨h1, h2⟩ := HyGraph.dof_inj (HyGraph.dof_surj (dof v j)).choose_spec.choose_spec
  unfold ofNodes
  exact congr (congrArg g h1) h2

section
variable [Field K] [LinearOrder K] [IsStrictOrderedRing K] (m : Mode) (gesv : Gesv (n_loc_dofs dim nS) 1 K) (hg : GesvSpec gesv) (tau : K) (ht : 0 < tau)
    (E : Nat → Edge dim nS K) (time : K) (hE : ∀ e, FormLaws (form (E e) nB)) (G : HyGraph dim (2 * nB)) (nodes : Fin G.n_hyEdges → Fin (2 * dim) → Fin G.n_hyNodes)
    (hwf : G.WF nodes) (old0 new0 : LocDofs dim (2 * nB) K)

include hg ht hE hwf

theorem operator_exists : ∃ (F : Nat → LocDofs dim (2 * nB) K → LocDofs dim (2 * nB) K) (A : (Fin (G.n_hyNodes * (2 * nB)) → K) →ₗ[K] (Fin (G.n_hyNodes * (2 * nB)) → K)),
      (∀ e lambda out, trace_to_flux m gesv tau lambda out (E e) time = .ok (F e lambda)) ∧
      (∀ x, G.mat_vec_multiply m (localOperator m gesv tau E time) old0 new0 (List.ofFn x) = .ok (List.ofFn (A x))) ∧
      (∀ x, A x = assemble nodes (fun e => F e (faceValues nodes x e))) := by
  have hret : ∀ (e : Nat) (lambda : LocDofs dim (2 * nB) K), ∃ y, ∀ out, trace_to_flux m gesv tau lambda out (E e) time = .ok y := by
    intro e lambda
    have hs := (C59_solvable m gesv hg tau (E e) time (hE e) ht lambda 0).1
    obtain ⟨q, u, p, w, h1, _⟩ := (C59_flux m gesv hg tau (E e) time lambda 0).1 hs
    exact ⟨_, fun out => to_ok m gesv hg tau (E e) time hs h1 out⟩
  choose F hF using hret
  have hlin : ∀ (e : Nat) (a b : K) (x y : LocDofs dim (2 * nB) K), F e (a • x + b • y) = a • F e x + b • F e y := by
    intro e a b x y
    have := C59_linear m gesv hg tau (E e) time (hF e x 0) (hF e y 0) a b 0
    rw [hF] at this
    injection this
  let L : Nat → LocDofs dim (2 * nB) K →ₗ[K] LocDofs dim (2 * nB) K := fun e =>
    { toFun := F e
      map_add' := fun x y => by
        have := hlin e 1 1 x y
        simpa only [one_smul] using this
      map_smul' := fun a x => by
        have := hlin e a 0 x 0
        simpa only [zero_smul, add_zero, RingHom.id_apply] using this }
  have hloc : ∀ (e : Fin G.n_hyEdges) (u : LocDofs dim (2 * nB) K), localOperator m gesv tau E time e u (fun _ _ => 0) = .ok (L e u) := fun e u => hF e u _
  obtain ⟨A, hA⟩ := HyGraph.C18_linear m G nodes hwf old0 new0 (localOperator m gesv tau E time) (fun e => L e) hloc
  refine ⟨F, A, hF, hA, fun x => ?_⟩
  have h1 := HyGraph.mat_vec_eq m G nodes hwf (localOperator m gesv tau E time) x _ (fun e => hloc e _) old0 new0
  rw [hA x] at h1
  injection h1 with h1
  exact List.ofFn_injective h1

/-- **C61** (the global operator).  On each well-formed hypergraph and for `tau > 0` the global `trace_to_flux` is a linear map `A`; it is symmetric on the vectors which vanish where they
are prescribed. -/
theorem C61_global (hB : ∀ e, (coupling (E e) time)ᵀ = coupling (E e) time) :
    ∃ A : (Fin (G.n_hyNodes * (2 * nB)) → K) →ₗ[K] (Fin (G.n_hyNodes * (2 * nB)) → K),
      (∀ x, G.mat_vec_multiply m (localOperator m gesv tau E time) old0 new0 (List.ofFn x) = .ok (List.ofFn (A x))) ∧
      (∀ x z, (∀ e : Fin G.n_hyEdges, VanishesOnDirichlet (E e) (faceValues nodes x e)) → (∀ e : Fin G.n_hyEdges, VanishesOnDirichlet (E e) (faceValues nodes z e)) →
        ∑ k, z k * A x k = ∑ k, x k * A z k) := by
  obtain ⟨F, A, hF, hA, hAx⟩ := operator_exists m gesv hg tau ht E time hE G nodes hwf old0 new0
  refine ⟨A, hA, fun x z hx hz => ?_⟩
  rw [hAx, hAx, HyGraph.pairing_assemble, HyGraph.pairing_assemble]
  exact Finset.sum_congr rfl fun e _ => C59_symmetric m gesv hg tau (E e) time (hE e) (hB e) (hx e) (hz e) (hF e _ 0) (hF e _ 0)

variable (hR : ∀ e, Rigid (form (E e) nB)) (D : Fin G.n_hyNodes → Prop)
  (hD : ∀ (e : Fin G.n_hyEdges) (f : Fin (2 * dim)), (E e).node_descriptor f ∈ (E e).dirichlet_nodes ↔ D (nodes e f))
  (hD' : ∀ (e : Fin G.n_hyEdges) (f : Fin (2 * dim)), (E e).node_descriptor f ∈ (E e).dirichlet_laplacian_nodes ↔ D (nodes e f)) (hcon : Anchored nodes D)

include hR hD hD' hcon

/-- **C61** (exactly one discrete solution).  Let `u` and the Laplacian be prescribed at the same hypernodes `D` (simply supported), and let each hypernode be connected to one of them by a chain
of hyperedges.  For `tau > 0` the vectors which vanish in `D` and are mapped to `-R` by the global `trace_to_flux`, `R` the result of the global `residual_flux` for the zero vector, are
exactly one: the linear system which programs solve has exactly one solution. -/
theorem C61_unique : ∃ R : Fin (G.n_hyNodes * (2 * nB)) → K, G.mat_vec_multiply m (localResidual m gesv tau E time) old0 new0 (List.ofFn (0 : Fin (G.n_hyNodes * (2 * nB)) → K)) = .ok (List.ofFn R) ∧
    ∃! y : Fin (G.n_hyNodes * (2 * nB)) → K, HyGraph.VanishesAt D y ∧
      G.mat_vec_multiply m (localOperator m gesv tau E time) old0 new0 (List.ofFn y) = .ok (List.ofFn (-R)) := by
  obtain ⟨F, A, hF, hA, hAx⟩ := operator_exists m gesv hg tau ht E time hE G nodes hwf old0 new0
  have hres : ∀ e : Nat, ∃ r : LocDofs dim (2 * nB) K, residual_flux m gesv tau 0 (fun _ _ => 0) (E e) time = .ok r := fun e =>
    (C59_solvable m gesv hg tau (E e) time (hE e) ht 0 (fun _ _ => 0)).2.2
  choose R0 hR0 using hres
  have hoff : ∀ (e : Fin G.n_hyEdges) (y : LocDofs dim (2 * nB) K), VanishesOnDirichlet (E e) y → ∀ f, D (nodes e f) → y f = 0 := by
    intro e y hy f hf
    funext j
    obtain ⟨k, rfl | rfl⟩ := halves_cases j
    · exact (hy f).1 ((hD e f).mpr hf) k
    · exact (hy f).2 ((hD' e f).mpr hf) k
  have hvan : ∀ (e : Fin G.n_hyEdges) (x : Fin (G.n_hyNodes * (2 * nB)) → K), HyGraph.VanishesAt D x → VanishesOnDirichlet (E e) (faceValues nodes x e) := by
    intro e x hx f
    exact ⟨fun hf j => hx _ ((hD e f).mp hf) _, fun hf j => hx _ ((hD' e f).mp hf) _⟩
  refine ⟨assemble nodes (fun e => R0 e), ?_, ?_⟩
  · rw [HyGraph.mat_vec_eq m G nodes hwf (localResidual m gesv tau E time) 0 (fun e => R0 e) (fun e => hR0 e) old0 new0]
  let S : Fin (G.n_hyNodes * (2 * nB)) → Prop := fun k => ∃ v j, D v ∧ dof v j = k
  have hS : ∀ x : Fin (G.n_hyNodes * (2 * nB)) → K, HyGraph.VanishesAt D x ↔ ∀ k, S k → x k = 0 := fun x =>
    ⟨fun h k ⟨v, j, hv, hk⟩ => hk ▸ h v hv j, fun h v hv j => h _ ⟨v, j, hv, rfl⟩⟩
  have hAD : ∀ x, HyGraph.VanishesAt D (A x) := fun x => by
    rw [hAx]
    exact HyGraph.assemble_vanishes nodes D _ fun e f h => hoff e _ (C59_dirichlet_zero m gesv hg tau (E e) time _ _ _ (.inl (hF e _ 0))) f h
  have hRD : HyGraph.VanishesAt D (assemble nodes (fun e => R0 e)) :=
    HyGraph.assemble_vanishes nodes D _ fun e f h => hoff e _ (C59_dirichlet_zero m gesv hg tau (E e) time _ _ _ (.inr (hR0 e))) f h
  have hz : ∀ y, G.mat_vec_multiply m (localOperator m gesv tau E time) old0 new0 (List.ofFn y) = .ok (List.ofFn (-(assemble nodes (fun e => R0 e)))) ↔ A y = -(assemble nodes (fun e => R0 e)) := by
    intro y
    rw [hA]
    exact ⟨fun h => List.ofFn_injective (Res.ok.inj h), fun h => by rw [h]⟩
  simp only [hz, hS]
  refine EllipticProgram.unique_masked_inj A S (fun x => (hS _).mp (hAD x)) (fun x hx h0 => ?_) _ fun k hk => by rw [Pi.neg_apply, (hS _).mp hRD k hk, neg_zero]
  have hx' := (hS x).mpr hx
  -- a trace of constants on each hyperedge, zero in `D`, is zero
  have hconst : ∀ y : Fin G.n_hyNodes → Fin nB → K, (∀ v, D v → y v = 0) →
      (∀ e : Fin G.n_hyEdges, ∃ c, IsConst (form (E e) nB) c ∧ ∀ f, IsTrace (form (E e) nB) c f (y (nodes e f))) → y = 0 := by
    intro y hy h
    refine funext fun v => hcon.all (fun v => y v = 0) hy (fun e f g hf => ?_) v
    obtain ⟨c, hc, htr⟩ := h e
    have h1 := htr f
    unfold IsTrace at h1
    rw [hf, smul_zero] at h1
    have h3 := hR e c f hc h1.symm
    have h4 := htr g
    unfold IsTrace at h4
    rw [h3, mulVec_zero] at h4
    exact (smul_eq_zero.mp h4).resolve_left ((hE e).area_pos g).ne'
  have hsol : ∀ e : Fin G.n_hyEdges, ∃ q u p w,
      IsMixedSolution (form (E e) nB) (coupling (E e) time) 0 tau 1 (moments (form (E e) nB) (upper (faceValues nodes x e))) (moments (form (E e) nB) (lower (faceValues nodes x e))) 0 0 q u p w ∧
      F e (faceValues nodes x e) = offDirichlet (E e) (faceFlux (form (E e) nB) tau (lower (faceValues nodes x e)) p w) (faceFlux (form (E e) nB) tau (upper (faceValues nodes x e)) q u) := by
    intro e
    obtain ⟨_, q, u, p, w, h1, h2⟩ := of_ok m gesv hg tau (E e) time (hF e (faceValues nodes x e) 0)
    exact ⟨q, u, p, w, h1, h2⟩
  choose q u p w hq hFq using hsol
  have hsolv := fun e => (C59_solvable m gesv hg tau (E e) time (hE e) ht (0 : LocDofs dim (2 * nB) K) 0).1
  -- pairing with the trace of `w` in the first half
  have hpair : ∀ (z1 z2 : Fin G.n_hyNodes → Fin nB → K), (∀ v, D v → z1 v = 0) → (∀ v, D v → z2 v = 0) →
      ∑ e : Fin G.n_hyEdges, (∑ f, z1 (nodes e f) ⬝ᵥ faceFlux (form (E e) nB) tau (lower (faceValues nodes x e)) (p e) (w e) f +
        ∑ f, z2 (nodes e f) ⬝ᵥ faceFlux (form (E e) nB) tau (upper (faceValues nodes x e)) (q e) (u e) f) = 0 := by
    intro z1 z2 h1 h2
    let g : Fin G.n_hyNodes → Fin (2 * nB) → K := fun v j => if h : j.1 < nB then z1 v ⟨j, h⟩ else z2 v ⟨j - nB, by omega⟩
    have hg1 : ∀ e, faceValues nodes (ofNodes g) e = halves (fun f => z1 (nodes e f)) (fun f => z2 (nodes e f)) := fun e => funext fun f => funext fun j => ofNodes_dof g _ j
    have hv : HyGraph.VanishesAt D (ofNodes g) := by
      intro v hv j
      rw [ofNodes_dof]
      show (if h : j.1 < nB then z1 v ⟨j, h⟩ else z2 v ⟨j - nB, _⟩) = 0
      split
      · rw [h1 v hv]; rfl
      · rw [h2 v hv]; rfl
    have h3 : ∑ k, ofNodes g k * A x k = 0 := by rw [h0]; simp
    rw [hAx, HyGraph.pairing_assemble] at h3
    rw [← h3]
    refine Finset.sum_congr rfl fun e _ => ?_
    rw [hFq e, pair_off (hvan e _ hv), hg1 e, upper_halves, lower_halves]
  have hcomp : ∀ (k : Fin (2 * nB)) (v : Fin G.n_hyNodes), D v → x (dof v k) = 0 := fun k v hv => hx' v hv k
  -- the trace of `w` vanishes
  have hw : (fun v k => x (dof v (lo k)) : Fin G.n_hyNodes → Fin nB → K) = 0 := by
    refine hconst _ (fun v hv => funext fun k => hcomp _ v hv) fun e => ?_
    have h1 := hpair (fun v k => x (dof v (lo k))) 0 (fun v hv => funext fun k => hcomp _ v hv) (fun _ _ => rfl)
    have hsec : ∀ e : Fin G.n_hyEdges, IsSolution (form (E e) nB) tau 0 1 (moments (form (E e) nB) (lower (faceValues nodes x e))) 0 (p e) (w e) := fun e => by
      have := (hq e).second
      rwa [zero_mulVec, sub_zero] at this
    have h2 : ∀ e : Fin G.n_hyEdges, ∑ f, (fun k => x (dof (nodes e f) (lo k))) ⬝ᵥ faceFlux (form (E e) nB) tau (lower (faceValues nodes x e)) (p e) (w e) f +
        ∑ f, (0 : Fin G.n_hyNodes → Fin nB → K) (nodes e f) ⬝ᵥ faceFlux (form (E e) nB) tau (upper (faceValues nodes x e)) (q e) (u e) f =
        -bilin (form (E e) nB) tau (p e) (w e) (lower (faceValues nodes x e)) (p e) (w e) (lower (faceValues nodes x e)) := by
      intro e
      have := flux_form (hE e) one_ne_zero (hsec e) (hsec e)
      simp only [dotProduct_zero, zero_mul, sub_zero, mul_zero, add_zero] at this
      simp only [Pi.zero_apply, zero_dotProduct, Finset.sum_const_zero, add_zero]
      exact this
    rw [Finset.sum_congr rfl fun e _ => h2 e] at h1
    have h3 := (Finset.sum_eq_zero_iff_of_nonpos (fun e _ => by simpa using bilin_nonneg (hE e) ht.le (p e) (w e) (lower (faceValues nodes x e)))).mp h1 e (Finset.mem_univ e)
    rw [neg_eq_zero] at h3
    have h4 := bilin_q_zero (hE e) ht.le h3
    have h5 := bilin_trace_zero (hE e) ht h3
    have h6 := hsec e
    rw [h4] at h6
    exact ⟨w e, const_of (hE e) h6 h5, h5⟩
  have hlow : ∀ e, lower (faceValues nodes x e) = 0 := fun e => funext fun f => congrFun hw (nodes e f)
  have hw0 : ∀ e : Fin G.n_hyEdges, w e = 0 := by
    intro e
    have h1 := (hq e).second
    have h0 : moments (form (E e) nB) (0 : LocDofs dim nB K) = 0 := by funext f; exact mulVec_zero _
    rw [zero_mulVec, sub_zero, hlow e, h0] at h1
    exact (hsolv e _ _ h1).2
  have hfst : ∀ e : Fin G.n_hyEdges, IsSolution (form (E e) nB) tau 0 1 (moments (form (E e) nB) (upper (faceValues nodes x e))) 0 (q e) (u e) := fun e => by
    have := (hq e).first
    rwa [hw0 e, mulVec_zero, add_zero] at this
  have hu : (fun v k => x (dof v (up k)) : Fin G.n_hyNodes → Fin nB → K) = 0 := by
    refine hconst _ (fun v hv => funext fun k => hcomp _ v hv) fun e => ?_
    have h1 := hpair 0 (fun v k => x (dof v (up k))) (fun _ _ => rfl) (fun v hv => funext fun k => hcomp _ v hv)
    have h2 : ∀ e : Fin G.n_hyEdges, ∑ f, (0 : Fin G.n_hyNodes → Fin nB → K) (nodes e f) ⬝ᵥ faceFlux (form (E e) nB) tau (lower (faceValues nodes x e)) (p e) (w e) f +
        ∑ f, (fun k => x (dof (nodes e f) (up k))) ⬝ᵥ faceFlux (form (E e) nB) tau (upper (faceValues nodes x e)) (q e) (u e) f =
        -bilin (form (E e) nB) tau (q e) (u e) (upper (faceValues nodes x e)) (q e) (u e) (upper (faceValues nodes x e)) := by
      intro e
      have := flux_form (hE e) one_ne_zero (hfst e) (hfst e)
      simp only [dotProduct_zero, zero_mul, sub_zero, mul_zero, add_zero] at this
      simp only [Pi.zero_apply, zero_dotProduct, Finset.sum_const_zero, zero_add]
      exact this
    rw [Finset.sum_congr rfl fun e _ => h2 e] at h1
    have h3 := (Finset.sum_eq_zero_iff_of_nonpos (fun e _ => by simpa using bilin_nonneg (hE e) ht.le (q e) (u e) (upper (faceValues nodes x e)))).mp h1 e (Finset.mem_univ e)
    rw [neg_eq_zero] at h3
    have h4 := bilin_q_zero (hE e) ht.le h3
    have h5 := bilin_trace_zero (hE e) ht h3
    have h6 := hfst e
    rw [h4] at h6
    exact ⟨u e, const_of (hE e) h6 h5, h5⟩
  funext k
  obtain ⟨v, j, rfl⟩ := HyGraph.dof_surj k
  obtain ⟨i, rfl | rfl⟩ := halves_cases j
  · exact congrFun (congrFun hu v) i
  · exact congrFun (congrFun hw v) i

end

/-- **C60** (affine residual, where it holds).  `residual_flux(lambda) = trace_to_flux(lambda) + residual_flux(0)` if the two halves of `lambda` agree (for example for the zero trace).  Missing: other
traces, for which it is false (`C60_not_affine`). -/
theorem C60_affine_partial [Field K] (m : Mode) (gesv : Gesv (n_loc_dofs dim nS) 1 K) (hg : GesvSpec gesv) (tau : K) (E : Edge dim nS K) (time : K)
    (hs : Solvable (form E nB) tau 0 1) (lambda out out' out'' : LocDofs dim (2 * nB) K) (h : upper lambda = lower lambda) :
    ∃ y r, trace_to_flux m gesv tau lambda out E time = .ok y ∧ residual_flux m gesv tau 0 out' E time = .ok r ∧
      residual_flux m gesv tau lambda out'' E time = .ok (y + r) := by
  obtain ⟨y, r, h1, h2, h3⟩ := C60_defect m gesv hg tau E time hs lambda out out' out''
  refine ⟨y, r, h1, h2, h3.trans (congrArg Res.ok ?_)⟩
  rw [h]
  simp only [sub_self, mul_zero]
  funext f j
  obtain ⟨k, rfl | rfl⟩ := halves_cases j
  · rw [Pi.add_apply, Pi.add_apply, offDirichlet_up, ite_self, add_zero]
  · rw [Pi.add_apply, Pi.add_apply, offDirichlet_lo, ite_self, add_zero]

/-! ## Concrete instances -/

namespace Example

open Diffusion.Example DiffusionUniform.Example DiffusionParab.Example

/-- The parallelogram of `Diffusion.Example`, both unknowns prescribed on the faces with types in `dir`. -/
noncomputable def E2 (dir : List Nat) : Edge 2 1 ℚ where
  toEdge := (E1 3 dir).toEdge
  bdr_phifunc_laplace := fun _ _ _ => 7
  bdrUni_psifunc_laplace := fun _ _ _ => 1
  dirichlet_laplacian_nodes := dir

theorem E2_form (dir : List Nat) : form (E2 dir) 1 = affineForm I2 A0 (.of fun i j => 20 * I2.vol_phiphi i j) := by
  simp only [form, affineForm, E2, E1, E0]
  congr 1
  funext f d
  rw [dif_pos f.2]

theorem E2_laws (dir : List Nat) : FormLaws (form (E2 dir) 1) := by
  rw [E2_form]
  refine affine_laws I2 I2_lawful A0 A0_laws _ ?_ fun v hv => ?_
  · ext i j
    simp only [transpose_apply, of_apply, I2_lawful.vol_symm i j]
  · refine lt_of_lt_of_eq (mul_pos (show (0 : ℚ) < 20 by norm_num) (I2_lawful.vol_pos v hv)) ?_
    simp only [dotProduct, mulVec, of_apply, Finset.mul_sum]
    exact Finset.sum_congr rfl fun i _ => Finset.sum_congr rfl fun j _ => by ring

theorem E2_symm (dir : List Nat) (time : ℚ) : (coupling (E2 dir) time)ᵀ = coupling (E2 dir) time := by
  ext i j
  rw [Subsingleton.elim i j]
  rfl

theorem E2_psi (dir : List Nat) (f : Fin (2 * 2)) : (form (E2 dir) 1).psi f = .of fun _ _ => 5 := E1_psi 3 dir 0 f

theorem E2_rigid (dir : List Nat) : Rigid (form (E2 dir) 1) := by
  intro u f _ h
  have h0 := congrFun h 0
  rw [E2_psi] at h0
  funext i
  have : i = 0 := Subsingleton.elim _ _
  subst this
  simpa [mulVec, dotProduct] using h0

/-- A trace which vanishes on the first face; `u` is `f` on face `f`, and `w` is 1 on the other faces. -/
def trace1 : LocDofs 2 (2 * 1) ℚ := halves (fun f _ => f.1) (fun f _ => if f.1 = 0 then 0 else 1)

theorem trace1_vanishes : VanishesOnDirichlet (E2 [0]) trace1 := by
  intro f
  have key : f.1 ∈ [0] → f.1 = 0 := fun h => by simpa using h
  refine ⟨fun hf j => ?_, fun hf j => ?_⟩
  · rw [trace1, upper_halves, key hf]; rfl
  · rw [trace1, lower_halves]; exact if_pos (key hf)

theorem E2_solvable (dir : List Nat) : Solvable (form (E2 dir) 1) (1 : ℚ) 0 1 :=
  (C59_solvable (nB := 1) .debug (cramerSolve _ _ ℚ) (C44_example _ _ ℚ) 1 (E2 dir) 0 (E2_laws dir) one_pos 0 0).1

/-- The hypotheses of C59 can be met. -/
example := C59_flux .debug (cramerSolve _ _ ℚ) (C44_example _ _ ℚ) 1 (E2 [0]) 0 trace1 (fun _ _ => 7)

example (y : LocDofs 2 (2 * 1) ℚ) (hy : trace_to_flux .debug (cramerSolve _ _ ℚ) 1 trace1 (fun _ _ => 7) (E2 [0]) 0 = .ok y) :=
  C59_symmetric .debug (cramerSolve _ _ ℚ) (C44_example _ _ ℚ) 1 (E2 [0]) 0 (E2_laws [0]) (E2_symm _ _) trace1_vanishes trace1_vanishes hy hy

example := C59_mass_product .debug (cramerSolve _ _ ℚ) (C44_example _ _ ℚ) 1 (E2 [0]) 0 (E2_solvable [0]) (E2_laws [0]) (E2_symm _ _) trace1 trace1 trace1 trace1_vanishes

example := C59_errors .debug (cramerSolve _ _ ℚ) (C44_example _ _ ℚ) 1 (E2 [0]) 0 (E2_solvable [0]) trace1 (fun c => mul_nonneg (by norm_num) (sq_nonneg _))

/-- **C60** (the residual is not affine with the operator as its linear part).  On the parallelogram, for the trace 1 of `u` and 0 of `w`, on all faces, the residual differs from the sum of
`trace_to_flux` and of the residual for the zero trace. -/
theorem C60_not_affine : ∃ (E : Edge 2 1 ℚ) (lambda y r z : LocDofs 2 (2 * 1) ℚ), FormLaws (form E 1) ∧
    trace_to_flux .debug (cramerSolve _ _ ℚ) 1 lambda 0 E 0 = .ok y ∧ residual_flux .debug (cramerSolve _ _ ℚ) 1 0 0 E 0 = .ok r ∧
    residual_flux .debug (cramerSolve _ _ ℚ) 1 lambda 0 E 0 = .ok z ∧ z ≠ y + r := by
  obtain ⟨y, r, h1, h2, h3⟩ := C60_defect .debug (cramerSolve _ _ ℚ) (C44_example _ _ ℚ) 1 (E2 []) 0 (E2_solvable []) (halves (fun _ _ => 1) 0 : LocDofs 2 (2 * 1) ℚ) 0 0 0
  refine ⟨E2 [], _, y, r, _, E2_laws [], h1, h2, h3, fun h => ?_⟩
  have h4 := congrFun (congrFun (add_eq_left.mp h) 0) (up 0)
  rw [offDirichlet_up, upper_halves, lower_halves, if_neg (show ¬ IsDirichlet (E2 []) ((0 : Fin (2 * 2)) : Nat) from List.not_mem_nil)] at h4
  have h5 : (1 : ℚ) * 5 * (0 - 1) = 0 := h4
  norm_num at h5

/-- **C60** (the initial trace is not the projection of the initial value).  For an initial value with the mean value `f` on face `f`, the coefficient computed for face 1 is 0. -/
theorem C60_initial_not_projection : ∃ (E : Edge 2 1 ℚ) (lambda : LocDofs 2 (2 * 1) ℚ), (∀ (f : Fin (2 * 2)) (j : Nat), E.bdrUni_psifunc 0 j f = if j = 0 then (f.1 : ℚ) else 0) ∧
    make_initial 0 E 0 = .ok lambda ∧ lambda 1 (up 0) ≠ E.bdrUni_psifunc 0 0 1 := by
  let E : Edge 2 1 ℚ := { E2 [] with bdrUni_psifunc := fun _ j f => if j = 0 then (f : ℚ) else 0 }
  refine ⟨E, _, fun f j => rfl, C60_make_initial E 0 0, ?_⟩
  have h : E.node_descriptor (1 : Fin 4).1 ∉ E.dirichlet_nodes := List.not_mem_nil
  show (if E.node_descriptor (1 : Fin 4).1 ∈ E.dirichlet_nodes then (0 : ℚ) else if (up (0 : Fin 1)).1 < 1 then (if (1 : Fin 4).1 = 0 then (((up (0 : Fin 1)).1 : Nat) : ℚ) else 0) else _) ≠ (if 0 = 0 then ((1 : Nat) : ℚ) else 0)
  rw [if_neg h, if_pos (by decide), if_neg (by decide)]
  norm_num

/-- Two parallelograms glued along their faces 1 and 0, two degrees of freedom per face. -/
def G3 : HyGraph 2 (2 * 1) := ⟨2, 7, G2.hyNodes⟩

theorem G3_wf : G3.WF G2nodes := ⟨G2_wf.1, by decide⟩

noncomputable def edges (e : Nat) : Edge 2 1 ℚ := E2 (if e = 0 then [0] else [])

/-- The hypotheses of C61 can be met. -/
example := C61_global (nB := 1) .debug (cramerSolve _ _ ℚ) (C44_example _ _ ℚ) 1 one_pos edges 0 (fun _ => E2_laws _) G3 G2nodes G3_wf (fun _ _ => 7) (fun _ _ => 8) (fun _ => E2_symm _ _)

example := C61_unique (nB := 1) .debug (cramerSolve _ _ ℚ) (C44_example _ _ ℚ) 1 one_pos edges 0 (fun _ => E2_laws _) G3 G2nodes G3_wf (fun _ _ => 7) (fun _ _ => 8) (fun _ => E2_rigid _)
  (· = ⟨0, by decide⟩) (Edges_dirichlet 3) (Edges_dirichlet 3) EllipticProgram.Example.G2_anchored

end Example

end HyperHDG.Bilaplacian

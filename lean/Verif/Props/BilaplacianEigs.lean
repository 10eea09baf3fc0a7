import Verif.Proofs.BilaplacianEigs
import Verif.Props.Bilaplacian
import Verif.Props.BilaplacianParab
import Verif.Props.DiffusionEigs

/-!
# Properties C65, C66, C67: eigenvalue problems for the bilaplacian condensed to the skeleton

`EigSolution` (`Verif/Spec/BilaplacianEigs.lean`) is the local problem for an eigenvalue: `(q, u)` solves the diffusion problem with source `b w`, `(p, w)` that with source `eig u`.  The first half of
the coefficients of a face (`upper`) belongs to `u`, the second half (`lower`) to `w`; in the result, the first half is the flux of `w` and the second half that of `u`.
-/

namespace HyperHDG.BilaplacianEigs

open Finset Spec Matrix LDG Mixed _root_.Topology Filter
open Bilaplacian (n_loc_dofs form coupling offDirichlet VanishesOnDirichlet IsDirichlet IsDirichletLaplacian offDirichlet_up offDirichlet_lo off_lin upper_lin lower_lin pair_off)
open BilaplacianParab (exists_vector)

variable {dim nS nB : Nat} {K : Type}

/-! ## C65: the local solver -/

theorem fluxes_vanish [CommRing K] (E : Edge dim nS K) (tau : K) (lambda : LocDofs dim (2 * nB) K) (q p : Fin dim → Fin nS → K) (u w : Fin nS → K) :
    VanishesOnDirichlet E.stat (fluxes E tau lambda q u p w) := fun f =>
  ⟨fun hf j => (offDirichlet_up E.stat _ _ f j).trans (if_pos hf), fun hf j => (offDirichlet_lo E.stat _ _ f j).trans (if_pos hf)⟩

section Local
variable [Field K] (m : Mode) (gesv : Gesv (n_loc_dofs dim nS) 1 K) (hg : GesvSpec gesv) (tau : K) (E : Edge dim nS K) (eig : K)

include hg

/-- **C65** (what `trace_to_flux` computes).  If the local problem for `eig` is uniquely solvable, the result is made of the numerical fluxes of its solution for the traces `upper lambda` (of `u`) and
`lower lambda` (of `w`), whatever the output array contained: first the flux of `w`, zero where `u` is prescribed, then that of `u`, zero where the Laplacian is prescribed.  Otherwise the debug build
aborts and the release build lets the LAPACK exception through. -/
theorem C65_flux (lambda out : LocDofs dim (2 * nB) K) :
    (EigSolvable E nB tau eig → ∃ q u p w, EigSolution E nB tau eig (moments (form E.stat nB) (upper lambda)) (moments (form E.stat nB) (lower lambda)) 0 q u p w ∧
      trace_to_flux m gesv tau lambda out E eig =
        .ok (offDirichlet E.stat (faceFlux (form E.stat nB) tau (lower lambda) p w) (faceFlux (form E.stat nB) tau (upper lambda) q u))) ∧
    (¬ EigSolvable E nB tau eig → trace_to_flux m gesv tau lambda out E eig = solveFailure m) := by
  obtain ⟨h1, h2⟩ := solve_local_problem_spec m gesv hg E tau eig lambda
  refine ⟨fun hs => ?_, fun hs => ?_⟩
  · obtain ⟨x, hx1, hx2⟩ := h1 hs
    refine ⟨_, _, _, _, hx2, ?_⟩
    rw [trace_to_flux, hx1, Res.ok_bind]
    exact writeFlux_eq E tau x lambda out
  · rw [trace_to_flux, h2 hs]
    cases m <;> rfl

theorem of_ok {lambda out y : LocDofs dim (2 * nB) K} (h : trace_to_flux m gesv tau lambda out E eig = .ok y) :
    EigSolvable E nB tau eig ∧ ∃ q u p w, EigSolution E nB tau eig (moments (form E.stat nB) (upper lambda)) (moments (form E.stat nB) (lower lambda)) 0 q u p w ∧
      y = fluxes E tau lambda q u p w := by
  have hf := C65_flux m gesv hg tau E eig lambda out
  by_cases hs : EigSolvable E nB tau eig
  · obtain ⟨q, u, p, w, h1, h2⟩ := hf.1 hs
    rw [h] at h2
    injection h2 with h2
    exact ⟨hs, q, u, p, w, h1, h2⟩
  · have := hf.2 hs
    rw [h] at this
    cases m <;> cases this

theorem to_ok (hs : EigSolvable E nB tau eig) {lambda : LocDofs dim (2 * nB) K} {q p : Fin dim → Fin nS → K} {u w : Fin nS → K}
    (h : EigSolution E nB tau eig (moments (form E.stat nB) (upper lambda)) (moments (form E.stat nB) (lower lambda)) 0 q u p w) (out : LocDofs dim (2 * nB) K) :
    trace_to_flux m gesv tau lambda out E eig = .ok (fluxes E tau lambda q u p w) := by
  obtain ⟨q', u', p', w', h1, h2⟩ := (C65_flux m gesv hg tau E eig lambda out).1 hs
  obtain ⟨rfl, rfl, rfl, rfl⟩ := eig_unique hs h h1
  exact h2

/-- **C65** (Dirichlet rows).  `trace_to_flux` returns exactly zero in the first half on the faces where `u` is prescribed, and in the second half on those where the Laplacian is. -/
theorem C65_dirichlet_zero (lambda out y : LocDofs dim (2 * nB) K) (h : trace_to_flux m gesv tau lambda out E eig = .ok y) : VanishesOnDirichlet E.stat y := by
  obtain ⟨_, q, u, p, w, _, rfl⟩ := of_ok m gesv hg tau E eig h
  exact fluxes_vanish E tau lambda q p u w

/-- **C65** (linearity).  For a fixed eigenvalue, if `trace_to_flux` returns `y` for `lambda` and `z` for `mu`, then it returns `a y + b z` for `a lambda + b mu`. -/
theorem C65_linear {lambda mu out out' y z : LocDofs dim (2 * nB) K} (hy : trace_to_flux m gesv tau lambda out E eig = .ok y)
    (hz : trace_to_flux m gesv tau mu out' E eig = .ok z) (a b : K) (out'' : LocDofs dim (2 * nB) K) :
    trace_to_flux m gesv tau (a • lambda + b • mu) out'' E eig = .ok (a • y + b • z) := by
  obtain ⟨hs, q, u, p, w, h1, rfl⟩ := of_ok m gesv hg tau E eig hy
  obtain ⟨_, q', u', p', w', h1', rfl⟩ := of_ok m gesv hg tau E eig hz
  have h2 := eig_lin a b h1 h1'
  rw [← moments_lin, ← moments_lin, smul_zero, smul_zero, add_zero, ← upper_lin, ← lower_lin] at h2
  rw [to_ok m gesv hg tau E eig hs h2 out'', fluxes_lin]

omit hg in
theorem eigSolvable_zero : EigSolvable E nB tau 0 ↔ Solvable (form E.stat nB) tau 0 1 := by
  rw [eigSolvable_iff, zero_smul, neg_zero]
  exact mixedSolvable_iff _ _ _

omit hg in
theorem eigSolution_zero {g h : Fin (2 * dim) → Fin nS → K} {t : Fin nS → K} {q p : Fin dim → Fin nS → K} {u w : Fin nS → K} :
    EigSolution E nB tau 0 g h t q u p w ↔ IsMixedSolution (form E.stat nB) (coupling E.stat 0) 0 tau 1 g h 0 t q u p w := by
  rw [eigSolution_iff, zero_smul, neg_zero]

/-- **C65** (eigenvalue zero).  For the eigenvalue 0 the operator is that of the local solver for the stationary problem (C59). -/
theorem C65_zero (lambda out : LocDofs dim (2 * nB) K) : trace_to_flux m gesv tau lambda out E 0 = Bilaplacian.trace_to_flux m gesv tau lambda out E.stat 0 := by
  have h1 := C65_flux m gesv hg tau E 0 lambda out
  have h2 := Bilaplacian.C59_flux m gesv hg tau E.stat 0 lambda out
  rw [eigSolvable_zero] at h1
  by_cases hs : Solvable (form E.stat nB) tau 0 1
  · obtain ⟨q, u, p, w, a1, a2⟩ := h1.1 hs
    obtain ⟨q', u', p', w', b1, b2⟩ := h2.1 hs
    obtain ⟨rfl, rfl, rfl, rfl⟩ := Bilaplacian.mixed_unique hs ((eigSolution_zero tau E).mp a1) b1
    rw [a2, b2]
  · rw [h1.2 hs, h2.2 hs]

/-- **C65** (bulk values).  `bulk_values` returns in component `d < dim` the values of the `d`-th component of the dual unknown `q`, in component `dim` those of `u`, at the points of the
tensor grid of the abscissas in lexicographic order, for the solution of the local problem. -/
theorem C65_bulk_values (hs : EigSolvable E nB tau eig) (lin_comb : (Fin nS → K) → List K → K) (abscissas : List K) (lambda : LocDofs dim (2 * nB) K)
    (vals0 : Fin (dim + 1) → Fin (Hypercube.pow dim abscissas.length) → K) :
    ∃ q u p w, EigSolution E nB tau eig (moments (form E.stat nB) (upper lambda)) (moments (form E.stat nB) (lower lambda)) 0 q u p w ∧
      ∃ vals, bulk_values m gesv lin_comb tau abscissas lambda E eig vals0 = .ok vals ∧
      ∀ pt : Fin (Hypercube.pow dim abscissas.length), ∃ x, Hypercube.tensorial_pt m dim pt abscissas = .ok x ∧
        (∀ d : Fin dim, vals d.castSucc pt = lin_comb (q d) x) ∧ vals (Fin.last dim) pt = lin_comb u x := by
  obtain ⟨x, h1, h2⟩ := (solve_local_problem_spec m gesv hg E tau eig lambda).1 hs
  obtain ⟨r, hr1, hr2⟩ := bulk_loop_get (dim := dim) m lin_comb abscissas x (fun d i => half 0 (toMat x) (ix d i) 0) (fun d i => by
    have h3 := get_fin m x (pos (emb 0 (ix d i)) 0)
    have h4 : (pos (emb 0 (ix d i)) (0 : Fin 1)).1 = d * nS + i := by simp [pos, ix, emb]
    rw [h4] at h3
    exact h3) (fun _ => 0) vals0
  refine ⟨_, _, _, _, h2, r.2, ?_, fun pt => ?_⟩
  · unfold bulk_values
    rw [h1, Res.ok_bind, hr1]
    rfl
  · obtain ⟨x, hp1, hp2⟩ := hr2 pt
    exact ⟨x, hp1, fun d => hp2 d.castSucc, hp2 (Fin.last dim)⟩

end Local

section Ordered
variable [Field K] [LinearOrder K] [IsStrictOrderedRing K]

/-- Fluxes of a local solution paired with the traces of another one. -/
theorem pairing (E : Edge dim nS K) (tau : K) (hE : FormLaws (form E.stat nB)) {eig eig' : K} {lambda mu : LocDofs dim (2 * nB) K} {q p q' p' : Fin dim → Fin nS → K} {u w u' w' : Fin nS → K}
    (h : EigSolution E nB tau eig (moments (form E.stat nB) (upper lambda)) (moments (form E.stat nB) (lower lambda)) 0 q u p w)
    (h' : EigSolution E nB tau eig' (moments (form E.stat nB) (upper mu)) (moments (form E.stat nB) (lower mu)) 0 q' u' p' w') :
    ∑ f, upper mu f ⬝ᵥ faceFlux (form E.stat nB) tau (lower lambda) p w f =
        eig * (u' ⬝ᵥ (form E.stat nB).mass0 *ᵥ u) - bilin (form E.stat nB) tau q' u' (upper mu) p w (lower lambda) ∧
      ∑ f, lower mu f ⬝ᵥ faceFlux (form E.stat nB) tau (upper lambda) q u f =
        w' ⬝ᵥ coupling E.stat eig *ᵥ w - bilin (form E.stat nB) tau q u (upper lambda) p' w' (lower mu) := by
  rw [flux_form hE one_ne_zero h.2 h'.1, flux_form hE one_ne_zero h.1 h'.2, bilin_symm hE (q := p) (u := w)]
  simp only [zero_mul, sub_zero, inv_one, one_mul, dotProduct_smul, smul_eq_mul, add_zero]
  constructor <;> ring

variable (m : Mode) (gesv : Gesv (n_loc_dofs dim nS) 1 K) (hg : GesvSpec gesv) (tau : K) (E : Edge dim nS K) (eig : K) (hE : FormLaws (form E.stat nB))

include hg hE

/-- **C65** (symmetry).  If the integrals of `b phi_i phi_j` are symmetric in `i` and `j`, then `mu . trace_to_flux(lambda) = lambda . trace_to_flux(mu)` for traces vanishing where they are
prescribed, and each eigenvalue. -/
theorem C65_symmetric (hB : (coupling E.stat eig)ᵀ = coupling E.stat eig) {lambda mu out out' y z : LocDofs dim (2 * nB) K} (hl : VanishesOnDirichlet E.stat lambda)
    (hm : VanishesOnDirichlet E.stat mu) (hy : trace_to_flux m gesv tau lambda out E eig = .ok y) (hz : trace_to_flux m gesv tau mu out' E eig = .ok z) :
    ∑ f, ∑ j, mu f j * y f j = ∑ f, ∑ j, lambda f j * z f j := by
  obtain ⟨hs, q, u, p, w, h1, rfl⟩ := of_ok m gesv hg tau E eig hy
  obtain ⟨_, q', u', p', w', h1', rfl⟩ := of_ok m gesv hg tau E eig hz
  unfold fluxes
  rw [pair_off hm, pair_off hl, (pairing E tau hE h1 h1').1, (pairing E tau hE h1 h1').2, (pairing E tau hE h1' h1).1, (pairing E tau hE h1' h1).2, symm_dot hB w' w,
    symm_dot hE.mass0_symm u' u]
  ring

omit hg in
theorem eigSolvable_of (ht : 0 < tau) (he : eig ≤ 0) (hB : ∀ v, 0 ≤ v ⬝ᵥ coupling E.stat eig *ᵥ v) : EigSolvable E nB tau eig := by
  rcases he.lt_or_eq with he | rfl
  · intro q u p w h
    have h0 : moments (form E.stat nB) (upper (0 : LocDofs dim (2 * nB) K)) = 0 := funext fun f => mulVec_zero _
    have h0' : moments (form E.stat nB) (lower (0 : LocDofs dim (2 * nB) K)) = 0 := funext fun f => mulVec_zero _
    have hsol : EigSolution E nB tau eig (moments (form E.stat nB) (upper 0)) (moments (form E.stat nB) (lower 0)) 0 q u p w := by rw [h0, h0']; exact h
    obtain ⟨a1, a2⟩ := pairing E tau hE hsol hsol
    have e1 : upper (0 : LocDofs dim (2 * nB) K) = 0 := rfl
    have e2 : lower (0 : LocDofs dim (2 * nB) K) = 0 := rfl
    simp only [e1, e2, Pi.zero_apply, zero_dotProduct, Finset.sum_const_zero] at a1 a2
    have h2 := quad_nonneg hE.mass0_pos u
    have h3 := hB w
    have hu : u = 0 := by
      refine quad_zero hE.mass0_pos (le_antisymm ?_ h2)
      by_contra hc
      rw [not_le] at hc
      have := mul_neg_of_neg_of_pos he hc
      linarith
    subst hu
    have h6 := h.2
    rw [mulVec_zero, smul_zero, zero_add] at h6
    obtain ⟨rfl, rfl⟩ := solvable_of hE ht.le le_rfl one_pos (.inl ht) (rho := 0) p w h6
    have h7 := h.1
    rw [mulVec_zero] at h7
    obtain ⟨rfl, _⟩ := solvable_of hE ht.le le_rfl one_pos (.inl ht) (rho := 0) q 0 h7
    exact ⟨rfl, rfl, rfl, rfl⟩
  · exact (eigSolvable_zero tau E).mpr (solvable_of hE ht.le le_rfl one_pos (.inl ht))

/-- **C65** (solvability).  For `tau > 0` and a coefficient which is not negative, the local problem is uniquely solvable for all eigenvalues `eig ≤ 0`, so `trace_to_flux` returns. -/
theorem C65_solvable (ht : 0 < tau) (he : eig ≤ 0) (hB : ∀ v, 0 ≤ v ⬝ᵥ coupling E.stat eig *ᵥ v) (lambda out : LocDofs dim (2 * nB) K) :
    EigSolvable E nB tau eig ∧ ∃ y, trace_to_flux m gesv tau lambda out E eig = .ok y := by
  have hs := eigSolvable_of tau E eig hE ht he hB
  obtain ⟨_, _, _, _, _, h1⟩ := (C65_flux m gesv hg tau E eig lambda out).1 hs
  exact ⟨hs, _, h1⟩

end Ordered

/-- **C65** (`node_types`).  The node types reported are 1 for the faces where `u` is prescribed and 0 for all others; where the Laplacian is prescribed has no influence. -/
theorem C65_node_types (E : Edge dim nS K) (f : Fin (2 * dim)) :
    ∃ t, node_types E = .ok t ∧ (t f = 1 ↔ E.node_descriptor f ∈ E.dirichlet_nodes) ∧ (t f = 0 ↔ E.node_descriptor f ∉ E.dirichlet_nodes) :=
  Bilaplacian.C59_node_types E.stat f

/-- **C65** (what `make_initial` computes).  On the faces where `u` is not prescribed, coefficient `j` is the integral of the initial value with shape function `j` in the first half, and in the second half
that of the initial Laplacian with the shape function of the same number `j` (so not `j - nB`); where only the Laplacian is prescribed, nothing is set to zero. -/
theorem C65_make_initial [CommRing K] (E : Edge dim nS K) (time : K) (lambda : LocDofs dim (2 * nB) K) :
    make_initial lambda E time = .ok (fun f j => if E.node_descriptor f ∈ E.dirichlet_nodes then 0 else
      if j.1 < nB then E.bdrUni_psifunc time j f else E.bdrUni_psifunc_laplace time j f) := by
  rw [make_initial_eq]
  refine congrArg Res.ok (funext fun f => funext fun j => ?_)
  by_cases h : E.node_descriptor f ∈ E.dirichlet_nodes
  · rw [if_pos h]; exact if_pos h
  · rw [if_neg h]; exact if_neg h

/-! ## C66: the Jacobian -/

section Jacobian
variable [Field K] (m : Mode) (gesv : Gesv (n_loc_dofs dim nS) 1 K) (hg : GesvSpec gesv) (tau : K) (E : Edge dim nS K) (eig_val : K)

include hg

/-- **C66** (what `jacobian_of_trace_to_flux` computes).  With local problems for `eig_val`: the fluxes of the local solution for the trace `lambda_in` and with source `eig * area * u` of the second equation,
where `u` is the local solution for `lambda_vals`.  It fails if `trace_to_flux` fails. -/
theorem C66_computes (lambda_in out : LocDofs dim (2 * nB) K) (eig : K) (lambda_vals : LocDofs dim (2 * nB) K) :
    (EigSolvable E nB tau eig_val → ∃ q u p w q' u' p' w',
      EigSolution E nB tau eig_val (moments (form E.stat nB) (upper lambda_vals)) (moments (form E.stat nB) (lower lambda_vals)) 0 q u p w ∧
      EigSolution E nB tau eig_val (moments (form E.stat nB) (upper lambda_in)) (moments (form E.stat nB) (lower lambda_in)) ((eig * E.area) • u) q' u' p' w' ∧
      jacobian_of_trace_to_flux m gesv tau lambda_in out eig lambda_vals eig_val E =
        .ok (offDirichlet E.stat (faceFlux (form E.stat nB) tau (lower lambda_in) p' w') (faceFlux (form E.stat nB) tau (upper lambda_in) q' u'))) ∧
    (¬ EigSolvable E nB tau eig_val → jacobian_of_trace_to_flux m gesv tau lambda_in out eig lambda_vals eig_val E = solveFailure m) := by
  constructor
  · intro hs
    obtain ⟨x1, h1, h2⟩ := (solve_local_problem_spec m gesv hg E tau eig_val lambda_in).1 hs
    obtain ⟨x2, h3, h4⟩ := (solve_local_problem_spec m gesv hg E tau eig_val lambda_vals).1 hs
    obtain ⟨v, h5, h6, h7, h8⟩ := eigRhs_spec E eig x2
    obtain ⟨A, hA1, hA2⟩ := assemble_loc_matrix_spec m E tau eig_val nB
    have hv : IsMixedRhs (form E.stat nB) tau 1 0 0 0 ((eig * E.area) • DiffusionUniform.uOf (half 0 (toMat x2))) (toMat v) := by
      refine ⟨fun b i => ?_, fun b i => ?_⟩
      · rw [h6]
        induction b using Fin.lastCases with
        | last => rw [rhs_l]; simp
        | cast d => rw [rhs_c]; simp
      · induction b using Fin.lastCases with
        | last =>
          rw [rhs_l, ← h8]
          simp [DiffusionUniform.uOf]
        | cast d =>
          rw [rhs_c]
          simp only [Pi.zero_apply, smul_zero, Finset.sum_const_zero, neg_zero]
          exact congrFun (congrFun h7 d) i
    obtain ⟨x3, h9, h10⟩ := (mixed_solve_spec (form E.stat nB) (coupling E.stat eig_val) _ tau 1 gesv hg A hA2 v).1 ((eigSolvable_iff E tau eig_val nB).mp hs)
    have h11 := h10 _ _ _ _ hv
    rw [← eigSolution_iff] at h11
    have h12 := eig_lin 1 1 h2 h11
    simp only [one_smul, add_zero, zero_add] at h12
    refine ⟨_, _, _, _, _, _, _, _, h4, h12, ?_⟩
    have e1 := writeFlux_eq E tau x1 lambda_in out
    have e2 := addFlux_eq E tau x3 (fluxes E tau lambda_in (DiffusionUniform.qOf (half 0 (toMat x1))) (DiffusionUniform.uOf (half 0 (toMat x1))) (DiffusionUniform.qOf (half 1 (toMat x1)))
      (DiffusionUniform.uOf (half 1 (toMat x1)))) (fluxes_vanish _ _ _ _ _ _ _)
    rw [Bilaplacian.primal_spec, Bilaplacian.dual_spec, Res.ok_bind, Res.ok_bind] at e1
    rw [jacobian_of_trace_to_flux, h1, Res.ok_bind, Bilaplacian.primal_spec, Res.ok_bind, Bilaplacian.dual_spec, Res.ok_bind, e1, Res.ok_bind, h3, Res.ok_bind, h5, Res.ok_bind, hA1, Res.ok_bind,
      h9, Res.ok_bind, e2]
    refine congrArg Res.ok ?_
    have e3 := fluxes_lin E tau 1 1 lambda_in (0 : LocDofs dim (2 * nB) K) (DiffusionUniform.qOf (half 0 (toMat x1))) (DiffusionUniform.qOf (half 1 (toMat x1)))
      (DiffusionUniform.qOf (half 0 (toMat x3))) (DiffusionUniform.qOf (half 1 (toMat x3))) (DiffusionUniform.uOf (half 0 (toMat x1))) (DiffusionUniform.uOf (half 1 (toMat x1)))
      (DiffusionUniform.uOf (half 0 (toMat x3))) (DiffusionUniform.uOf (half 1 (toMat x3)))
    simp only [one_smul, add_zero] at e3
    exact e3.symm
  · intro hs
    rw [jacobian_of_trace_to_flux, (solve_local_problem_spec m gesv hg E tau eig_val lambda_in).2 hs]
    cases m <;> rfl

omit hg in
theorem mass_of (hO : Orthonormal E) (u : Fin nS → K) : (form E.stat nB).mass0 *ᵥ u = E.area • u := by
  funext i
  simp only [mulVec, dotProduct, form, of_apply, Pi.smul_apply, smul_eq_mul]
  rw [Finset.sum_eq_single i]
  · rw [hO i i, if_pos rfl]
  · intro j _ hj
    rw [hO i j, if_neg (Ne.symm hj), zero_mul]
  · simp

/-- **C66** (mass operator).  At the eigenvalue 0, the Jacobian in the direction of the eigenvalue is the mass flux of the local solver for the stationary problem (C59). -/
theorem C66_mass (hO : Orthonormal E) (hs : Solvable (form E.stat nB) tau 0 1) (lambda out out' : LocDofs dim (2 * nB) K) :
    jacobian_of_trace_to_flux m gesv tau 0 out 1 lambda 0 E = Bilaplacian.trace_to_mass_flux m gesv tau lambda out' E.stat 0 := by
  obtain ⟨q, u, p, w, q', u', p', w', h1, h2, h3⟩ := (C66_computes m gesv hg tau E 0 0 out 1 lambda).1 ((eigSolvable_zero tau E).mpr hs)
  obtain ⟨a, b, c, d, a', b', c', d', k1, k2, k3⟩ := Bilaplacian.C59_mass_flux m gesv hg tau E.stat 0 hs lambda out'
  rw [eigSolution_zero] at h1 h2
  obtain ⟨rfl, rfl, rfl, rfl⟩ := Bilaplacian.mixed_unique hs h1 k1
  have hz : moments (form E.stat nB) (upper (0 : LocDofs dim (2 * nB) K)) = 0 := funext fun f => mulVec_zero _
  have hz' : moments (form E.stat nB) (lower (0 : LocDofs dim (2 * nB) K)) = 0 := funext fun f => mulVec_zero _
  rw [hz, hz', one_mul, ← mass_of E hO] at h2
  obtain ⟨rfl, rfl, rfl, rfl⟩ := Bilaplacian.mixed_unique hs h2 k2
  rw [h3, k3]
  rfl

end Jacobian

/-- **C66** (derivative).  Let the coefficient not depend on the eigenvalue and the shape functions be orthonormal.  If the local problem for `eig_val` is uniquely solvable, then
`jacobian_of_trace_to_flux` returns the directional derivative, at `(lambda_vals, eig_val)` in the direction `(lambda_in, eig)`, of `trace_to_flux` (which returns near that point). -/
theorem C66_derivative (m : Mode) (gesv : Gesv (n_loc_dofs dim nS) 1 ℝ) (hg : GesvSpec gesv) (tau : ℝ) (E : Edge dim nS ℝ) (hfix : FixedCoefficient E) (hO : Orthonormal E) (eig_val : ℝ)
    (hs : EigSolvable E nB tau eig_val) (lambda_in out out' : LocDofs dim (2 * nB) ℝ) (eig : ℝ) (lambda_vals : LocDofs dim (2 * nB) ℝ) :
    ∃ J, jacobian_of_trace_to_flux m gesv tau lambda_in out eig lambda_vals eig_val E = .ok J ∧
      ∃ Φ : ℝ → LocDofs dim (2 * nB) ℝ, (∀ᶠ t in 𝓝 (0 : ℝ), trace_to_flux m gesv tau (lambda_vals + t • lambda_in) out' E (eig_val + t * eig) = .ok (Φ t)) ∧ HasDerivAt Φ J 0 := by
  obtain ⟨q, u, p, w, q', u', p', w', h1, h2, h3⟩ := (C66_computes m gesv hg tau E eig_val lambda_in out eig lambda_vals).1 hs
  have hsol : ∀ t, EigSolvable E nB tau t ↔ MixedSolvable (form E.stat nB) (coupling E.stat eig_val) (-(t • (form E.stat nB).mass0)) tau 1 := fun t => by
    rw [eigSolvable_iff, hfix t eig_val]
  have hsolu : ∀ t g h s q u p w, EigSolution E nB tau t g h s q u p w ↔
      IsMixedSolution (form E.stat nB) (coupling E.stat eig_val) (-(t • (form E.stat nB).mass0)) tau 1 g h 0 s q u p w := fun t g h s q u p w => by
    rw [eigSolution_iff, hfix t eig_val]
  -- the local solutions near that point
  have hex : ∀ t : ℝ, ∃ x : ((Fin dim → Fin nS → ℝ) × (Fin nS → ℝ)) × (Fin dim → Fin nS → ℝ) × (Fin nS → ℝ), EigSolvable E nB tau (eig_val + t * eig) →
      EigSolution E nB tau (eig_val + t * eig) (moments (form E.stat nB) (upper (lambda_vals + t • lambda_in))) (moments (form E.stat nB) (lower (lambda_vals + t • lambda_in))) 0
        x.1.1 x.1.2 x.2.1 x.2.2 := by
    intro t
    by_cases hst : EigSolvable E nB tau (eig_val + t * eig)
    · obtain ⟨a, b, c, d, h, _⟩ := (C65_flux m gesv hg tau E (eig_val + t * eig) (lambda_vals + t • lambda_in) out').1 hst
      exact ⟨((a, b), (c, d)), fun _ => h⟩
    · exact ⟨((0, 0), (0, 0)), fun h => absurd h hst⟩
  choose X hX using hex
  obtain ⟨hev, hder⟩ := mixed_deriv (form E.stat nB) (coupling E.stat eig_val) (form E.stat nB).mass0 tau eig_val eig (upper lambda_vals) (upper lambda_in) (lower lambda_vals) (lower lambda_in)
    ((hsol _).mp hs) (fun t => (X t).1.1) (fun t => (X t).1.2) (fun t => (X t).2.1) (fun t => (X t).2.2) (fun t ht => (hsolu _ _ _ _ _ _ _ _).mp (hX t ((hsol _).mpr ht)))
  have h0 := hX 0 (by rw [zero_mul, add_zero]; exact hs)
  simp only [zero_mul, add_zero, zero_smul] at h0
  obtain ⟨_, e2, _, _⟩ := eig_unique hs h1 h0
  have hd := hder q' u' p' w' (by
    rw [← e2, mass_of E hO, smul_smul]
    exact (hsolu _ _ _ _ _ _ _ _).mp h2)
  refine ⟨_, h3, fun t => fluxes E tau (lambda_vals + t • lambda_in) (X t).1.1 (X t).1.2 (X t).2.1 (X t).2.2, ?_, ?_⟩
  · exact hev.mono fun t ht => to_ok m gesv hg tau E (eig_val + t * eig) ((hsol _).mpr ht) (hX t ((hsol _).mpr ht)) out'
  · have hl : ∀ l dl : LocDofs dim nB ℝ, HasDerivAt (fun t : ℝ => l + t • dl) dl 0 := fun l dl => by
      have := ((hasDerivAt_id (0 : ℝ)).smul_const dl).const_add l
      simpa using this
    have hf1 := flux_deriv (form E.stat nB) tau (hl (lower lambda_vals) (lower lambda_in)) hd.2.2.1 hd.2.2.2
    have hf2 := flux_deriv (form E.stat nB) tau (hl (upper lambda_vals) (upper lambda_in)) hd.1 hd.2.1
    refine hasDerivAt_pi.mpr fun f => hasDerivAt_pi.mpr fun j => ?_
    unfold fluxes
    obtain ⟨k, rfl | rfl⟩ := halves_cases j
    · simp only [offDirichlet_up]
      by_cases hdir : IsDirichlet E.stat f
      · simp only [if_pos hdir]
        exact hasDerivAt_const _ _
      · simp only [if_neg hdir]
        exact hasDerivAt_pi.mp (hasDerivAt_pi.mp hf1 f) k
    · simp only [offDirichlet_lo]
      by_cases hdir : IsDirichletLaplacian E.stat f
      · simp only [if_pos hdir]
        exact hasDerivAt_const _ _
      · simp only [if_neg hdir]
        exact hasDerivAt_pi.mp (hasDerivAt_pi.mp hf2 f) k

/-- **C66** (globally).  Under these conditions on all hyperedges, the global `jacobian_of_trace_to_flux(x, eig, x_val, eig_val)` is the directional derivative of the global
`trace_to_flux` at `(x_val, eig_val)` in the direction `(x, eig)`. -/
theorem C66_global (m : Mode) (gesv : Gesv (n_loc_dofs dim nS) 1 ℝ) (hg : GesvSpec gesv) (tau : ℝ) (E : Nat → Edge dim nS ℝ) (hfix : ∀ e, FixedCoefficient (E e)) (hO : ∀ e, Orthonormal (E e))
    (eig eig_val : ℝ) (G : HyGraph dim (2 * nB)) (nodes : Fin G.n_hyEdges → Fin (2 * dim) → Fin G.n_hyNodes) (hwf : G.WF nodes)
    (hs : ∀ e : Fin G.n_hyEdges, EigSolvable (E e) nB tau eig_val) (old0 vals0 new0 old1 new1 : LocDofs dim (2 * nB) ℝ) (x x_val : Fin (G.n_hyNodes * (2 * nB)) → ℝ) :
    ∃ J : Fin (G.n_hyNodes * (2 * nB)) → ℝ, G.jacobian m (localJacobian m gesv tau E eig eig_val) old0 vals0 new0 (List.ofFn x) (List.ofFn x_val) = .ok (List.ofFn J) ∧
      ∃ Φ : ℝ → Fin (G.n_hyNodes * (2 * nB)) → ℝ,
        (∀ᶠ t in 𝓝 (0 : ℝ), G.mat_vec_multiply m (localOperator m gesv tau E (eig_val + t * eig)) old1 new1 (List.ofFn (x_val + t • x)) = .ok (List.ofFn (Φ t))) ∧ HasDerivAt Φ J 0 := by
  choose J hJ Φ hΦ hd using fun e : Fin G.n_hyEdges => C66_derivative m gesv hg tau (E e) (hfix e) (hO e) eig_val (hs e) (faceValues nodes x e) (fun _ _ => 0) (fun _ _ => 0) eig
    (faceValues nodes x_val e)
  refine ⟨_, HyGraph.C42_jacobian m G nodes hwf (localJacobian m gesv tau E eig eig_val) old0 vals0 new0 x x_val J (fun e => hJ e), fun t => assemble nodes (fun e => Φ e t), ?_, ?_⟩
  · refine (eventually_all.mpr hΦ).mono fun t ht => ?_
    exact HyGraph.mat_vec_eq m G nodes hwf (localOperator m gesv tau E (eig_val + t * eig)) (x_val + t • x) (fun e => Φ e t) (fun e => ht e) old1 new1
  · refine hasDerivAt_pi.mpr fun k => ?_
    unfold assemble
    refine HasDerivAt.fun_sum fun e _ => HasDerivAt.fun_sum fun i _ => HasDerivAt.fun_sum fun j _ => ?_
    by_cases h : dof (nodes e i) j = k
    · simp only [if_pos h]
      exact hasDerivAt_pi.mp (hasDerivAt_pi.mp (hd e) i) j
    · simp only [if_neg h]
      exact hasDerivAt_const _ _

/-! ## C67: eigenpairs -/

section Eigenpairs
variable [Field K] (m : Mode) (gesv : Gesv (n_loc_dofs dim nS) 1 K) (hg : GesvSpec gesv) (tau : K)
  (E : Nat → Edge dim nS K) (G : HyGraph dim (2 * nB)) (nodes : Fin G.n_hyEdges → Fin (2 * dim) → Fin G.n_hyNodes) (hwf : G.WF nodes) (old0 new0 : LocDofs dim (2 * nB) K)

include hg hwf

/-- The local solutions of an eigenpair. -/
theorem eigenpair_local {x : Fin (G.n_hyNodes * (2 * nB)) → K} {eig : K} (h : IsEigenpair m gesv tau E G nodes old0 new0 x eig) :
    (∀ e : Fin G.n_hyEdges, EigSolvable (E e) nB tau eig) ∧ ∃ q u p w, LocalSolutions tau E G nodes x eig q u p w ∧
      ∀ z : Fin (G.n_hyNodes * (2 * nB)) → K, (∀ e : Fin G.n_hyEdges, VanishesOnDirichlet (E e).stat (faceValues nodes z e)) →
        ∑ e : Fin G.n_hyEdges, (∑ f, upper (faceValues nodes z e) f ⬝ᵥ faceFlux (form (E e).stat nB) tau (lower (faceValues nodes x e)) (p e) (w e) f +
          ∑ f, lower (faceValues nodes z e) f ⬝ᵥ faceFlux (form (E e).stat nB) tau (upper (faceValues nodes x e)) (q e) (u e) f) = 0 := by
  obtain ⟨_, hx, hy⟩ := h
  obtain ⟨y, h1, h2⟩ := HyGraph.mat_vec_ok m G nodes hwf _ x old0 new0 hy
  choose hs q u p w h3 h4 using fun e : Fin G.n_hyEdges => of_ok m gesv hg tau (E e) eig (h1 e)
  refine ⟨hs, q, u, p, w, h3, fun z hz => ?_⟩
  have h5 : assemble nodes y = 0 := by
    rw [← List.ofFn_const] at h2
    exact (List.ofFn_injective h2).symm
  have h6 := HyGraph.pairing_assemble nodes y z
  rw [h5] at h6
  simp only [Pi.zero_apply, mul_zero, Finset.sum_const_zero] at h6
  rw [h6]
  refine Finset.sum_congr rfl fun e _ => ?_
  rw [h4 e]
  exact (pair_off (hz e) _ _).symm

/-- Given local solutions of an eigenpair are the ones of the operator; their fluxes are orthogonal to all pairs of traces which vanish where they are prescribed. -/
theorem eigenpair_test {x : Fin (G.n_hyNodes * (2 * nB)) → K} {eig : K} (h : IsEigenpair m gesv tau E G nodes old0 new0 x eig)
    {q : Fin G.n_hyEdges → Fin dim → Fin nS → K} {u : Fin G.n_hyEdges → Fin nS → K} {p : Fin G.n_hyEdges → Fin dim → Fin nS → K} {w : Fin G.n_hyEdges → Fin nS → K}
    (hqu : LocalSolutions tau E G nodes x eig q u p w) (z : Fin (G.n_hyNodes * (2 * nB)) → K) (hz : ∀ e : Fin G.n_hyEdges, VanishesOnDirichlet (E e).stat (faceValues nodes z e)) :
    ∑ e : Fin G.n_hyEdges, ∑ f, upper (faceValues nodes z e) f ⬝ᵥ faceFlux (form (E e).stat nB) tau (lower (faceValues nodes x e)) (p e) (w e) f = 0 ∧
    ∑ e : Fin G.n_hyEdges, ∑ f, lower (faceValues nodes z e) f ⬝ᵥ faceFlux (form (E e).stat nB) tau (upper (faceValues nodes x e)) (q e) (u e) f = 0 := by
  obtain ⟨hs, q', u', p', w', h1, h2⟩ := eigenpair_local m gesv hg tau E G nodes hwf old0 new0 h
  obtain rfl : q = q' := funext fun e => (eig_unique (hs e) (hqu e) (h1 e)).1
  obtain rfl : u = u' := funext fun e => (eig_unique (hs e) (hqu e) (h1 e)).2.1
  obtain rfl : p = p' := funext fun e => (eig_unique (hs e) (hqu e) (h1 e)).2.2.1
  obtain rfl : w = w' := funext fun e => (eig_unique (hs e) (hqu e) (h1 e)).2.2.2
  have key : ∀ z1 z2 : Fin G.n_hyNodes → Fin nB → K, (∀ e : Fin G.n_hyEdges, VanishesOnDirichlet (E e).stat (halves (fun f => z1 (nodes e f)) (fun f => z2 (nodes e f)))) →
      ∑ e : Fin G.n_hyEdges, (∑ f, z1 (nodes e f) ⬝ᵥ faceFlux (form (E e).stat nB) tau (lower (faceValues nodes x e)) (p e) (w e) f +
          ∑ f, z2 (nodes e f) ⬝ᵥ faceFlux (form (E e).stat nB) tau (upper (faceValues nodes x e)) (q e) (u e) f) = 0 := by
    intro z1 z2 hv
    obtain ⟨Z, hZ⟩ := exists_vector nodes z1 z2
    have := h2 Z (fun e => by rw [hZ e]; exact hv e)
    simpa only [hZ, upper_halves, lower_halves] using this
  constructor
  · have := key (fun v j => z (dof v (up j))) 0 (fun e f => ⟨fun hf j => by rw [upper_halves]; exact (hz e f).1 hf j, fun _ j => by rw [lower_halves]; rfl⟩)
    simp only [Pi.zero_apply, zero_dotProduct, Finset.sum_const_zero, add_zero] at this
    exact this
  · have := key 0 (fun v j => z (dof v (lo j))) (fun e f => ⟨fun _ j => by rw [upper_halves]; rfl, fun hf j => by rw [lower_halves]; exact (hz e f).2 hf j⟩)
    simp only [Pi.zero_apply, zero_dotProduct, Finset.sum_const_zero, zero_add] at this
    exact this

variable [LinearOrder K] [IsStrictOrderedRing K] (hE : ∀ e, FormLaws (form (E e).stat nB))

include hE

/-- **C67** (Rayleigh quotient).  The eigenvalue times the L2 norm (squared) of the eigenfunction `u`, composed of the local solutions, is the norm of its Laplacian `w`, weighted by `b`. -/
theorem C67_rayleigh {x : Fin (G.n_hyNodes * (2 * nB)) → K} {eig : K} (h : IsEigenpair m gesv tau E G nodes old0 new0 x eig)
    {q : Fin G.n_hyEdges → Fin dim → Fin nS → K} {u : Fin G.n_hyEdges → Fin nS → K} {p : Fin G.n_hyEdges → Fin dim → Fin nS → K} {w : Fin G.n_hyEdges → Fin nS → K}
    (hqu : LocalSolutions tau E G nodes x eig q u p w) :
    eig * ∑ e : Fin G.n_hyEdges, u e ⬝ᵥ (form (E e).stat nB).mass0 *ᵥ u e = ∑ e : Fin G.n_hyEdges, w e ⬝ᵥ coupling (E e).stat eig *ᵥ w e := by
  obtain ⟨h1, h2⟩ := eigenpair_test m gesv hg tau E G nodes hwf old0 new0 h hqu x h.2.1
  rw [Finset.sum_congr rfl fun (e : Fin G.n_hyEdges) _ => (pairing (E e) tau (hE e) (hqu e) (hqu e)).1, Finset.sum_sub_distrib, ← Finset.mul_sum] at h1
  rw [Finset.sum_congr rfl fun (e : Fin G.n_hyEdges) _ => (pairing (E e) tau (hE e) (hqu e) (hqu e)).2, Finset.sum_sub_distrib] at h2
  linear_combination h1 - h2

/-- **C67** (orthogonality).  If the coefficients are symmetric and do not depend on the eigenvalue, then for eigenfunctions (composed of the local solutions) for different eigenvalues, the unknowns `u` are
orthogonal in L2, and the unknowns `w` are orthogonal in L2 weighted by `b`. -/
theorem C67_orthogonal (hfix : ∀ e, FixedCoefficient (E e)) {x x' : Fin (G.n_hyNodes * (2 * nB)) → K} {eig eig' : K} (hB : ∀ e, (coupling (E e).stat eig)ᵀ = coupling (E e).stat eig) (hne : eig ≠ eig')
    (h : IsEigenpair m gesv tau E G nodes old0 new0 x eig) (h' : IsEigenpair m gesv tau E G nodes old0 new0 x' eig')
    {q q' : Fin G.n_hyEdges → Fin dim → Fin nS → K} {u u' : Fin G.n_hyEdges → Fin nS → K} {p p' : Fin G.n_hyEdges → Fin dim → Fin nS → K} {w w' : Fin G.n_hyEdges → Fin nS → K}
    (hqu : LocalSolutions tau E G nodes x eig q u p w) (hqu' : LocalSolutions tau E G nodes x' eig' q' u' p' w') :
    ∑ e : Fin G.n_hyEdges, u e ⬝ᵥ (form (E e).stat nB).mass0 *ᵥ u' e = 0 ∧ ∑ e : Fin G.n_hyEdges, w e ⬝ᵥ coupling (E e).stat eig *ᵥ w' e = 0 := by
  obtain ⟨h1, h2⟩ := eigenpair_test m gesv hg tau E G nodes hwf old0 new0 h hqu x' h'.2.1
  obtain ⟨k1, k2⟩ := eigenpair_test m gesv hg tau E G nodes hwf old0 new0 h' hqu' x h.2.1
  rw [Finset.sum_congr rfl fun (e : Fin G.n_hyEdges) _ => (pairing (E e) tau (hE e) (hqu e) (hqu' e)).1, Finset.sum_sub_distrib, ← Finset.mul_sum] at h1
  rw [Finset.sum_congr rfl fun (e : Fin G.n_hyEdges) _ => (pairing (E e) tau (hE e) (hqu e) (hqu' e)).2, Finset.sum_sub_distrib] at h2
  rw [Finset.sum_congr rfl fun (e : Fin G.n_hyEdges) _ => (pairing (E e) tau (hE e) (hqu' e) (hqu e)).1, Finset.sum_sub_distrib, ← Finset.mul_sum] at k1
  rw [Finset.sum_congr rfl fun (e : Fin G.n_hyEdges) _ => (pairing (E e) tau (hE e) (hqu' e) (hqu e)).2, Finset.sum_sub_distrib] at k2
  have e1 : ∑ e : Fin G.n_hyEdges, u' e ⬝ᵥ (form (E e).stat nB).mass0 *ᵥ u e = ∑ e : Fin G.n_hyEdges, u e ⬝ᵥ (form (E e).stat nB).mass0 *ᵥ u' e :=
    Finset.sum_congr rfl fun e _ => symm_dot (hE e).mass0_symm _ _
  have e2 : ∑ e : Fin G.n_hyEdges, w' e ⬝ᵥ coupling (E e).stat eig *ᵥ w e = ∑ e : Fin G.n_hyEdges, w e ⬝ᵥ coupling (E e).stat eig *ᵥ w' e :=
    Finset.sum_congr rfl fun e _ => symm_dot (hB e) _ _
  have e3 : ∑ e : Fin G.n_hyEdges, w e ⬝ᵥ coupling (E e).stat eig' *ᵥ w' e = ∑ e : Fin G.n_hyEdges, w e ⬝ᵥ coupling (E e).stat eig *ᵥ w' e :=
    Finset.sum_congr rfl fun e _ => by rw [hfix e eig' eig]
  rw [e1] at h1
  rw [e2] at h2
  rw [e3] at k2
  have h5 : (eig - eig') * ∑ e : Fin G.n_hyEdges, u e ⬝ᵥ (form (E e).stat nB).mass0 *ᵥ u' e = 0 := by linear_combination h1 + h2 - k1 - k2
  have h6 := (mul_eq_zero.mp h5).resolve_left (sub_ne_zero.mpr hne)
  refine ⟨h6, ?_⟩
  rw [h6, mul_zero] at h1 k1
  have h7 : ∑ e : Fin G.n_hyEdges, w e ⬝ᵥ coupling (E e).stat eig *ᵥ w' e = 0 := by linear_combination h2 - k1
  exact h7

variable (ht : 0 < tau) (D : Fin G.n_hyNodes → Prop)
  (hD : ∀ (e : Fin G.n_hyEdges) (f : Fin (2 * dim)), (E e).node_descriptor f ∈ (E e).dirichlet_nodes ↔ D (nodes e f))
  (hD' : ∀ (e : Fin G.n_hyEdges) (f : Fin (2 * dim)), (E e).node_descriptor f ∈ (E e).dirichlet_laplacian_nodes ↔ D (nodes e f))

include ht hD hD'

/-- **C67** (eigenvalues are not negative).  Let `u` and the Laplacian be prescribed at the same hypernodes, and let each hypernode belong to a hyperedge.  For `tau > 0` and a positive coefficient, eigenvalues
are not negative. -/
theorem C67_nonneg (hcov : ∀ v, ∃ e f, nodes e f = v) {x : Fin (G.n_hyNodes * (2 * nB)) → K} {eig : K} (hB : ∀ e v, v ≠ 0 → 0 < v ⬝ᵥ coupling (E e).stat eig *ᵥ v)
    (h : IsEigenpair m gesv tau E G nodes old0 new0 x eig) : 0 ≤ eig := by
  by_contra hneg
  rw [not_le] at hneg
  obtain ⟨hs, q, u, p, w, h1, _⟩ := eigenpair_local m gesv hg tau E G nodes hwf old0 new0 h
  have h4 := C67_rayleigh m gesv hg tau E G nodes hwf old0 new0 hE h h1
  have hm : ∀ e : Fin G.n_hyEdges, 0 ≤ u e ⬝ᵥ (form (E e).stat nB).mass0 *ᵥ u e := fun e => quad_nonneg (hE e).mass0_pos _
  have hw : ∀ e : Fin G.n_hyEdges, 0 ≤ w e ⬝ᵥ coupling (E e).stat eig *ᵥ w e := fun e => quad_nonneg (hB e) _
  have hM := Finset.sum_nonneg fun e (_ : e ∈ Finset.univ) => hm e
  have hW := Finset.sum_nonneg fun e (_ : e ∈ Finset.univ) => hw e
  have hM0 : ∑ e : Fin G.n_hyEdges, u e ⬝ᵥ (form (E e).stat nB).mass0 *ᵥ u e = 0 := by
    refine le_antisymm ?_ hM
    by_contra hc
    rw [not_le] at hc
    have := mul_neg_of_neg_of_pos hneg hc
    linarith
  rw [hM0, mul_zero] at h4
  have hu0 : ∀ e, u e = 0 := fun e => quad_zero (hE e).mass0_pos ((Finset.sum_eq_zero_iff_of_nonneg fun e _ => hm e).mp hM0 e (Finset.mem_univ e))
  have hw0 : ∀ e, w e = 0 := fun e => quad_zero (hB e) ((Finset.sum_eq_zero_iff_of_nonneg fun e _ => hw e).mp h4.symm e (Finset.mem_univ e))
  -- pairing with the exchanged traces
  obtain ⟨Z, hZ⟩ := exists_vector nodes (fun v j => x (dof v (lo j))) (fun v j => x (dof v (up j)))
  have hZv : ∀ e : Fin G.n_hyEdges, VanishesOnDirichlet (E e).stat (faceValues nodes Z e) := fun e f => by
    rw [hZ e]
    refine ⟨fun hf j => ?_, fun hf j => ?_⟩
    · rw [upper_halves]; exact (h.2.1 e f).2 ((hD' e f).mpr ((hD e f).mp hf)) j
    · rw [lower_halves]; exact (h.2.1 e f).1 ((hD e f).mpr ((hD' e f).mp hf)) j
  obtain ⟨t1, t2⟩ := eigenpair_test m gesv hg tau E G nodes hwf old0 new0 h h1 Z hZv
  have a1 : ∀ e : Fin G.n_hyEdges, ∑ f, upper (faceValues nodes Z e) f ⬝ᵥ faceFlux (form (E e).stat nB) tau (lower (faceValues nodes x e)) (p e) (w e) f =
      -bilin (form (E e).stat nB) tau (p e) (w e) (lower (faceValues nodes x e)) (p e) (w e) (lower (faceValues nodes x e)) := fun e => by
    rw [hZ e, upper_halves]
    have := flux_form (hE e) one_ne_zero (h1 e).2 (h1 e).2
    simp only [hu0 e, mulVec_zero, smul_zero, add_zero, dotProduct_zero, zero_mul, sub_zero, mul_zero] at this
    exact this
  have a2 : ∀ e : Fin G.n_hyEdges, ∑ f, lower (faceValues nodes Z e) f ⬝ᵥ faceFlux (form (E e).stat nB) tau (upper (faceValues nodes x e)) (q e) (u e) f =
      -bilin (form (E e).stat nB) tau (q e) (u e) (upper (faceValues nodes x e)) (q e) (u e) (upper (faceValues nodes x e)) := fun e => by
    rw [hZ e, lower_halves]
    have := flux_form (hE e) one_ne_zero (h1 e).1 (h1 e).1
    simp only [hw0 e, mulVec_zero, dotProduct_zero, zero_mul, sub_zero, mul_zero, add_zero] at this
    exact this
  rw [Finset.sum_congr rfl fun e _ => a1 e] at t1
  rw [Finset.sum_congr rfl fun e _ => a2 e] at t2
  refine h.1 (funext fun k => ?_)
  obtain ⟨v, j, rfl⟩ := HyGraph.dof_surj k
  obtain ⟨e, f, rfl⟩ := hcov v
  have b1 := (Finset.sum_eq_zero_iff_of_nonpos (fun e _ => by simpa using bilin_nonneg (hE e) ht.le (p e) (w e) (lower (faceValues nodes x e)))).mp t1 e (Finset.mem_univ e)
  have b2 := (Finset.sum_eq_zero_iff_of_nonpos (fun e _ => by simpa using bilin_nonneg (hE e) ht.le (q e) (u e) (upper (faceValues nodes x e)))).mp t2 e (Finset.mem_univ e)
  rw [neg_eq_zero] at b1 b2
  obtain ⟨i, rfl | rfl⟩ := halves_cases j
  · have htr := bilin_trace_zero (hE e) ht b2 f
    unfold IsTrace at htr
    rw [hu0 e, mulVec_zero] at htr
    exact (mul_eq_zero.mp (congrFun htr i)).resolve_left ((hE e).area_pos f).ne'
  · have htr := bilin_trace_zero (hE e) ht b1 f
    unfold IsTrace at htr
    rw [hw0 e, mulVec_zero] at htr
    exact (mul_eq_zero.mp (congrFun htr i)).resolve_left ((hE e).area_pos f).ne'

/-- **C67** (positive eigenvalues).  If moreover each hypernode is connected to one where the unknowns are prescribed, by a chain of hyperedges, then eigenvalues are positive. -/
theorem C67_pos (hcov : ∀ v, ∃ e f, nodes e f = v) (hcon : Anchored nodes D) (hR : ∀ e, Rigid (form (E e).stat nB)) {x : Fin (G.n_hyNodes * (2 * nB)) → K} {eig : K}
    (hB : ∀ e v, v ≠ 0 → 0 < v ⬝ᵥ coupling (E e).stat eig *ᵥ v) (h : IsEigenpair m gesv tau E G nodes old0 new0 x eig) : 0 < eig := by
  refine lt_of_le_of_ne (C67_nonneg m gesv hg tau E G nodes hwf old0 new0 hE ht D hD hD' hcov hB h) fun h0 => ?_
  subst h0
  have hloc : localOperator m gesv tau E 0 = Bilaplacian.localOperator (nB := nB) m gesv tau (fun e => (E e).stat) 0 := by
    funext e lambda out
    exact C65_zero m gesv hg tau (E e) lambda out
  obtain ⟨F, A, _, hA, _⟩ := Bilaplacian.operator_exists m gesv hg tau ht (fun e => (E e).stat) 0 hE G nodes hwf old0 new0
  obtain ⟨R, _, y, ⟨hy1, hy2⟩, hy3⟩ := Bilaplacian.C61_unique m gesv hg tau ht (fun e => (E e).stat) 0 hE G nodes hwf old0 new0 hR D hD hD' hcon
  have h1 := h.2.2
  rw [hloc, hA, ← List.ofFn_const] at h1
  have h2 : A x = 0 := List.ofFn_injective (Res.ok.inj h1)
  have hv : HyGraph.VanishesAt D x := by
    intro v hv j
    obtain ⟨e, f, rfl⟩ := hcov v
    obtain ⟨i, rfl | rfl⟩ := halves_cases j
    · exact (h.2.1 e f).1 ((hD e f).mpr hv) i
    · exact (h.2.1 e f).2 ((hD' e f).mpr hv) i
  have h3 := hy3 (y + x) ⟨fun v hv' j => by rw [Pi.add_apply, hy1 v hv' j, hv v hv' j, add_zero], by
    rw [hA, map_add, h2, add_zero, ← hA]
    exact hy2⟩
  exact h.1 (by simpa using h3)

end Eigenpairs

/-! ## Concrete instances -/

namespace Example

open HyGraph.Example
open DiffusionEigs.Example (interval interval_laws interval_solution interval_flux path_cov)

section
variable [Field K]

/-- The unit interval with the constants as shape functions; `b eig` is the inverse of the coefficient. -/
def beam (b : K → K) (dir : List Nat) : Edge 1 1 K where
  stat := { toEdge := (interval b dir).toEdge, bdr_phifunc_laplace := fun _ _ _ => 0, bdrUni_psifunc_laplace := fun _ _ _ => 0, dirichlet_laplacian_nodes := dir }
  area := 1

theorem beam_form (b : K → K) (dir : List Nat) : form (beam b dir).stat 1 = Diffusion.form (interval (fun _ => 1) dir).toEdge 1 0 := rfl

theorem beam_laws [LinearOrder K] [IsStrictOrderedRing K] (b : K → K) (dir : List Nat) : FormLaws (form (beam b dir).stat 1) := interval_laws (fun _ => 1) dir 0 one_pos

theorem beam_orthonormal (b : K → K) (dir : List Nat) : Orthonormal (beam b dir) := fun i j => by
  rw [if_pos (Subsingleton.elim i j)]
  rfl

theorem beam_fixed (dir : List Nat) : FixedCoefficient (beam (fun _ : K => 1) dir) := fun _ _ => rfl

theorem beam_symm (b : K → K) (dir : List Nat) (t : K) : (coupling (beam b dir).stat t)ᵀ = coupling (beam b dir).stat t := by
  ext i j
  rw [Subsingleton.elim i j]
  rfl

theorem beam_coupling_pos [LinearOrder K] [IsStrictOrderedRing K] (b : K → K) (dir : List Nat) (t : K) (hb : 0 < b t) (v : Fin 1 → K) (hv : v ≠ 0) :
    0 < v ⬝ᵥ coupling (beam b dir).stat t *ᵥ v := by
  have : v 0 ≠ 0 := fun h => hv (funext fun i => by rw [Subsingleton.elim i 0]; exact h)
  have h2 : v ⬝ᵥ coupling (beam b dir).stat t *ᵥ v = b t * (v 0 * v 0) := by
    simp [dotProduct, mulVec, coupling, beam, interval]; ring
  rw [h2]
  exact mul_pos hb (mul_self_pos.mpr this)

theorem beam_solution (b : K → K) (dir : List Nat) (tau eig : K) (lambda : LocDofs 1 (2 * 1) K) (q : Fin 1 → Fin 1 → K) (u : Fin 1 → K) (p : Fin 1 → Fin 1 → K) (w : Fin 1 → K) :
    EigSolution (beam b dir) 1 tau eig (moments (form (beam b dir).stat 1) (upper lambda)) (moments (form (beam b dir).stat 1) (lower lambda)) 0 q u p w ↔
      (q 0 0 = lambda 0 0 - lambda 1 0 ∧ 2 * tau * u 0 = tau * (lambda 0 0 + lambda 1 0) + b eig * w 0) ∧
      (p 0 0 = lambda 0 1 - lambda 1 1 ∧ 2 * tau * w 0 = tau * (lambda 0 1 + lambda 1 1) + eig * u 0) := by
  have h1 := interval_solution (fun _ => 1) dir tau 0 (upper lambda) (b eig * w 0) q u
  have h2 := interval_solution (fun _ => 1) dir tau 0 (lower lambda) (eig * u 0) p w
  rw [neg_zero, one_mul, sub_zero] at h1 h2
  have e1 : coupling (beam b dir).stat eig *ᵥ w = fun _ => b eig * w 0 := by
    funext i
    simp [coupling, beam, interval, mulVec, dotProduct]
  have e2 : eig • ((form (beam b dir).stat 1).mass0 *ᵥ u) + 0 = fun _ => eig * u 0 := by
    funext i
    simp [form, beam, interval, mulVec, dotProduct]
  unfold EigSolution
  rw [e1, e2]
  exact and_congr h1 h2

theorem beam_solvable (b : K → K) (dir : List Nat) (tau eig : K) (he : 4 * (tau * tau) ≠ b eig * eig) (ht : (2 : K) * tau ≠ 0) : EigSolvable (beam b dir) 1 tau eig := by
  intro q u p w h
  have h0 : (0 : Fin (2 * 1) → Fin 1 → K) = moments (form (beam b dir).stat 1) (upper (0 : LocDofs 1 (2 * 1) K)) := by funext f; exact (mulVec_zero _).symm
  have h0' : (0 : Fin (2 * 1) → Fin 1 → K) = moments (form (beam b dir).stat 1) (lower (0 : LocDofs 1 (2 * 1) K)) := by funext f; exact (mulVec_zero _).symm
  have h1 : EigSolution (beam b dir) 1 tau eig (moments (form (beam b dir).stat 1) (upper (0 : LocDofs 1 (2 * 1) K))) (moments (form (beam b dir).stat 1) (lower (0 : LocDofs 1 (2 * 1) K))) 0 q u p w := by
    rw [← h0, ← h0']; exact h
  obtain ⟨⟨a1, a2⟩, a3, a4⟩ := (beam_solution b dir tau eig 0 q u p w).mp h1
  simp only [Pi.zero_apply, sub_self, add_zero, mul_zero, zero_add] at a1 a2 a3 a4
  have hw : w 0 = 0 := by
    have : (4 * (tau * tau) - b eig * eig) * w 0 = 0 := by linear_combination 2 * tau * a4 + eig * a2
    exact (mul_eq_zero.mp this).resolve_left (sub_ne_zero.mpr he)
  rw [hw, mul_zero] at a2
  have hu := (mul_eq_zero.mp a2).resolve_left ht
  have h1 : ∀ d : Fin 1, d = 0 := fun d => Subsingleton.elim _ _
  exact ⟨funext fun d => funext fun i => by rw [h1 d, h1 i]; exact a1, funext fun i => by rw [h1 i]; exact hu, funext fun d => funext fun i => by rw [h1 d, h1 i]; exact a3,
    funext fun i => by rw [h1 i]; exact hw⟩

/-- What `trace_to_flux` returns for an interval, given a local solution. -/
theorem beam_trace_to_flux (m : Mode) {gesv : Gesv (n_loc_dofs 1 1) 1 K} (hg : GesvSpec gesv) (b : K → K) (dir : List Nat) (tau eig : K) (he : 4 * (tau * tau) ≠ b eig * eig) (ht : (2 : K) * tau ≠ 0)
    (lambda out : LocDofs 1 (2 * 1) K) (u w : K) (h1 : 2 * tau * u = tau * (lambda 0 0 + lambda 1 0) + b eig * w) (h2 : 2 * tau * w = tau * (lambda 0 1 + lambda 1 1) + eig * u) :
    trace_to_flux m gesv tau lambda out (beam b dir) eig = .ok (fun f j => if f.1 ∈ dir then 0 else
      if j.1 = 0 then (if f.1 = 0 then -(lambda 0 1 - lambda 1 1) else lambda 0 1 - lambda 1 1) + tau * w - tau * lambda f 1
      else (if f.1 = 0 then -(lambda 0 0 - lambda 1 0) else lambda 0 0 - lambda 1 0) + tau * u - tau * lambda f 0) := by
  have h := (beam_solution b dir tau eig lambda (fun _ _ => lambda 0 0 - lambda 1 0) (fun _ => u) (fun _ _ => lambda 0 1 - lambda 1 1) (fun _ => w)).mpr ⟨⟨rfl, h1⟩, rfl, h2⟩
  rw [to_ok m gesv hg tau (beam b dir) eig (beam_solvable b dir tau eig he ht) h out]
  refine congrArg Res.ok (funext fun f => funext fun j => ?_)
  unfold fluxes
  obtain ⟨k, rfl | rfl⟩ := halves_cases j
  · rw [offDirichlet_up, beam_form, interval_flux, Subsingleton.elim k 0]
    by_cases hd : f.1 ∈ dir
    · rw [if_pos hd]; exact if_pos hd
    · rw [if_neg hd]; exact (if_neg hd).trans (if_pos (by decide : ((up (0 : Fin 1)) : Nat) = 0)).symm
  · rw [offDirichlet_lo, beam_form, interval_flux, Subsingleton.elim k 0]
    by_cases hd : f.1 ∈ dir
    · rw [if_pos hd]; exact if_pos hd
    · rw [if_neg hd]; exact (if_neg hd).trans (if_neg (by decide : ¬ ((lo (0 : Fin 1)) : Nat) = 0)).symm

end

/-- A path of two intervals, two degrees of freedom per node. -/
def path2 : HyGraph 1 (2 * 1) := ⟨2, 3, path.hyNodes⟩

theorem path2_wf : path2.WF pathNodes := ⟨path_wf.1, by decide⟩

/-- Both ends are prescribed. -/
def clamped (e : Nat) : Edge 1 1 ℚ := beam (fun _ => 1) (if e = 0 then [0] else [1])

theorem clamped_vanishes (x : Fin (path2.n_hyNodes * (2 * 1)) → ℚ) (hx : ∀ k, k.1 ≠ 2 → k.1 ≠ 3 → x k = 0) (e : Fin path2.n_hyEdges) :
    VanishesOnDirichlet (clamped e).stat (faceValues pathNodes x e) := by
  have key : ∀ f : Fin (2 * 1), f.1 ∈ (if e.1 = 0 then [0] else [1]) → ∀ j : Fin (2 * 1), faceValues pathNodes x e f j = 0 := by
    intro f hf j
    refine hx _ ?_ ?_
    · revert e f j; decide
    · revert e f j; decide
  intro f
  exact ⟨fun hf j => key f hf _, fun hf j => key f hf _⟩

/-- For `tau = 1`, the hat functions (2 for `u`, 3 for `w`) are an eigenvector for the eigenvalue 9/4. -/
theorem clamped_eigenpair : IsEigenpair .debug (cramerSolve _ _ ℚ) 1 clamped path2 pathNodes (fun _ _ => 7) (fun _ _ => 8) (fun k => if k.1 = 2 then 2 else if k.1 = 3 then 3 else 0) (9 / 4) := by
  refine ⟨fun h => ?_, fun e => clamped_vanishes _ (fun k h2 h3 => by rw [if_neg h2, if_neg h3]) e, ?_⟩
  · have := congrFun h ⟨2, by decide⟩
    simp at this
  · rw [HyGraph.mat_vec_eq .debug path2 pathNodes path2_wf _ _ _ (fun e => beam_trace_to_flux .debug (C44_example _ _ ℚ) (fun _ => 1) _ 1 (9 / 4) (by norm_num) (by norm_num) _ _ 4 6
      (by revert e; decide +kernel) (by revert e; decide +kernel))]
    refine congrArg Res.ok ?_
    rw [← List.ofFn_const]
    refine congrArg List.ofFn ?_
    funext k
    revert k
    decide +kernel

theorem clamped_dirichlet (e : Fin path2.n_hyEdges) (f : Fin (2 * 1)) :
    (clamped e).node_descriptor f ∈ (clamped e).dirichlet_nodes ↔ pathNodes e f = ⟨0, by decide⟩ ∨ pathNodes e f = ⟨2, by decide⟩ := by
  show f.1 ∈ (if e.1 = 0 then [0] else [1]) ↔ _
  have key : ∀ (e : Fin 2) (f : Fin 2), f.1 ∈ (if e.1 = 0 then [0] else [1]) ↔ e.1 + f.1 = 0 ∨ e.1 + f.1 = 2 := by decide
  exact (key e f).trans (or_congr ⟨fun h => Fin.ext h, fun h => congrArg Fin.val h⟩ ⟨fun h => Fin.ext h, fun h => congrArg Fin.val h⟩)

/-- The hypotheses of C67 can be met: the eigenvalue 9/4 is positive, as it must be. -/
example : (0 : ℚ) ≤ 9 / 4 := C67_nonneg .debug _ (C44_example _ _ ℚ) 1 clamped path2 pathNodes path2_wf _ _ (fun _ => beam_laws _ _) one_pos
  (fun v => v = ⟨0, by decide⟩ ∨ v = ⟨2, by decide⟩) clamped_dirichlet clamped_dirichlet path_cov (fun _ v hv => beam_coupling_pos _ _ _ one_pos v hv) clamped_eigenpair

theorem beam_rigid (b : ℚ → ℚ) (dir : List Nat) : Rigid (form (beam b dir).stat 1) := fun u f _ h => by
  funext i
  have := congrFun h 0
  rw [Subsingleton.elim i 0]
  simpa [form, beam, interval, mulVec, dotProduct] using this

example : (0 : ℚ) < 9 / 4 := C67_pos .debug _ (C44_example _ _ ℚ) 1 clamped path2 pathNodes path2_wf _ _ (fun _ => beam_laws _ _) one_pos
  (fun v => v = ⟨0, by decide⟩ ∨ v = ⟨2, by decide⟩) clamped_dirichlet clamped_dirichlet path_cov
  (fun v => by
    have h1 : Adjacent pathNodes ⟨0, by decide⟩ ⟨1, by decide⟩ := ⟨⟨0, by decide⟩, 0, 1, rfl, rfl⟩
    match v with
    | ⟨0, _⟩ => exact ⟨⟨0, by decide⟩, .inl rfl, .refl⟩
    | ⟨1, _⟩ => exact ⟨⟨0, by decide⟩, .inl rfl, .single h1⟩
    | ⟨2, _⟩ => exact ⟨⟨2, by decide⟩, .inr rfl, .refl⟩)
  (fun _ => beam_rigid _ _) (fun _ v hv => beam_coupling_pos _ _ _ one_pos v hv) clamped_eigenpair

/-- The path without prescribed values. -/
def free (_ : Nat) : Edge 1 1 ℚ := beam (fun _ => 1) []

theorem free_vanishes (x : LocDofs 1 (2 * 1) ℚ) (e : Nat) : VanishesOnDirichlet (free e).stat x := fun _ => ⟨fun h => absurd h List.not_mem_nil, fun h => absurd h List.not_mem_nil⟩

/-- On it, odd functions are an eigenvector for the eigenvalue 9/4, ... -/
theorem free_eigenpair : IsEigenpair .debug (cramerSolve _ _ ℚ) 1 free path2 pathNodes (fun _ _ => 7) (fun _ _ => 8)
    (fun k => if k.1 = 0 then 2 else if k.1 = 1 then 3 else if k.1 = 4 then -2 else if k.1 = 5 then -3 else 0) (9 / 4) := by
  refine ⟨fun h => ?_, fun e => free_vanishes _ _, ?_⟩
  · have := congrFun h ⟨0, by decide⟩
    simp at this
  · rw [HyGraph.mat_vec_eq .debug path2 pathNodes path2_wf _ _ _ (fun e => beam_trace_to_flux .debug (C44_example _ _ ℚ) (fun _ => 1) _ 1 (9 / 4) (by norm_num) (by norm_num) _ _
      (if e.1 = 0 then 4 else -4) (if e.1 = 0 then 6 else -6) (by revert e; decide +kernel) (by revert e; decide +kernel))]
    refine congrArg Res.ok ?_
    rw [← List.ofFn_const]
    refine congrArg List.ofFn ?_
    funext k
    revert k
    decide +kernel

/-- ... and the constant one for `u`, with `w = 0`, for the eigenvalue 0. -/
theorem free_constant : IsEigenpair .debug (cramerSolve _ _ ℚ) 1 free path2 pathNodes (fun _ _ => 7) (fun _ _ => 8) (fun k => if k.1 % 2 = 0 then 1 else 0) 0 := by
  refine ⟨fun h => ?_, fun e => free_vanishes _ _, ?_⟩
  · have := congrFun h ⟨0, by decide⟩
    simp at this
  · rw [HyGraph.mat_vec_eq .debug path2 pathNodes path2_wf _ _ _ (fun e => beam_trace_to_flux .debug (C44_example _ _ ℚ) (fun _ => 1) _ 1 0 (by norm_num) (by norm_num) _ _ 1 0
      (by revert e; decide +kernel) (by revert e; decide +kernel))]
    refine congrArg Res.ok ?_
    rw [← List.ofFn_const]
    refine congrArg List.ofFn ?_
    funext k
    revert k
    decide +kernel

/-- The eigenfunctions are 4, -4 and 1, 1 on the two intervals: orthogonal, as they must be. -/
example := C67_orthogonal .debug _ (C44_example _ _ ℚ) 1 free path2 pathNodes path2_wf _ _ (fun _ => beam_laws _ _) (fun _ => beam_fixed []) (fun _ => beam_symm _ _ _) (by norm_num)
  free_eigenpair free_constant (q := fun _ _ _ => 2) (u := fun e _ => if e.1 = 0 then 4 else -4) (p := fun _ _ _ => 3) (w := fun e _ => if e.1 = 0 then 6 else -6)
  (q' := fun _ _ _ => 0) (u' := fun _ _ => 1) (p' := fun _ _ _ => 0) (w' := fun _ _ => 0)
  (fun e => (beam_solution _ _ _ _ _ _ _ _ _).mpr (by revert e; decide +kernel)) (fun e => (beam_solution _ _ _ _ _ _ _ _ _).mpr (by revert e; decide +kernel))

/-- The hypotheses of C66 can be met, at an eigenvalue which is not zero. -/
example := C66_global (nB := 1) .debug _ (C44_example _ _ ℝ) 1 (fun _ => beam (fun _ => 1) [1]) (fun _ => beam_fixed _) (fun _ => beam_orthonormal _ _) 3 (1 / 2) path2 pathNodes path2_wf
  (fun _ => beam_solvable _ _ _ _ (by norm_num) (by norm_num)) (fun _ _ => 7) (fun _ _ => 8) (fun _ _ => 9) (fun _ _ => 7) (fun _ _ => 8) (fun k => k.1) (fun k => 1 - k.1)

example := C66_mass (nB := 1) .debug _ (C44_example _ _ ℚ) 1 (clamped 0) (beam_orthonormal _ _) ((eigSolvable_zero _ _).mp (beam_solvable _ _ _ _ (by norm_num) (by norm_num)))

/-- The hypotheses of C65 can be met. -/
example := C65_solvable (nB := 1) .debug _ (C44_example _ _ ℚ) 1 (clamped 0) (-3) (beam_laws _ _) one_pos (by norm_num) (fun v => quad_nonneg (fun v hv => beam_coupling_pos _ _ _ one_pos v hv) v)

example (y : LocDofs 1 (2 * 1) ℚ) (hy : trace_to_flux .debug (cramerSolve _ _ ℚ) 1 (fun f _ => f.1) (fun _ _ => 7) (clamped 0) (1 / 2) = .ok y) :=
  C65_symmetric .debug (cramerSolve _ _ ℚ) (C44_example _ _ ℚ) 1 (clamped 0) (1 / 2) (beam_laws _ _) (beam_symm _ _ _)
    (fun f => ⟨fun hf j => by have h : f.1 = 0 := List.mem_singleton.mp hf; simp [upper, h], fun hf j => by have h : f.1 = 0 := List.mem_singleton.mp hf; simp [lower, h]⟩)
    (fun f => ⟨fun hf j => by have h : f.1 = 0 := List.mem_singleton.mp hf; simp [upper, h], fun hf j => by have h : f.1 = 0 := List.mem_singleton.mp hf; simp [lower, h]⟩) hy hy

end Example

/-- **C65** (the initial trace of the Laplacian is not its projection).  For an initial Laplacian with integral 1 with the (only) shape function 0 of a face, the coefficient computed is that of a shape function with
the number 1, which does not exist. -/
theorem C65_initial_not_projection : ∃ (E : Edge 1 1 ℚ) (lambda : LocDofs 1 (2 * 1) ℚ), (∀ (f j : Nat), E.bdrUni_psifunc_laplace 0 j f = if j = 0 then 1 else 0) ∧
    make_initial 0 E 0 = .ok lambda ∧ ∀ f, lambda f 1 ≠ E.bdrUni_psifunc_laplace 0 0 f := by
  let E : Edge 1 1 ℚ := { Example.beam (fun _ => 1) [] with bdrUni_psifunc_laplace := fun _ j _ => if j = 0 then 1 else 0 }
  refine ⟨E, _, fun f j => rfl, C65_make_initial E 0 0, fun f => ?_⟩
  have h : E.node_descriptor f.1 ∉ E.dirichlet_nodes := List.not_mem_nil
  show (if E.node_descriptor f.1 ∈ E.dirichlet_nodes then (0 : ℚ) else if ((1 : Fin (2 * 1)) : Nat) < 1 then _ else (if ((1 : Fin (2 * 1)) : Nat) = 0 then (1 : ℚ) else 0)) ≠ (if 0 = 0 then (1 : ℚ) else 0)
  rw [if_neg h, if_neg (by decide), if_neg (by decide), if_pos rfl]
  norm_num

/-- **C66** (fails for coefficients depending on the eigenvalue).  The code passes the eigenvalue to the coefficient as its time.  If the coefficient depends on it, what `jacobian_of_trace_to_flux` returns
is not the derivative: here it returns zero, but the flux of `u` in the result of `trace_to_flux` has the derivative 1/2 at face 0. -/
theorem C66_variable_coefficient (m : Mode) (gesv : Gesv (n_loc_dofs 1 1) 1 ℝ) (hg : GesvSpec gesv) : ∃ (E : Edge 1 1 ℝ) (lambda : LocDofs 1 (2 * 1) ℝ),
    Orthonormal E ∧ FormLaws (form E.stat 1) ∧ EigSolvable E 1 1 0 ∧ (∀ out, jacobian_of_trace_to_flux m gesv 1 0 out 1 lambda 0 E = .ok 0) ∧
      ∀ (out : LocDofs 1 (2 * 1) ℝ) (Φ : ℝ → LocDofs 1 (2 * 1) ℝ), (∀ᶠ t in 𝓝 (0 : ℝ), trace_to_flux m gesv 1 (lambda + t • 0) out E (0 + t * 1) = .ok (Φ t)) →
        HasDerivAt (fun t => Φ t 0 1) (1 / 2) 0 := by
  let b : ℝ → ℝ := fun t => 1 + t
  let lambda : LocDofs 1 (2 * 1) ℝ := fun _ j => if j.1 = 0 then -1 / 2 else 1
  have hs : EigSolvable (Example.beam b []) 1 1 0 := Example.beam_solvable _ _ _ _ (by norm_num) (by norm_num)
  refine ⟨Example.beam b [], lambda, Example.beam_orthonormal _ _, Example.beam_laws _ _, hs, fun out => ?_, fun out Φ h => ?_⟩
  · obtain ⟨q, u, p, w, q', u', p', w', h1, h2, h3⟩ := (C66_computes m gesv hg 1 (Example.beam b []) 0 0 out 1 lambda).1 hs
    have hu : u = 0 := by
      obtain ⟨⟨_, e1⟩, _, e2⟩ := (Example.beam_solution _ _ _ _ _ _ _ _ _).mp h1
      funext i
      rw [Subsingleton.elim i 0]
      simp only [lambda, b] at e1 e2
      norm_num at e1 e2
      show u 0 = 0
      linarith
    rw [hu, smul_zero] at h2
    have h0 : moments (form (Example.beam b []).stat 1) (upper (0 : LocDofs 1 (2 * 1) ℝ)) = 0 := funext fun f => mulVec_zero _
    have h0' : moments (form (Example.beam b []).stat 1) (lower (0 : LocDofs 1 (2 * 1) ℝ)) = 0 := funext fun f => mulVec_zero _
    rw [h0, h0'] at h2
    obtain ⟨rfl, rfl, rfl, rfl⟩ := hs _ _ _ _ h2
    rw [h3]
    refine congrArg Res.ok (funext fun f => funext fun j => ?_)
    obtain ⟨k, rfl | rfl⟩ := halves_cases j
    · rw [offDirichlet_up, Example.beam_form, DiffusionEigs.Example.interval_flux]; simp [lower]
    · rw [offDirichlet_lo, Example.beam_form, DiffusionEigs.Example.interval_flux]; simp [upper]
  · have hΦ : ∀ᶠ t in 𝓝 (0 : ℝ), Φ t 0 1 = 2 * t * (4 - t - t * t)⁻¹ + 1 / 2 := by
      have h1 : ∀ᶠ t in 𝓝 (0 : ℝ), t ∈ Set.Ioo (-1 : ℝ) 1 := Ioo_mem_nhds (by norm_num) (by norm_num)
      filter_upwards [h, h1] with t ht ht1
      have hne : 4 - t - t * t ≠ 0 := by
        have := ht1.1; have := ht1.2
        nlinarith
      have hi := mul_inv_cancel₀ hne
      rw [Example.beam_trace_to_flux m hg b [] 1 (0 + t * 1) (by
          simp only [b]
          intro hc
          apply hne
          linear_combination hc) (by norm_num) _ _ (2 * t * (4 - t - t * t)⁻¹) (1 + t * t * (4 - t - t * t)⁻¹) (by
          simp only [lambda, b, smul_zero, add_zero]
          norm_num
          linear_combination t * hi) (by
          simp only [lambda, smul_zero, add_zero]
          norm_num
          ring)] at ht
      have := congrFun (congrFun (Res.ok.inj ht) 0) 1
      rw [← this]
      simp [lambda]
      norm_num
    have h1 : HasDerivAt (fun t : ℝ => 2 * t) 2 0 := by simpa using (hasDerivAt_id (0 : ℝ)).const_mul 2
    have h2 : HasDerivAt (fun t : ℝ => 4 - t - t * t) (-1) 0 := by
      have := HasDerivAt.fun_sub ((hasDerivAt_id' (0 : ℝ)).const_sub 4) (HasDerivAt.fun_mul (hasDerivAt_id' (0 : ℝ)) (hasDerivAt_id' (0 : ℝ)))
      simp only [mul_zero, zero_mul, add_zero, sub_zero] at this
      exact this
    have h3 := (HasDerivAt.fun_mul h1 (HasDerivAt.fun_inv h2 (by norm_num))).add_const (1 / 2)
    have e : (2 : ℝ) * (4 - 0 - 0 * 0)⁻¹ + 2 * 0 * (- -1 / (4 - 0 - 0 * 0) ^ 2) = 1 / 2 := by norm_num
    rw [e] at h3
    have hd := h3
    exact hd.congr_of_eventuallyEq hΦ

end HyperHDG.BilaplacianEigs

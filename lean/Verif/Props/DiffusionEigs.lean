import Verif.Proofs.DiffusionEigs
import Verif.Proofs.EigenDeriv
import Verif.Proofs.GlobalOk
import Verif.Spec.Eigen
import Verif.Props.Elliptic
import Verif.Props.GlobalClasses
import Mathlib.Analysis.Calculus.Deriv.Inv

/-!
# Properties C56, C57, C58: eigenvalue problems condensed to the skeleton

`IsSolution F tau (-eig) 1 g s q u` is the local problem with `- eig (u, phi_i)` in the second equation, see `Verif/Spec/Eigen.lean`.
-/

namespace HyperHDG.DiffusionEigs

open Finset Spec Matrix DiffusionUniform Diffusion LDG _root_.Topology Filter

variable {dim nS nB : Nat} {K : Type}

/-! ## C56: the local solver -/

section Local
variable [Field K] (m : Mode) (gesv : Gesv ((dim + 1) * nS) 1 K) (hg : GesvSpec gesv) (tau : K) (E : Edge dim nS K) (eig : K)

include hg

/-- **C56** (what `trace_to_flux` computes).  If the local problem for `eig` is uniquely solvable, the result is zero on the Dirichlet faces and the numerical flux of the solution
for the trace `lambda` on the other ones, whatever the output array contained.  Otherwise the debug build aborts and the release build lets the LAPACK exception through. -/
theorem C56_flux (lambda out : LocDofs dim nB K) :
    (Solvable (form E.toEdge nB eig) tau (-eig) 1 → ∃ q u, IsSolution (form E.toEdge nB eig) tau (-eig) 1 (moments (form E.toEdge nB eig) lambda) 0 q u ∧
      trace_to_flux m gesv tau lambda out E eig = .ok (offDirichlet E.toEdge (faceFlux (form E.toEdge nB eig) tau lambda q u))) ∧
    (¬ Solvable (form E.toEdge nB eig) tau (-eig) 1 → trace_to_flux m gesv tau lambda out E eig = solveFailure m) := by
  obtain ⟨h1, h2⟩ := solve_local_problem_spec m gesv hg E tau eig lambda
  refine ⟨fun hs => ?_, fun hs => ?_⟩
  · obtain ⟨x, hx1, hx2⟩ := h1 hs
    refine ⟨_, _, hx2, ?_⟩
    rw [trace_to_flux, hx1, Res.ok_bind]
    exact writeFlux_eq E tau eig x lambda out
  · rw [trace_to_flux, h2 hs]
    cases m <;> rfl

theorem of_ok {lambda out y : LocDofs dim nB K} (h : trace_to_flux m gesv tau lambda out E eig = .ok y) :
    Solvable (form E.toEdge nB eig) tau (-eig) 1 ∧ ∃ q u, IsSolution (form E.toEdge nB eig) tau (-eig) 1 (moments (form E.toEdge nB eig) lambda) 0 q u ∧
      y = offDirichlet E.toEdge (faceFlux (form E.toEdge nB eig) tau lambda q u) := by
  have hf := C56_flux m gesv hg tau E eig lambda out
  by_cases hs : Solvable (form E.toEdge nB eig) tau (-eig) 1
  · obtain ⟨q, u, h1, h2⟩ := hf.1 hs
    rw [h] at h2
    injection h2 with h2
    exact ⟨hs, q, u, h1, h2⟩
  · have := hf.2 hs
    rw [h] at this
    cases m <;> cases this

theorem to_ok (hs : Solvable (form E.toEdge nB eig) tau (-eig) 1) {lambda : LocDofs dim nB K} {q : Fin dim → Fin nS → K} {u : Fin nS → K}
    (h : IsSolution (form E.toEdge nB eig) tau (-eig) 1 (moments (form E.toEdge nB eig) lambda) 0 q u) (out : LocDofs dim nB K) :
    trace_to_flux m gesv tau lambda out E eig = .ok (offDirichlet E.toEdge (faceFlux (form E.toEdge nB eig) tau lambda q u)) := by
  obtain ⟨q', u', h1, h2⟩ := (C56_flux m gesv hg tau E eig lambda out).1 hs
  obtain ⟨rfl, rfl⟩ := solution_unique hs h h1
  exact h2

/-- **C56** (Dirichlet rows).  `trace_to_flux` returns exactly zero on the faces of Dirichlet type. -/
theorem C56_dirichlet_zero (lambda out y : LocDofs dim nB K) (h : trace_to_flux m gesv tau lambda out E eig = .ok y) (f : Fin (2 * dim))
    (hf : E.node_descriptor f ∈ E.dirichlet_nodes) (j : Fin nB) : y f j = 0 := by
  obtain ⟨_, q, u, _, rfl⟩ := of_ok m gesv hg tau E eig h
  simp only [offDirichlet]
  exact if_pos hf

/-- **C56** (linearity).  For a fixed eigenvalue, if `trace_to_flux` returns `y` for `lambda` and `z` for `mu`, then it returns `a y + b z` for `a lambda + b mu`. -/
theorem C56_linear {lambda mu out out' y z : LocDofs dim nB K} (hy : trace_to_flux m gesv tau lambda out E eig = .ok y)
    (hz : trace_to_flux m gesv tau mu out' E eig = .ok z) (a b : K) (out'' : LocDofs dim nB K) :
    trace_to_flux m gesv tau (a • lambda + b • mu) out'' E eig = .ok (a • y + b • z) := by
  obtain ⟨hs, q, u, h1, rfl⟩ := of_ok m gesv hg tau E eig hy
  obtain ⟨_, q', u', h1', rfl⟩ := of_ok m gesv hg tau E eig hz
  have h2 := solution_lin a b h1 h1'
  rw [← moments_lin, smul_zero, smul_zero, add_zero] at h2
  rw [to_ok m gesv hg tau E eig hs h2 out'', flux_lin]
  refine congrArg Res.ok ?_
  funext f j
  simp only [offDirichlet, Pi.add_apply, Pi.smul_apply, smul_eq_mul]
  split <;> simp

/-- **C56** (eigenvalue zero).  For the eigenvalue 0 the operator is that of the local solver for stationary diffusion (C21). -/
theorem C56_zero (lambda out : LocDofs dim nB K) : trace_to_flux m gesv tau lambda out E 0 = Diffusion.trace_to_flux m gesv tau lambda out E.toEdge 0 := by
  have h1 := C56_flux m gesv hg tau E 0 lambda out
  have h2 := C21_flux m gesv hg tau E.toEdge 0 lambda out
  rw [neg_zero] at h1
  by_cases hs : Solvable (form E.toEdge nB 0) tau 0 1
  · obtain ⟨q, u, a1, a2⟩ := h1.1 hs
    obtain ⟨q', u', b1, b2⟩ := h2.1 hs
    obtain ⟨rfl, rfl⟩ := solution_unique hs a1 b1
    rw [a2, b2]
  · rw [h1.2 hs, h2.2 hs]

/-- **C56** (bulk values).  `bulk_values` returns in component `d < dim` the values of the `d`-th component of the dual unknown, in component `dim` those of the primal
unknown of the local solution, at the points of the tensor grid of the abscissas in lexicographic order. -/
theorem C56_bulk_values (hs : Solvable (form E.toEdge nB eig) tau (-eig) 1) (lin_comb : (Fin nS → K) → List K → K) (abscissas : List K) (lambda : LocDofs dim nB K)
    (vals0 : Fin (dim + 1) → Fin (Hypercube.pow dim abscissas.length) → K) :
    ∃ q u, IsSolution (form E.toEdge nB eig) tau (-eig) 1 (moments (form E.toEdge nB eig) lambda) 0 q u ∧
      ∃ vals, bulk_values m gesv lin_comb tau abscissas lambda E eig vals0 = .ok vals ∧
      ∀ pt : Fin (Hypercube.pow dim abscissas.length), ∃ p, Hypercube.tensorial_pt m dim pt abscissas = .ok p ∧
        (∀ d : Fin dim, vals d.castSucc pt = lin_comb (q d) p) ∧ vals (Fin.last dim) pt = lin_comb u p := by
  obtain ⟨x, h1, h2⟩ := (solve_local_problem_spec m gesv hg E tau eig lambda).1 hs
  obtain ⟨r, hr1, hr2⟩ := bulk_loop (dim := dim) m lin_comb abscissas x (fun _ => 0) vals0
  refine ⟨qOf (toMat x), uOf (toMat x), h2, r.2, ?_, fun pt => ?_⟩
  · unfold bulk_values
    rw [h1, Res.ok_bind, hr1]
    rfl
  · obtain ⟨p, hp1, hp2⟩ := hr2 pt
    exact ⟨p, hp1, fun d => hp2 d.castSucc, hp2 (Fin.last dim)⟩

end Local

section Ordered
variable [Field K] [LinearOrder K] [IsStrictOrderedRing K] (m : Mode) (gesv : Gesv ((dim + 1) * nS) 1 K) (hg : GesvSpec gesv) (tau : K)
  (E : Edge dim nS K) (eig : K) (hE : FormLaws (form E.toEdge nB eig))

include hg hE

/-- **C56** (symmetry).  `mu . trace_to_flux(lambda) = lambda . trace_to_flux(mu)` for traces vanishing on the Dirichlet faces and each eigenvalue. -/
theorem C56_symmetric {lambda mu out out' y z : LocDofs dim nB K} (hl : VanishesOnDirichlet E.toEdge lambda) (hm : VanishesOnDirichlet E.toEdge mu)
    (hy : trace_to_flux m gesv tau lambda out E eig = .ok y) (hz : trace_to_flux m gesv tau mu out' E eig = .ok z) :
    ∑ f, ∑ j, mu f j * y f j = ∑ f, ∑ j, lambda f j * z f j := by
  obtain ⟨hs, q, u, h1, rfl⟩ := of_ok m gesv hg tau E eig hy
  obtain ⟨_, q', u', h1', rfl⟩ := of_ok m gesv hg tau E eig hz
  rw [pair_off hm, pair_off hl, flux_form hE one_ne_zero h1 h1', flux_form hE one_ne_zero h1' h1, bilin_symm hE, symm_dot hE.mass0_symm u' u]
  simp

/-- **C56** (solvability).  For `tau > 0` the local problem is uniquely solvable for all eigenvalues `eig ≤ 0`, for `tau = 0` for all `eig < 0`. -/
theorem C56_solvable (ht : 0 ≤ tau) (he : eig ≤ 0) (hpos : 0 < tau ∨ eig < 0) (lambda out : LocDofs dim nB K) :
    Solvable (form E.toEdge nB eig) tau (-eig) 1 ∧ ∃ y, trace_to_flux m gesv tau lambda out E eig = .ok y := by
  have hs := solvable_of hE ht (neg_nonneg.mpr he) one_pos (hpos.imp id neg_pos.mpr)
  obtain ⟨_, _, _, h1⟩ := (C56_flux m gesv hg tau E eig lambda out).1 hs
  exact ⟨hs, _, h1⟩

/-- **C56** (Rayleigh functional).  For traces vanishing on the Dirichlet faces, `lambda . trace_to_flux(lambda)` is `eig` times the L2 norm of the local solution (squared) minus its energy. -/
theorem C56_rayleigh {lambda out y : LocDofs dim nB K} (hl : VanishesOnDirichlet E.toEdge lambda) (hy : trace_to_flux m gesv tau lambda out E eig = .ok y) :
    ∃ q u, IsSolution (form E.toEdge nB eig) tau (-eig) 1 (moments (form E.toEdge nB eig) lambda) 0 q u ∧
      ∑ f, ∑ j, lambda f j * y f j = eig * (u ⬝ᵥ (form E.toEdge nB eig).mass0 *ᵥ u) - energy (form E.toEdge nB eig) tau q u lambda := by
  obtain ⟨hs, q, u, h1, rfl⟩ := of_ok m gesv hg tau E eig hy
  refine ⟨q, u, h1, ?_⟩
  rw [pair_off hl, flux_form hE one_ne_zero h1 h1, bilin_self hE]
  simp only [energy, dotProduct_zero, inv_one]
  ring

end Ordered

/-- **C56** (`node_types`).  The node types reported are 1 for the faces of Dirichlet type and 0 for all others. -/
theorem C56_node_types (E : Edge dim nS K) (f : Fin (2 * dim)) :
    ∃ t, node_types E = .ok t ∧ (t f = 1 ↔ E.node_descriptor f ∈ E.dirichlet_nodes) ∧ (t f = 0 ↔ E.node_descriptor f ∉ E.dirichlet_nodes) :=
  C21_node_types E.toEdge f

/-- **C56** (`make_initial`).  The initial trace is the projection of the initial value, and zero on Dirichlet faces, whatever the array contained. -/
theorem C56_make_initial [Field K] (E : Edge dim nS K) (time : K) (lambda : LocDofs dim nB K) :
    make_initial lambda E time = .ok (offDirichlet E.toEdge (fun f j => E.bdrUni_psifunc time j f)) := C21_make_initial E.toEdge time lambda

/-! ## C57: the Jacobian -/

section Jacobian
variable [Field K] (m : Mode) (gesv : Gesv ((dim + 1) * nS) 1 K) (hg : GesvSpec gesv) (tau : K) (E : Edge dim nS K) (eig_val : K)

include hg

/-- **C57** (what `jacobian_of_trace_to_flux` computes).  With local problems for `eig_val`: the flux of the local solution for the trace `lambda_in`, and with source
`eig * area * u` where `u` is the local solution for `lambda_vals`.  It fails if `trace_to_flux` fails. -/
theorem C57_computes (lambda_in out : LocDofs dim nB K) (eig : K) (lambda_vals : LocDofs dim nB K) :
    (Solvable (form E.toEdge nB eig_val) tau (-eig_val) 1 → ∃ q u q' u',
      IsSolution (form E.toEdge nB eig_val) tau (-eig_val) 1 (moments (form E.toEdge nB eig_val) lambda_vals) 0 q u ∧
      IsSolution (form E.toEdge nB eig_val) tau (-eig_val) 1 (moments (form E.toEdge nB eig_val) lambda_in) ((eig * E.area) • u) q' u' ∧
      jacobian_of_trace_to_flux m gesv tau lambda_in out eig lambda_vals eig_val E =
        .ok (offDirichlet E.toEdge (faceFlux (form E.toEdge nB eig_val) tau lambda_in q' u'))) ∧
    (¬ Solvable (form E.toEdge nB eig_val) tau (-eig_val) 1 → jacobian_of_trace_to_flux m gesv tau lambda_in out eig lambda_vals eig_val E = solveFailure m) := by
  constructor
  · intro hs
    obtain ⟨x1, h1, h2⟩ := (solve_local_problem_spec m gesv hg E tau eig_val lambda_in).1 hs
    obtain ⟨x2, h3, h4⟩ := (solve_local_problem_spec m gesv hg E tau eig_val lambda_vals).1 hs
    obtain ⟨v, h5, h6, h7⟩ := eigRhs_spec E eig x2
    obtain ⟨A, hA1, hA2⟩ := assemble_loc_matrix_spec m E nB tau eig_val
    obtain ⟨x3, h8, h9⟩ := (solve_spec (form E.toEdge nB eig_val) tau (-eig_val) 1 gesv hg A hA2 v).1 hs
    have h10 := h9 0 ((eig * E.area) • uOf (toMat x2)) (fun b i => by
      induction b using Fin.lastCases with
      | last =>
        rw [rhs_l, ← h7]
        simp [uOf]
      | cast d =>
        rw [rhs_c]
        simp only [Pi.zero_apply, smul_zero, Finset.sum_const_zero, neg_zero]
        exact congrFun (congrFun h6 d) i)
    have h11 := solution_lin 1 1 h2 h10
    simp only [one_smul, add_zero, zero_add] at h11
    refine ⟨_, _, _, _, h4, h11, ?_⟩
    have e1 := writeFlux_eq E tau eig_val x1 lambda_in out
    have e2 := addFlux_eq E tau eig_val x3 (offDirichlet E.toEdge (faceFlux (form E.toEdge nB eig_val) tau lambda_in (qOf (toMat x1)) (uOf (toMat x1))))
    obtain ⟨p, hp1, _⟩ := primal_spec E nB eig_val x1
    obtain ⟨d, hd1, _⟩ := dual_spec E nB eig_val x1
    rw [hp1, hd1, Res.ok_bind, Res.ok_bind] at e1
    rw [jacobian_of_trace_to_flux, h1, Res.ok_bind, hp1, Res.ok_bind, hd1, Res.ok_bind, e1, Res.ok_bind, h3, Res.ok_bind, h5, Res.ok_bind, hA1, Res.ok_bind, h8, Res.ok_bind, e2]
    refine congrArg Res.ok ?_
    have e3 := flux_lin (F := form E.toEdge nB eig_val) (tau := tau) (lambda := lambda_in) (mu := 0) (q := qOf (toMat x1)) (q' := qOf (toMat x3)) (u := uOf (toMat x1))
      (u' := uOf (toMat x3)) 1 1
    simp only [one_smul, add_zero] at e3
    rw [e3]
    funext f j
    simp only [offDirichlet, Pi.add_apply]
    split <;> simp
  · intro hs
    rw [jacobian_of_trace_to_flux, (solve_local_problem_spec m gesv hg E tau eig_val lambda_in).2 hs]
    cases m <;> rfl

/-- **C57** (mass operator).  At the eigenvalue 0, the Jacobian in the direction of the eigenvalue is the mass flux of the local solver for stationary diffusion (C47). -/
theorem C57_mass (hO : Orthonormal E) (hs : Solvable (form E.toEdge nB 0) tau 0 1) (lambda out out' : LocDofs dim nB K) :
    jacobian_of_trace_to_flux m gesv tau 0 out 1 lambda 0 E = Diffusion.trace_to_mass_flux m gesv tau lambda out' E.toEdge 0 := by
  have h0 := (C57_computes m gesv hg tau E 0 0 out 1 lambda).1
  rw [neg_zero] at h0
  obtain ⟨q, u, q', u', h1, h2, h3⟩ := h0 hs
  obtain ⟨p, w, p', w', k1, k2, k3⟩ := C47_flux m gesv hg tau E.toEdge 0 hs lambda out'
  obtain ⟨rfl, rfl⟩ := solution_unique hs h1 k1
  have hm : (form E.toEdge nB 0).mass0 *ᵥ u = (1 * E.area) • u := by
    funext i
    simp only [mulVec, dotProduct, form, of_apply, Pi.smul_apply, smul_eq_mul, one_mul]
    rw [Finset.sum_eq_single i]
    · rw [hO i i, if_pos rfl]
    · intro j _ hj
      rw [hO i j, if_neg (Ne.symm hj), zero_mul]
    · simp
  have hz : moments (form E.toEdge nB 0) (0 : LocDofs dim nB K) = 0 := by funext f; simp [moments]
  rw [hz, ← hm] at h2
  obtain ⟨rfl, rfl⟩ := solution_unique hs h2 k2
  rw [h3, k3]

end Jacobian

/-- **C57** (derivative).  Let the coefficient not depend on the eigenvalue and the shape functions be orthonormal.  If the local problem for `eig_val` is uniquely solvable, then
`jacobian_of_trace_to_flux` returns the directional derivative, at `(lambda_vals, eig_val)` in the direction `(lambda_in, eig)`, of `trace_to_flux` (which returns near that point). -/
theorem C57_derivative (m : Mode) (gesv : Gesv ((dim + 1) * nS) 1 ℝ) (hg : GesvSpec gesv) (tau : ℝ) (E : Edge dim nS ℝ) (hfix : FixedCoefficient E) (hO : Orthonormal E) (eig_val : ℝ)
    (hs : Solvable (form E.toEdge nB eig_val) tau (-eig_val) 1) (lambda_in out out' : LocDofs dim nB ℝ) (eig : ℝ) (lambda_vals : LocDofs dim nB ℝ) :
    ∃ J, jacobian_of_trace_to_flux m gesv tau lambda_in out eig lambda_vals eig_val E = .ok J ∧
      ∃ Φ : ℝ → LocDofs dim nB ℝ, (∀ᶠ t in 𝓝 (0 : ℝ), trace_to_flux m gesv tau (lambda_vals + t • lambda_in) out' E (eig_val + t * eig) = .ok (Φ t)) ∧ HasDerivAt Φ J 0 := by
  obtain ⟨q, u, q', u', h1, h2, h3⟩ := (C57_computes m gesv hg tau E eig_val lambda_in out eig lambda_vals).1 hs
  have hform : ∀ t, form E.toEdge nB t = form E.toEdge nB eig_val := by
    intro t
    simp only [form]
    congr 1
    ext i j
    exact hfix _ _ i j
  have hm : (form E.toEdge nB eig_val).mass0 *ᵥ u = E.area • u := by
    funext i
    simp only [mulVec, dotProduct, form, of_apply, Pi.smul_apply, smul_eq_mul]
    rw [Finset.sum_eq_single i]
    · rw [hO i i, if_pos rfl]
    · intro j _ hj
      rw [hO i j, if_neg (Ne.symm hj), zero_mul]
    · simp
  -- the local solutions near that point
  have hex : ∀ t : ℝ, ∃ qu : (Fin dim → Fin nS → ℝ) × (Fin nS → ℝ), Solvable (form E.toEdge nB eig_val) tau (-(eig_val + t * eig)) 1 →
      IsSolution (form E.toEdge nB eig_val) tau (-(eig_val + t * eig)) 1 (moments (form E.toEdge nB eig_val) (lambda_vals + t • lambda_in)) 0 qu.1 qu.2 := by
    intro t
    by_cases hst : Solvable (form E.toEdge nB eig_val) tau (-(eig_val + t * eig)) 1
    · have hst' := hst
      rw [← hform (eig_val + t * eig)] at hst'
      obtain ⟨a, b, h, _⟩ := (C56_flux m gesv hg tau E (eig_val + t * eig) (lambda_vals + t • lambda_in) out').1 hst'
      rw [hform] at h
      exact ⟨(a, b), fun _ => h⟩
    · exact ⟨(0, 0), fun h => absurd h hst⟩
  choose QU hQU using hex
  obtain ⟨hev, hder⟩ := solution_deriv (form E.toEdge nB eig_val) tau eig_val eig lambda_vals lambda_in hs (fun t => (QU t).1) (fun t => (QU t).2) hQU
  have h0 := hQU 0 (by rw [zero_mul, add_zero]; exact hs)
  simp only [zero_mul, add_zero, zero_smul] at h0
  obtain ⟨e1, e2⟩ := solution_unique hs h1 h0
  have hd := hder q' u' (by
    rw [← e2, hm, smul_smul]
    exact h2)
  refine ⟨_, h3, fun t => offDirichlet E.toEdge (faceFlux (form E.toEdge nB eig_val) tau (lambda_vals + t • lambda_in) (QU t).1 (QU t).2), ?_, ?_⟩
  · refine hev.mono fun t ht => ?_
    have h := hQU t ht
    have := to_ok m gesv hg tau E (eig_val + t * eig) (by rw [hform]; exact ht) (by rw [hform]; exact h) out'
    rw [hform] at this
    exact this
  · have hl : HasDerivAt (fun t : ℝ => lambda_vals + t • lambda_in) lambda_in 0 := by
      have := ((hasDerivAt_id (0 : ℝ)).smul_const lambda_in).const_add lambda_vals
      simpa using this
    have hf := flux_deriv (form E.toEdge nB eig_val) tau hl hd.1 hd.2
    refine hasDerivAt_pi.mpr fun f => hasDerivAt_pi.mpr fun j => ?_
    have hfj := hasDerivAt_pi.mp (hasDerivAt_pi.mp hf f) j
    by_cases hdir : IsDirichlet E.toEdge f
    · simp only [offDirichlet, if_pos hdir]
      exact hasDerivAt_const _ _
    · simp only [offDirichlet, if_neg hdir]
      exact hfj

/-- **C57** (globally).  Under these conditions on all hyperedges, the global `jacobian_of_trace_to_flux(x, eig, x_val, eig_val)` is the directional derivative of the global
`trace_to_flux` at `(x_val, eig_val)` in the direction `(x, eig)`. -/
theorem C57_global (m : Mode) (gesv : Gesv ((dim + 1) * nS) 1 ℝ) (hg : GesvSpec gesv) (tau : ℝ) (E : Nat → Edge dim nS ℝ) (hfix : ∀ e, FixedCoefficient (E e)) (hO : ∀ e, Orthonormal (E e))
    (eig eig_val : ℝ) (G : HyGraph dim nB) (nodes : Fin G.n_hyEdges → Fin (2 * dim) → Fin G.n_hyNodes) (hwf : G.WF nodes)
    (hs : ∀ e : Fin G.n_hyEdges, Solvable (form (E e).toEdge nB eig_val) tau (-eig_val) 1) (old0 vals0 new0 old1 new1 : LocDofs dim nB ℝ) (x x_val : Fin (G.n_hyNodes * nB) → ℝ) :
    ∃ J : Fin (G.n_hyNodes * nB) → ℝ, G.jacobian m (localJacobian m gesv tau E eig eig_val) old0 vals0 new0 (List.ofFn x) (List.ofFn x_val) = .ok (List.ofFn J) ∧
      ∃ Φ : ℝ → Fin (G.n_hyNodes * nB) → ℝ,
        (∀ᶠ t in 𝓝 (0 : ℝ), G.mat_vec_multiply m (localOperator m gesv tau E (eig_val + t * eig)) old1 new1 (List.ofFn (x_val + t • x)) = .ok (List.ofFn (Φ t))) ∧ HasDerivAt Φ J 0 := by
  choose J hJ Φ hΦ hd using fun e : Fin G.n_hyEdges => C57_derivative m gesv hg tau (E e) (hfix e) (hO e) eig_val (hs e) (faceValues nodes x e) (fun _ _ => 0) (fun _ _ => 0) eig
    (faceValues nodes x_val e)
  refine ⟨_, HyGraph.C42_jacobian m G nodes hwf (localJacobian m gesv tau E eig eig_val) old0 vals0 new0 x x_val J (fun e => hJ e), fun t => assemble nodes (fun e => Φ e t), ?_, ?_⟩
  · refine (eventually_all.mpr hΦ).mono fun t ht => ?_
    exact HyGraph.mat_vec_eq m G nodes hwf (localOperator m gesv tau E (eig_val + t * eig)) (x_val + t • x) (fun e => Φ e t) (fun e => ht e) old1 new1
  · refine hasDerivAt_pi.mpr fun k => ?_
    unfold assemble
    refine HasDerivAt.fun_sum fun e _ => HasDerivAt.fun_sum fun i _ => HasDerivAt.fun_sum fun j _ => ?_
    by_cases h : dof (nodes e i) j = k
    · simp only [if_pos h]
      exact hasDerivAt_pi.mp (hasDerivAt_pi.mp (hd e) i) j
    · simp only [if_neg h]
      exact hasDerivAt_const _ _

/-! ## C58: eigenpairs -/

section Eigenpairs
variable [Field K] [LinearOrder K] [IsStrictOrderedRing K] (m : Mode) (gesv : Gesv ((dim + 1) * nS) 1 K) (hg : GesvSpec gesv) (tau : K)
  (E : Nat → Edge dim nS K) (G : HyGraph dim nB) (nodes : Fin G.n_hyEdges → Fin (2 * dim) → Fin G.n_hyNodes) (hwf : G.WF nodes) (old0 new0 : LocDofs dim nB K)

include hg hwf

omit [LinearOrder K] [IsStrictOrderedRing K] in
/-- The local solutions of an eigenpair. -/
theorem eigenpair_local {x : Fin (G.n_hyNodes * nB) → K} {eig : K} (h : IsEigenpair m gesv tau E G nodes old0 new0 x eig) :
    ∃ q u, LocalSolutions tau E G nodes x eig q u ∧ (∀ e : Fin G.n_hyEdges, Solvable (form (E e).toEdge nB eig) tau (-eig) 1) ∧
      ∀ z : Fin (G.n_hyNodes * nB) → K, (∀ e : Fin G.n_hyEdges, VanishesOnDirichlet (E e).toEdge (faceValues nodes z e)) →
        ∑ e : Fin G.n_hyEdges, ∑ f, faceValues nodes z e f ⬝ᵥ faceFlux (form (E e).toEdge nB eig) tau (faceValues nodes x e) (q e) (u e) f = 0 := by
  obtain ⟨_, hx, hy⟩ := h
  obtain ⟨y, h1, h2⟩ := HyGraph.mat_vec_ok m G nodes hwf _ x old0 new0 hy
  choose hs q u h3 h4 using fun e : Fin G.n_hyEdges => of_ok m gesv hg tau (E e) eig (h1 e)
  refine ⟨q, u, h3, hs, fun z hz => ?_⟩
  have h5 : assemble nodes y = 0 := by
    rw [← List.ofFn_const] at h2
    exact (List.ofFn_injective h2).symm
  have h6 := HyGraph.pairing_assemble nodes y z
  rw [h5] at h6
  simp only [Pi.zero_apply, mul_zero, Finset.sum_const_zero] at h6
  rw [h6]
  refine Finset.sum_congr rfl fun e _ => ?_
  rw [h4 e, pair_off (hz e)]

/-- **C58** (Rayleigh quotient).  The eigenvalue times the L2 norm (squared) of the eigenfunction, composed of the local solutions, is its energy. -/
theorem C58_rayleigh {x : Fin (G.n_hyNodes * nB) → K} {eig : K} (hE : ∀ e, FormLaws (form (E e).toEdge nB eig)) (h : IsEigenpair m gesv tau E G nodes old0 new0 x eig)
    {q : Fin G.n_hyEdges → Fin dim → Fin nS → K} {u : Fin G.n_hyEdges → Fin nS → K} (hqu : LocalSolutions tau E G nodes x eig q u) :
    eig * ∑ e : Fin G.n_hyEdges, u e ⬝ᵥ (form (E e).toEdge nB eig).mass0 *ᵥ u e = ∑ e : Fin G.n_hyEdges, energy (form (E e).toEdge nB eig) tau (q e) (u e) (faceValues nodes x e) := by
  obtain ⟨q', u', h1, h2, h3⟩ := eigenpair_local m gesv hg tau E G nodes hwf old0 new0 h
  obtain ⟨rfl, rfl⟩ : q = q' ∧ u = u' := ⟨funext fun e => (solution_unique (h2 e) (hqu e) (h1 e)).1, funext fun e => (solution_unique (h2 e) (hqu e) (h1 e)).2⟩
  have h4 := h3 x h.2.1
  rw [Finset.sum_congr rfl fun (e : Fin G.n_hyEdges) _ => flux_form (hE e) one_ne_zero (hqu e) (hqu e), Finset.sum_congr rfl fun e _ => by rw [bilin_self (hE e)]] at h4
  simp only [dotProduct_zero, inv_one, Finset.sum_add_distrib, Finset.sum_neg_distrib] at h4
  simp only [energy]
  rw [Finset.mul_sum]
  simp only [Finset.sum_add_distrib]
  have h5 : ∑ e : Fin G.n_hyEdges, 1 * (0 - -eig * (u e ⬝ᵥ (form (E e).toEdge nB eig).mass0 *ᵥ u e)) =
      ∑ e : Fin G.n_hyEdges, eig * (u e ⬝ᵥ (form (E e).toEdge nB eig).mass0 *ᵥ u e) := Finset.sum_congr rfl fun e _ => by ring
  rw [h5] at h4
  linear_combination h4

/-- **C58** (eigenvalues are not negative).  If each hypernode belongs to a hyperedge and `tau > 0`, then eigenvalues are not negative. -/
theorem C58_nonneg (ht : 0 < tau) (hcov : ∀ v, ∃ e f, nodes e f = v) {x : Fin (G.n_hyNodes * nB) → K} {eig : K} (hE : ∀ e, FormLaws (form (E e).toEdge nB eig))
    (h : IsEigenpair m gesv tau E G nodes old0 new0 x eig) : 0 ≤ eig := by
  by_contra hneg
  rw [not_le] at hneg
  obtain ⟨q, u, h1, h2, h3⟩ := eigenpair_local m gesv hg tau E G nodes hwf old0 new0 h
  have h4 := C58_rayleigh m gesv hg tau E G nodes hwf old0 new0 hE h h1
  have hen : ∀ e : Fin G.n_hyEdges, 0 ≤ energy (form (E e).toEdge nB eig) tau (q e) (u e) (faceValues nodes x e) := by
    intro e
    have := bilin_nonneg (hE e) ht.le (q e) (u e) (faceValues nodes x e)
    rwa [bilin_self (hE e)] at this
  have hm : ∀ e : Fin G.n_hyEdges, 0 ≤ u e ⬝ᵥ (form (E e).toEdge nB eig).mass0 *ᵥ u e := fun e => quad_nonneg (hE e).mass0_pos _
  have hM := Finset.sum_nonneg fun e (_ : e ∈ Finset.univ) => hm e
  have hEn := Finset.sum_nonneg fun e (_ : e ∈ Finset.univ) => hen e
  have hM0 : ∑ e : Fin G.n_hyEdges, u e ⬝ᵥ (form (E e).toEdge nB eig).mass0 *ᵥ u e = 0 := by
    refine le_antisymm ?_ hM
    by_contra hc
    rw [not_le] at hc
    have := mul_neg_of_neg_of_pos hneg hc
    linarith
  rw [hM0, mul_zero] at h4
  refine h.1 ?_
  funext k
  obtain ⟨v, j, rfl⟩ := HyGraph.dof_surj k
  obtain ⟨e, f, rfl⟩ := hcov v
  have hu : u e = 0 := quad_zero (hE e).mass0_pos ((Finset.sum_eq_zero_iff_of_nonneg fun e _ => hm e).mp hM0 e (Finset.mem_univ e))
  have he := (Finset.sum_eq_zero_iff_of_nonneg fun e _ => hen e).mp h4.symm e (Finset.mem_univ e)
  have htr := bilin_trace_zero (hE e) ht (by rw [bilin_self (hE e)]; exact he) f
  unfold IsTrace at htr
  rw [hu, mulVec_zero] at htr
  have := congrFun htr j
  simp only [Pi.smul_apply, smul_eq_mul, Pi.zero_apply] at this
  exact (mul_eq_zero.mp this).resolve_left ((hE e).area_pos f).ne'

/-- **C58** (positive eigenvalues).  If moreover each hypernode is connected to a Dirichlet node by a chain of hyperedges, then eigenvalues are positive. -/
theorem C58_pos (ht : 0 < tau) (hcov : ∀ v, ∃ e f, nodes e f = v) (D : Fin G.n_hyNodes → Prop)
    (hD : ∀ (e : Fin G.n_hyEdges) (f : Fin (2 * dim)), (E e).node_descriptor f ∈ (E e).dirichlet_nodes ↔ D (nodes e f)) (hcon : Anchored nodes D)
    {x : Fin (G.n_hyNodes * nB) → K} {eig : K} (hE : ∀ e, FormLaws (form (E e).toEdge nB eig)) (hR : ∀ e, Rigid (form (E e).toEdge nB eig))
    (h : IsEigenpair m gesv tau E G nodes old0 new0 x eig) : 0 < eig := by
  refine lt_of_le_of_ne (C58_nonneg m gesv hg tau E G nodes hwf old0 new0 ht hcov hE h) fun h0 => ?_
  subst h0
  obtain ⟨A, _, hA, _, _, _, _, _, hdef⟩ := EllipticProgram.diffusion_operator m gesv hg tau ht (fun e => (E e).toEdge) 0 hE hR G nodes hwf D hD hcon old0 new0
  have hloc : localOperator m gesv tau E 0 = Diffusion.localOperator (nB := nB) m gesv tau (fun e => (E e).toEdge) 0 := by
    funext e lambda out
    exact C56_zero m gesv hg tau (E e) lambda out
  have h1 := h.2.2
  rw [hloc, hA, ← List.ofFn_const] at h1
  have h2 : A x = 0 := List.ofFn_injective (Res.ok.inj h1)
  refine h.1 (hdef x ?_ (by rw [h2]; simp))
  intro v hv j
  obtain ⟨e, f, rfl⟩ := hcov v
  exact h.2.1 e f ((hD e f).mpr hv) j

/-- **C58** (eigenvalue zero).  For `tau > 0`, a vector is an eigenvector for the eigenvalue 0 exactly if it is not zero, vanishes at the Dirichlet faces and restricts to the trace of a
constant on each hyperedge. -/
theorem C58_zero (ht : 0 < tau) (x : Fin (G.n_hyNodes * nB) → K) (hE : ∀ e, FormLaws (form (E e).toEdge nB 0)) :
    IsEigenpair m gesv tau E G nodes old0 new0 x 0 ↔ x ≠ 0 ∧ (∀ e : Fin G.n_hyEdges, VanishesOnDirichlet (E e).toEdge (faceValues nodes x e)) ∧
      ∀ e : Fin G.n_hyEdges, ∃ u, IsConst (form (E e).toEdge nB 0) u ∧ ∀ f, IsTrace (form (E e).toEdge nB 0) u f (faceValues nodes x e f) := by
  obtain ⟨A, hA, _, hker⟩ := C21_global m gesv hg tau ht (fun e => (E e).toEdge) 0 hE G nodes hwf old0 new0
  have hloc : localOperator m gesv tau E 0 = Diffusion.localOperator (nB := nB) m gesv tau (fun e => (E e).toEdge) 0 := by
    funext e lambda out
    exact C56_zero m gesv hg tau (E e) lambda out
  constructor
  · intro h
    have h1 := h.2.2
    rw [hloc, hA, ← List.ofFn_const] at h1
    have h2 : A x = 0 := List.ofFn_injective (Res.ok.inj h1)
    exact ⟨h.1, h.2.1, (hker x h.2.1).2.1.mp (by rw [h2]; simp)⟩
  · rintro ⟨h1, h2, h3⟩
    refine ⟨h1, h2, ?_⟩
    rw [hloc, hA, (hker x h2).2.2 ((hker x h2).2.1.mpr h3), ← List.ofFn_const]
    rfl

/-- **C58** (orthogonality).  If the coefficients do not depend on the eigenvalue, eigenfunctions (composed of the local solutions) for different eigenvalues are orthogonal in L2. -/
theorem C58_orthogonal (hfix : ∀ e, FixedCoefficient (E e)) {x x' : Fin (G.n_hyNodes * nB) → K} {eig eig' : K} (hE : ∀ e, FormLaws (form (E e).toEdge nB eig)) (hne : eig ≠ eig')
    (h : IsEigenpair m gesv tau E G nodes old0 new0 x eig) (h' : IsEigenpair m gesv tau E G nodes old0 new0 x' eig')
    {q q' : Fin G.n_hyEdges → Fin dim → Fin nS → K} {u u' : Fin G.n_hyEdges → Fin nS → K} (hqu : LocalSolutions tau E G nodes x eig q u)
    (hqu' : LocalSolutions tau E G nodes x' eig' q' u') : ∑ e : Fin G.n_hyEdges, u e ⬝ᵥ (form (E e).toEdge nB eig).mass0 *ᵥ u' e = 0 := by
  have hform : ∀ e, form (E e).toEdge nB eig' = form (E e).toEdge nB eig := by
    intro e
    simp only [form]
    congr 1
    ext i j
    exact hfix e _ _ i j
  obtain ⟨q1, u1, h1, h2, h3⟩ := eigenpair_local m gesv hg tau E G nodes hwf old0 new0 h
  obtain ⟨q2, u2, k1, k2, k3⟩ := eigenpair_local m gesv hg tau E G nodes hwf old0 new0 h'
  obtain ⟨rfl, rfl⟩ : q = q1 ∧ u = u1 := ⟨funext fun e => (solution_unique (h2 e) (hqu e) (h1 e)).1, funext fun e => (solution_unique (h2 e) (hqu e) (h1 e)).2⟩
  obtain ⟨rfl, rfl⟩ : q' = q2 ∧ u' = u2 := ⟨funext fun e => (solution_unique (k2 e) (hqu' e) (k1 e)).1, funext fun e => (solution_unique (k2 e) (hqu' e) (k1 e)).2⟩
  have hqu2 : ∀ e : Fin G.n_hyEdges, IsSolution (form (E e).toEdge nB eig) tau (-eig') 1 (moments (form (E e).toEdge nB eig) (faceValues nodes x' e)) 0 (q' e) (u' e) := by
    intro e
    have := hqu' e
    rwa [hform] at this
  have h4 := h3 x' h'.2.1
  have k4 := k3 x h.2.1
  rw [Finset.sum_congr rfl fun (e : Fin G.n_hyEdges) _ => flux_form (hE e) one_ne_zero (hqu e) (hqu2 e)] at h4
  rw [Finset.sum_congr rfl fun e _ => by rw [hform, flux_form (hE e) one_ne_zero (hqu2 e) (hqu e), bilin_symm (hE e)]] at k4
  simp only [dotProduct_zero, inv_one, Finset.sum_add_distrib, Finset.sum_neg_distrib] at h4 k4
  have e1 : ∑ e : Fin G.n_hyEdges, 1 * (0 - -eig * (u' e ⬝ᵥ (form (E e).toEdge nB eig).mass0 *ᵥ u e)) =
      eig * ∑ e : Fin G.n_hyEdges, u e ⬝ᵥ (form (E e).toEdge nB eig).mass0 *ᵥ u' e := by
    rw [Finset.mul_sum]
    exact Finset.sum_congr rfl fun e _ => by rw [symm_dot (hE e).mass0_symm]; ring
  have e2 : ∑ e : Fin G.n_hyEdges, 1 * (0 - -eig' * (u e ⬝ᵥ (form (E e).toEdge nB eig).mass0 *ᵥ u' e)) =
      eig' * ∑ e : Fin G.n_hyEdges, u e ⬝ᵥ (form (E e).toEdge nB eig).mass0 *ᵥ u' e := by
    rw [Finset.mul_sum]
    exact Finset.sum_congr rfl fun e _ => by ring
  rw [e1] at h4
  rw [e2] at k4
  have h5 : (eig - eig') * ∑ e : Fin G.n_hyEdges, u e ⬝ᵥ (form (E e).toEdge nB eig).mass0 *ᵥ u' e = 0 := by linear_combination h4 - k4
  exact (mul_eq_zero.mp h5).resolve_left (sub_ne_zero.mpr hne)

end Eigenpairs

/-! ## Concrete instances -/

namespace Example

open HyGraph.Example

section
variable [Field K]

/-- The unit interval with the constants as shape functions; `a eig` is the inverse of the diffusion coefficient. -/
def interval (a : K → K) (dir : List Nat) : Edge 1 1 K where
  vol_phiphi := fun _ _ => 1
  vol_phiphifunc := fun t _ _ => a t
  vol_nablaphiphi := fun _ _ _ => 0
  bdr_phiphi := fun _ _ _ => 1
  bdr_phipsi := fun _ _ _ => 1
  vol_phifunc := fun _ _ => 0
  bdr_phifunc := fun _ _ _ => 0
  bdrUni_psifunc := fun _ _ _ => 0
  vol_diffsquare := fun _ _ => 0
  local_normal := fun f _ => if f = 0 then -1 else 1
  face_area := fun _ => 1
  node_descriptor := fun f => f
  dirichlet_nodes := dir
  area := 1

theorem interval_laws [LinearOrder K] [IsStrictOrderedRing K] (a : K → K) (dir : List Nat) (eig : K) (ha : 0 < a eig) : FormLaws (form (interval a dir).toEdge 1 eig) where
  mass_symm := by ext i j; simp [form, interval]
  mass_pos := fun v hv => by
    have : v 0 ≠ 0 := fun h => hv (funext fun i => by rw [Subsingleton.elim i 0]; exact h)
    simp only [dotProduct, mulVec, form, interval, of_apply, Fin.sum_univ_one]
    have := mul_self_pos.mpr this
    nlinarith [mul_pos ha this]
  mass0_symm := by ext i j; simp [form, interval]
  mass0_pos := fun v hv => by
    have : v 0 ≠ 0 := fun h => hv (funext fun i => by rw [Subsingleton.elim i 0]; exact h)
    simp only [dotProduct, mulVec, form, interval, of_apply, Fin.sum_univ_one, one_mul]
    exact mul_self_pos.mpr this
  by_parts := fun d => by
    ext i j
    simp [form, interval, Fin.sum_univ_two]
  area_pos := fun _ => one_pos
  trace := fun f => by
    ext i j
    simp [form, interval, Matrix.mul_apply]
  unisolvent := fun u _ h => by
    funext i
    have := congrFun (h 0) 0
    rw [Subsingleton.elim i 0]
    simpa [form, interval, mulVec, dotProduct] using this

theorem interval_orthonormal (a : K → K) (dir : List Nat) : Orthonormal (interval a dir) := fun i j => by
  rw [if_pos (Subsingleton.elim i j)]
  rfl

theorem interval_fixed (dir : List Nat) : FixedCoefficient (interval (fun _ : K => 1) dir) := fun _ _ _ _ => rfl

theorem interval_solution (a : K → K) (dir : List Nat) (tau eig : K) (lambda : LocDofs 1 1 K) (s : K) (q : Fin 1 → Fin 1 → K) (u : Fin 1 → K) :
    IsSolution (form (interval a dir).toEdge 1 eig) tau (-eig) 1 (moments (form (interval a dir).toEdge 1 eig) lambda) (fun _ => s) q u ↔
      a eig * q 0 0 = lambda 0 0 - lambda 1 0 ∧ (2 * tau - eig) * u 0 = tau * (lambda 0 0 + lambda 1 0) + s := by
  have h1 : ∀ d : Fin 1, d = 0 := fun d => Subsingleton.elim _ _
  constructor
  · intro h
    have e1 := congrFun (h.flux 0) 0
    have e2 := congrFun h.primal 0
    simp [form, interval, moments, mulVec, dotProduct, Fin.sum_univ_two] at e1 e2
    exact ⟨by linear_combination e1, by linear_combination e2⟩
  · rintro ⟨e1, e2⟩
    constructor
    · intro d
      funext i
      rw [h1 d, h1 i]
      simp [form, interval, moments, mulVec, dotProduct, Fin.sum_univ_two]
      linear_combination e1
    · funext i
      rw [h1 i]
      simp [form, interval, moments, mulVec, dotProduct, Fin.sum_univ_two]
      linear_combination e2

theorem interval_solvable (a : K → K) (dir : List Nat) (tau eig : K) (ha : a eig ≠ 0) (he : eig ≠ 2 * tau) : Solvable (form (interval a dir).toEdge 1 eig) tau (-eig) 1 := by
  intro q u h
  have h0 : (0 : Fin (2 * 1) → Fin 1 → K) = moments (form (interval a dir).toEdge 1 eig) 0 := by funext f; simp [moments]
  rw [h0] at h
  obtain ⟨e1, e2⟩ := (interval_solution a dir tau eig 0 0 q u).mp h
  simp only [Pi.zero_apply, sub_self, add_zero, mul_zero] at e1 e2
  constructor
  · funext d i
    rw [Subsingleton.elim d 0, Subsingleton.elim i 0]
    exact (mul_eq_zero.mp e1).resolve_left ha
  · funext i
    rw [Subsingleton.elim i 0]
    exact (mul_eq_zero.mp e2).resolve_left (sub_ne_zero.mpr he.symm)

theorem interval_flux (a : K → K) (dir : List Nat) (tau eig : K) (lambda : LocDofs 1 1 K) (q : Fin 1 → Fin 1 → K) (u : Fin 1 → K) (f : Fin (2 * 1)) (j : Fin 1) :
    faceFlux (form (interval a dir).toEdge 1 eig) tau lambda q u f j = (if f.1 = 0 then -q 0 0 else q 0 0) + tau * u 0 - tau * lambda f 0 := by
  rw [Subsingleton.elim j 0]
  simp [faceFlux, form, interval, mulVec, dotProduct]
  split <;> rfl

/-- What `trace_to_flux` returns for an interval. -/
theorem interval_trace_to_flux (m : Mode) {gesv : Gesv ((1 + 1) * 1) 1 K} (hg : GesvSpec gesv) (a : K → K) (dir : List Nat) (tau eig : K) (ha : a eig ≠ 0) (he : eig ≠ 2 * tau) (lambda out : LocDofs 1 1 K) :
    trace_to_flux m gesv tau lambda out (interval a dir) eig = .ok (fun f _ => if f.1 ∈ dir then 0 else
      (if f.1 = 0 then -((lambda 0 0 - lambda 1 0) / a eig) else (lambda 0 0 - lambda 1 0) / a eig) + tau * (tau * (lambda 0 0 + lambda 1 0) / (2 * tau - eig)) - tau * lambda f 0) := by
  have he' : 2 * tau - eig ≠ 0 := sub_ne_zero.mpr he.symm
  have h := (interval_solution a dir tau eig lambda 0 (fun _ _ => (lambda 0 0 - lambda 1 0) / a eig) (fun _ => tau * (lambda 0 0 + lambda 1 0) / (2 * tau - eig))).mpr
    ⟨by field_simp, by field_simp; ring⟩
  rw [to_ok m gesv hg tau (interval a dir) eig (interval_solvable a dir tau eig ha he) h out]
  refine congrArg Res.ok ?_
  funext f j
  simp only [offDirichlet, interval_flux]
  by_cases hd : f.1 ∈ dir
  · rw [if_pos hd]
    exact if_pos hd
  · rw [if_neg hd]
    exact if_neg hd

end

/-- A path of two intervals; both ends are Dirichlet nodes. -/
def clamped (e : Nat) : Edge 1 1 ℚ := interval (fun _ => 1) (if e = 0 then [0] else [1])

/-- For `tau = 1`, the hat function on it is an eigenvector for the eigenvalue 3/2. -/
theorem clamped_eigenpair : IsEigenpair .debug (cramerSolve _ _ ℚ) 1 clamped path pathNodes (fun _ _ => 7) (fun _ _ => 8) (fun k => if k.1 = 1 then 1 else 0) (3 / 2) := by
  refine ⟨fun h => ?_, fun e f hf j => ?_, ?_⟩
  · have := congrFun h ⟨1, by decide⟩
    simp at this
  · have hf' : f.1 ∈ (if e.1 = 0 then [0] else [1]) := hf
    revert e f j
    decide
  · rw [HyGraph.mat_vec_eq .debug path pathNodes path_wf _ _ _ (fun e => interval_trace_to_flux .debug (C44_example _ _ ℚ) (fun _ => 1) _ 1 (3 / 2) one_ne_zero (by norm_num) _ _)]
    refine congrArg Res.ok ?_
    rw [← List.ofFn_const]
    refine congrArg List.ofFn ?_
    funext k
    revert k
    decide +kernel

theorem clamped_laws (e : Nat) (eig : ℚ) : FormLaws (form (clamped e).toEdge 1 eig) := interval_laws _ _ _ one_pos

theorem path_cov : ∀ v, ∃ e f, pathNodes e f = v := by decide

/-- The hypotheses of C58 can be met: the eigenvalue 3/2 is positive, as it must be. -/
example : (0 : ℚ) ≤ 3 / 2 := C58_nonneg .debug _ (C44_example _ _ ℚ) 1 clamped path pathNodes path_wf _ _ one_pos path_cov (fun e => clamped_laws e _) clamped_eigenpair

theorem clamped_dirichlet (e : Fin path.n_hyEdges) (f : Fin (2 * 1)) :
    (clamped e).node_descriptor f ∈ (clamped e).dirichlet_nodes ↔ pathNodes e f = ⟨0, by decide⟩ ∨ pathNodes e f = ⟨2, by decide⟩ := by
  show f.1 ∈ (if e.1 = 0 then [0] else [1]) ↔ _
  revert e f
  decide

example : (0 : ℚ) < 3 / 2 := C58_pos .debug _ (C44_example _ _ ℚ) 1 clamped path pathNodes path_wf _ _ one_pos path_cov (fun v => v = ⟨0, by decide⟩ ∨ v = ⟨2, by decide⟩) clamped_dirichlet
  (fun v => by
    have h1 : Adjacent pathNodes ⟨0, by decide⟩ ⟨1, by decide⟩ := ⟨⟨0, by decide⟩, 0, 1, rfl, rfl⟩
    match v with
    | ⟨0, _⟩ => exact ⟨⟨0, by decide⟩, .inl rfl, .refl⟩
    | ⟨1, _⟩ => exact ⟨⟨0, by decide⟩, .inl rfl, .single h1⟩
    | ⟨2, _⟩ => exact ⟨⟨2, by decide⟩, .inr rfl, .refl⟩)
  (fun e => clamped_laws e _) (fun e u f _ h => by
    funext i
    have := congrFun h 0
    rw [Subsingleton.elim i 0]
    simpa [form, clamped, interval, mulVec, dotProduct] using this) clamped_eigenpair

/-- The path without Dirichlet nodes. -/
def free (_ : Nat) : Edge 1 1 ℚ := interval (fun _ => 1) []

/-- On it, the odd function is an eigenvector for the eigenvalue 3/2, ... -/
theorem free_eigenpair : IsEigenpair .debug (cramerSolve _ _ ℚ) 1 free path pathNodes (fun _ _ => 7) (fun _ _ => 8) (fun k => 1 - k.1) (3 / 2) := by
  refine ⟨fun h => ?_, fun e f hf => absurd hf List.not_mem_nil, ?_⟩
  · have := congrFun h ⟨0, by decide⟩
    simp at this
  · rw [HyGraph.mat_vec_eq .debug path pathNodes path_wf _ _ _ (fun e => interval_trace_to_flux .debug (C44_example _ _ ℚ) (fun _ => 1) _ 1 (3 / 2) one_ne_zero (by norm_num) _ _)]
    refine congrArg Res.ok ?_
    rw [← List.ofFn_const]
    refine congrArg List.ofFn ?_
    funext k
    revert k
    decide +kernel

/-- ... and the constant one for the eigenvalue 0. -/
theorem free_constant : IsEigenpair .debug (cramerSolve _ _ ℚ) 1 free path pathNodes (fun _ _ => 7) (fun _ _ => 8) (fun _ => 1) 0 := by
  refine (C58_zero .debug _ (C44_example _ _ ℚ) 1 free path pathNodes path_wf _ _ one_pos _ fun e => interval_laws _ _ _ one_pos).mpr
    ⟨fun h => ?_, fun e f hf => absurd hf List.not_mem_nil, fun e => ⟨fun _ => 1, fun d => ?_, fun f => ?_⟩⟩
  · have := congrFun h ⟨0, by decide⟩
    simp at this
  · funext i
    simp [form, free, interval, mulVec, dotProduct]
  · funext i
    simp [form, free, interval, mulVec, dotProduct, faceValues]

/-- The eigenfunctions are 2, -2 and 1, 1 on the two intervals: orthogonal, as they must be. -/
example := C58_orthogonal .debug _ (C44_example _ _ ℚ) 1 free path pathNodes path_wf _ _ (fun _ => interval_fixed []) (fun _ => interval_laws _ _ _ one_pos) (by norm_num)
  free_eigenpair free_constant (q := fun _ _ _ => 1) (u := fun e _ => if e.1 = 0 then 2 else -2) (q' := fun _ _ _ => 0) (u' := fun _ _ => 1)
  (fun e => (interval_solution _ _ _ _ _ _ _ _).mpr (by revert e; decide +kernel)) (fun e => (interval_solution _ _ _ _ _ _ _ _).mpr (by revert e; decide +kernel))

/-- The hypotheses of C57 can be met, at an eigenvalue which is not zero. -/
example := C57_global .debug _ (C44_example _ _ ℝ) 1 (fun _ => interval (fun _ => 1) [1]) (fun _ => interval_fixed _) (fun _ => interval_orthonormal _ _) 3 (1 / 2) path pathNodes path_wf
  (fun _ => interval_solvable _ _ _ _ one_ne_zero (by norm_num)) (fun _ _ => 7) (fun _ _ => 8) (fun _ _ => 9) (fun _ _ => 7) (fun _ _ => 8) (fun k => k.1) (fun k => 1 - k.1)

end Example

/-- **C57** (fails for coefficients depending on the eigenvalue).  The code passes the eigenvalue to the coefficient as its time.  If the coefficient depends on it, what
`jacobian_of_trace_to_flux` returns is not the derivative: here it returns zero, but `trace_to_flux` has the derivative 2 at face 0. -/
theorem C57_variable_coefficient (m : Mode) (gesv : Gesv ((1 + 1) * 1) 1 ℝ) (hg : GesvSpec gesv) : ∃ (E : Edge 1 1 ℝ) (lambda : LocDofs 1 1 ℝ),
    Orthonormal E ∧ FormLaws (form E.toEdge 1 0) ∧ Solvable (form E.toEdge 1 0) 1 (-0) 1 ∧ (∀ out, jacobian_of_trace_to_flux m gesv 1 0 out 1 lambda 0 E = .ok 0) ∧
      ∀ (out : LocDofs 1 1 ℝ) (Φ : ℝ → LocDofs 1 1 ℝ), (∀ᶠ t in 𝓝 (0 : ℝ), trace_to_flux m gesv 1 (lambda + t • 0) out E (0 + t * 1) = .ok (Φ t)) →
        HasDerivAt (fun t => Φ t 0 0) 2 0 := by
  have hs : Solvable (form (Example.interval (fun t : ℝ => 1 + t) []).toEdge 1 0) 1 (-0) 1 := Example.interval_solvable _ _ _ _ (by norm_num) (by norm_num)
  refine ⟨Example.interval (fun t => 1 + t) [], fun f _ => if f.1 = 0 then 1 else -1, Example.interval_orthonormal _ _, Example.interval_laws _ _ _ (by norm_num), hs, fun out => ?_, fun out Φ h => ?_⟩
  · obtain ⟨q, u, q', u', h1, h2, h3⟩ := (C57_computes m gesv hg 1 (Example.interval (fun t : ℝ => 1 + t) []) 0 0 out 1 (fun f (_ : Fin 1) => if f.1 = 0 then 1 else -1)).1 hs
    have e1 := ((Example.interval_solution _ _ _ _ _ 0 _ _).mp h1).2
    have hu : u = 0 := by
      funext i
      rw [Subsingleton.elim i 0]
      simpa using e1
    rw [hu, smul_zero] at h2
    have e2 := (Example.interval_solution _ _ _ _ _ 0 _ _).mp h2
    simp only [Pi.zero_apply, sub_self, add_zero, mul_zero, one_mul, mul_one, sub_zero] at e2
    rw [h3]
    refine congrArg Res.ok ?_
    funext f j
    simp only [offDirichlet, Example.interval_flux, e2.1]
    have : u' 0 = 0 := by simpa using e2.2
    simp [this]
  · have hΦ : ∀ᶠ t in 𝓝 (0 : ℝ), Φ t 0 0 = -(2 / (1 + t)) - 1 := by
      have h1 : ∀ᶠ t in 𝓝 (0 : ℝ), t ∈ Set.Ioo (-1 : ℝ) 1 := Ioo_mem_nhds (by norm_num) (by norm_num)
      filter_upwards [h, h1] with t ht ht1
      rw [Example.interval_trace_to_flux m hg (fun t => 1 + t) [] 1 (0 + t * 1) (by have := ht1.1; simp; linarith) (by have := ht1.2; simp; linarith)] at ht
      have := congrFun (congrFun (Res.ok.inj ht) 0) 0
      rw [← this]
      simp
      norm_num
    have hd : HasDerivAt (fun t : ℝ => -(2 / (1 + t)) - 1) 2 0 := by
      have h1 : HasDerivAt (fun t : ℝ => 1 + t) 1 0 := (hasDerivAt_id (0 : ℝ)).const_add 1
      have h2 := (((hasDerivAt_const (0 : ℝ) (2 : ℝ)).div h1 (by norm_num)).neg).sub_const 1
      rw [show -(((0 : ℝ) * (1 + 0) - 2 * 1) / (1 + 0) ^ 2) = 2 by norm_num] at h2
      exact h2
    exact hd.congr_of_eventuallyEq hΦ

end HyperHDG.DiffusionEigs

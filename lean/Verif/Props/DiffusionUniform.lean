import Verif.Proofs.DiffusionUniform
import Verif.Proofs.TensorIntegrator
import Verif.Proofs.Legendre
import Verif.Props.GlobalLoop
import Verif.Proofs.BulkValues
import Verif.Props.Lapack

/-!
# Properties C19, C20, C46: the local solver `DiffusionUniform`

`I` are the integrals supplied by the integrator (`Spec.Lawful`, see `Verif/Spec/LocalSolver.lean`, is what is assumed of them), `gesv` is LAPACK's
dense solve (`GesvSpec` is its documentation), `S` an object returned by the constructor.  `Spec.IsLocalSolution` is the weak form of the local
problem, `Spec.numericalFlux` the numerical flux `q . normal + tau (u - lambda)` tested by the face shape functions.
-/

namespace HyperHDG.DiffusionUniform

open Finset Spec

variable {dim nS nB : Nat} {K : Type}

/-- The constructor returns, with the local matrix of the method. -/
theorem construct_spec [CommRing K] (m : Mode) (I : Integrator K) (tau : K) :
    ∃ A, construct m I dim nS tau = .ok ⟨tau, A⟩ ∧ ∀ b i c j, toMat A (ix b i) (ix c j) = locEntry I tau b c i j := by
  obtain ⟨A, h1, h2⟩ := assemble_loc_matrix_spec (dim := dim) (nS := nS) m I tau
  exact ⟨A, by rw [construct, h1]; rfl, h2⟩

theorem of_construct [CommRing K] {m : Mode} {I : Integrator K} {tau : K} {S : Solver dim nS K} (hS : construct m I dim nS tau = .ok S) :
    ∃ A, S = ⟨tau, A⟩ ∧ ∀ b i c j, toMat A (ix b i) (ix c j) = locEntry I tau b c i j := by
  obtain ⟨A, h1, h2⟩ := construct_spec (dim := dim) (nS := nS) m I tau
  rw [h1] at hS
  injection hS with hS
  exact ⟨A, hS.symm, h2⟩

/-! ## C19 -/

section
variable [Field K] (m : Mode) (I : Integrator K) (gesv : Gesv ((dim + 1) * nS) 1 K) (hg : GesvSpec gesv) (tau : K)
  (S : Solver dim nS K) (hS : construct m I dim nS tau = .ok S)

include hg hS

/-- **C19** (what is computed).  If the local problem is uniquely solvable, `trace_to_flux` returns the numerical flux of its solution `(q, u)`, and so
does `residual_flux`; the former content of the output array does not matter.  Otherwise the local solve fails: the debug build aborts, the release
build lets the LAPACK exception through. -/
theorem C19_flux (lambda out : LocDofs dim nB K) :
    (LocallySolvable I dim nS nB tau → ∃ q u, IsLocalSolution (nS := nS) I tau lambda q u ∧
      trace_to_flux m I gesv S lambda out = .ok (numericalFlux I tau lambda q u) ∧
      residual_flux m I gesv S lambda out = .ok (numericalFlux I tau lambda q u)) ∧
    (¬ LocallySolvable I dim nS nB tau →
      trace_to_flux m I gesv S lambda out = solveFailure m) := by
  obtain ⟨A, rfl, hA⟩ := of_construct hS
  have h := trace_to_flux_spec m I gesv hg tau A hA lambda out
  refine ⟨fun hs => ?_, fun hs => (h.2 hs).trans (by cases m <;> rfl)⟩
  obtain ⟨q, u, h1, h2⟩ := h.1 hs
  exact ⟨q, u, h2, h1, h1⟩

/-- If `trace_to_flux` returns, the local problem is uniquely solvable and the result is the numerical flux of its solution. -/
theorem of_ok {lambda out y : LocDofs dim nB K} (h : trace_to_flux m I gesv S lambda out = .ok y) :
    LocallySolvable I dim nS nB tau ∧ ∃ q u, IsLocalSolution (nS := nS) I tau lambda q u ∧ y = numericalFlux I tau lambda q u := by
  have hf := C19_flux m I gesv hg tau S hS lambda out
  by_cases hs : LocallySolvable I dim nS nB tau
  · obtain ⟨q, u, h1, h2, _⟩ := hf.1 hs
    rw [h] at h2
    injection h2 with h2
    exact ⟨hs, q, u, h1, h2⟩
  · have := hf.2 hs
    rw [h] at this
    cases m <;> cases this

/-- If `(q, u)` solves the local problem, `trace_to_flux` returns its numerical flux. -/
theorem to_ok (hs : LocallySolvable I dim nS nB tau) {lambda : LocDofs dim nB K} {q : Fin dim → Fin nS → K} {u : Fin nS → K}
    (h : IsLocalSolution I tau lambda q u) (out : LocDofs dim nB K) :
    trace_to_flux m I gesv S lambda out = .ok (numericalFlux I tau lambda q u) := by
  obtain ⟨q', u', h1, h2, _⟩ := (C19_flux m I gesv hg tau S hS lambda out).1 hs
  obtain ⟨q0, u0, _, h4⟩ := hs lambda
  obtain ⟨rfl, rfl⟩ := h4 q' u' h1
  obtain ⟨rfl, rfl⟩ := h4 q u h
  exact h2

/-- **C19** (linearity).  If `trace_to_flux` returns `y` for `lambda` and `z` for `mu`, then it returns `a y + b z` for `a lambda + b mu`. -/
theorem C19_linear {lambda mu out out' y z : LocDofs dim nB K} (hy : trace_to_flux m I gesv S lambda out = .ok y)
    (hz : trace_to_flux m I gesv S mu out' = .ok z) (a b : K) (out'' : LocDofs dim nB K) :
    trace_to_flux m I gesv S (fun f j => a * lambda f j + b * mu f j) out'' = .ok (fun f j => a * y f j + b * z f j) := by
  obtain ⟨hs, q, u, h1, rfl⟩ := of_ok m I gesv hg tau S hS hy
  obtain ⟨_, q', u', h1', rfl⟩ := of_ok m I gesv hg tau S hS hz
  rw [to_ok m I gesv hg tau S hS hs (solution_linear a b h1 h1') out'', flux_linear]

end

section
variable [Field K] [LinearOrder K] [IsStrictOrderedRing K] (m : Mode) (I : Integrator K) (hI : Lawful I dim nS nB)
  (gesv : Gesv ((dim + 1) * nS) 1 K) (hg : GesvSpec gesv) (tau : K) (S : Solver dim nS K) (hS : construct m I dim nS tau = .ok S)

include hI hg hS

/-- **C19** (symmetry).  `mu . trace_to_flux(lambda) = lambda . trace_to_flux(mu)`. -/
theorem C19_symmetric {lambda mu out out' y z : LocDofs dim nB K} (hy : trace_to_flux m I gesv S lambda out = .ok y)
    (hz : trace_to_flux m I gesv S mu out' = .ok z) : ∑ f, ∑ j, mu f j * y f j = ∑ f, ∑ j, lambda f j * z f j := by
  obtain ⟨hs, q, u, h1, rfl⟩ := of_ok m I gesv hg tau S hS hy
  obtain ⟨_, q', u', h1', rfl⟩ := of_ok m I gesv hg tau S hS hz
  exact flux_symm hI h1 h1'

/-- **C19** (definiteness).  `lambda . trace_to_flux(lambda) ≤ 0` for `tau ≥ 0`. -/
theorem C19_semidefinite (ht : 0 ≤ tau) {lambda out y : LocDofs dim nB K} (hy : trace_to_flux m I gesv S lambda out = .ok y) :
    ∑ f, ∑ j, lambda f j * y f j ≤ 0 := by
  obtain ⟨hs, q, u, h1, rfl⟩ := of_ok m I gesv hg tau S hS hy
  rw [flux_energy hI h1]
  exact neg_nonpos.mpr (energy_nonneg hI ht q u lambda)

/-- **C19** (null space).  For `tau > 0` the form vanishes exactly for the traces of constants, and then the flux itself vanishes. -/
theorem C19_kernel (ht : 0 < tau) {lambda out y : LocDofs dim nB K} (hy : trace_to_flux m I gesv S lambda out = .ok y) :
    (∑ f, ∑ j, lambda f j * y f j = 0 ↔ ∃ u : Fin nS → K, Constant I dim u ∧ lambda = traceOf I nB u) ∧
    (∑ f, ∑ j, lambda f j * y f j = 0 ↔ y = 0) := by
  obtain ⟨hs, q, u, h1, rfl⟩ := of_ok m I gesv hg tau S hS hy
  have key : ∑ f, ∑ j, lambda f j * numericalFlux I tau lambda q u f j = 0 → Constant I dim u ∧ lambda = traceOf I nB u ∧ q = 0 := by
    intro h
    rw [flux_energy hI h1, neg_eq_zero] at h
    obtain ⟨rfl, h3⟩ := energy_zero hI ht h
    rw [h3] at h1
    exact ⟨constant_of hI h1, h3, rfl⟩
  have back : ∀ v : Fin nS → K, Constant I dim v → lambda = traceOf I nB v → numericalFlux I tau lambda q u = 0 := by
    intro v hv h
    have h2 := constant_solution hI hv tau
    rw [← h] at h2
    have h3 := to_ok m I gesv hg tau S hS hs h2 out
    have h4 := to_ok m I gesv hg tau S hS hs h1 out
    rw [h3] at h4
    injection h4 with h4
    rw [← h4, h]
    exact constant_flux tau
  refine ⟨⟨fun h => ⟨u, (key h).1, (key h).2.1⟩, fun ⟨v, hv, h⟩ => ?_⟩, fun h => back u (key h).1 (key h).2.1, fun h => ?_⟩
  · rw [back v hv h]; simp
  · rw [h]; simp

/-- **C19** (conservation).  The trace of a constant has no flux, and for any trace the sum of the fluxes over all faces, tested by the trace of a
constant, vanishes. -/
theorem C19_conservation {u : Fin nS → K} (hu : Constant I dim u) {lambda out y : LocDofs dim nB K}
    (hy : trace_to_flux m I gesv S lambda out = .ok y) (out' : LocDofs dim nB K) :
    trace_to_flux m I gesv S (traceOf I nB u) out' = .ok 0 ∧ ∑ f, ∑ j, traceOf I nB u f j * y f j = 0 := by
  obtain ⟨hs, q, w, h1, rfl⟩ := of_ok m I gesv hg tau S hS hy
  have h2 := constant_solution hI hu tau
  refine ⟨(to_ok m I gesv hg tau S hS hs h2 out').trans (by rw [constant_flux]), ?_⟩
  rw [flux_symm hI h1 h2, constant_flux]
  simp

/-! ## C20 -/

/-- **C20**.  For `tau > 0` the local problem has exactly one solution for each trace, and `trace_to_flux` and `residual_flux` return its numerical flux;
the local solve never throws. -/
theorem C20_solvable (ht : 0 < tau) (lambda out : LocDofs dim nB K) :
    ∃ q u, IsLocalSolution (nS := nS) I tau lambda q u ∧ (∀ q' u', IsLocalSolution I tau lambda q' u' → q' = q ∧ u' = u) ∧
      trace_to_flux m I gesv S lambda out = .ok (numericalFlux I tau lambda q u) ∧
      residual_flux m I gesv S lambda out = .ok (numericalFlux I tau lambda q u) := by
  have hs := solvable hI ht
  obtain ⟨q, u, h1, h2⟩ := hs lambda
  have := to_ok m I gesv hg tau S hS hs h1 out
  exact ⟨q, u, h1, h2, this, this⟩

end

/-- **C20** (the constructor).  The constructor returns for each `tau`, in both build modes. -/
theorem C20_constructor [CommRing K] (m : Mode) (I : Integrator K) (tau : K) : ∃ S : Solver dim nS K, construct m I dim nS tau = .ok S := by
  obtain ⟨A, h, _⟩ := construct_spec (dim := dim) (nS := nS) m I tau
  exact ⟨_, h⟩

/-- **C20** (limit).  For `tau = 0` the local solve always fails if some nonzero function `c` is orthogonal to all derivatives of shape functions (as the
one of highest degree is). -/
theorem C20_tau_zero [Field K] (m : Mode) (I : Integrator K) (gesv : Gesv ((dim + 1) * nS) 1 K) (hg : GesvSpec gesv) (S : Solver dim nS K)
    (hS : construct m I dim nS 0 = .ok S) (c : Fin nS → K) (hc : ∀ (d : Fin dim) (i : Fin nS), ∑ j : Fin nS, I.vol_Dphiphi i j d * c j = 0) (h0 : c ≠ 0)
    (lambda out : LocDofs dim nB K) : trace_to_flux m I gesv S lambda out = solveFailure m := by
  refine (C19_flux m I gesv hg 0 S hS lambda out).2 fun hs => h0 ?_
  obtain ⟨q, u, h1, h2⟩ := hs (0 : LocDofs dim nB K)
  have hz : IsLocalSolution I 0 (0 : LocDofs dim nB K) (0 : Fin dim → Fin nS → K) (0 : Fin nS → K) := by
    constructor <;> intros <;> simp
  have hc' : IsLocalSolution I 0 (0 : LocDofs dim nB K) (0 : Fin dim → Fin nS → K) c := by
    constructor
    · intro d i; simp [hc]
    · intro i; simp
  exact (h2 _ _ hc').2.trans (h2 _ _ hz).2.symm

/-! ## The global operator -/

/-- The local operator handed to the global loop (the same solver for each hyperedge). -/
def localOperator [CommRing K] (m : Mode) (I : Integrator K) (gesv : Gesv ((dim + 1) * nS) 1 K) (S : Solver dim nS K) : HyGraph.LocalFun dim nB K :=
  fun _ lambda out => trace_to_flux m I gesv S lambda out

/-- **C19** (globally).  On each well-formed hypergraph and for `tau > 0` the global `trace_to_flux` with this local solver is a linear map `A`, symmetric and negative
semidefinite; `x . A x = 0` exactly if `x` restricts to the trace of a constant on each hyperedge, and then `A x = 0`. -/
theorem C19_global [Field K] [LinearOrder K] [IsStrictOrderedRing K] (m : Mode) (I : Integrator K) (hI : Lawful I dim nS nB)
    (gesv : Gesv ((dim + 1) * nS) 1 K) (hg : GesvSpec gesv) (tau : K) (ht : 0 < tau) (S : Solver dim nS K) (hS : construct m I dim nS tau = .ok S)
    (G : HyGraph dim nB) (nodes : Fin G.n_hyEdges → Fin (2 * dim) → Fin G.n_hyNodes) (hwf : G.WF nodes) (old0 new0 : LocDofs dim nB K) :
    ∃ A : (Fin (G.n_hyNodes * nB) → K) →ₗ[K] (Fin (G.n_hyNodes * nB) → K),
      (∀ x, G.mat_vec_multiply m (localOperator m I gesv S) old0 new0 (List.ofFn x) = .ok (List.ofFn (A x))) ∧
      (∀ x z, ∑ k, z k * A x k = ∑ k, x k * A z k) ∧
      (∀ x, ∑ k, x k * A x k ≤ 0) ∧
      (∀ x, ∑ k, x k * A x k = 0 ↔ ∀ e, ∃ u : Fin nS → K, Constant I dim u ∧ faceValues nodes x e = traceOf I nB u) ∧
      (∀ x, ∑ k, x k * A x k = 0 → A x = 0) := by
  have hret : ∀ lambda : LocDofs dim nB K, ∃ y, ∀ out, trace_to_flux m I gesv S lambda out = .ok y := by
    intro lambda
    obtain ⟨q, u, h1, h2⟩ := solvable hI ht lambda
    exact ⟨_, fun out => to_ok m I gesv hg tau S hS (solvable hI ht) h1 out⟩
  choose F hF using hret
  have hlin : ∀ (a b : K) (x y : LocDofs dim nB K), F (fun f j => a * x f j + b * y f j) = fun f j => a * F x f j + b * F y f j := by
    intro a b x y
    have := C19_linear m I gesv hg tau S hS (hF x 0) (hF y 0) a b 0
    rw [hF] at this
    injection this
  let L : LocDofs dim nB K →ₗ[K] LocDofs dim nB K :=
    { toFun := F
      map_add' := fun x y => by
        have := hlin 1 1 x y
        simp only [one_mul] at this
        exact this
      map_smul' := fun a x => by
        have := hlin a 0 x 0
        simp only [zero_mul, add_zero] at this
        exact this }
  have hloc : ∀ (e : Fin G.n_hyEdges) (u : LocDofs dim nB K), localOperator m I gesv S e u (fun _ _ => 0) = .ok (L u) := fun e u => hF u _
  obtain ⟨A, hA⟩ := HyGraph.C18_linear m G nodes hwf old0 new0 (localOperator m I gesv S) (fun _ => L) hloc
  have huniq : ∀ B : (Fin (G.n_hyNodes * nB) → K) → (Fin (G.n_hyNodes * nB) → K),
      (∀ x, G.mat_vec_multiply m (localOperator m I gesv S) old0 new0 (List.ofFn x) = .ok (List.ofFn (B x))) → ∀ x, B x = A x := by
    intro B hB x
    have := (hB x).symm.trans (hA x)
    injection this with this
    exact List.ofFn_injective this
  obtain ⟨B, hB1, hB2⟩ := HyGraph.C18_symmetric m G nodes hwf old0 new0 (localOperator m I gesv S) (fun _ => L) hloc
    (fun _ u v => C19_symmetric m I hI gesv hg tau S hS (hF u 0) (hF v 0))
  obtain ⟨C, hC1, hC2⟩ := HyGraph.C18_semidefinite m G nodes hwf old0 new0 (localOperator m I gesv S) (fun _ => L) hloc
    (fun _ u => C19_semidefinite m I hI gesv hg tau S hS ht.le (hF u 0))
  have hzero : ∀ x, (∀ e, F (faceValues nodes x e) = 0) → A x = 0 := by
    intro x h
    have h1 := HyGraph.C16_sum_of_contributions m G nodes hwf (localOperator m I gesv S) x (fun e => F (faceValues nodes x e)) (fun e => hF _ _) old0 new0
    rw [hA x] at h1
    injection h1 with h1
    have h2 := List.ofFn_injective h1
    rw [h2]
    funext k
    simp [h]
  have hker : ∀ x, ∑ k, x k * A x k = 0 → ∀ e, ∑ i, ∑ j, faceValues nodes x e i j * F (faceValues nodes x e) i j = 0 := by
    intro x h e
    rw [← huniq C hC1] at h
    exact (hC2 x).2 h e
  refine ⟨A, hA, fun x z => ?_, fun x => ?_, fun x => ⟨fun h e => ?_, fun h => ?_⟩, fun x h => ?_⟩
  · rw [← huniq B hB1, ← huniq B hB1]; exact hB2 x z
  · rw [← huniq C hC1]; exact (hC2 x).1
  · exact (C19_kernel m I hI gesv hg tau S hS ht (hF _ 0)).1.mp (hker x h e)
  · rw [hzero x]
    · simp
    · intro e
      have hk := C19_kernel m I hI gesv hg tau S hS ht (hF (faceValues nodes x e) 0)
      exact hk.2.mp (hk.1.mpr (h e))
  · refine hzero x fun e => ?_
    exact (C19_kernel m I hI gesv hg tau S hS ht (hF _ 0)).2.mp (hker x h e)

/-! ## C46 -/

/-- **C46**.  `bulk_values` returns, in component `d < dim`, the values of the `d`-th component of the dual unknown, in component `dim` those of the
primal unknown of the local solution, at the points of the tensor grid of the abscissas in lexicographic order.  (`lin_comb` evaluates a combination of
shape functions.) -/
theorem C46_bulk_values [Field K] (m : Mode) (I : Integrator K) (gesv : Gesv ((dim + 1) * nS) 1 K) (hg : GesvSpec gesv) (tau : K)
    (S : Solver dim nS K) (hS : construct m I dim nS tau = .ok S) (hs : LocallySolvable I dim nS nB tau)
    (lin_comb : (Fin nS → K) → List K → K) (abscissas : List K) (lambda : LocDofs dim nB K)
    (vals0 : Fin (dim + 1) → Fin (Hypercube.pow dim abscissas.length) → K) :
    ∃ q u, IsLocalSolution (nS := nS) I tau lambda q u ∧ ∃ vals, bulk_values m I gesv lin_comb S abscissas lambda vals0 = .ok vals ∧
      ∀ pt : Fin (Hypercube.pow dim abscissas.length), ∃ p, Hypercube.tensorial_pt m dim pt abscissas = .ok p ∧
        (∀ d : Fin dim, vals d.castSucc pt = lin_comb (q d) p) ∧ vals (Fin.last dim) pt = lin_comb u p := by
  obtain ⟨A, rfl, hA⟩ := of_construct hS
  obtain ⟨x, h1, h2⟩ := (solve_local_problem_spec m I gesv hg tau A hA lambda).1 hs
  obtain ⟨r, hr1, hr2⟩ := bulk_loop (dim := dim) m lin_comb abscissas x (fun _ => 0) vals0
  refine ⟨qOf (toMat x), uOf (toMat x), h2, r.2, ?_, fun pt => ?_⟩
  · unfold bulk_values
    rw [h1, Res.ok_bind, hr1]
    rfl
  · obtain ⟨p, hp1, hp2⟩ := hr2 pt
    exact ⟨p, hp1, fun d => hp2 d.castSucc, hp2 (Fin.last dim)⟩

/-! ## Concrete instances -/

/-- **C20** (the method of the code).  For each polynomial degree `p` and dimension `d + 1` there are orthonormal polynomials, and the exact integrals of their tensor
products satisfy the assumptions, with the numbers of shape functions computed by the code if these fit into `unsigned int`; so the local problem is uniquely solvable for each `tau > 0`. -/
theorem C20_polynomials (p d : Nat) (hfit : (p + 1) ^ (d + 1) < U32) : (∃ P, OrthonormalPolys p P) ∧ ∀ P, OrthonormalPolys p P →
    Lawful (tensorIntegrator (p + 1) (d + 1) (exactBasis P)) (d + 1) (n_shape_fct (d + 1) p) (n_glob_dofs_per_node (d + 1) p) ∧
    ∀ tau : ℝ, 0 < tau → LocallySolvable (tensorIntegrator (p + 1) (d + 1) (exactBasis P)) (d + 1) (n_shape_fct (d + 1) p) (n_glob_dofs_per_node (d + 1) p) tau := by
  refine ⟨exists_orthonormal p, fun P hP => ?_⟩
  have h := tensor_lawful (d := d) (exactBasis P) (exact_lawful hP)
  have hfit' : (p + 1) ^ d < U32 := lt_of_le_of_lt (Nat.pow_le_pow_right (by omega) (by omega)) hfit
  have e2 : n_glob_dofs_per_node (d + 1) p = (p + 1) ^ d := (Hypercube.C04_pow d (p + 1)).2 hfit'
  have e1 : n_shape_fct (d + 1) p = (p + 1) ^ (d + 1) := by
    rw [n_shape_fct, e2, ← pow_succ, u32, Nat.mod_eq_of_lt hfit]
  rw [e1, e2]
  exact ⟨h, fun tau ht => solvable h ht⟩

namespace Example

/-- Piecewise constants on the interval over the rational numbers. -/
def B0 : Basis1D 1 ℚ := ⟨fun _ => 1, fun _ => 1, fun _ _ => 0⟩

theorem B0_lawful : B0.Lawful := by
  constructor
  · intro i j; simp [B0]
  · intro u _ h
    funext i
    have : i = 0 := Subsingleton.elim _ _
    subst this
    simpa [B0] using h

noncomputable def I0 := tensorIntegrator 1 1 B0

theorem I0_lawful : Lawful I0 1 1 1 := tensor_lawful (d := 0) B0 B0_lawful

/-- The hypotheses of C19 and C20 can be met: an edge of dimension 1 with constants, `tau = 1`. -/
example : ∃ S y, construct .debug I0 1 1 1 = .ok S ∧ trace_to_flux .debug I0 (cramerSolve _ _ ℚ) S (fun f (_ : Fin 1) => f.1) (fun _ _ => 7) = .ok y ∧
    ∑ f, ∑ j, (f.1 : ℚ) * y f j < 0 := by
  obtain ⟨S, hS⟩ := C20_constructor (dim := 1) (nS := 1) .debug I0 (1 : ℚ)
  obtain ⟨q, u, h1, _, h2, _⟩ := C20_solvable .debug I0 I0_lawful (cramerSolve _ _ ℚ) (C44_example _ _ ℚ) 1 S hS one_pos (fun f (_ : Fin 1) => f.1) (fun _ _ => 7)
  refine ⟨S, _, hS, h2, lt_of_le_of_ne (C19_semidefinite .debug I0 I0_lawful _ (C44_example _ _ ℚ) 1 S hS zero_le_one h2) fun h => ?_⟩
  obtain ⟨v, _, hv⟩ := (C19_kernel .debug I0 I0_lawful _ (C44_example _ _ ℚ) 1 S hS one_pos h2).1.mp h
  have h3 := congrFun (congrFun hv 0) 0
  have h4 := congrFun (congrFun hv 1) 0
  simp [traceOf, I0, tensorIntegrator, SameFace, B0] at h3 h4
  rw [← h3] at h4
  exact one_ne_zero h4

/-- The hypotheses of C46 can be met. -/
example := fun S hS => C46_bulk_values (nB := 1) .release I0 (cramerSolve _ _ ℚ) (C44_example _ _ ℚ) 1 S hS (solvable I0_lawful one_pos) (fun c _ => c 0) [0, 1/2, 1]
  (fun f _ => f.1) (fun _ _ => 7)

/-- The hypotheses of the limit can be met: `tau = 0`. -/
example : ∃ S, construct .release I0 1 1 0 = .ok S ∧
    trace_to_flux .release I0 (cramerSolve _ _ ℚ) S (fun f (_ : Fin 1) => f.1) (fun _ _ => 7) = .throw .lapack := by
  obtain ⟨S, hS⟩ := C20_constructor (dim := 1) (nS := 1) .release I0 (0 : ℚ)
  exact ⟨S, hS, C20_tau_zero .release I0 _ (C44_example _ _ ℚ) S hS (fun _ => 1) (fun d i => by simp [I0, tensorIntegrator, B0])
    (fun h => one_ne_zero (congrFun h 0)) _ _⟩

/-- The hypotheses of the global statement can be met: the path with two edges. -/
example := fun S hS => C19_global .debug I0 I0_lawful (cramerSolve _ _ ℚ) (C44_example _ _ ℚ) 1 one_pos S hS HyGraph.Example.path HyGraph.Example.pathNodes
  HyGraph.Example.path_wf (fun _ _ => 7) (fun _ _ => 8)

end Example

end HyperHDG.DiffusionUniform

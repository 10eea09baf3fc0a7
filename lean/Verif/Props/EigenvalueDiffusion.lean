import Verif.Props.EigenvalueProgram
import Verif.Props.DiffusionEigs
import Verif.Props.GlobalClasses
import Verif.Proofs.GeneralizedEigen

/-!
# Property C90: the eigenvalue programs for diffusion

`Eigen.dirichlet_indices_call` is `dirichlet_indices()` of the C++ classes (`Verif/Model/GlobalClasses.lean`, C22), `mat_vec_multiply` their loop over the hyperedges.
-/

namespace HyperHDG.EigenvalueProgram

open Finset Spec Matrix HyGraph
open ParabolicProgram (LinearSolver Exact Complete)

variable {dim nS nB : Nat} {K : Type}

/-- The local mass operator handed to the global loop; `E e` is hyperedge `e`. -/
def localMass [CommRing K] (m : Mode) (gesv : Gesv ((dim + 1) * nS) 1 K) (tau : K) (E : Nat → Diffusion.Edge dim nS K) (time : K) : HyGraph.LocalFun dim nB K :=
  fun e lambda out => Diffusion.trace_to_mass_flux m gesv tau lambda out (E e) time

/-- The object of the programs `diffusion_*_eigenvalue_approx.py`: `MassApproxEigenvalue` with the local solver `Diffusion`, which has reported the Dirichlet indices `indices`
(`old0`, `new0`: what the arrays of the loops contain at the beginning). -/
def massApproxWrapper [CommRing K] (m : Mode) (gesv : Gesv ((dim + 1) * nS) 1 K) (tau : K) (E : Nat → Diffusion.Edge dim nS K) (G : HyGraph dim nB) (old0 new0 : LocDofs dim nB K)
    (indices : List Nat) : Wrapper K where
  size_of_system := G.n_hyNodes * nB
  dirichlet_indices := indices
  trace_to_flux x time := G.mat_vec_multiply m (Diffusion.localOperator m gesv tau E time) old0 new0 x
  trace_to_mass_flux x time := G.mat_vec_multiply m (localMass m gesv tau E time) old0 new0 x

/-- The object of the programs `diffusion_*_eigenvalue_shifted_inverse*.py`: `ShiftedInverseEigenvalue` with the local solver `DiffusionEigs`. -/
def shiftedInverseWrapper [CommRing K] (m : Mode) (gesv : Gesv ((dim + 1) * nS) 1 K) (tau : K) (E : Nat → DiffusionEigs.Edge dim nS K) (G : HyGraph dim nB) (old0 new0 : LocDofs dim nB K)
    (indices : List Nat) : Wrapper K where
  size_of_system := G.n_hyNodes * nB
  dirichlet_indices := indices
  trace_to_flux x sigma := G.mat_vec_multiply m (DiffusionEigs.localOperator m gesv tau E sigma) old0 new0 x
  trace_to_mass_flux _ _ := .ub

/-- The Dirichlet indices a new object reports. -/
theorem indices_spec (m : Mode) (G : HyGraph dim nB) (nodes : Fin G.n_hyEdges → Fin (2 * dim) → Fin G.n_hyNodes) (hwf : G.WF nodes) (hcov : ∀ v, ∃ e f, nodes e f = v)
    (D : Fin G.n_hyNodes → Prop) (types : Nat → Fin (2 * dim) → Nat) (htypes : ∀ (e : Fin G.n_hyEdges) (f : Fin (2 * dim)), types e f = 1 ↔ D (nodes e f))
    {object : Eigen dim nB} (hobj : (Eigen.mk G types []).dirichlet_indices_call m = .ok object) :
    object.dirichlet_indices.Pairwise (· < ·) ∧ (∀ k ∈ object.dirichlet_indices, k < G.n_hyNodes * nB) ∧
      ∀ (v : Fin G.n_hyNodes) (j : Fin nB), (dof v j).1 ∈ object.dirichlet_indices ↔ D v := by
  have hv : G.Valid := ⟨hwf.fits, fun e he i => by
    rw [show e = (⟨e, he⟩ : Fin G.n_hyEdges).1 from rfl, hwf.hyNodes_eq]
    exact (nodes _ i).2⟩
  obtain ⟨E', h1, _, _, h4, h5⟩ := eigen_call_eq m (Eigen.mk G types []) hv
  rw [hobj] at h1
  have := Res.ok.inj h1
  subst this
  have h6 : ∀ k, k ∈ object.dirichlet_indices ↔ ∃ (e : Fin G.n_hyEdges) (f : Fin (2 * dim)) (j : Fin nB), D (nodes e f) ∧ k = (dof (nodes e f) j).1 := by
    intro k
    rw [h5]
    simp only [List.not_mem_nil, false_or]
    constructor
    · rintro ⟨e, he, i, ht, j, hj, hk⟩
      refine ⟨⟨e, he⟩, i, ⟨j, hj⟩, (htypes ⟨e, he⟩ i).mp ht, ?_⟩
      have h7 := hwf.hyNodes_eq ⟨e, he⟩ i
      rw [hk]
      show G.hyNodes e i * nB + j = (nodes ⟨e, he⟩ i).1 * nB + j
      rw [← h7]
    · rintro ⟨e, f, j, hd, rfl⟩
      refine ⟨e, e.2, f, (htypes e f).mpr hd, j, j.2, ?_⟩
      show (nodes e f).1 * nB + j.1 = _
      rw [← hwf.hyNodes_eq]
  refine ⟨h4, fun k hk => ?_, fun v j => ?_⟩
  · obtain ⟨e, f, j, _, rfl⟩ := (h6 k).mp hk
    exact (dof (nodes e f) j).2
  · rw [h6]
    constructor
    · rintro ⟨e, f, j', hd, hk⟩
      obtain ⟨h7, _⟩ := dof_inj (Fin.ext hk)
      rw [h7]
      exact hd
    · intro hd
      obtain ⟨e, f, rfl⟩ := hcov v
      exact ⟨e, f, j, hd, rfl⟩

/-- The vectors the program admits are those which vanish at the Dirichlet nodes. -/
theorem admissible_iff [Zero K] {N : Nat} {D : Fin N → Prop} {d : List Nat} (hd : ∀ (v : Fin N) (j : Fin nB), (dof v j).1 ∈ d ↔ D v) (x : Fin (N * nB) → K) :
    (∀ k : Fin (N * nB), k.1 ∈ d → x k = 0) ↔ VanishesAt D x := by
  constructor
  · intro h v hv j
    exact h _ ((hd v j).mpr hv)
  · intro h k hk
    obtain ⟨v, j, rfl⟩ := dof_surj k
    exact h v ((hd v j).mp hk) j

theorem eigenvector_iff [Field K] {N : Nat} {D : Fin N → Prop} {d : List Nat} (hd : ∀ (v : Fin N) (j : Fin nB), (dof v j).1 ∈ d ↔ D v) (A B : (Fin (N * nB) → K) → Fin (N * nB) → K)
    (hA : ∀ x, VanishesAt D (A x)) (hB : ∀ x, VanishesAt D (B x)) (val : K) (x : Fin (N * nB) → K) :
    IsEigenvector d A B val x ↔ x ≠ 0 ∧ VanishesAt D x ∧ A x + val • B x = 0 := by
  unfold IsEigenvector
  rw [admissible_iff hd]
  refine and_congr_right fun _ => and_congr_right fun _ => ⟨fun h => ?_, fun h k _ => congrFun h k⟩
  funext k
  by_cases hk : k.1 ∈ d
  · have h1 := (admissible_iff hd (A x)).mpr (hA x) k hk
    have h2 := (admissible_iff hd (B x)).mpr (hB x) k hk
    show A x k + val * B x k = 0
    rw [h1, h2, mul_zero, add_zero]
  · exact h k hk

section
variable [Field K] (m : Mode) (gesv : Gesv ((dim + 1) * nS) 1 K) (hg : GesvSpec gesv) (tau : K)
  (G : HyGraph dim nB) (nodes : Fin G.n_hyEdges → Fin (2 * dim) → Fin G.n_hyNodes) (hwf : G.WF nodes) (hcov : ∀ v, ∃ e f, nodes e f = v)
  (D : Fin G.n_hyNodes → Prop) (old0 new0 : LocDofs dim nB K)

include hwf in
/-- An operator given by its contributions of the hyperedges. -/
theorem assembled (loc : HyGraph.LocalFun dim nB K) (F : Fin G.n_hyEdges → LocDofs dim nB K → LocDofs dim nB K)
    (hF : ∀ (e : Fin G.n_hyEdges) (u : LocDofs dim nB K), loc e u (fun _ _ => 0) = .ok (F e u)) (hzero : ∀ e u f, D (nodes e f) → F e u f = 0) :
    ∃ B : (Fin (G.n_hyNodes * nB) → K) → Fin (G.n_hyNodes * nB) → K, (∀ x, G.mat_vec_multiply m loc old0 new0 (List.ofFn x) = .ok (List.ofFn (B x))) ∧ (∀ x, VanishesAt D (B x)) ∧
      ∀ x z, ∑ k, z k * B x k = ∑ e, ∑ i, ∑ j, faceValues nodes z e i j * F e (faceValues nodes x e) i j :=
  ⟨fun x => assemble nodes (fun e => F e (faceValues nodes x e)), fun x => mat_vec_eq m G nodes hwf loc x _ (fun e => hF e _) old0 new0,
    fun _ => assemble_vanishes nodes D _ fun e f h => hzero e _ f h, fun _ z => pairing_assemble nodes _ z⟩

section MassApprox
open Diffusion
variable [LinearOrder K] [IsStrictOrderedRing K] (ht : 0 < tau) (E : Nat → Edge dim nS K) (hE : ∀ e, FormLaws (form (E e) nB 0)) (hR : ∀ e, Rigid (form (E e) nB 0))
  (hD : ∀ (e : Fin G.n_hyEdges) (f : Fin (2 * dim)), (E e).node_descriptor f ∈ (E e).dirichlet_nodes ↔ D (nodes e f)) (hcon : Anchored nodes D)

include hg ht hwf hE hD in
/-- The global mass operator. -/
theorem mass_operator : ∃ B : (Fin (G.n_hyNodes * nB) → K) → Fin (G.n_hyNodes * nB) → K,
    (∀ x, G.mat_vec_multiply m (localMass m gesv tau E 0) old0 new0 (List.ofFn x) = .ok (List.ofFn (B x))) ∧ (∀ x, VanishesAt D (B x)) ∧
    (∀ x z, VanishesAt D x → VanishesAt D z → ∑ k, z k * B x k = ∑ k, x k * B z k) ∧ ∀ x, VanishesAt D x → 0 ≤ ∑ k, x k * B x k := by
  have hs : ∀ e, Solvable (form (E e) nB 0) tau 0 1 := fun e => (C21_solvable m gesv hg tau (E e) 0 (hE e) ht (0 : LocDofs dim nB K) 0).1
  have hret : ∀ (e : Fin G.n_hyEdges) (lambda : LocDofs dim nB K), ∃ y, trace_to_mass_flux m gesv tau lambda (fun _ _ => 0) (E e) 0 = .ok y ∧ ∀ f, D (nodes e f) → y f = 0 := by
    intro e lambda
    obtain ⟨q, u, q', u', _, _, h⟩ := C47_flux m gesv hg tau (E e) 0 (hs e) lambda (fun _ _ => 0)
    refine ⟨_, h, fun f hf => funext fun j => ?_⟩
    simp only [offDirichlet]
    exact if_pos ((hD e f).mpr hf)
  choose F hF hF0 using hret
  obtain ⟨B, h1, h2, h3⟩ := assembled m G nodes hwf D old0 new0 (localMass m gesv tau E 0) F hF fun e u f h => hF0 e u f h
  have hv : ∀ x : Fin (G.n_hyNodes * nB) → K, VanishesAt D x → ∀ e : Fin G.n_hyEdges, VanishesOnDirichlet (E e) (faceValues nodes x e) := fun x hx e f hf j => hx _ ((hD e f).mp hf) j
  refine ⟨B, h1, h2, fun x z hx hz => ?_, fun x hx => ?_⟩
  · rw [h3, h3]
    exact Finset.sum_congr rfl fun e _ => C47_symmetric m gesv hg tau (E e) 0 (hs e) (hE e) (hv x hx e) (hv z hz e) (hF e _) (hF e _)
  · rw [h3]
    exact Finset.sum_nonneg fun e _ => C47_semidefinite m gesv hg tau (E e) 0 (hs e) (hE e) (hv x hx e) (hF e _)

/-- `x` and `val` are an eigenpair of the linearised problem: `x`, not zero, vanishes at the Dirichlet nodes, and what `trace_to_flux` and `trace_to_mass_flux` return for it satisfies
`trace_to_flux(x) + val trace_to_mass_flux(x) = 0` in all rows. -/
def MassEigenpair (val : K) (x : Fin (G.n_hyNodes * nB) → K) : Prop :=
  x ≠ 0 ∧ VanishesAt D x ∧ ∃ a b : Fin (G.n_hyNodes * nB) → K, G.mat_vec_multiply m (localOperator m gesv tau E 0) old0 new0 (List.ofFn x) = .ok (List.ofFn a) ∧
    G.mat_vec_multiply m (localMass m gesv tau E 0) old0 new0 (List.ofFn x) = .ok (List.ofFn b) ∧ a + val • b = 0

include hg ht hwf hE hR hD hcon in
/-- The eigenvalues are positive. -/
theorem massEigenpair_pos {val : K} {x : Fin (G.n_hyNodes * nB) → K} (h : MassEigenpair m gesv tau G D old0 new0 E val x) : 0 < val := by
  obtain ⟨A, _, hA, _, _, _, _, hAneg, hAdef⟩ := EllipticProgram.diffusion_operator m gesv hg tau ht E 0 hE hR G nodes hwf D hD hcon old0 new0
  obtain ⟨B, hB, _, _, hBpos⟩ := mass_operator m gesv hg tau G nodes hwf D old0 new0 ht E hE hD
  obtain ⟨c1, c2, a, b, k1, k2, c3⟩ := h
  rw [hA] at k1
  rw [hB] at k2
  rw [← List.ofFn_injective (Res.ok.inj k1), ← List.ofFn_injective (Res.ok.inj k2)] at c3
  have h1 : ∑ k, x k * A x k + val * ∑ k, x k * B x k = 0 := by
    rw [Finset.mul_sum, ← Finset.sum_add_distrib]
    refine Finset.sum_eq_zero fun k _ => ?_
    have : A x k + val * B x k = 0 := congrFun c3 k
    linear_combination x k * this
  have h2 : ∑ k, x k * A x k < 0 := lt_of_le_of_ne (hAneg x c2) fun h => c1 (hAdef x c2 h)
  by_contra hcon'
  have h3 := mul_nonneg (neg_nonneg.mpr (not_lt.mp hcon')) (hBpos x c2)
  linarith

include hg ht hwf hcov hE hR hD hcon in
/-- **C90** (diffusion, mass approximation).  Let the Dirichlet indices be those a new object reports.  If the program returns, then an eigenpair of the linearised problem; its eigenvalue is positive, and
no other one is nearer to `sigma`. -/
theorem C90_diffusion_partial (types : Nat → Fin (2 * dim) → Nat) (htypes : ∀ e, node_types (E e) = .ok (types e)) {object : Eigen dim nB}
    (hobj : (Eigen.mk G types []).dirichlet_indices_call m = .ok object) (sigma : K) (cg : LinearSolver K) (hcg : Exact cg) (eigsh : Eigsh K) (heig : ExactEigsh eigsh)
    {val : K} {solution : List K}
    (h : MassApprox.program (massApproxWrapper m gesv tau E G old0 new0 object.dirichlet_indices) sigma cg eigsh = .ok (val, solution)) :
    (∃ x, solution = List.ofFn x ∧ MassEigenpair m gesv tau G D old0 new0 E val x) ∧ 0 < val ∧
      (NearestEigsh eigsh → ∀ val' x', MassEigenpair m gesv tau G D old0 new0 E val' x' → |val - sigma| ≤ |val' - sigma|) := by
  obtain ⟨A, _, hA, _, hA0, _, hAs, hAneg, hAdef⟩ := EllipticProgram.diffusion_operator m gesv hg tau ht E 0 hE hR G nodes hwf D hD hcon old0 new0
  obtain ⟨B, hB, hB0, hBs, hBpos⟩ := mass_operator m gesv hg tau G nodes hwf D old0 new0 ht E hE hD
  have htypes' : ∀ (e : Fin G.n_hyEdges) (f : Fin (2 * dim)), types e f = 1 ↔ D (nodes e f) := by
    intro e f
    obtain ⟨t, h1, h2, _⟩ := C21_node_types (E e) f
    rw [htypes] at h1
    rw [Res.ok.inj h1, h2, hD]
  obtain ⟨i1, i2, i3⟩ := indices_spec m G nodes hwf hcov D types htypes' hobj
  have hiff := fun val x => eigenvector_iff i3 (fun x => A x) B hA0 hB0 val x
  have hiff' : ∀ val x, MassEigenpair m gesv tau G D old0 new0 E val x ↔ IsEigenvector object.dirichlet_indices (fun x => A x) B val x := by
    intro val x
    rw [hiff]
    refine and_congr_right fun _ => and_congr_right fun _ => ⟨?_, fun h => ⟨_, _, hA x, hB x, h⟩⟩
    rintro ⟨a, b, h1, h2, h3⟩
    rw [hA] at h1
    rw [hB] at h2
    rw [List.ofFn_injective (Res.ok.inj h1), List.ofFn_injective (Res.ok.inj h2)]
    exact h3
  obtain ⟨x, e1, e2⟩ : ∃ x : Fin (G.n_hyNodes * nB) → K, solution = List.ofFn x ∧ IsEigenvector object.dirichlet_indices (fun x => A x) B val x :=
    C90_mass_approx_partial (massApproxWrapper m gesv tau E G old0 new0 object.dirichlet_indices) sigma i1 i2 cg hcg eigsh heig (fun x => A x) B hA hB h
  refine ⟨⟨x, e1, (hiff' val x).mpr e2⟩, ?_, fun hnear val' x' hx' => ?_⟩
  · exact massEigenpair_pos m gesv hg tau G nodes hwf D old0 new0 ht E hE hR hD hcon ((hiff' val x).mpr e2)
  · refine C90_mass_approx_nearest (massApproxWrapper m gesv tau E G old0 new0 object.dirichlet_indices) sigma i1 i2 cg hcg eigsh heig (fun x => A x) B hA hnear ?_ hB ?_ ?_ h val' x' ((hiff' val' x').mp hx')
    · exact fun x z hx hz => hAs x z ((admissible_iff i3 x).mp hx) ((admissible_iff i3 z).mp hz)
    · exact fun x z hx hz => hBs x z ((admissible_iff i3 x).mp hx) ((admissible_iff i3 z).mp hz)
    · exact fun x hx => hBpos x ((admissible_iff i3 x).mp hx)

end MassApprox

section ShiftedInverse
open DiffusionEigs
variable (E : Nat → Edge dim nS K)
  (hD : ∀ (e : Fin G.n_hyEdges) (f : Fin (2 * dim)), (E e).node_descriptor f ∈ (E e).dirichlet_nodes ↔ D (nodes e f))

include hg hwf hcov hD in
/-- **C90** (diffusion, shifted inverse).  Let the Dirichlet indices be those a new object reports, `sigma` not zero and the local problems for zero and for `sigma` uniquely solvable.  If the program
returns, then a number `val` and a vector `x`, not zero, which vanishes at the Dirichlet nodes, such that `(1 - val / sigma) trace_to_flux(x) + (val / sigma) trace_to_flux(x, sigma) = 0` in all rows; if `val` is
`sigma`, then `x` is an eigenvector of the nonlinear problem of C58. -/
theorem C90_diffusion_shifted_partial (types : Nat → Fin (2 * dim) → Nat) (htypes : ∀ e, node_types (E e) = .ok (types e)) {object : Eigen dim nB}
    (hobj : (Eigen.mk G types []).dirichlet_indices_call m = .ok object) (sigma : K) (hsig : sigma ≠ 0) (hs0 : ∀ e : Fin G.n_hyEdges, Solvable (Diffusion.form (E e).toEdge nB 0) tau (-0) 1)
    (hs : ∀ e : Fin G.n_hyEdges, Solvable (Diffusion.form (E e).toEdge nB sigma) tau (-sigma) 1) (cg : LinearSolver K) (hcg : Exact cg) (eigsh : Eigsh K) (heig : ExactEigsh eigsh)
    {val : K} {solution : List K}
    (h : ShiftedInverse.program (shiftedInverseWrapper m gesv tau E G old0 new0 object.dirichlet_indices) sigma cg eigsh = .ok (val, solution)) :
    ∃ x a c : Fin (G.n_hyNodes * nB) → K, solution = List.ofFn x ∧ x ≠ 0 ∧ VanishesAt D x ∧ G.mat_vec_multiply m (localOperator m gesv tau E 0) old0 new0 (List.ofFn x) = .ok (List.ofFn a) ∧
      G.mat_vec_multiply m (localOperator m gesv tau E sigma) old0 new0 (List.ofFn x) = .ok (List.ofFn c) ∧ (1 - val / sigma) • a + (val / sigma) • c = 0 ∧
      (val = sigma → IsEigenpair m gesv tau E G nodes old0 new0 x val) := by
  have hret : ∀ (s : K), (∀ e : Fin G.n_hyEdges, Solvable (Diffusion.form (E e).toEdge nB s) tau (-s) 1) → ∀ (e : Fin G.n_hyEdges) (lambda : LocDofs dim nB K),
      ∃ y, trace_to_flux m gesv tau lambda (fun _ _ => 0) (E e) s = .ok y ∧ ∀ f, D (nodes e f) → y f = 0 := by
    intro s hs e lambda
    obtain ⟨q, u, _, h⟩ := (C56_flux m gesv hg tau (E e) s lambda (fun _ _ => 0)).1 (hs e)
    exact ⟨_, h, fun f hf => funext fun j => C56_dirichlet_zero m gesv hg tau (E e) s lambda _ _ h f ((hD e f).mpr hf) j⟩
  choose F hF hF0 using hret 0 hs0
  choose F' hF' hF0' using hret sigma hs
  obtain ⟨A, hA, hA0, _⟩ := assembled m G nodes hwf D old0 new0 (localOperator m gesv tau E 0) F hF fun e u f h => hF0 e u f h
  obtain ⟨C, hC, hC0, _⟩ := assembled m G nodes hwf D old0 new0 (localOperator m gesv tau E sigma) F' hF' fun e u f h => hF0' e u f h
  have htypes' : ∀ (e : Fin G.n_hyEdges) (f : Fin (2 * dim)), types e f = 1 ↔ D (nodes e f) := by
    intro e f
    obtain ⟨t, h1, h2, _⟩ := C56_node_types (E e) f
    rw [htypes] at h1
    rw [Res.ok.inj h1, h2, hD]
  obtain ⟨i1, i2, i3⟩ := indices_spec m G nodes hwf hcov D types htypes' hobj
  obtain ⟨x, e1, e2⟩ := C90_shifted_inverse_partial (shiftedInverseWrapper m gesv tau E G old0 new0 object.dirichlet_indices) sigma i1 i2 cg hcg eigsh heig A C hA hsig hC h
  have hB0 : ∀ x, VanishesAt D (fun k => (C x k - A x k) / sigma) := fun x v hv j => by
    show (C x (dof v j) - A x (dof v j)) / sigma = 0
    rw [hA0 x v hv j, hC0 x v hv j, sub_zero, zero_div]
  obtain ⟨c1, c2, c3⟩ := (eigenvector_iff i3 A (fun x k => (C x k - A x k) / sigma) hA0 hB0 val x).mp e2
  have c4 : (1 - val / sigma) • A x + (val / sigma) • C x = 0 := by
    funext k
    have : A x k + val * ((C x k - A x k) / sigma) = 0 := congrFun c3 k
    show (1 - val / sigma) * A x k + val / sigma * C x k = 0
    rw [← this]
    ring
  refine ⟨x, A x, C x, e1, c1, c2, hA x, hC x, c4, fun hval => ⟨c1, fun e f hf j => c2 _ ((hD e f).mp hf) j, ?_⟩⟩
  subst hval
  rw [div_self hsig, sub_self, zero_smul, zero_add, one_smul] at c4
  exact (hC x).trans (congrArg Res.ok ((congrArg List.ofFn c4).trans (List.ofFn_const _ _)))

end ShiftedInverse

end

section Returns
open Diffusion

/-- **C90** (diffusion, mass approximation, the program returns).  Over the real numbers, with solvers which find what there is, the program returns if the mass operator is not zero and `sigma` is not an
eigenvalue. -/
theorem C90_diffusion_returns (m : Mode) (gesv : Gesv ((dim + 1) * nS) 1 ℝ) (hg : GesvSpec gesv) (tau : ℝ) (ht : 0 < tau)
    (G : HyGraph dim nB) (nodes : Fin G.n_hyEdges → Fin (2 * dim) → Fin G.n_hyNodes) (hwf : G.WF nodes) (hcov : ∀ v, ∃ e f, nodes e f = v)
    (D : Fin G.n_hyNodes → Prop) (old0 new0 : LocDofs dim nB ℝ) (E : Nat → Edge dim nS ℝ) (hE : ∀ e, FormLaws (form (E e) nB 0)) (hR : ∀ e, Rigid (form (E e) nB 0))
    (hD : ∀ (e : Fin G.n_hyEdges) (f : Fin (2 * dim)), (E e).node_descriptor f ∈ (E e).dirichlet_nodes ↔ D (nodes e f)) (hcon : Anchored nodes D)
    (types : Nat → Fin (2 * dim) → Nat) (htypes : ∀ e, node_types (E e) = .ok (types e)) {object : Eigen dim nB}
    (hobj : (Eigen.mk G types []).dirichlet_indices_call m = .ok object) (sigma : ℝ) (cg : LinearSolver ℝ) (hcg : Exact cg) (hc : Complete cg) (eigsh : Eigsh ℝ) (heig : ExactEigsh eigsh)
    (hcomp : CompleteEigsh eigsh) (hsig : ∀ x, ¬ MassEigenpair m gesv tau G D old0 new0 E sigma x)
    (hmass : ∃ x b : Fin (G.n_hyNodes * nB) → ℝ, VanishesAt D x ∧ G.mat_vec_multiply m (localMass m gesv tau E 0) old0 new0 (List.ofFn x) = .ok (List.ofFn b) ∧ b ≠ 0) :
    ∃ val solution, MassApprox.program (massApproxWrapper m gesv tau E G old0 new0 object.dirichlet_indices) sigma cg eigsh = .ok (val, solution) := by
  obtain ⟨A, _, hA, _, hA0, _, hAs, hAneg, hAdef⟩ := EllipticProgram.diffusion_operator m gesv hg tau ht E 0 hE hR G nodes hwf D hD hcon old0 new0
  obtain ⟨B, hB, hB0, hBs, hBpos⟩ := mass_operator m gesv hg tau G nodes hwf D old0 new0 ht E hE hD
  have htypes' : ∀ (e : Fin G.n_hyEdges) (f : Fin (2 * dim)), types e f = 1 ↔ D (nodes e f) := by
    intro e f
    obtain ⟨t, h1, h2, _⟩ := C21_node_types (E e) f
    rw [htypes] at h1
    rw [Res.ok.inj h1, h2, hD]
  obtain ⟨i1, i2, i3⟩ := indices_spec m G nodes hwf hcov D types htypes' hobj
  have hiff := fun val x => eigenvector_iff i3 (fun x => A x) B hA0 hB0 val x
  have hAs' : ∀ x z, Vanish object.dirichlet_indices x → Vanish object.dirichlet_indices z → ∑ k, z k * A x k = ∑ k, x k * A z k :=
    fun x z hx hz => hAs x z ((admissible_iff i3 x).mp hx) ((admissible_iff i3 z).mp hz)
  have hBs' : ∀ x z, Vanish object.dirichlet_indices x → Vanish object.dirichlet_indices z → ∑ k, z k * B x k = ∑ k, x k * B z k :=
    fun x z hx hz => hBs x z ((admissible_iff i3 x).mp hx) ((admissible_iff i3 z).mp hz)
  have hne : ∃ x, Vanish object.dirichlet_indices x ∧ ∃ k : Fin (G.n_hyNodes * nB), k.1 ∉ object.dirichlet_indices ∧ B x k ≠ 0 := by
    obtain ⟨x, b, hx, h1, h2⟩ := hmass
    rw [hB] at h1
    rw [← List.ofFn_injective (Res.ok.inj h1)] at h2
    refine ⟨x, (admissible_iff i3 x).mpr hx, ?_⟩
    by_contra hcon'
    refine h2 (funext fun k => ?_)
    by_cases hk : k.1 ∈ object.dirichlet_indices
    · exact (admissible_iff i3 (B x)).mpr (hB0 x) k hk
    · by_contra h3
      exact hcon' ⟨k, hk, h3⟩
  have hsig' : ∀ x, ¬ IsEigenvector object.dirichlet_indices (fun x => A x) B sigma x := fun x hx =>
    let ⟨c1, c2, c3⟩ := (hiff sigma x).mp hx
    hsig x ⟨c1, c2, _, _, hA x, hB x, c3⟩
  obtain ⟨val, x, hx, hnext⟩ := nearest_exists object.dirichlet_indices hAs' hBs'
    (fun x hx h0 => lt_of_le_of_ne (hAneg x ((admissible_iff i3 x).mp hx)) fun h => h0 (hAdef x ((admissible_iff i3 x).mp hx) h)) hne sigma
  obtain ⟨r, hr⟩ := C90_mass_approx_returns (massApproxWrapper m gesv tau E G old0 new0 object.dirichlet_indices) sigma i1 i2 cg hcg eigsh heig (fun x => A x) B hA hAs' hc hcomp hB hBs'
    (fun x hx => hBpos x ((admissible_iff i3 x).mp hx)) (shifted_solution object.dirichlet_indices hAs' hBs' hsig') hx hnext
  exact ⟨r.1, r.2, hr⟩

end Returns

end HyperHDG.EigenvalueProgram

import Verif.Proofs.EllipticProgram
import Verif.Proofs.Rigid
import Verif.Props.DiffusionParab

/-!
# Property C54: programs solving elliptic problems

`solve` and `solveDeclared` (`Verif/Model/EllipticProgram.lean`) are the sequences of calls by which the examples solve an elliptic problem: right-hand side from the residual
(or from the Dirichlet values), then `conjugate_gradient`.
-/

namespace HyperHDG.EllipticProgram

open Finset Spec Matrix HyGraph

variable {dim nS nB : Nat} {K : Type}

/-- The local residual handed to the global loop; `E e` is hyperedge `e`. -/
def localResidual [CommRing K] (m : Mode) (gesv : Gesv ((dim + 1) * nS) 1 K) (tau : K) (E : Nat → Diffusion.Edge dim nS K) (time : K) : HyGraph.LocalFun dim nB K :=
  fun e lambda out => Diffusion.residual_flux m gesv tau lambda out (E e) time

variable [Field K] [LinearOrder K] [IsStrictOrderedRing K]

/-! ## The local solver `Diffusion` -/

section Diffusion

open Diffusion

variable (m : Mode) (gesv : Gesv ((dim + 1) * nS) 1 K) (hg : GesvSpec gesv) (tau : K) (ht : 0 < tau)
  (E : Nat → Edge dim nS K) (time : K) (hE : ∀ e, FormLaws (form (E e) nB time)) (hR : ∀ e, Rigid (form (E e) nB time))
  (G : HyGraph dim nB) (nodes : Fin G.n_hyEdges → Fin (2 * dim) → Fin G.n_hyNodes) (hwf : G.WF nodes)
  (D : Fin G.n_hyNodes → Prop) (hD : ∀ (e : Fin G.n_hyEdges) (f : Fin (2 * dim)), (E e).node_descriptor f ∈ (E e).dirichlet_nodes ↔ D (nodes e f))
  (hcon : Anchored nodes D) (old0 new0 : LocDofs dim nB K)

include hg ht hE hR hwf hD hcon

/-- The global operator and the global residual. -/
theorem diffusion_operator : ∃ (A : (Fin (G.n_hyNodes * nB) → K) →ₗ[K] (Fin (G.n_hyNodes * nB) → K)) (R : Fin (G.n_hyNodes * nB) → K),
    (∀ x, G.mat_vec_multiply m (localOperator m gesv tau E time) old0 new0 (List.ofFn x) = .ok (List.ofFn (A x))) ∧
    (∀ x, G.mat_vec_multiply m (localResidual m gesv tau E time) old0 new0 (List.ofFn x) = .ok (List.ofFn (A x + R))) ∧
    (∀ x, VanishesAt D (A x)) ∧ VanishesAt D R ∧
    (∀ x z, VanishesAt D x → VanishesAt D z → ∑ k, z k * A x k = ∑ k, x k * A z k) ∧
    (∀ x, VanishesAt D x → ∑ k, x k * A x k ≤ 0) ∧ (∀ x, VanishesAt D x → ∑ k, x k * A x k = 0 → x = 0) := by
  obtain ⟨A, hA, hsym, hker⟩ := C21_global m gesv hg tau ht E time hE G nodes hwf old0 new0
  have hv : ∀ x : Fin (G.n_hyNodes * nB) → K, VanishesAt D x → ∀ e : Fin G.n_hyEdges, VanishesOnDirichlet (E e) (faceValues nodes x e) := fun x hx e f hf j => hx _ ((hD e f).mp hf) j
  have hr0 : ∀ e : Fin G.n_hyEdges, ∃ r : LocDofs dim nB K, (∀ lambda : LocDofs dim nB K, ∃ y, trace_to_flux m gesv tau lambda (fun _ _ => 0) (E e) time = .ok y ∧
      residual_flux m gesv tau lambda (fun _ _ => 0) (E e) time = .ok (y + r)) ∧ residual_flux m gesv tau 0 (fun _ _ => 0) (E e) time = .ok r := by
    intro e
    have hs := (C21_solvable m gesv hg tau (E e) time (hE e) ht (0 : LocDofs dim nB K) 0).1
    obtain ⟨_, r, _, h2, _⟩ := C21_affine m gesv hg tau (E e) time hs 0 0 (fun _ _ => 0) 0
    refine ⟨r, fun lambda => ?_, h2⟩
    obtain ⟨y, r', k1, k2, k3⟩ := C21_affine m gesv hg tau (E e) time hs lambda (fun _ _ => 0) (fun _ _ => 0) (fun _ _ => 0)
    rw [h2] at k2; injection k2 with k2
    exact ⟨y, k1, by rw [k3, k2]⟩
  choose R0 hR0 hR00 using hr0
  choose F hF hFR using hR0
  have hAx : ∀ x, A x = assemble nodes (fun e => F e (faceValues nodes x e)) := by
    intro x
    have h1 := mat_vec_eq m G nodes hwf (localOperator m gesv tau E time) x (fun e => F e (faceValues nodes x e)) (fun e => hF e _) old0 new0
    rw [hA x] at h1
    injection h1 with h1
    exact List.ofFn_injective h1
  refine ⟨A, assemble nodes R0, hA, fun x => ?_, fun x => ?_, ?_, fun x z hx hz => hsym x z (hv x hx) (hv z hz), fun x hx => (hker x (hv x hx)).1, fun x hx h => ?_⟩
  · rw [mat_vec_eq m G nodes hwf (localResidual m gesv tau E time) x _ (fun e => hFR e _) old0 new0, assemble_sum_add, hAx]
  · rw [hAx]
    exact assemble_vanishes nodes D _ fun e f h => funext fun j => C21_dirichlet_zero m gesv hg tau (E e) time _ _ _ (.inl (hF e _)) f ((hD e f).mpr h) j
  · exact assemble_vanishes nodes D _ fun e f h => funext fun j => C21_dirichlet_zero m gesv hg tau (E e) time _ _ _ (.inr (hR00 e)) f ((hD e f).mpr h) j
  · have hc := (hker x (hv x hx)).2.1.mp h
    have key : ∀ v, ∀ j, x (dof v j) = 0 := by
      refine hcon.all (fun v => ∀ j, x (dof v j) = 0) hx fun e f g hf => ?_
      obtain ⟨u, hu, htr⟩ := hc e
      have h1 := htr f
      have h2 : faceValues nodes x e f = 0 := funext hf
      unfold IsTrace at h1
      rw [h2, smul_zero] at h1
      have h3 := hR e u f hu h1.symm
      have h4 := htr g
      unfold IsTrace at h4
      rw [h3, mulVec_zero] at h4
      exact congrFun ((smul_eq_zero.mp h4).resolve_left ((hE e).area_pos g).ne')
    funext k
    obtain ⟨v, j, rfl⟩ := dof_surj k
    exact key v j

/-- **C54** (exactly one discrete solution).  Let being of Dirichlet type be a property `D` of the hypernodes, and let each hypernode be connected to a Dirichlet node by a chain of hyperedges.
For `tau > 0` there is exactly one vector vanishing at the Dirichlet nodes for which the residual returned by `Elliptic::residual_flux` is zero. -/
theorem C54_unique : ∃! y : Fin (G.n_hyNodes * nB) → K, VanishesAt D y ∧
    (Elliptic.mk' G).apply m (localResidual m gesv tau E time) old0 new0 (List.ofFn y) = .ok (List.replicate (G.n_hyNodes * nB) 0) := by
  obtain ⟨A, R, hA, hRes, hAD, hRD, hsym, hneg, hdef⟩ := diffusion_operator m gesv hg tau ht E time hE hR G nodes hwf D hD hcon old0 new0
  let S : Fin (G.n_hyNodes * nB) → Prop := fun k => ∃ v j, D v ∧ dof v j = k
  have hS : ∀ x : Fin (G.n_hyNodes * nB) → K, VanishesAt D x ↔ ∀ k, S k → x k = 0 := fun x =>
    ⟨fun h k ⟨v, j, hv, hk⟩ => hk ▸ h v hv j, fun h v hv j => h _ ⟨v, j, hv, rfl⟩⟩
  have hz : ∀ y, (Elliptic.mk' G).apply m (localResidual m gesv tau E time) old0 new0 (List.ofFn y) = .ok (List.replicate (G.n_hyNodes * nB) 0) ↔ A y = -R := by
    intro y
    rw [C23_fresh, hRes, ← List.ofFn_const]
    constructor
    · intro h
      injection h with h
      exact eq_neg_of_add_eq_zero_left (List.ofFn_injective h)
    · intro h
      rw [h, neg_add_cancel]
      rfl
  simp only [hz, hS]
  refine unique_masked A S (fun x => (hS _).mp (hAD x)) (fun x hx => hdef x ((hS x).mpr hx)) (-R) fun k hk => ?_
  rw [Pi.neg_apply, (hS R).mp hRD k hk, neg_zero]

/-- **C54** (the program).  Under the same hypotheses the program returns, without exception, a vector which vanishes at the Dirichlet nodes and whose residual, as returned by
`Elliptic::residual_flux`, is smaller than the tolerance. -/
theorem C54_solve (div : K → K → K) (hdiv : ∀ a c, c ≠ 0 → div a c = a / c) (tolerance : K) (htol : tolerance ≠ 0) :
    ∃ x r : Fin (G.n_hyNodes * nB) → K,
      solve m div G (localOperator m gesv tau E time) (localResidual m gesv tau E time) old0 new0 tolerance = .ok (List.ofFn x) ∧ VanishesAt D x ∧
      (Elliptic.mk' G).apply m (localResidual m gesv tau E time) old0 new0 (List.ofFn x) = .ok (List.ofFn r) ∧ ∑ k, r k ^ 2 < tolerance ^ 2 := by
  obtain ⟨A, R, hA, hRes, hAD, hRD, hsym, hneg, hdef⟩ := diffusion_operator m gesv hg tau ht E time hE hR G nodes hwf D hD hcon old0 new0
  let S : Fin (G.n_hyNodes * nB) → Prop := fun k => ∃ v j, D v ∧ dof v j = k
  have hS : ∀ x : Fin (G.n_hyNodes * nB) → K, VanishesAt D x ↔ ∀ k, S k → x k = 0 := fun x =>
    ⟨fun h k ⟨v, j, hv, hk⟩ => hk ▸ h v hv j, fun h v hv j => h _ ⟨v, j, hv, rfl⟩⟩
  have hop : ∀ x, operator m (localOperator m gesv tau E time) old0 new0 (Elliptic.mk' G) (List.ofFn x) = .ok (List.ofFn (A x), Elliptic.mk' G) := fun x => by
    rw [operator, C23_fresh, hA]; rfl
  have hz : (zero_vector G : List K) = List.ofFn (0 : Fin (G.n_hyNodes * nB) → K) := by
    rw [zero_vector, n_global_dofs_eq G hwf.fits, ← List.ofFn_const]; rfl
  obtain ⟨x, p', h1, h2, h3⟩ := cg_masked m div hdiv (operator m (localOperator m gesv tau E time) old0 new0) A S (fun x => (hS _).mp (hAD x))
    (fun x z hx hz => hsym x z ((hS x).mpr hx) ((hS z).mpr hz)) (fun x hx => hneg x ((hS x).mpr hx)) (fun x hx => hdef x ((hS x).mpr hx)) (Elliptic.mk' G) hop (-R)
    (fun k hk => by rw [Pi.neg_apply, (hS R).mp hRD k hk, neg_zero]) tolerance htol hwf.fits
  refine ⟨x, A x + R, ?_, (hS x).mpr h2, by rw [C23_fresh, hRes], lt_of_eq_of_lt (Finset.sum_congr rfl fun k _ => ?_) h3⟩
  · simp only [solve]
    rw [C23_fresh, hz, hRes, map_zero, zero_add, Res.ok_bind, negate_eq, Res.ok_bind, h1]
    rfl
  · rw [Pi.add_apply, Pi.neg_apply]; ring

end Diffusion

/-! ## The local solver `DiffusionUniform` -/

section Uniform

open DiffusionUniform

variable (m : Mode) (I : Integrator K) (hI : Lawful I dim nS nB) (hR : RigidIntegrator I dim nS nB) (gesv : Gesv ((dim + 1) * nS) 1 K) (hg : GesvSpec gesv) (tau : K) (ht : 0 < tau)
  (S : Solver dim nS K) (hS : construct m I dim nS tau = .ok S) (G : HyGraph dim nB) (nodes : Fin G.n_hyEdges → Fin (2 * dim) → Fin G.n_hyNodes) (hwf : G.WF nodes)
  (indices : List Nat) (hind : ∀ d ∈ indices, d < G.n_hyNodes * nB) (hcon : Anchored nodes (fun v => ∀ j : Fin nB, (dof v j).1 ∈ indices)) (old0 new0 : LocDofs dim nB K)

include hI hR hg ht hS hwf hind hcon

/-- The operator with declared Dirichlet indices. -/
theorem uniform_operator : ∃ (E' : Elliptic dim nB) (A A' : (Fin (G.n_hyNodes * nB) → K) →ₗ[K] (Fin (G.n_hyNodes * nB) → K)),
    (Elliptic.mk' G).read_dirichlet_indices m indices = .ok E' ∧
    (∀ x, E'.apply m (localOperator m I gesv S) old0 new0 (List.ofFn x) = .ok (List.ofFn (A' x))) ∧
    (∀ x, G.mat_vec_multiply m (localOperator m I gesv S) old0 new0 (List.ofFn x) = .ok (List.ofFn (A x))) ∧
    (∀ x k, A' x k = if k.1 ∈ indices then 0 else A x k) ∧
    (∀ x z, (∀ k, k.1 ∈ indices → x k = 0) → (∀ k, k.1 ∈ indices → z k = 0) → ∑ k, z k * A' x k = ∑ k, x k * A' z k) ∧
    (∀ x, (∀ k, k.1 ∈ indices → x k = 0) → ∑ k, x k * A' x k ≤ 0) ∧ (∀ x, (∀ k, k.1 ∈ indices → x k = 0) → ∑ k, x k * A' x k = 0 → x = 0) := by
  obtain ⟨A, hA, hsym, hneg, hker, _⟩ := C19_global m I hI gesv hg tau ht S hS G nodes hwf old0 new0
  obtain ⟨E', h1, h2, h3⟩ := C23_zero_at_declared (K := K) m (Elliptic.mk' G) hwf.fits indices (fun d hd => by
    show d < G.n_global_dofs
    rw [n_global_dofs_eq G hwf.fits]
    exact hind d hd)
  let A' : (Fin (G.n_hyNodes * nB) → K) →ₗ[K] (Fin (G.n_hyNodes * nB) → K) :=
    { toFun := fun x k => if k.1 ∈ indices then 0 else A x k
      map_add' := fun x y => by
        funext k
        simp only [map_add, Pi.add_apply]
        split <;> simp
      map_smul' := fun a x => by
        funext k
        simp only [map_smul, Pi.smul_apply, smul_eq_mul, RingHom.id_apply]
        split <;> simp }
  have hp : ∀ x z : Fin (G.n_hyNodes * nB) → K, (∀ k : Fin (G.n_hyNodes * nB), k.1 ∈ indices → z k = 0) → ∑ k, z k * A' x k = ∑ k, z k * A x k := by
    intro x z hz
    refine Finset.sum_congr rfl fun k _ => ?_
    show z k * (if k.1 ∈ indices then 0 else A x k) = _
    split
    next h => rw [hz k h]; simp
    next => rfl
  refine ⟨E', A, A', h1, fun x => h3 _ _ _ _ _ (hA x), hA, fun _ _ => rfl, fun x z hx hz => ?_, fun x hx => ?_, fun x hx h => ?_⟩
  · rw [hp x z hz, hp z x hx, hsym]
  · rw [hp x x hx]; exact hneg x
  · rw [hp x x hx] at h
    have hc := (hker x).mp h
    have key : ∀ v, ∀ j, x (dof v j) = 0 := by
      refine hcon.all (fun v => ∀ j, x (dof v j) = 0) (fun v hv j => hx _ (hv j)) fun e f g hf => ?_
      obtain ⟨u, hu, htr⟩ := hc e
      have h4 : u = 0 := by
        refine hR u f hu ?_
        rw [← htr]
        exact funext hf
      intro j
      have h5 := congrFun (congrFun htr g) j
      rw [h4] at h5
      exact h5.trans (by simp [traceOf])
    funext k
    obtain ⟨v, j, rfl⟩ := dof_surj k
    exact key v j

/-- **C54** (declared Dirichlet indices).  Let the declared indices contain all dofs of some hypernodes, such that each hypernode is connected to one of these by a chain of hyperedges.  For `tau > 0` there is
exactly one vector which has the given values at the declared indices and for which `trace_to_flux` returns zero (after the indices have been declared). -/
theorem C54_declared_unique (values : Fin (G.n_hyNodes * nB) → K) : ∃ E', (Elliptic.mk' G).read_dirichlet_indices m indices = .ok E' ∧
    ∃! y : Fin (G.n_hyNodes * nB) → K, (∀ k, k.1 ∈ indices → y k = values k) ∧
      E'.apply m (localOperator m I gesv S) old0 new0 (List.ofFn y) = .ok (List.replicate (G.n_hyNodes * nB) 0) := by
  obtain ⟨E', A, A', h1, h2, _, h3, hsym, hneg, hdef⟩ := uniform_operator m I hI hR gesv hg tau ht S hS G nodes hwf indices hind hcon old0 new0
  refine ⟨E', h1, ?_⟩
  have hz : ∀ y, E'.apply m (localOperator m I gesv S) old0 new0 (List.ofFn y) = .ok (List.replicate (G.n_hyNodes * nB) 0) ↔ A' y = 0 := by
    intro y
    rw [h2, ← List.ofFn_const]
    exact ⟨fun h => List.ofFn_injective (Res.ok.inj h), fun h => by rw [h]; rfl⟩
  simp only [hz]
  have h0 : ∀ x (k : Fin (G.n_hyNodes * nB)), k.1 ∈ indices → A' x k = 0 := fun x k hk => by rw [h3, if_pos hk]
  obtain ⟨y, ⟨hy1, hy2⟩, hy3⟩ := unique_masked A' (fun k => k.1 ∈ indices) h0 hdef (-A' values) fun k hk => by rw [Pi.neg_apply, h0 _ k hk, neg_zero]
  refine ⟨y + values, ⟨fun k hk => ?_, ?_⟩, fun y' ⟨k1, k2⟩ => ?_⟩
  · rw [Pi.add_apply, hy1 k hk, zero_add]
  · rw [map_add, hy2, neg_add_cancel]
  · have := hy3 (y' - values) ⟨fun k hk => by rw [Pi.sub_apply, k1 k hk, sub_self], by rw [map_sub, k2, zero_sub]⟩
    rw [← this, sub_add_cancel]

/-- **C54** (the program with declared Dirichlet indices).  Under the same hypotheses the program returns, without exception, a vector which has the given values at the declared
indices and whose flux, apart from the declared indices, is smaller than the tolerance. -/
theorem C54_declared_solve (values : Fin (G.n_hyNodes * nB) → K) (div : K → K → K) (hdiv : ∀ a c, c ≠ 0 → div a c = a / c) (tolerance : K) (htol : tolerance ≠ 0) :
    ∃ x r : Fin (G.n_hyNodes * nB) → K,
      solveDeclared m div G (localOperator m I gesv S) old0 new0 indices (List.ofFn values) tolerance = .ok (List.ofFn x) ∧ (∀ k, k.1 ∈ indices → x k = values k) ∧
      G.mat_vec_multiply m (localOperator m I gesv S) old0 new0 (List.ofFn x) = .ok (List.ofFn r) ∧ (∑ k, if k.1 ∈ indices then 0 else r k ^ 2) < tolerance ^ 2 := by
  obtain ⟨E', A, A', h1, h2, hA, h3, hsym, hneg, hdef⟩ := uniform_operator m I hI hR gesv hg tau ht S hS G nodes hwf indices hind hcon old0 new0
  have h0 : ∀ x (k : Fin (G.n_hyNodes * nB)), k.1 ∈ indices → A' x k = 0 := fun x k hk => by rw [h3, if_pos hk]
  have hop : ∀ x, operator m (localOperator m I gesv S) old0 new0 E' (List.ofFn x) = .ok (List.ofFn (A' x), E') := fun x => by
    rw [operator, h2]; rfl
  obtain ⟨x, p', k1, k2, k3⟩ := cg_masked m div hdiv (operator m (localOperator m I gesv S) old0 new0) A' (fun k => k.1 ∈ indices) h0 hsym hneg hdef E' hop (-A' values)
    (fun k hk => by rw [Pi.neg_apply, h0 _ k hk, neg_zero]) tolerance htol hwf.fits
  refine ⟨x + values, A (x + values), ?_, fun k hk => by rw [Pi.add_apply, k2 k hk, zero_add], hA _, lt_of_eq_of_lt (Finset.sum_congr rfl fun k _ => ?_) k3⟩
  · simp only [solveDeclared]
    rw [h1, Res.ok_bind, h2, Res.ok_bind, negate_eq, Res.ok_bind, k1, Res.ok_bind, SparseLA.C10_linear_combination]
    refine congrArg Res.ok (List.ofFn_inj.mpr (funext fun k => ?_))
    simp
  · have e1 : (-A' values) k - A' x k = -A' (x + values) k := by
      rw [map_add, Pi.add_apply, Pi.neg_apply]; ring
    rw [e1, h3, neg_sq]
    split <;> simp

end Uniform

/-- **C54** (the hypothesis on the integrals).  With exact integrals of tensor products of polynomials of any degree, in any dimension, functions without derivatives are determined by their trace
on one face, on the reference cube and on each of its affine images. -/
theorem C54_rigid {p d : Nat} {P : Fin (p + 1) → Polynomial ℝ} (hP : OrthonormalPolys p P) :
    RigidIntegrator (tensorIntegrator (p + 1) (d + 1) (exactBasis P)) (d + 1) ((p + 1) ^ (d + 1)) ((p + 1) ^ d) ∧
    ∀ (A : Affine (d + 1) ℝ), AffineLaws A → ∀ mass : Matrix (Fin ((p + 1) ^ (d + 1))) (Fin ((p + 1) ^ (d + 1))) ℝ,
      Rigid (affineForm (nB := (p + 1) ^ d) (tensorIntegrator (p + 1) (d + 1) (exactBasis P)) A mass) :=
  have h := tensor_rigid (d := d) (exactBasis P) (exact_lawful hP)
  ⟨h, fun A hA mass => affine_rigid _ h A hA mass⟩

/-! ## Concrete instances -/

namespace Example

open Diffusion Diffusion.Example DiffusionUniform.Example DiffusionParab.Example

theorem E1_rigid (w : ℚ) (dir : List Nat) : Rigid (form (E1 w dir).toEdge 1 0) := by
  intro u f _ h
  have h0 := congrFun h 0
  rw [E1_psi] at h0
  funext i
  have : i = 0 := Subsingleton.elim _ _
  subst this
  simpa [mulVec, dotProduct] using h0

/-- Each node of the two parallelograms is connected to node 0. -/
theorem G2_anchored : Anchored G2nodes (· = ⟨0, by decide⟩) := by
  have h1 : Adjacent G2nodes ⟨0, by decide⟩ ⟨1, by decide⟩ := ⟨⟨0, by decide⟩, 0, 1, rfl, rfl⟩
  have h2 : ∀ f, Adjacent G2nodes ⟨0, by decide⟩ (G2nodes ⟨0, by decide⟩ f) := fun f => ⟨⟨0, by decide⟩, 0, f, rfl, rfl⟩
  have h3 : ∀ f, Adjacent G2nodes ⟨1, by decide⟩ (G2nodes ⟨1, by decide⟩ f) := fun f => ⟨⟨1, by decide⟩, 0, f, rfl, rfl⟩
  intro v
  refine ⟨_, rfl, ?_⟩
  obtain ⟨e, f, rfl⟩ := G2_cov v
  by_cases he : e = ⟨0, by decide⟩
  · subst he
    exact .single (h2 f)
  · have : e = ⟨1, by decide⟩ := by revert e; decide
    subst this
    exact .tail (.single h1) (h3 f)

/-- The hypotheses of C54 can be met: two parallelograms with a Dirichlet node, a source and Dirichlet data. -/
example := C54_solve .debug (cramerSolve _ _ ℚ) (C44_example _ _ ℚ) 1 one_pos (fun e => (Edges 0 e).toEdge) 0 (fun _ => E1_laws _ _ _) (fun _ => E1_rigid _ _) G2 G2nodes G2_wf
  (· = ⟨0, by decide⟩) (Edges_dirichlet 0) G2_anchored (fun _ _ => 7) (fun _ _ => 8) (fun a b => a / b) (fun _ _ _ => rfl) (1 / 1000) (by norm_num)

open HyGraph.Example in
theorem path_anchored : Anchored pathNodes (fun v => ∀ j : Fin 1, (dof v j).1 ∈ [0, 2]) := by
  have h1 : Adjacent pathNodes ⟨0, by decide⟩ ⟨1, by decide⟩ := ⟨⟨0, by decide⟩, 0, 1, rfl, rfl⟩
  have h2 : Adjacent pathNodes ⟨1, by decide⟩ ⟨2, by decide⟩ := ⟨⟨1, by decide⟩, 0, 1, rfl, rfl⟩
  intro v
  refine ⟨⟨0, by decide⟩, fun j => by revert j; decide, ?_⟩
  match v with
  | ⟨0, _⟩ => exact .refl
  | ⟨1, _⟩ => exact .single h1
  | ⟨2, _⟩ => exact .tail (.single h1) h2

/-- So can those for declared indices: the path with two edges, both ends declared. -/
example := fun S hS => C54_declared_solve .debug I0 I0_lawful (tensor_rigid (d := 0) B0 B0_lawful) (cramerSolve _ _ ℚ) (C44_example _ _ ℚ) 1 one_pos S hS HyGraph.Example.path
  HyGraph.Example.pathNodes HyGraph.Example.path_wf [0, 2] (by decide) path_anchored (fun _ _ => 7) (fun _ _ => 8) (fun k => k.1) (fun a b => a / b) (fun _ _ _ => rfl) (1 / 1000) (by norm_num)

end Example

end HyperHDG.EllipticProgram

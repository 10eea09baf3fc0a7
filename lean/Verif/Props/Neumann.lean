import Verif.Proofs.Neumann
import Verif.Proofs.NeumannExact
import Verif.Proofs.NetworkEdge
import Verif.Props.ExactPolynomials
import Verif.Props.Elliptic

/-!
# Property C101: balances, and problems without Dirichlet nodes

What flows out of a hyperedge is what its source produces, and what leaves the hypergraph through its Dirichlet nodes is what all sources produce.  Without Dirichlet nodes there is therefore a discrete solution only if the
sources cancel.  Then solutions exist, they differ by constants, and the program returns one of them; otherwise it cannot return.
-/

namespace HyperHDG.EllipticProgram

open Finset Spec Matrix HyGraph Diffusion

variable {dim nS nB : Nat} {K : Type} [Field K] [LinearOrder K] [IsStrictOrderedRing K]

section
variable (m : Mode) (gesv : Gesv ((dim + 1) * nS) 1 K) (hg : GesvSpec gesv) (tau : K) (ht : 0 < tau)

include hg ht

open Classical in
/-- **C101** (hyperedges).  For each trace `lambda` the sum of the fluxes which `residual_flux` returns on the faces which are not of Dirichlet type, integrated over the faces, and of what flows out through the faces of
Dirichlet type is the integral of the source. -/
theorem C101_edge (E : Edge dim nS K) (time : K) (hE : FormLaws (form E nB time)) {one : Fin nS → K} {oneB : Fin nB → K} (h1 : Constants (form E nB time) one oneB) (lambda out : LocDofs dim nB K) :
    ∃ q u y, IsSolution (form E nB time) tau 0 1 (moments (form E nB time) lambda + dirichletMoments E time) (source E time) q u ∧ residual_flux m gesv tau lambda out E time = .ok y ∧
      ∑ f : Fin (2 * dim), (if E.node_descriptor f ∈ E.dirichlet_nodes then outflow (form E nB time) one tau (moments (form E nB time) lambda + dirichletMoments E time) q u f else ∑ j, oneB j * y f j) =
        one ⬝ᵥ source E time := by
  have hs := (C21_solvable m gesv hg tau E time hE ht lambda out).1
  obtain ⟨q, u, h2, h3⟩ := (C21_residual m gesv hg tau E time lambda out).1 hs
  refine ⟨q, u, _, h2, h3, (sum_congr rfl fun f _ => ?_).trans (outflow_sum h1.const h2)⟩
  by_cases hf : E.node_descriptor f ∈ E.dirichlet_nodes
  · rw [if_pos hf]
  · rw [if_neg hf]
    have h4 : (moments (form E nB time) lambda + dirichletMoments E time) f = moments (form E nB time) lambda f := by
      funext i
      have : dirichletMoments E time f i = 0 := if_neg hf
      rw [Pi.add_apply, Pi.add_apply, this, add_zero]
    rw [← flux_outflow hE (h1.trace f) lambda h4 q u]
    refine sum_congr rfl fun j _ => ?_
    have : offDirichlet E (faceFlux (form E nB time) tau lambda q u) f j = faceFlux (form E nB time) tau lambda q u f j := if_neg hf
    rw [this]

variable (E : Nat → Edge dim nS K) (time : K) (hE : ∀ e, FormLaws (form (E e) nB time)) (one : Nat → Fin nS → K) (oneB : Fin nB → K) (h1 : ∀ e, Constants (form (E e) nB time) (one e) oneB)
  (G : HyGraph dim nB) (nodes : Fin G.n_hyEdges → Fin (2 * dim) → Fin G.n_hyNodes) (hwf : G.WF nodes) (old0 new0 : LocDofs dim nB K)

include hE h1 hwf

open Classical in
/-- **C101** (the hypergraph).  For each vector, the integral of the residual which `Elliptic::residual_flux` returns plus what flows out through the faces of Dirichlet type is the integral of all sources.  So for the discrete
solution, whose residual is zero, what flows out at the Dirichlet nodes is what the sources produce. -/
theorem C101_balance (x : Fin (G.n_hyNodes * nB) → K) : ∃ (q : Fin G.n_hyEdges → Fin dim → Fin nS → K) (u : Fin G.n_hyEdges → Fin nS → K) (r : Fin (G.n_hyNodes * nB) → K),
    (∀ e : Fin G.n_hyEdges, IsSolution (form (E e) nB time) tau 0 1 (moments (form (E e) nB time) (faceValues nodes x e) + dirichletMoments (E e) time) (source (E e) time) (q e) (u e)) ∧
    (Elliptic.mk' G).apply m (localResidual m gesv tau E time) old0 new0 (List.ofFn x) = .ok (List.ofFn r) ∧
    ∑ v, ∑ j, oneB j * r (dof v j) + ∑ e : Fin G.n_hyEdges, ∑ f : Fin (2 * dim), (if (E e).node_descriptor f ∈ (E e).dirichlet_nodes then
      outflow (form (E e) nB time) (one e) tau (moments (form (E e) nB time) (faceValues nodes x e) + dirichletMoments (E e) time) (q e) (u e) f else 0) = ∑ e : Fin G.n_hyEdges, one e ⬝ᵥ source (E e) time := by
  choose q u y h2 h3 h4 using fun e : Fin G.n_hyEdges => C101_edge m gesv hg tau ht (E e) time (hE e) (h1 e) (faceValues nodes x e) (fun _ _ => 0)
  have hoff : ∀ (e : Fin G.n_hyEdges) (f : Fin (2 * dim)), (E e).node_descriptor f ∈ (E e).dirichlet_nodes → ∀ j, y e f j = 0 := fun e f hf j =>
    C21_dirichlet_zero m gesv hg tau (E e) time _ _ _ (.inr (h3 e)) f hf j
  refine ⟨q, u, assemble nodes y, h2, by rw [C23_fresh, mat_vec_eq m G nodes hwf _ x y h3 old0 new0], ?_⟩
  have h5 : ∑ v, ∑ j, oneB j * assemble nodes y (dof v j) = ∑ e, ∑ f, ∑ j, oneB j * y e f j := by
    have h6 := pairing_assemble nodes y (everywhere oneB)
    rw [sum_dof] at h6
    simp only [everywhere_dof, faceValues] at h6
    exact h6
  rw [h5, ← sum_add_distrib]
  refine sum_congr rfl fun e _ => ?_
  rw [← h4 e, ← sum_add_distrib]
  refine sum_congr rfl fun f _ => ?_
  by_cases hf : (E e).node_descriptor f ∈ (E e).dirichlet_nodes
  · rw [if_pos hf, if_pos hf, sum_eq_zero fun j _ => by rw [hoff e f hf j, mul_zero], zero_add]
  · rw [if_neg hf, if_neg hf, add_zero]

variable (hD : ∀ (e : Fin G.n_hyEdges) (f : Fin (2 * dim)), (E e).node_descriptor f ∉ (E e).dirichlet_nodes)

include hD

/-- **C101** (no Dirichlet nodes: necessary condition).  Without Dirichlet nodes the integral of the residual of every vector is the integral of the sources. -/
theorem C101_total (x : Fin (G.n_hyNodes * nB) → K) : ∃ r : Fin (G.n_hyNodes * nB) → K, (Elliptic.mk' G).apply m (localResidual m gesv tau E time) old0 new0 (List.ofFn x) = .ok (List.ofFn r) ∧
    ∑ v, ∑ j, oneB j * r (dof v j) = ∑ e : Fin G.n_hyEdges, one e ⬝ᵥ source (E e) time := by
  obtain ⟨q, u, r, _, h2, h3⟩ := C101_balance m gesv hg tau ht E time hE one oneB h1 G nodes hwf old0 new0 x
  refine ⟨r, h2, ?_⟩
  rw [← h3, sum_eq_zero (s := univ) (f := fun e : Fin G.n_hyEdges => _) fun e _ => sum_eq_zero fun f _ => if_neg (hD e f), add_zero]

variable (hcon : Connected nodes) (hcov : ∀ v, ∃ e f, nodes e f = v)

include hcon hcov

/-- The global operator and the global residual without Dirichlet nodes. -/
theorem neumann_operator : ∃ (A : (Fin (G.n_hyNodes * nB) → K) →ₗ[K] (Fin (G.n_hyNodes * nB) → K)) (R : Fin (G.n_hyNodes * nB) → K),
    (∀ x, G.mat_vec_multiply m (localOperator m gesv tau E time) old0 new0 (List.ofFn x) = .ok (List.ofFn (A x))) ∧
    (∀ x, G.mat_vec_multiply m (localResidual m gesv tau E time) old0 new0 (List.ofFn x) = .ok (List.ofFn (A x + R))) ∧
    (∀ x z, z ⬝ᵥ A x = x ⬝ᵥ A z) ∧ (∀ x, x ⬝ᵥ A x ≤ 0) ∧ (∀ x, x ⬝ᵥ A x = 0 → ∃ c : K, x = c • everywhere oneB) ∧ A (everywhere oneB) = 0 ∧
    everywhere oneB ⬝ᵥ R = ∑ e : Fin G.n_hyEdges, one e ⬝ᵥ source (E e) time := by
  obtain ⟨A, hA, hsym, hker⟩ := C21_global m gesv hg tau ht E time hE G nodes hwf old0 new0
  have hv : ∀ (x : Fin (G.n_hyNodes * nB) → K) (e : Fin G.n_hyEdges), VanishesOnDirichlet (E e) (faceValues nodes x e) := fun x e f hf => absurd hf (hD e f)
  have hr0 : ∀ e : Fin G.n_hyEdges, ∃ r : LocDofs dim nB K, ∀ lambda : LocDofs dim nB K, ∃ y, trace_to_flux m gesv tau lambda (fun _ _ => 0) (E e) time = .ok y ∧
      residual_flux m gesv tau lambda (fun _ _ => 0) (E e) time = .ok (y + r) := by
    intro e
    have hs := (C21_solvable m gesv hg tau (E e) time (hE e) ht (0 : LocDofs dim nB K) 0).1
    obtain ⟨_, r, _, h2, _⟩ := C21_affine m gesv hg tau (E e) time hs 0 0 (fun _ _ => 0) 0
    refine ⟨r, fun lambda => ?_⟩
    obtain ⟨y, r', k1, k2, k3⟩ := C21_affine m gesv hg tau (E e) time hs lambda (fun _ _ => 0) (fun _ _ => 0) (fun _ _ => 0)
    rw [h2] at k2; injection k2 with k2
    exact ⟨y, k1, by rw [k3, k2]⟩
  choose R0 hR0 using hr0
  choose F hF hFR using hR0
  have hAx : ∀ x, A x = assemble nodes (fun e => F e (faceValues nodes x e)) := by
    intro x
    have h2 := mat_vec_eq m G nodes hwf (localOperator m gesv tau E time) x (fun e => F e (faceValues nodes x e)) (fun e => hF e _) old0 new0
    rw [hA x] at h2
    injection h2 with h2
    exact List.ofFn_injective h2
  have hRes : ∀ x, G.mat_vec_multiply m (localResidual m gesv tau E time) old0 new0 (List.ofFn x) = .ok (List.ofFn (A x + assemble nodes R0)) := fun x => by
    rw [mat_vec_eq m G nodes hwf (localResidual m gesv tau E time) x _ (fun e => hFR e _) old0 new0, assemble_sum_add, hAx]
  refine ⟨A, assemble nodes R0, hA, hRes, fun x z => hsym x z (hv x) (hv z), fun x => (hker x (hv x)).1, fun x hx => ?_, ?_, ?_⟩
  · have h2 : ∀ e : Fin G.n_hyEdges, ∃ a : K, ∀ f, faceValues nodes x e f = a • oneB := by
      intro e
      obtain ⟨u, hu, htr⟩ := (hker x (hv x)).2.1.mp hx e
      obtain ⟨c, rfl⟩ := (h1 e).only u hu
      refine ⟨c, fun f => ?_⟩
      have h3 := htr f
      have h4 := (h1 e).trace f
      unfold IsTrace at h3 h4
      rw [mulVec_smul, ← h4, smul_comm] at h3
      exact smul_right_injective _ ((hE e).area_pos f).ne' h3
    by_cases hB : oneB = 0
    · refine ⟨0, funext fun k => ?_⟩
      obtain ⟨v, j, rfl⟩ := dof_surj k
      obtain ⟨e, f, rfl⟩ := hcov v
      exact absurd hB (h1 e).nonzero
    · obtain ⟨a, ha⟩ := constant_everywhere hcon hB x h2 hcov
      refine ⟨a, funext fun k => ?_⟩
      obtain ⟨v, j, rfl⟩ := dof_surj k
      rw [ha, Pi.smul_apply, everywhere_dof, smul_eq_mul]
  · refine (hker _ (hv _)).2.2 ((hker _ (hv _)).2.1.mpr fun e => ⟨one e, (h1 e).const, fun f => ?_⟩)
    have : faceValues nodes (everywhere oneB) e f = oneB := funext fun j => everywhere_dof oneB _ j
    rw [this]
    exact (h1 e).trace f
  · obtain ⟨r, h2, h3⟩ := C101_total m gesv hg tau ht E time hE one oneB h1 G nodes hwf old0 new0 hD 0
    rw [C23_fresh, hRes, map_zero, zero_add] at h2
    rw [← h3, ← List.ofFn_injective (Res.ok.inj h2), dotProduct, sum_dof]
    simp only [everywhere_dof]

/-- **C101** (no Dirichlet nodes: solutions).  Let there be no Dirichlet nodes and let the hypergraph be connected.  There is a vector with zero residual exactly if the integral of the sources vanishes, and the vectors with zero
residual are one of them plus the constants. -/
theorem C101_neumann :
    ((∃ y : Fin (G.n_hyNodes * nB) → K, (Elliptic.mk' G).apply m (localResidual m gesv tau E time) old0 new0 (List.ofFn y) = .ok (List.replicate (G.n_hyNodes * nB) 0)) ↔
      ∑ e : Fin G.n_hyEdges, one e ⬝ᵥ source (E e) time = 0) ∧
    ∀ y : Fin (G.n_hyNodes * nB) → K, (Elliptic.mk' G).apply m (localResidual m gesv tau E time) old0 new0 (List.ofFn y) = .ok (List.replicate (G.n_hyNodes * nB) 0) →
      ∀ z : Fin (G.n_hyNodes * nB) → K, (Elliptic.mk' G).apply m (localResidual m gesv tau E time) old0 new0 (List.ofFn z) = .ok (List.replicate (G.n_hyNodes * nB) 0) ↔
        ∃ c : K, ∀ v j, z (dof v j) = y (dof v j) + c * oneB j := by
  obtain ⟨A, R, hA, hRes, hsym, hneg, hker, hAw, hR⟩ := neumann_operator m gesv hg tau ht E time hE one oneB h1 G nodes hwf old0 new0 hD hcon hcov
  have hz : ∀ y, (Elliptic.mk' G).apply m (localResidual m gesv tau E time) old0 new0 (List.ofFn y) = .ok (List.replicate (G.n_hyNodes * nB) 0) ↔ A y = -R := by
    intro y
    rw [C23_fresh, hRes, ← List.ofFn_const]
    constructor
    · intro h
      injection h with h
      exact eq_neg_of_add_eq_zero_left (List.ofFn_injective h)
    · intro h
      rw [h, neg_add_cancel]
      rfl
  simp only [hz]
  refine ⟨?_, fun y hy z => ⟨fun h => ?_, ?_⟩⟩
  · by_cases hw : (everywhere oneB : Fin (G.n_hyNodes * nB) → K) = 0
    · have hx : ∀ x : Fin (G.n_hyNodes * nB) → K, x = 0 := fun x => by
        funext k
        obtain ⟨v, j, rfl⟩ := dof_surj k
        obtain ⟨e, f, rfl⟩ := hcov v
        exact absurd (funext fun j => by rw [← everywhere_dof oneB (nodes e f) j, hw]; rfl) (h1 e).nonzero
      refine ⟨fun _ => ?_, fun _ => ⟨0, (hx _).trans (hx _).symm⟩⟩
      rw [← hR, hx R, dotProduct_zero]
    · rw [semidefinite_range A _ hw hAw hsym hker, dotProduct_neg, neg_eq_zero, hR]
  · obtain ⟨c, hc⟩ := hker (z - y) (by rw [map_sub, h, hy, sub_self, dotProduct_zero])
    refine ⟨c, fun v j => ?_⟩
    have := congrFun hc (dof v j)
    rw [Pi.sub_apply, Pi.smul_apply, everywhere_dof, smul_eq_mul] at this
    linear_combination this
  · rintro ⟨c, hc⟩
    have : z = y + c • everywhere oneB := by
      funext k
      obtain ⟨v, j, rfl⟩ := dof_surj k
      rw [Pi.add_apply, Pi.smul_apply, everywhere_dof, smul_eq_mul, hc]
    rw [this, map_add, map_smul, hAw, smul_zero, add_zero, hy]

/-- **C101** (no Dirichlet nodes: the program).  If the integral of the sources vanishes, the program returns, without exception, a vector of mean zero whose residual is smaller than the tolerance. -/
theorem C101_solve (hsrc : ∑ e : Fin G.n_hyEdges, one e ⬝ᵥ source (E e) time = 0) (div : K → K → K) (hdiv : ∀ a c, c ≠ 0 → div a c = a / c) (tolerance : K) (htol : tolerance ≠ 0) :
    ∃ x r : Fin (G.n_hyNodes * nB) → K,
      solve m div G (localOperator m gesv tau E time) (localResidual m gesv tau E time) old0 new0 tolerance = .ok (List.ofFn x) ∧ ∑ v, ∑ j, oneB j * x (dof v j) = 0 ∧
      (Elliptic.mk' G).apply m (localResidual m gesv tau E time) old0 new0 (List.ofFn x) = .ok (List.ofFn r) ∧ ∑ k, r k ^ 2 < tolerance ^ 2 := by
  obtain ⟨A, R, hA, hRes, hsym, hneg, hker, hAw, hR⟩ := neumann_operator m gesv hg tau ht E time hE one oneB h1 G nodes hwf old0 new0 hD hcon hcov
  let W : Submodule K (Fin (G.n_hyNodes * nB) → K) :=
    { carrier := {x | everywhere oneB ⬝ᵥ x = 0}
      add_mem' := fun {x y} hx hy => by
        show everywhere oneB ⬝ᵥ (x + y) = 0
        rw [dotProduct_add, show everywhere oneB ⬝ᵥ x = 0 from hx, show everywhere oneB ⬝ᵥ y = 0 from hy, add_zero]
      zero_mem' := dotProduct_zero _
      smul_mem' := fun a {x} hx => by
        show everywhere oneB ⬝ᵥ (a • x) = 0
        rw [dotProduct_smul, show everywhere oneB ⬝ᵥ x = 0 from hx, smul_zero] }
  have hop : ∀ x, operator m (localOperator m gesv tau E time) old0 new0 (Elliptic.mk' G) (List.ofFn x) = .ok (List.ofFn (A x), Elliptic.mk' G) := fun x => by
    rw [operator, C23_fresh, hA]; rfl
  have hz : (zero_vector G : List K) = List.ofFn (0 : Fin (G.n_hyNodes * nB) → K) := by
    rw [zero_vector, n_global_dofs_eq G hwf.fits, ← List.ofFn_const]; rfl
  obtain ⟨x, p', k1, k2, k3, _, _⟩ := SparseLA.C12_subspace m div hdiv (operator m (localOperator m gesv tau E time) old0 new0) A (fun _ => 0) (· = Elliptic.mk' G)
    (fun q v hq => by subst hq; exact ⟨_, hop v, rfl, by omega⟩) W (fun x _ => by
      show everywhere oneB ⬝ᵥ A x = 0
      rw [hsym, hAw, dotProduct_zero]) (fun x _ z _ => hsym z x)
    (.inr fun x hx hx0 => lt_of_le_of_ne (hneg x) fun h => hx0 (by
      obtain ⟨c, hc⟩ := hker x h
      have h2 : everywhere oneB ⬝ᵥ x = 0 := hx
      have h3 : x ⬝ᵥ x = 0 := by
        nth_rw 1 [hc]
        rw [smul_dotProduct, h2, smul_zero]
      exact funext fun i => mul_self_eq_zero.mp ((sum_eq_zero_iff_of_nonneg fun i _ => mul_self_nonneg (x i)).mp h3 i (mem_univ i))))
    (-R) (by
      show everywhere oneB ⬝ᵥ (-R) = 0
      rw [dotProduct_neg, hR, hsrc, neg_zero]) (Elliptic.mk' G) rfl tolerance htol hwf.fits
  refine ⟨x, A x + R, ?_, ?_, by rw [C23_fresh, hRes], lt_of_eq_of_lt (Finset.sum_congr rfl fun k _ => ?_) k3⟩
  · simp only [solve]
    rw [C23_fresh, hz, hRes, map_zero, zero_add, Res.ok_bind, negate_eq, Res.ok_bind, k1]
    rfl
  · have h2 : everywhere oneB ⬝ᵥ x = 0 := k2
    rw [dotProduct, sum_dof] at h2
    simpa only [everywhere_dof] using h2
  · rw [Pi.sub_apply, Pi.add_apply, Pi.neg_apply]; ring

/-- **C101** (no Dirichlet nodes: sources which do not cancel).  If the integral of the sources does not vanish and the tolerance is not larger than it (in the scaling of the statement), the program throws `SolveException`. -/
theorem C101_incompatible (hsrc : ∑ e : Fin G.n_hyEdges, one e ⬝ᵥ source (E e) time ≠ 0) (div : K → K → K) (tolerance : K)
    (htol : tolerance ^ 2 * (G.n_hyNodes * ∑ j, oneB j ^ 2) ≤ (∑ e : Fin G.n_hyEdges, one e ⬝ᵥ source (E e) time) ^ 2) :
    solve m div G (localOperator m gesv tau E time) (localResidual m gesv tau E time) old0 new0 tolerance = .throw .solve := by
  obtain ⟨A, R, hA, hRes, hsym, hneg, hker, hAw, hR⟩ := neumann_operator m gesv hg tau ht E time hE one oneB h1 G nodes hwf old0 new0 hD hcon hcov
  have hop : ∀ x, operator m (localOperator m gesv tau E time) old0 new0 (Elliptic.mk' G) (List.ofFn x) = .ok (List.ofFn (A x), Elliptic.mk' G) := fun x => by
    rw [operator, C23_fresh, hA]; rfl
  have hz : (zero_vector G : List K) = List.ofFn (0 : Fin (G.n_hyNodes * nB) → K) := by
    rw [zero_vector, n_global_dofs_eq G hwf.fits, ← List.ofFn_const]; rfl
  have hpos : G.n_hyNodes * nB ≠ 0 := fun h0 => hsrc (by
    rw [← hR]
    exact sum_eq_zero fun k _ => absurd k.2 (by omega))
  have hww : everywhere oneB ⬝ᵥ (everywhere oneB : Fin (G.n_hyNodes * nB) → K) = G.n_hyNodes * ∑ j, oneB j ^ 2 := by
    rw [dotProduct, sum_dof]
    simp only [everywhere_dof, ← pow_two, sum_const, card_univ, Fintype.card_fin, nsmul_eq_mul]
  have hw0 : 0 < everywhere oneB ⬝ᵥ (everywhere oneB : Fin (G.n_hyNodes * nB) → K) := by
    refine lt_of_le_of_ne (sum_nonneg fun i _ => mul_self_nonneg _) fun h => hsrc ?_
    have h2 : (everywhere oneB : Fin (G.n_hyNodes * nB) → K) = 0 := funext fun i => mul_self_eq_zero.mp ((sum_eq_zero_iff_of_nonneg fun i _ => mul_self_nonneg (everywhere oneB i)).mp h.symm i (mem_univ i))
    rw [← hR, h2, zero_dotProduct]
  simp only [solve]
  rw [C23_fresh, hz, hRes, map_zero, zero_add, Res.ok_bind, negate_eq, Res.ok_bind]
  rcases SparseLA.C11_invariant m div (operator m (localOperator m gesv tau E time) old0 new0) A (fun _ => 0) (· = Elliptic.mk' G)
    (fun q v hq => by subst hq; exact ⟨_, hop v, rfl, by omega⟩) (-R) (Elliptic.mk' G) rfl 0 tolerance hwf.fits (.inr hpos) with h | ⟨x, p', _, h3, _, _⟩
  · rw [h]
    rfl
  · exfalso
    have h4 : everywhere oneB ⬝ᵥ (-R - A x) = -∑ e : Fin G.n_hyEdges, one e ⬝ᵥ source (E e) time := by
      rw [dotProduct_sub, hsym x (everywhere oneB), hAw, dotProduct_zero, sub_zero, dotProduct_neg, hR]
    have h5 := sum_mul_sq_le_sq_mul_sq univ (everywhere oneB : Fin (G.n_hyNodes * nB) → K) (-R - A x)
    have h6 : (∑ k, (everywhere oneB : Fin (G.n_hyNodes * nB) → K) k * (-R - A x) k) ^ 2 = (∑ e : Fin G.n_hyEdges, one e ⬝ᵥ source (E e) time) ^ 2 := by
      rw [show ∑ k, (everywhere oneB : Fin (G.n_hyNodes * nB) → K) k * (-R - A x) k = everywhere oneB ⬝ᵥ (-R - A x) from rfl, h4, neg_sq]
    have h7 : ∑ k, (everywhere oneB : Fin (G.n_hyNodes * nB) → K) k ^ 2 = everywhere oneB ⬝ᵥ (everywhere oneB : Fin (G.n_hyNodes * nB) → K) := sum_congr rfl fun k _ => pow_two _
    have h8 : ∑ k, (-R - A x) k ^ 2 = SparseLA.dot (-R - A x) (-R - A x) := sum_congr rfl fun k _ => pow_two _
    rw [h6, h7, h8] at h5
    rw [← hww] at htol
    have h9 := mul_lt_mul_of_pos_left h3 hw0
    linarith

end

end HyperHDG.EllipticProgram

namespace HyperHDG.Estimate

open Finset Spec Matrix HyGraph Diffusion EllipticProgram Polynomial Exact

variable {p d : Nat} {P : Fin (p + 1) → ℝ[X]}

/-- **C101** (the hypotheses on the integrals).  With exact integrals of tensor products of polynomials of any degree, in any dimension, on each affine image of the cube and for any coefficient: the constant function one belongs
to the shape functions on hyperedges and faces, its coefficients meet the hypotheses of the other parts, and the integral of the source is what its name says. -/
theorem C101_constants (hP : OrthonormalPolys p P) : ∃ (one : Fin ((p + 1) ^ (d + 1)) → ℝ) (oneB : Fin ((p + 1) ^ d) → ℝ), (∀ x, polyFun P one x = 1) ∧ (∀ y, polyFun P oneB y = 1) ∧
    ∀ (B : Data d) (time : ℝ) (E : Edge (d + 1) ((p + 1) ^ (d + 1)) ℝ), B.Admissible → ExactIntegrals P B time E →
      Constants (form E ((p + 1) ^ d) time) one oneB ∧ (Continuous B.f → one ⬝ᵥ source E time = B.A.vol * cubeInt B.f) := by
  obtain ⟨one, h1⟩ := poly_mem hP (isPoly_const (n := d + 1) p 1)
  obtain ⟨oneB, h2⟩ := poly_mem hP (isPoly_const (n := d) p 1)
  exact ⟨one, oneB, fun x => (h1 x).symm, fun y => (h2 y).symm, fun B time E hB hE => ⟨exact_constants hP hB hE (fun x => (h1 x).symm) fun y => (h2 y).symm, exact_source hE fun x => (h1 x).symm⟩⟩

section
variable (hP : OrthonormalPolys p P) (m : Mode) (gesv : Gesv (((d + 1) + 1) * (p + 1) ^ (d + 1)) 1 ℝ) (hg : GesvSpec gesv) (tau : ℝ) (ht : 0 < tau)
    (B : Nat → Data d) (hB : ∀ e, (B e).Admissible) (hf : ∀ e, Continuous (B e).f) (time : ℝ) (E : Nat → Edge (d + 1) ((p + 1) ^ (d + 1)) ℝ) (hE : ∀ e, ExactIntegrals P (B e) time (E e))
    (G : HyGraph (d + 1) ((p + 1) ^ d)) (nodes : Fin G.n_hyEdges → Fin (2 * (d + 1)) → Fin G.n_hyNodes) (hwf : G.WF nodes)
    (hD : ∀ (e : Fin G.n_hyEdges) (f : Fin (2 * (d + 1))), (E e).node_descriptor f ∉ (E e).dirichlet_nodes) (hcon : Connected nodes) (hcov : ∀ v, ∃ e f, nodes e f = v)
    (old0 new0 : LocDofs (d + 1) ((p + 1) ^ d) ℝ)

include hP hg ht hB hf hE hwf hD hcon hcov

/-- **C101** (functions).  The same in terms of functions: with exact integrals, on a connected hypergraph without Dirichlet nodes there is a discrete solution exactly if the integral of the right-hand side over all hyperedges
vanishes; the discrete solutions differ by constants; and if the integral vanishes, the program returns a vector whose residual is smaller than the tolerance and whose mean over all hypernodes is zero. -/
theorem C101_exact :
    ((∃ y : Fin (G.n_hyNodes * (p + 1) ^ d) → ℝ, (Elliptic.mk' G).apply m (localResidual m gesv tau E time) old0 new0 (List.ofFn y) = .ok (List.replicate (G.n_hyNodes * (p + 1) ^ d) 0)) ↔
      ∑ e : Fin G.n_hyEdges, (B e).A.vol * cubeInt (B e).f = 0) ∧
    (∀ y : Fin (G.n_hyNodes * (p + 1) ^ d) → ℝ, (Elliptic.mk' G).apply m (localResidual m gesv tau E time) old0 new0 (List.ofFn y) = .ok (List.replicate (G.n_hyNodes * (p + 1) ^ d) 0) →
      ∀ z : Fin (G.n_hyNodes * (p + 1) ^ d) → ℝ, (Elliptic.mk' G).apply m (localResidual m gesv tau E time) old0 new0 (List.ofFn z) = .ok (List.replicate (G.n_hyNodes * (p + 1) ^ d) 0) ↔
        ∃ c : ℝ, ∀ v s, polyFun P (fun j => z (dof v j)) s = polyFun P (fun j => y (dof v j)) s + c) ∧
    (∑ e : Fin G.n_hyEdges, (B e).A.vol * cubeInt (B e).f = 0 → ∀ (div : ℝ → ℝ → ℝ), (∀ a c, c ≠ 0 → div a c = a / c) → ∀ tolerance : ℝ, tolerance ≠ 0 → ∃ x r : Fin (G.n_hyNodes * (p + 1) ^ d) → ℝ,
      EllipticProgram.solve m div G (localOperator m gesv tau E time) (localResidual m gesv tau E time) old0 new0 tolerance = .ok (List.ofFn x) ∧ ∑ v, cubeInt (polyFun P fun j => x (dof v j)) = 0 ∧
      (Elliptic.mk' G).apply m (localResidual m gesv tau E time) old0 new0 (List.ofFn x) = .ok (List.ofFn r) ∧ ∑ k, r k ^ 2 < tolerance ^ 2) ∧
    (∑ e : Fin G.n_hyEdges, (B e).A.vol * cubeInt (B e).f ≠ 0 → ∀ (div : ℝ → ℝ → ℝ) (tolerance : ℝ), tolerance ^ 2 * G.n_hyNodes ≤ (∑ e : Fin G.n_hyEdges, (B e).A.vol * cubeInt (B e).f) ^ 2 →
      EllipticProgram.solve m div G (localOperator m gesv tau E time) (localResidual m gesv tau E time) old0 new0 tolerance = .throw .solve) := by
  obtain ⟨one, oneB, h1, h2, h3⟩ := C101_constants (d := d) hP
  have hF := fun e => (exact_laws hP (hB e) (hE e)).1
  have hc := fun e => (h3 (B e) time (E e) (hB e) (hE e)).1
  have hs : ∑ e : Fin G.n_hyEdges, one ⬝ᵥ source (E e) time = ∑ e : Fin G.n_hyEdges, (B e).A.vol * cubeInt (B e).f :=
    sum_congr rfl fun e _ => (h3 (B e) time (E e) (hB e) (hE e)).2 (hf e)
  have hn := C101_neumann m gesv hg tau ht E time hF (fun _ => one) oneB hc G nodes hwf old0 new0 hD hcon hcov
  rw [hs] at hn
  have hadd : ∀ (c : ℝ) (u : Fin ((p + 1) ^ d) → ℝ) s, polyFun P (fun j => u j + c * oneB j) s = polyFun P u s + c := fun c u s => by
    have h4 := h2 s
    simp only [polyFun] at h4 ⊢
    simp only [add_mul, sum_add_distrib, mul_assoc, ← mul_sum, h4, mul_one]
  have hint : ∀ u : Fin ((p + 1) ^ d) → ℝ, ∑ j, oneB j * u j = cubeInt (polyFun P u) := fun u => by
    have h4 := dot_polyFun hP oneB u
    simp only [h2, mul_one] at h4
    exact h4
  refine ⟨hn.1, fun y hy z => (hn.2 y hy z).trans ⟨?_, ?_⟩, fun h0 div hdiv tolerance htol => ?_, fun h0 div tolerance htol => ?_⟩
  · rintro ⟨c, h⟩
    refine ⟨c, fun v s => ?_⟩
    simp only [h]
    exact hadd c (fun j => y (dof v j)) s
  · rintro ⟨c, h⟩
    refine ⟨c, fun v j => ?_⟩
    exact congrFun (coeff_of_fun hP fun s => (h v s).trans (hadd c (fun j => y (dof v j)) s).symm) j
  · obtain ⟨x, r, k1, k2, k3, k4⟩ := C101_solve m gesv hg tau ht E time hF (fun _ => one) oneB hc G nodes hwf old0 new0 hD hcon hcov (hs.trans h0) div hdiv tolerance htol
    exact ⟨x, r, k1, (sum_congr rfl fun v _ => (hint _).symm).trans k2, k3, k4⟩
  · have hone : ∑ j, oneB j ^ 2 = 1 := by
      have h4 := hint oneB
      simp only [← pow_two] at h4
      rw [h4]
      refine (cubeInt_congr fun s _ => h2 s).trans (cubeInt_const 1)
    exact C101_incompatible m gesv hg tau ht E time hF (fun _ => one) oneB hc G nodes hwf old0 new0 hD hcon hcov (by rw [hs]; exact h0) div tolerance (by rw [hs, hone, mul_one]; exact htol)

end

/-! ## Concrete instances -/

namespace Example

open Exact.Example

/-- Edges of length one with the constant source `s e`. -/
noncomputable def sourceData (s : Nat → ℝ) (e : Nat) : Data 0 := { unitData with f := fun _ => s e }

theorem sourceData_admissible (s : Nat → ℝ) (e : Nat) : (sourceData s e).Admissible := ⟨unit_admissible.affine, unit_admissible.cont, unit_admissible.pos⟩

theorem path_connected (p n : Nat) : Connected (pathNodes p n) := by
  have hup : ∀ v : Fin (path p n).n_hyNodes, Relation.ReflTransGen (Adjacent (pathNodes p n)) ⟨0, Nat.succ_pos n⟩ v := by
    rintro ⟨v, hv⟩
    induction v with
    | zero => exact .refl
    | succ v ih =>
      have hv' : v < n := Nat.lt_of_succ_lt_succ hv
      exact (ih (Nat.lt_succ_of_lt hv')).tail ⟨⟨v, hv'⟩, 0, 1, rfl, rfl⟩
  have hsymm : ∀ v w, Relation.ReflTransGen (Adjacent (pathNodes p n)) v w → Relation.ReflTransGen (Adjacent (pathNodes p n)) w v := fun v w h => by
    induction h with
    | refl => exact .refl
    | tail _ hab ih =>
      obtain ⟨e, f, g, h1, h2⟩ := hab
      exact .trans (.single ⟨e, g, f, h2, h1⟩) ih
  exact fun v w => .trans (hsymm _ _ (hup v)) (hup w)

theorem path_covered (p n : Nat) (hn : 0 < n) (v : Fin (path p n).n_hyNodes) : ∃ e f, pathNodes p n e f = v := by
  obtain ⟨v, hv⟩ := v
  by_cases h : v = 0
  · subst h
    exact ⟨⟨0, hn⟩, 0, rfl⟩
  · have hv' : v < n + 1 := hv
    exact ⟨⟨v - 1, by show v - 1 < n; omega⟩, 1, Fin.ext (by show v - 1 + 1 = v; omega)⟩

/-- The hypotheses of C101 can be met, for every degree: a path of two edges, with a source on the first edge and a sink on the second one.  The program returns. -/
theorem C101_example (hP : OrthonormalPolys p P) (m : Mode) (gesv : Gesv (((0 + 1) + 1) * (p + 1) ^ (0 + 1)) 1 ℝ) (hg : GesvSpec gesv) (old0 new0 : LocDofs (0 + 1) ((p + 1) ^ 0) ℝ) :
    ∃ x : Fin ((path p 2).n_hyNodes * (p + 1) ^ 0) → ℝ, EllipticProgram.solve m (fun a b => a / b) (path p 2) (localOperator m gesv 1 (fun e => edgeOf P (sourceData (fun e => 1 - 2 * e) e) (fun _ => 0) []) 0)
      (localResidual m gesv 1 (fun e => edgeOf P (sourceData (fun e => 1 - 2 * e) e) (fun _ => 0) []) 0) old0 new0 (1 / 1000) = .ok (List.ofFn x) := by
  obtain ⟨x, _, h, _⟩ := (C101_exact hP m gesv hg 1 one_pos (sourceData fun e => 1 - 2 * e) (sourceData_admissible _) (fun _ => continuous_const) 0 _ (fun e => edgeOf_exact P _ (fun _ => 0) [] 0) (path p 2) (pathNodes p 2)
    (path_wf p 2 (by decide)) (fun _ _ => List.not_mem_nil) (path_connected p 2) (path_covered p 2 two_pos) old0 new0).2.2.1 (by
      show ∑ e : Fin 2, (1 : ℝ) * cubeInt (fun _ => (1 - 2 * (e.1 : ℝ))) = 0
      simp only [cubeInt_const, Fin.sum_univ_two]
      norm_num) (fun a b => a / b) (fun _ _ _ => rfl) (1 / 1000) (by norm_num)
  exact ⟨x, h⟩

/-- With the source one on both edges it throws. -/
theorem C101_example_throws (hP : OrthonormalPolys p P) (m : Mode) (gesv : Gesv (((0 + 1) + 1) * (p + 1) ^ (0 + 1)) 1 ℝ) (hg : GesvSpec gesv) (old0 new0 : LocDofs (0 + 1) ((p + 1) ^ 0) ℝ) :
    EllipticProgram.solve m (fun a b => a / b) (path p 2) (localOperator m gesv 1 (fun e => edgeOf P (sourceData (fun _ => 1) e) (fun _ => 0) []) 0)
      (localResidual m gesv 1 (fun e => edgeOf P (sourceData (fun _ => 1) e) (fun _ => 0) []) 0) old0 new0 1 = .throw .solve := by
  have hsum : ∑ e : Fin (path p 2).n_hyEdges, (sourceData (fun _ => 1) e).A.vol * cubeInt (sourceData (fun _ => 1) e).f = 2 := by
    show ∑ e : Fin 2, (1 : ℝ) * cubeInt (fun _ => (1 : ℝ)) = 2
    simp only [cubeInt_const, Fin.sum_univ_two]
    norm_num
  refine (C101_exact hP m gesv hg 1 one_pos (sourceData fun _ => 1) (sourceData_admissible _) (fun _ => continuous_const) 0 _ (fun e => edgeOf_exact P _ (fun _ => 0) [] 0) (path p 2) (pathNodes p 2)
    (path_wf p 2 (by decide)) (fun _ _ => List.not_mem_nil) (path_connected p 2) (path_covered p 2 two_pos) old0 new0).2.2.2 (by rw [hsum]; norm_num) (fun a b => a / b) 1 ?_
  rw [hsum]
  show (1 : ℝ) ^ 2 * ((3 : Nat) : ℝ) ≤ 2 ^ 2
  norm_num

end Example

end HyperHDG.Estimate

import Verif.Spec.BilaplacianSteady
import Verif.Proofs.BilaplacianSteady
import Verif.Props.BilaplacianParab
import Verif.Props.BilaplacianExact

/-!
# Property C111: steady states of the time-dependent biharmonic solver

`BilaplacianParab` and `Bilaplacian` are two classes of the library which share the data of a hyperedge (`(E e).stat` is hyperedge `e` without initial values).  For data which
do not depend on the time (`Steady`), the time steps computed with `BilaplacianParab` approach the discrete solution computed with `Bilaplacian` for the source divided by `theta`: the
correct one for implicit Euler, a wrong one for all other `theta` (see C63).
-/

namespace HyperHDG.BilaplacianParab

open Finset Spec Matrix LDG Mixed HyGraph
open Bilaplacian (n_loc_dofs form coupling source offDirichlet VanishesOnDirichlet IsDirichlet IsDirichletLaplacian dirichletMoments laplacianMoments
  pair_off ofNodes ofNodes_dof localResidual localOperator discrete_mixed)

variable {dim nS nB : Nat} {K : Type} [Field K] [LinearOrder K] [IsStrictOrderedRing K]

/-- The local problem of the stationary method is uniquely solvable. -/
theorem stationary_solvable {F : Form dim nS nB K} (hF : FormLaws F) (B : Matrix (Fin nS) (Fin nS) K) {tau : K} (ht : 0 < tau) : MixedSolvable F B 0 tau 1 := by
  intro q u p w h
  have h1 := h.second
  rw [zero_mulVec, sub_zero] at h1
  obtain ⟨rfl, rfl⟩ := solvable_of hF ht.le le_rfl one_pos (.inl ht) (rho := 0) p w h1
  have h2 := h.first
  rw [mulVec_zero, add_zero] at h2
  obtain ⟨rfl, rfl⟩ := solvable_of hF ht.le le_rfl one_pos (.inl ht) (rho := 0) q u h2
  exact ⟨rfl, rfl, rfl, rfl⟩

section
variable (m : Mode) (gesv : Gesv (n_loc_dofs dim nS) 1 K) (hg : GesvSpec gesv) (S : Solver K) (ht : 0 < S.tau) (hth : 0 < S.theta) (hdt : 0 < S.delta_t)
  (E : Nat → Edge dim nS K) (hE : ∀ e, FormLaws (form (E e).stat nB)) (hR : ∀ e, Rigid (form (E e).stat nB)) (hst : ∀ e, Steady (E e))
  (hBs : ∀ e time, (coupling (E e).stat time)ᵀ = coupling (E e).stat time) (hB : ∀ e time v, 0 ≤ v ⬝ᵥ coupling (E e).stat time *ᵥ v)
  (G : HyGraph dim (2 * nB)) (nodes : Fin G.n_hyEdges → Fin (2 * dim) → Fin G.n_hyNodes) (hwf : G.WF nodes) (D : Fin G.n_hyNodes → Prop)
  (hD : ∀ (e : Fin G.n_hyEdges) (f : Fin (2 * dim)), (E e).node_descriptor f ∈ (E e).dirichlet_nodes ↔ D (nodes e f))
  (hD' : ∀ (e : Fin G.n_hyEdges) (f : Fin (2 * dim)), (E e).node_descriptor f ∈ (E e).dirichlet_laplacian_nodes ↔ D (nodes e f)) (hcon : Anchored nodes D)
  (time : K) (old1 new1 : LocDofs dim (2 * nB) K) (R y : Fin (G.n_hyNodes * (2 * nB)) → K) (hy : VanishesAt D y)
  (hres : G.mat_vec_multiply m (localResidual m gesv S.tau (fun e => scaleSource S.theta⁻¹ (E e).stat) time) old1 new1 (List.ofFn (0 : Fin (G.n_hyNodes * (2 * nB)) → K)) = .ok (List.ofFn R))
  (hsys : G.mat_vec_multiply m (localOperator m gesv S.tau (fun e => scaleSource S.theta⁻¹ (E e).stat) time) old1 new1 (List.ofFn y) = .ok (List.ofFn (-R)))
  (q : Fin G.n_hyEdges → Fin dim → Fin nS → K) (u : Fin G.n_hyEdges → Fin nS → K) (p : Fin G.n_hyEdges → Fin dim → Fin nS → K) (w : Fin G.n_hyEdges → Fin nS → K)
  (hsol : ∀ e : Fin G.n_hyEdges, IsMixedSolution (form (E e).stat nB) (coupling (E e).stat time) 0 S.tau 1
    (moments (form (E e).stat nB) (upper (faceValues nodes y e)) + dirichletMoments (E e).stat time)
    (moments (form (E e).stat nB) (lower (faceValues nodes y e)) + laplacianMoments (E e).stat time) 0 (S.theta⁻¹ • source (E e).stat time) (q e) (u e) (p e) (w e))

omit [LinearOrder K] [IsStrictOrderedRing K] in
/-- A balance at the nodes, tested. -/
theorem test_balance {nE nN : Nat} {nodes : Fin nE → Fin (2 * dim) → Fin nN} {D : Fin nN → Prop} {y : Fin nE → LocDofs dim nB K}
    (h : ∀ v, ¬ D v → ∀ j, ∑ e, ∑ f, (if nodes e f = v then y e f j else 0) = 0) (Z : Fin (nN * nB) → K) (hZ : VanishesAt D Z) :
    ∑ e, ∑ f, faceValues nodes Z e f ⬝ᵥ y e f = 0 := by
  refine (pairing_assemble nodes y Z).symm.trans (sum_eq_zero fun k _ => ?_)
  obtain ⟨v, j, rfl⟩ := dof_surj k
  by_cases hv : D v
  · rw [hZ v hv j, zero_mul]
  · rw [assemble_at, h v hv j, mul_zero]

include hg ht hE hwf hD hD' hres hsys hsol in
/-- The fluxes of the stationary solution balance. -/
theorem steady_balance (Z : Fin (G.n_hyNodes * nB) → K) (hZ : VanishesAt D Z) :
    ∑ e : Fin G.n_hyEdges, ∑ f, faceValues nodes Z e f ⬝ᵥ faceFlux (form (E e).stat nB) S.tau (upper (faceValues nodes y e)) (q e) (u e) f = 0 ∧
    ∑ e : Fin G.n_hyEdges, ∑ f, faceValues nodes Z e f ⬝ᵥ faceFlux (form (E e).stat nB) S.tau (lower (faceValues nodes y e)) (p e) (w e) f = 0 := by
  obtain ⟨q', u', p', w', h1, h2, h3⟩ := discrete_mixed m gesv hg S.tau ht (fun e => scaleSource S.theta⁻¹ (E e).stat) time hE G nodes hwf old1 new1 D hD hD' hres hsys
  have h4 := fun e : Fin G.n_hyEdges => mixed_unique (stationary_solvable (hE e) (coupling (E e).stat time) ht) (hsol e) (h1 e)
  have e1 : q = q' := funext fun e => (h4 e).1
  have e2 : u = u' := funext fun e => (h4 e).2.1
  have e3 : p = p' := funext fun e => (h4 e).2.2.1
  have e4 : w = w' := funext fun e => (h4 e).2.2.2
  subst e1 e2 e3 e4
  exact ⟨test_balance h3 Z hZ, test_balance h2 Z hZ⟩

omit [IsStrictOrderedRing K] in
include hth hst hsol in
/-- The stationary solution is a time step from itself. -/
theorem steady_is_step (t : K) (e : Fin G.n_hyEdges) : Step (nB := nB) S (E e) t (u e) ⟨q e, u e, p e, w e, faceValues nodes y e⟩ := by
  rw [← step_iff]
  have h := hsol e
  refine ⟨?_, ?_, ?_⟩
  · show IsSolution _ _ _ _ (moments (form (E e).stat nB) (upper (faceValues nodes y e)) + dirichletMoments (E e).stat t) (0 + coupling (E e).stat t *ᵥ w e) (q e) (u e)
    rw [(hst e).moments t time, (hst e).coupling t time]
    exact h.first
  · intro d
    show _ - _ + ∑ f, _ • (moments (form (E e).stat nB) (lower (faceValues nodes y e)) + laplacianMoments (E e).stat t) f = 0
    rw [(hst e).laplacian t time]
    exact h.second.flux d
  · have k := h.second.primal
    show _ + (S.theta * S.delta_t) • (_ + ∑ f, (_ - S.tau • (moments (form (E e).stat nB) (lower (faceValues nodes y e)) + laplacianMoments (E e).stat t) f)) = stepSource S (E e) nB (u e) t - _
    rw [zero_mulVec, sub_zero, zero_smul, zero_add, one_smul] at k
    rw [(hst e).laplacian t time, k, stepSource, (hst e).source t time, (hst e).source (t - S.delta_t) time, zero_smul, zero_add, smul_smul]
    rw [show S.theta * S.delta_t * S.theta⁻¹ = S.delta_t by field_simp]
    module

/-- The runs considered: a problem with the same data, started anywhere; in each of the first `N` steps the program solves `A X = -R`, `A` the global `trace_to_flux` at any time and `R` the global `residual_flux` of the zero vector. -/
structure Marches (E' : Nat → Edge dim nS K) (buf0 : LocDofs dim (2 * nB) K) (x : List K) (data0 : Fin G.n_hyEdges → Data dim nS K) (t0 : K) (old0 new0 : LocDofs dim (2 * nB) K)
    (X : Nat → Fin (G.n_hyNodes * (2 * nB)) → K) (N : Nat) : Prop where
  same : ∀ e, ∃ vol bdr bdr_laplace, E' e = (E e).withInitial vol bdr bdr_laplace
  length : x.length = G.n_hyNodes * (2 * nB)
  steps : ∀ n < N, VanishesAt D (X (n + 1)) ∧ ∃ (r : List K) (data : Fin G.n_hyEdges → Data dim nS K) (tA : K) (R : Fin (G.n_hyNodes * (2 * nB)) → K),
    runX m gesv S E' G buf0 x data0 t0 X n = .ok (r, List.ofFn data) ∧
    globalResidual m gesv S E' G old0 new0 (List.ofFn data) (t0 + (n + 1) • S.delta_t) (List.ofFn (0 : Fin (G.n_hyNodes * (2 * nB)) → K)) = .ok (List.ofFn R) ∧
    globalFlux m gesv S E' G old0 new0 (List.ofFn data) tA (List.ofFn (X (n + 1))) = .ok (List.ofFn (-R))

omit [LinearOrder K] [IsStrictOrderedRing K] in
/-- The halves of the balance of the fluxes, tested. -/
theorem flux_test_halves {x : Fin G.n_hyEdges → State dim nS nB K} (h : assemble nodes (fun e : Fin G.n_hyEdges => fluxes (E e) S.tau (x e)) = 0)
    (hD : ∀ (e : Fin G.n_hyEdges) (f : Fin (2 * dim)), (E e).node_descriptor f ∈ (E e).dirichlet_nodes ↔ D (nodes e f))
    (hD' : ∀ (e : Fin G.n_hyEdges) (f : Fin (2 * dim)), (E e).node_descriptor f ∈ (E e).dirichlet_laplacian_nodes ↔ D (nodes e f)) (Z : Fin (G.n_hyNodes * nB) → K) (hZ : VanishesAt D Z) :
    ∑ e : Fin G.n_hyEdges, ∑ f, faceValues nodes Z e f ⬝ᵥ faceFlux (form (E e).stat nB) S.tau (upper (x e).lambda) (x e).q (x e).u f = 0 ∧
    ∑ e : Fin G.n_hyEdges, ∑ f, faceValues nodes Z e f ⬝ᵥ faceFlux (form (E e).stat nB) S.tau (lower (x e).lambda) (x e).p (x e).w f = 0 := by
  have key : ∀ z1 z2 : Fin G.n_hyNodes → Fin nB → K, (∀ v, D v → z1 v = 0) → (∀ v, D v → z2 v = 0) →
      ∑ e : Fin G.n_hyEdges, (∑ f, z1 (nodes e f) ⬝ᵥ faceFlux (form (E e).stat nB) S.tau (lower (x e).lambda) (x e).p (x e).w f +
        ∑ f, z2 (nodes e f) ⬝ᵥ faceFlux (form (E e).stat nB) S.tau (upper (x e).lambda) (x e).q (x e).u f) = 0 := by
    intro z1 z2 h1 h2
    obtain ⟨Y, hY⟩ := exists_vector nodes z1 z2
    have h3 := pairing_assemble nodes (fun e : Fin G.n_hyEdges => fluxes (E e) S.tau (x e)) Y
    rw [h] at h3
    simp only [Pi.zero_apply, mul_zero, sum_const_zero] at h3
    rw [h3]
    refine sum_congr rfl fun e _ => ?_
    have hv : VanishesOnDirichlet (E e).stat (faceValues nodes Y e) := by
      rw [hY]
      intro f
      exact ⟨fun hf j => by rw [upper_halves, h1 _ ((hD e f).mp hf)]; rfl, fun hf j => by rw [lower_halves, h2 _ ((hD' e f).mp hf)]; rfl⟩
    rw [fluxes, pair_off hv, hY e, upper_halves, lower_halves]
  constructor
  · have := key 0 (fun v j => Z (dof v j)) (fun _ _ => rfl) (fun v hv => funext fun j => hZ v hv j)
    simp only [Pi.zero_apply, zero_dotProduct, sum_const_zero, zero_add] at this
    exact this
  · have := key (fun v j => Z (dof v j)) 0 (fun v hv => funext fun j => hZ v hv j) (fun _ _ => rfl)
    simp only [Pi.zero_apply, zero_dotProduct, sum_const_zero, add_zero] at this
    exact this

include hg ht hth hdt hE hR hst hBs hB hwf hD hD' hcon hy hres hsys hsol in
/-- **C111** (decay).  There are `rho < 1` and `C`, which depend on the hypergraph, the data and the parameters but not on the initial values, such that in each run the square of the L2 distance of the function kept by the hyperedges
after `n` steps to the stationary solution `u` for the source divided by `theta` is at most `rho ^ n` times the one at the beginning, and the entries of the vectors of the steps approach those of the vector `y` of the stationary problem. -/
theorem C111_decay : ∃ rho C : K, 0 ≤ rho ∧ rho < 1 ∧ 0 ≤ C ∧ ∀ (E' : Nat → Edge dim nS K) (buf0 : LocDofs dim (2 * nB) K) (x : List K) (data0 : Fin G.n_hyEdges → Data dim nS K) (t0 : K)
    (old0 new0 : LocDofs dim (2 * nB) K) (X : Nat → Fin (G.n_hyNodes * (2 * nB)) → K) (N : Nat), Marches m gesv S E G D E' buf0 x data0 t0 old0 new0 X N →
    ∃ (r : List K) (data : Nat → Fin G.n_hyEdges → Data dim nS K) (v : Nat → Fin G.n_hyEdges → Fin nS → K),
      (∀ n ≤ N, runX m gesv S E' G buf0 x data0 t0 X n = .ok (r, List.ofFn (data n)) ∧ ∀ e, StoresU (data n e) (v n e)) ∧
      (∀ e : Fin G.n_hyEdges, v 0 e = fun i : Fin nS => (E' e).volUni_initial t0 i) ∧
      (∀ n ≤ N, distance E (v n) u ≤ rho ^ n * distance E (v 0) u) ∧
      ∀ n < N, ∀ k, (X (n + 1) k - y k) ^ 2 ≤ C * rho ^ n * distance E (v 0) u := by
  obtain ⟨kappa, C, hk, hC, hdec⟩ := decay_step (fun e : Fin G.n_hyEdges => form (E e).stat nB) (fun e => coupling (E e).stat time) (fun e => hE e) (fun e => hR e) (fun e => hBs e time)
    (fun e => hB e time) ht (mul_pos hth hdt) nodes D hcon
  have h1k : 0 < 1 + kappa := by linarith
  refine ⟨1 / (1 + kappa), C, by positivity, by rw [div_lt_one h1k]; linarith, hC.le, ?_⟩
  intro E' buf0 x data0 t0 old0 new0 X N h
  choose vol bdr bdr_laplace hsame using h.same
  obtain rfl : E' = fun e => (E e).withInitial (vol e) (bdr e) (bdr_laplace e) := funext hsame
  have hist := fun n => C64_history (nB := nB) m gesv hg S ht hth hdt (fun e => (E e).withInitial (vol e) (bdr e) (bdr_laplace e)) hE hB G nodes hwf buf0 x h.length data0 t0 X n
  choose st r data hr hs0 hst1 hkeep _ using hist
  have hr0 : ∀ n, List.ofFn (r (n + 1)) = List.ofFn (r n) := by
    intro n
    have k3 : (run m gesv S (fun e => (E e).withInitial (vol e) (bdr e) (bdr_laplace e)) G buf0 x (List.ofFn data0) t0 (fun k => List.ofFn (X k)) n >>= fun r => _) =
      Res.ok (List.ofFn (r (n + 1)), List.ofFn (data (n + 1))) := hr (n + 1)
    rw [show run m gesv S (fun e => (E e).withInitial (vol e) (bdr e) (bdr_laplace e)) G buf0 x (List.ofFn data0) t0 (fun k => List.ofFn (X k)) n = _ from hr n, Res.ok_bind] at k3
    obtain ⟨d, _, k4⟩ := Res.bind_eq_ok.mp k3
    injection k4 with k4
    exact (congrArg Prod.fst k4).symm
  have hr1 : ∀ n, List.ofFn (r n) = List.ofFn (r 0) := fun n => by
    induction n with
    | zero => rfl
    | succ n ih => rw [hr0, ih]
  have hrun : ∀ n, runX m gesv S (fun e => (E e).withInitial (vol e) (bdr e) (bdr_laplace e)) G buf0 x data0 t0 X n = .ok (List.ofFn (r 0), List.ofFn (data n)) := fun n => by
    rw [← hr1 n]
    exact hr n
  have huniq : ∀ {c : Data dim nS K} {u u' : Fin nS → K}, StoresU c u → StoresU c u' → u = u' := fun {c u u'} h h' => ((storesU_iff c u).mp h).symm.trans ((storesU_iff c u').mp h')
  -- one step
  have hstep : ∀ n < N, (1 + kappa) * distance E (fun e => (st (n + 1) (n + 1) e).u) u ≤ distance E (fun e => (st n n e).u) u ∧
      ∀ k, (X (n + 1) k - y k) ^ 2 ≤ C * distance E (fun e => (st n n e).u) u := by
    intro n hn
    obtain ⟨hX, r', data', tA, R', g1, g2, g3⟩ := h.steps n hn
    rw [hrun n] at g1
    have hd' : data n = data' := List.ofFn_injective (Prod.mk.inj (Res.ok.inj g1)).2
    subst hd'
    obtain ⟨old, new, a1, a2⟩ := run_step m gesv hg S ht hth hdt (fun e => (E e).withInitial (vol e) (bdr e) (bdr_laplace e)) hE hB G nodes hwf buf0 x h.length data0 t0 X n old0 new0 _ (data n) (data (n + 1))
      (hrun n) (hrun (n + 1)) tA (fun e => (hst e).coupling tA _) R' g2 g3
    have c0 : ∀ e, (st n n e).u = old e := fun e => huniq (hkeep n e).1 (a1 e).1
    have c1 : ∀ e, (st (n + 1) (n + 1) e).u = (new e).u := fun e => huniq (hkeep (n + 1) e).1 (a1 e).2.1
    have hnew : ∀ e : Fin G.n_hyEdges, Step S (E e) (t0 + (n + 1) • S.delta_t) (old e) (new e) := fun e =>
      have h := (a1 e).2.2.1
      ⟨⟨h.constraints.gradient_u, h.constraints.gradient_w, h.constraints.laplace_u⟩, h.primal⟩
    let zu : Fin (G.n_hyNodes * nB) → K := ofNodes fun v j => X (n + 1) (dof v (up j)) - y (dof v (up j))
    let zw : Fin (G.n_hyNodes * nB) → K := ofNodes fun v j => X (n + 1) (dof v (lo j)) - y (dof v (lo j))
    have hzu : ∀ e, faceValues nodes zu e = upper ((new e).lambda - faceValues nodes y e) := fun e => by
      rw [(a1 e).2.2.2]
      exact funext fun f => funext fun j => ofNodes_dof (fun v j => X (n + 1) (dof v (up j)) - y (dof v (up j))) (nodes e f) j
    have hzw : ∀ e, faceValues nodes zw e = lower ((new e).lambda - faceValues nodes y e) := fun e => by
      rw [(a1 e).2.2.2]
      exact funext fun f => funext fun j => ofNodes_dof (fun v j => X (n + 1) (dof v (lo j)) - y (dof v (lo j))) (nodes e f) j
    have hzu0 : VanishesAt D zu := fun v hv j => (ofNodes_dof _ v j).trans (by rw [hX v hv, hy v hv, sub_zero])
    have hzw0 : VanishesAt D zw := fun v hv j => (ofNodes_dof _ v j).trans (by rw [hX v hv, hy v hv, sub_zero])
    have hsub := fun e : Fin G.n_hyEdges => step_sub S (E e) _ (hnew e) (steady_is_step S hth E hst G nodes time y q u p w hsol (t0 + (n + 1) • S.delta_t) e)
    have hfl : ∀ (e : Fin G.n_hyEdges) (l l' : LocDofs dim nB K) (q q' : Fin dim → Fin nS → K) (u u' : Fin nS → K) (f), faceFlux (form (E e).stat nB) S.tau (l - l') (q - q') (u - u') f =
        faceFlux (form (E e).stat nB) S.tau l q u f - faceFlux (form (E e).stat nB) S.tau l' q' u' f := fun e l l' q q' u u' f => by
      have := flux_lin (F := form (E e).stat nB) (tau := S.tau) (lambda := l) (mu := l') (q := q) (q' := q') (u := u) (u' := u') 1 (-1)
      simp only [one_smul, neg_one_smul, ← sub_eq_add_neg] at this
      exact congrFun this f
    have hbal := fun Z hZ => flux_test_halves S E G nodes D (x := new) a2 hD hD' Z hZ
    have hbal' := fun Z hZ => steady_balance m gesv hg S ht E hE G nodes hwf D hD hD' time old1 new1 R y hres hsys q u p w hsol Z hZ
    obtain ⟨d1, d2⟩ := hdec (fun e => old e - u e) (fun e => (new e).u - u e) (fun e => (new e).w - w e) (fun e => (new e).q - q e) (fun e => (new e).p - p e) zu zw hzu0 hzw0
      (fun e => by
        have k := hsub e
        rw [hzu, hzw]
        unfold StepSolution at k
        rw [(hst e).coupling _ time] at k
        exact k)
      (fun Z hZ => by
        have k := congrArg₂ (· - ·) (hbal Z hZ).1 (hbal' Z hZ).1
        simp only [← sum_sub_distrib, ← dotProduct_sub, sub_self] at k
        rw [← k]
        refine sum_congr rfl fun e _ => sum_congr rfl fun f _ => congrArg _ ?_
        rw [hzu]
        exact hfl e (upper (new e).lambda) (upper (faceValues nodes y e)) _ _ _ _ f)
      (fun Z hZ => by
        have k := congrArg₂ (· - ·) (hbal Z hZ).2 (hbal' Z hZ).2
        simp only [← sum_sub_distrib, ← dotProduct_sub, sub_self] at k
        rw [← k]
        refine sum_congr rfl fun e _ => sum_congr rfl fun f _ => congrArg _ ?_
        rw [hzw]
        exact hfl e (lower (new e).lambda) (lower (faceValues nodes y e)) _ _ _ _ f)
    simp only [distance, product_eq _ nB, c0, c1]
    refine ⟨d1, fun k => ?_⟩
    refine le_trans ?_ d2
    have p5 : 0 ≤ ∑ k, zu k ^ 2 := sum_nonneg fun k _ => sq_nonneg _
    have p6 : 0 ≤ ∑ k, zw k ^ 2 := sum_nonneg fun k _ => sq_nonneg _
    obtain ⟨v, j, rfl⟩ := dof_surj k
    obtain ⟨i, rfl | rfl⟩ := halves_cases j
    · have k1 := single_le_sum (f := fun k => zu k ^ 2) (fun k _ => sq_nonneg _) (mem_univ (dof v i))
      rw [show zu (dof v i) = X (n + 1) (dof v (up i)) - y (dof v (up i)) from ofNodes_dof _ v i] at k1
      linarith
    · have k1 := single_le_sum (f := fun k => zw k ^ 2) (fun k _ => sq_nonneg _) (mem_univ (dof v i))
      rw [show zw (dof v i) = X (n + 1) (dof v (lo i)) - y (dof v (lo i)) from ofNodes_dof _ v i] at k1
      linarith
  have hd : ∀ n ≤ N, distance E (fun e => (st n n e).u) u ≤ (1 / (1 + kappa)) ^ n * distance E (fun e => (st 0 0 e).u) u := by
    intro n
    induction n with
    | zero => intro _; rw [pow_zero, one_mul]
    | succ n ih =>
      intro hn
      have k1 := (hstep n (by omega)).1
      have k2 := ih (by omega)
      rw [pow_succ, mul_comm _ (1 / (1 + kappa)), mul_assoc, div_mul_eq_mul_div, one_mul, le_div_iff₀ h1k, mul_comm]
      exact k1.trans k2
  refine ⟨List.ofFn (r 0), data, fun n e => (st n n e).u, fun n _ => ⟨hrun n, fun e => (hkeep n e).1⟩, fun e => hs0 0 e, hd, fun n hn k => ((hstep n hn).2 k).trans ?_⟩
  rw [mul_assoc]
  exact mul_le_mul_of_nonneg_left (hd n hn.le) hC.le

include hg ht hth hdt hE hR hst hBs hB hwf hD hD' hcon hy hres hsys hsol in
/-- **C111** (steady states stay).  A run started with the function `u` keeps it, and all its vectors are `y`. -/
theorem C111_fixed (E' : Nat → Edge dim nS K) (buf0 : LocDofs dim (2 * nB) K) (x : List K) (data0 : Fin G.n_hyEdges → Data dim nS K) (t0 : K)
    (old0 new0 : LocDofs dim (2 * nB) K) (X : Nat → Fin (G.n_hyNodes * (2 * nB)) → K) (N : Nat) (h : Marches m gesv S E G D E' buf0 x data0 t0 old0 new0 X N)
    (h0 : ∀ (e : Fin G.n_hyEdges) (i : Fin nS), (E' e).volUni_initial t0 i = u e i) :
    (∀ n ≤ N, ∃ (r : List K) (data : Fin G.n_hyEdges → Data dim nS K), runX m gesv S E' G buf0 x data0 t0 X n = .ok (r, List.ofFn data) ∧ ∀ e, StoresU (data e) (u e)) ∧
      ∀ n < N, X (n + 1) = y := by
  obtain ⟨rho, C, _, _, _, hall⟩ := C111_decay m gesv hg S ht hth hdt E hE hR hst hBs hB G nodes hwf D hD hD' hcon time old1 new1 R y hy hres hsys q u p w hsol
  obtain ⟨r, data, v, h1, h2, h3, h4⟩ := hall E' buf0 x data0 t0 old0 new0 X N h
  have hv0 : v 0 = u := funext fun e => (h2 e).trans (funext fun i => h0 e i)
  have hz : distance E (v 0) u = 0 := by
    rw [hv0]
    refine sum_eq_zero fun e _ => ?_
    simp only [sub_self, product, Pi.zero_apply, zero_mul, sum_const_zero]
  simp only [hz, mul_zero] at h3 h4
  refine ⟨fun n hn => ⟨r, data n, (h1 n hn).1, fun e => ?_⟩, fun n hn => funext fun k => ?_⟩
  · have k1 := h3 n hn
    simp only [distance, product_eq _ nB] at k1
    have k2 : ∀ e : Fin G.n_hyEdges, 0 ≤ (v n e - u e) ⬝ᵥ (form (E e).stat nB).mass0 *ᵥ (v n e - u e) := fun e => quad_nonneg (hE e).mass0_pos _
    have k3 := (sum_eq_zero_iff_of_nonneg fun e _ => k2 e).mp (le_antisymm k1 (sum_nonneg fun e _ => k2 e)) e (mem_univ e)
    rw [← sub_eq_zero.mp (quad_zero (hE e).mass0_pos k3)]
    exact (h1 n hn).2 e
  · exact sub_eq_zero.mp (pow_eq_zero_iff (two_ne_zero)|>.mp (le_antisymm (h4 n hn k) (sq_nonneg _)))

include hg ht hth hdt hE hR hst hBs hB hwf hD hD' hcon hy hres hsys hsol in
/-- **C111** (convergence in time).  Over an archimedean field the vectors of the time steps converge to the vector of the stationary problem with the source divided by `theta`. -/
theorem C111_limit [Archimedean K] (E' : Nat → Edge dim nS K) (buf0 : LocDofs dim (2 * nB) K) (x : List K) (data0 : Fin G.n_hyEdges → Data dim nS K) (t0 : K)
    (old0 new0 : LocDofs dim (2 * nB) K) (X : Nat → Fin (G.n_hyNodes * (2 * nB)) → K) (h : ∀ N, Marches m gesv S E G D E' buf0 x data0 t0 old0 new0 X N) (eps : K) (heps : 0 < eps) :
    ∃ n0, ∀ n ≥ n0, ∀ k, |X n k - y k| < eps := by
  obtain ⟨rho, C, hr0, hr1, hC, hall⟩ := C111_decay m gesv hg S ht hth hdt E hE hR hst hBs hB G nodes hwf D hD hD' hcon time old1 new1 R y hy hres hsys q u p w hsol
  let v0 : Fin G.n_hyEdges → Fin nS → K := fun e i => (E' e).volUni_initial t0 i
  have hb : ∀ n k, (X (n + 1) k - y k) ^ 2 ≤ C * rho ^ n * distance E v0 u := fun n k => by
    obtain ⟨r, data, v, h1, h2, h3, h4⟩ := hall E' buf0 x data0 t0 old0 new0 X (n + 1) (h (n + 1))
    have := h4 n (Nat.lt_succ_self n) k
    rwa [show v 0 = v0 from funext fun e => h2 e] at this
  have hd : 0 ≤ distance E v0 u := by
    simp only [distance, product_eq _ nB]
    exact sum_nonneg fun e _ => quad_nonneg (hE e).mass0_pos _
  generalize distance E v0 u = d at hb hd
  have hcd : 0 ≤ C * d := mul_nonneg hC hd
  obtain ⟨n0, hn0⟩ := exists_pow_lt_of_lt_one (div_pos (pow_pos heps 2) (show 0 < C * d + 1 by linarith)) hr1
  refine ⟨n0 + 1, fun n hn k => ?_⟩
  obtain ⟨n, rfl⟩ : ∃ n', n = n' + 1 := ⟨n - 1, by omega⟩
  have k1 : rho ^ n ≤ rho ^ n0 := pow_le_pow_of_le_one hr0 hr1.le (by omega)
  have k3 : (C * d + 1) * rho ^ n < eps ^ 2 := by
    have := lt_of_le_of_lt k1 hn0
    rw [lt_div_iff₀ (by linarith)] at this
    linarith
  have k5 : 0 ≤ rho ^ n := pow_nonneg hr0 n
  refine abs_lt_of_sq_lt_sq ?_ heps.le
  calc (X (n + 1) k - y k) ^ 2 ≤ C * rho ^ n * d := hb n k
    _ ≤ (C * d + 1) * rho ^ n := by nlinarith
    _ < eps ^ 2 := k3

end

omit [LinearOrder K] [IsStrictOrderedRing K] in
/-- **C111** (which steady states are correct).  Take a hyperedge whose data do not depend on the time and a solution of the local equations of the stationary problem, with its own source.  It is a time step from itself if and only if
`theta` is one or the source vanishes. -/
theorem C111_correct (S : Solver K) (hdt : S.delta_t ≠ 0) (E : Edge dim nS K) (hst : Steady E) (time : K) (x : State dim nS nB K)
    (hx : IsMixedSolution (form E.stat nB) (coupling E.stat time) 0 S.tau 1 (x.traceU E time) (x.traceW E time) 0 (source E.stat time) x.q x.u x.p x.w) :
    Step S E time x.u x ↔ S.theta = 1 ∨ source E.stat time = 0 := by
  have k := hx.second.primal
  rw [zero_mulVec, sub_zero, zero_smul, zero_add, one_smul] at k
  have hlap : laplace (form E.stat nB) S.tau (x.traceW E time) x.p x.w = source E.stat time := k
  have k1 := hx.first.primal
  rw [zero_add, zero_smul, zero_add, one_smul] at k1
  have hprim : S.delta_t • (S.theta • rate E S.tau time x + (1 - S.theta) • source E.stat (time - S.delta_t)) = (S.delta_t * (1 - S.theta)) • source E.stat time := by
    rw [rate, hlap, sub_self, smul_zero, zero_add, hst.source (time - S.delta_t) time, smul_smul]
  constructor
  · intro h
    have h1 := h.primal
    rw [hprim, sub_self, mulVec_zero] at h1
    rcases smul_eq_zero.mp h1.symm with h2 | h2
    · exact .inl (sub_eq_zero.mp ((mul_eq_zero.mp h2).resolve_left hdt)).symm
    · exact .inr h2
  · intro h
    refine ⟨⟨hx.first.flux, hx.second.flux, k1⟩, ?_⟩
    rw [hprim, sub_self, mulVec_zero]
    rcases h with h | h
    · rw [h, sub_self, mul_zero, zero_smul]
    · rw [h, smul_zero]

/-- **C111** (runs).  If the coefficient is positive and each hypernode belongs to a hyperedge, there are vectors for all time steps. -/
theorem C111_runs (m : Mode) (gesv : Gesv (n_loc_dofs dim nS) 1 K) (hg : GesvSpec gesv) (S : Solver K) (ht : 0 < S.tau) (hth : 0 < S.theta) (hdt : 0 < S.delta_t)
    (E : Nat → Edge dim nS K) (hE : ∀ e, FormLaws (form (E e).stat nB)) (hB : ∀ e time v, v ≠ 0 → 0 < v ⬝ᵥ coupling (E e).stat time *ᵥ v)
    (G : HyGraph dim (2 * nB)) (nodes : Fin G.n_hyEdges → Fin (2 * dim) → Fin G.n_hyNodes) (hwf : G.WF nodes) (hcov : ∀ v, ∃ e f, nodes e f = v) (D : Fin G.n_hyNodes → Prop)
    (hD : ∀ (e : Fin G.n_hyEdges) (f : Fin (2 * dim)), (E e).node_descriptor f ∈ (E e).dirichlet_nodes ↔ D (nodes e f))
    (hD' : ∀ (e : Fin G.n_hyEdges) (f : Fin (2 * dim)), (E e).node_descriptor f ∈ (E e).dirichlet_laplacian_nodes ↔ D (nodes e f))
    (buf0 : LocDofs dim (2 * nB) K) (x : List K) (hx : x.length = G.n_hyNodes * (2 * nB)) (data0 : Fin G.n_hyEdges → Data dim nS K) (t0 : K) (old0 new0 : LocDofs dim (2 * nB) K) :
    ∃ X, ∀ N, Marches m gesv S E G D E buf0 x data0 t0 old0 new0 X N := by
  have hB' : ∀ e time v, 0 ≤ v ⬝ᵥ coupling (E e).stat time *ᵥ v := fun e time v => quad_nonneg (hB e time) v
  have hnext : ∀ (n : Nat) (data : Fin G.n_hyEdges → Data dim nS K), ∃ (y : Fin (G.n_hyNodes * (2 * nB)) → K) (data' : Fin G.n_hyEdges → Data dim nS K), VanishesAt D y ∧
      (∃ R : Fin (G.n_hyNodes * (2 * nB)) → K, globalResidual m gesv S E G old0 new0 (List.ofFn data) (t0 + (n + 1) • S.delta_t) (List.ofFn (0 : Fin (G.n_hyNodes * (2 * nB)) → K)) = .ok (List.ofFn R) ∧
        globalFlux m gesv S E G old0 new0 (List.ofFn data) t0 (List.ofFn y) = .ok (List.ofFn (-R))) ∧
      G.set_data m (fun e lambda data => set_data m gesv S lambda (E e) data (t0 + (n + 1 : Nat) • S.delta_t)) buf0 (List.ofFn y) (List.ofFn data) = .ok (List.ofFn data') := by
    intro n data
    obtain ⟨R, h1, y, ⟨h2, h3⟩, _⟩ := C64_unique_step m gesv hg S ht hth hdt E hE (t0 + (n + 1) • S.delta_t) t0 (fun e => hB' e _) (fun e => hB e t0) G nodes hwf hcov D hD hD' data data old0 new0
    have h : ∀ e : Fin G.n_hyEdges, _ := fun e => C63_set_data m gesv hg S (E e) (data e) (t0 + (n + 1) • S.delta_t) (C63_solvable S ht hth hdt (E e) _ (hE e) (hB' e _)) _
      ((storesU_iff (data e) _).mpr rfl) (faceValues nodes y e)
    choose data' new' m1 m2 m3 m4 using h
    exact ⟨y, data', h2, ⟨R, h1, h3⟩, C41_set_data m G nodes hwf (fun e lambda data => set_data m gesv S lambda (E e) data (t0 + (n + 1) • S.delta_t)) buf0 y data data' m1⟩
  choose Y next hY hsys hset using hnext
  obtain ⟨_, r0, data1, h1, _⟩ := C64_history (nB := nB) m gesv hg S ht hth hdt E hE hB' G nodes hwf buf0 x hx data0 t0 0 0
  let seq : Nat → Fin G.n_hyEdges → Data dim nS K := fun n => Nat.rec data1 (fun n d => next n d) n
  let X : Nat → Fin (G.n_hyNodes * (2 * nB)) → K := fun n => match n with
    | 0 => 0
    | n + 1 => Y n (seq n)
  have hrun : ∀ n, runX m gesv S E G buf0 x data0 t0 X n = .ok (List.ofFn r0, List.ofFn (seq n)) := by
    intro n
    induction n with
    | zero => exact h1
    | succ n ih =>
      show (run m gesv S E G buf0 x (List.ofFn data0) t0 (fun k => List.ofFn (X k)) n >>= _) = _
      rw [show run m gesv S E G buf0 x (List.ofFn data0) t0 (fun k => List.ofFn (X k)) n = _ from ih, Res.ok_bind]
      dsimp only
      rw [show List.ofFn (X (n + 1)) = List.ofFn (Y n (seq n)) from rfl, hset n (seq n)]
      rfl
  refine ⟨X, fun N => ⟨fun e => ⟨(E e).volUni_initial, (E e).bdrUni_psifunc, (E e).bdrUni_psifunc_laplace, rfl⟩, hx, fun n _ => ⟨hY n (seq n), ?_⟩⟩⟩
  obtain ⟨R, h2, h3⟩ := hsys n (seq n)
  exact ⟨_, _, t0, R, hrun n, h2, h3⟩

omit [LinearOrder K] [IsStrictOrderedRing K] in
/-- For `theta = 1` the stationary problem of C111 is the one with the source itself. -/
theorem scaleSource_one (E : Bilaplacian.Edge dim nS K) : scaleSource (1 : K)⁻¹ E = E := by
  unfold scaleSource
  simp only [inv_one, one_mul]

/-! ## A concrete case -/

namespace Example

open Diffusion.Example DiffusionUniform.Example DiffusionParab.Example Bilaplacian.Example EllipticProgram.Example

/-- The two parallelograms of C64, with initial value `v` and the constant source 1. -/
noncomputable def SteadyEdges (v : ℚ) (e : Nat) : Edge 2 1 ℚ := { edges3 v e with stat := { (edges3 v e).stat with vol_phifunc := fun _ _ => 20 } }

theorem SteadyEdges_steady (v : ℚ) (e : Nat) : Steady (SteadyEdges v e) := ⟨fun _ _ => rfl, fun _ _ => rfl, fun _ _ => rfl, fun _ _ => rfl⟩

theorem SteadyEdges_laws (v : ℚ) (e : Nat) : FormLaws (form (SteadyEdges v e).stat 1) := E2_laws (if e = 0 then [0] else [])

theorem SteadyEdges_rigid (v : ℚ) (e : Nat) : Rigid (form (SteadyEdges v e).stat 1) := E2_rigid (if e = 0 then [0] else [])

theorem SteadyEdges_symm (v : ℚ) (e : Nat) (time : ℚ) : (coupling (SteadyEdges v e).stat time)ᵀ = coupling (SteadyEdges v e).stat time := E2_symm (if e = 0 then [0] else []) time

theorem SteadyEdges_pos (v : ℚ) (e : Nat) (time : ℚ) (w : Fin 1 → ℚ) (hw : w ≠ 0) : 0 < w ⬝ᵥ coupling (SteadyEdges v e).stat time *ᵥ w := E3_pos v (if e = 0 then [0] else []) time w hw

/-- The hypotheses of C111 can be met: for every `theta > 0` and every initial value there are vectors for all time steps, and they converge to the discrete solution of the stationary problem with the source divided by `theta`. -/
theorem C111_example (theta : ℚ) (hth : 0 < theta) : ∃ R y : Fin (G3.n_hyNodes * (2 * 1)) → ℚ,
    G3.mat_vec_multiply .debug (localResidual .debug (cramerSolve _ _ ℚ) 1 (fun e => scaleSource theta⁻¹ (SteadyEdges 0 e).stat) 0) (fun _ _ => 3) (fun _ _ => 4)
      (List.ofFn (0 : Fin (G3.n_hyNodes * (2 * 1)) → ℚ)) = .ok (List.ofFn R) ∧
    G3.mat_vec_multiply .debug (localOperator .debug (cramerSolve _ _ ℚ) 1 (fun e => scaleSource theta⁻¹ (SteadyEdges 0 e).stat) 0) (fun _ _ => 3) (fun _ _ => 4) (List.ofFn y) = .ok (List.ofFn (-R)) ∧
    ∀ v, ∃ X, (∀ N, Marches .debug (cramerSolve _ _ ℚ) (S1 theta) (SteadyEdges 0) G3 (· = ⟨0, by decide⟩) (SteadyEdges v) (fun _ _ => 7) (List.replicate 14 5) (fun _ _ => 3) 0 (fun _ _ => 8) (fun _ _ => 9) X N) ∧
      ∀ eps > 0, ∃ n0, ∀ n ≥ n0, ∀ k, |X n k - y k| < eps := by
  obtain ⟨R, hR, y, ⟨hy, hsys⟩, _⟩ := Bilaplacian.C61_unique (nB := 1) .debug (cramerSolve _ _ ℚ) (C44_example _ _ ℚ) 1 one_pos (fun e => scaleSource theta⁻¹ (SteadyEdges 0 e).stat) 0 (SteadyEdges_laws 0) G3 G2nodes G3_wf
    (fun _ _ => 3) (fun _ _ => 4) (SteadyEdges_rigid 0) (· = ⟨0, by decide⟩) (Edges_dirichlet 3) (Edges_dirichlet 3) G2_anchored
  refine ⟨R, y, hR, hsys, fun v => ?_⟩
  obtain ⟨q, u, p, w, h1, _, _⟩ := discrete_mixed (nB := 1) .debug (cramerSolve _ _ ℚ) (C44_example _ _ ℚ) 1 one_pos (fun e => scaleSource theta⁻¹ (SteadyEdges 0 e).stat) 0 (SteadyEdges_laws 0) G3 G2nodes G3_wf
    (fun _ _ => 3) (fun _ _ => 4) (· = ⟨0, by decide⟩) (Edges_dirichlet 3) (Edges_dirichlet 3) hR hsys
  obtain ⟨X, hX⟩ := C111_runs (nB := 1) .debug (cramerSolve _ _ ℚ) (C44_example _ _ ℚ) (S1 theta) one_pos hth (by norm_num [S1]) (SteadyEdges v) (SteadyEdges_laws v) (SteadyEdges_pos v) G3 G2nodes G3_wf G2_cov
    (· = ⟨0, by decide⟩) (Edges_dirichlet 3) (Edges_dirichlet 3) (fun _ _ => 7) (List.replicate 14 5) (by decide) (fun _ _ => 3) 0 (fun _ _ => 8) (fun _ _ => 9)
  have hX' : ∀ N, Marches .debug (cramerSolve _ _ ℚ) (S1 theta) (SteadyEdges 0) G3 (· = ⟨0, by decide⟩) (SteadyEdges v) (fun _ _ => 7) (List.replicate 14 5) (fun _ _ => 3) 0 (fun _ _ => 8) (fun _ _ => 9) X N := fun N =>
    ⟨fun e => ⟨(SteadyEdges v e).volUni_initial, (SteadyEdges v e).bdrUni_psifunc, (SteadyEdges v e).bdrUni_psifunc_laplace, rfl⟩, (hX N).length, (hX N).steps⟩
  refine ⟨X, hX', C111_limit (nB := 1) .debug (cramerSolve _ _ ℚ) (C44_example _ _ ℚ) (S1 theta) one_pos hth (by norm_num [S1]) (SteadyEdges 0) (SteadyEdges_laws 0) (SteadyEdges_rigid 0) (SteadyEdges_steady 0)
    (SteadyEdges_symm 0) (fun e time => quad_nonneg (SteadyEdges_pos 0 e time)) G3 G2nodes G3_wf (· = ⟨0, by decide⟩) (Edges_dirichlet 3) (Edges_dirichlet 3) G2_anchored 0 (fun _ _ => 3) (fun _ _ => 4) R y hy hR hsys q u p w h1
    (SteadyEdges v) (fun _ _ => 7) (List.replicate 14 5) (fun _ _ => 3) 0 (fun _ _ => 8) (fun _ _ => 9) X hX'⟩

/-- A run as in `C111_fixed`: started with the stationary solution, all its vectors are the same. -/
theorem C111_fixed_example (theta : ℚ) (hth : 0 < theta) : ∃ (R y : Fin (G3.n_hyNodes * (2 * 1)) → ℚ) (E' : Nat → Edge 2 1 ℚ) (X : Nat → Fin (G3.n_hyNodes * (2 * 1)) → ℚ),
    G3.mat_vec_multiply .debug (localResidual .debug (cramerSolve _ _ ℚ) 1 (fun e => scaleSource theta⁻¹ (SteadyEdges 0 e).stat) 0) (fun _ _ => 3) (fun _ _ => 4)
      (List.ofFn (0 : Fin (G3.n_hyNodes * (2 * 1)) → ℚ)) = .ok (List.ofFn R) ∧
    G3.mat_vec_multiply .debug (localOperator .debug (cramerSolve _ _ ℚ) 1 (fun e => scaleSource theta⁻¹ (SteadyEdges 0 e).stat) 0) (fun _ _ => 3) (fun _ _ => 4) (List.ofFn y) = .ok (List.ofFn (-R)) ∧
    (∀ N, Marches .debug (cramerSolve _ _ ℚ) (S1 theta) (SteadyEdges 0) G3 (· = ⟨0, by decide⟩) E' (fun _ _ => 7) (List.replicate 14 5) (fun _ _ => 3) 0 (fun _ _ => 8) (fun _ _ => 9) X N) ∧
      ∀ n, X (n + 1) = y := by
  obtain ⟨R, hR, y, ⟨hy, hsys⟩, _⟩ := Bilaplacian.C61_unique (nB := 1) .debug (cramerSolve _ _ ℚ) (C44_example _ _ ℚ) 1 one_pos (fun e => scaleSource theta⁻¹ (SteadyEdges 0 e).stat) 0 (SteadyEdges_laws 0) G3 G2nodes G3_wf
    (fun _ _ => 3) (fun _ _ => 4) (SteadyEdges_rigid 0) (· = ⟨0, by decide⟩) (Edges_dirichlet 3) (Edges_dirichlet 3) G2_anchored
  obtain ⟨q, u, p, w, h1, _, _⟩ := discrete_mixed (nB := 1) .debug (cramerSolve _ _ ℚ) (C44_example _ _ ℚ) 1 one_pos (fun e => scaleSource theta⁻¹ (SteadyEdges 0 e).stat) 0 (SteadyEdges_laws 0) G3 G2nodes G3_wf
    (fun _ _ => 3) (fun _ _ => 4) (· = ⟨0, by decide⟩) (Edges_dirichlet 3) (Edges_dirichlet 3) hR hsys
  let vol : Nat → ℚ → Nat → ℚ := fun e _ i => if h : e < G3.n_hyEdges ∧ i < 1 then u ⟨e, h.1⟩ ⟨i, h.2⟩ else 0
  let E' : Nat → Edge 2 1 ℚ := fun e => (SteadyEdges 0 e).withInitial (vol e) (fun _ _ _ => 1) (fun _ _ _ => 2)
  obtain ⟨X, hX⟩ := C111_runs (nB := 1) .debug (cramerSolve _ _ ℚ) (C44_example _ _ ℚ) (S1 theta) one_pos hth (by norm_num [S1]) E' (SteadyEdges_laws 0) (SteadyEdges_pos 0) G3 G2nodes G3_wf G2_cov
    (· = ⟨0, by decide⟩) (Edges_dirichlet 3) (Edges_dirichlet 3) (fun _ _ => 7) (List.replicate 14 5) (by decide) (fun _ _ => 3) 0 (fun _ _ => 8) (fun _ _ => 9)
  have hX' : ∀ N, Marches .debug (cramerSolve _ _ ℚ) (S1 theta) (SteadyEdges 0) G3 (· = ⟨0, by decide⟩) E' (fun _ _ => 7) (List.replicate 14 5) (fun _ _ => 3) 0 (fun _ _ => 8) (fun _ _ => 9) X N := fun N =>
    ⟨fun e => ⟨_, _, _, rfl⟩, (hX N).length, (hX N).steps⟩
  refine ⟨R, y, E', X, hR, hsys, hX', fun n => (C111_fixed (nB := 1) .debug (cramerSolve _ _ ℚ) (C44_example _ _ ℚ) (S1 theta) one_pos hth (by norm_num [S1]) (SteadyEdges 0) (SteadyEdges_laws 0) (SteadyEdges_rigid 0)
    (SteadyEdges_steady 0) (SteadyEdges_symm 0) (fun e time => quad_nonneg (SteadyEdges_pos 0 e time)) G3 G2nodes G3_wf (· = ⟨0, by decide⟩) (Edges_dirichlet 3) (Edges_dirichlet 3) G2_anchored 0 (fun _ _ => 3) (fun _ _ => 4)
    R y hy hR hsys q u p w h1 E' (fun _ _ => 7) (List.replicate 14 5) (fun _ _ => 3) 0 (fun _ _ => 8) (fun _ _ => 9) X (n + 1) (hX' (n + 1)) (fun e i => dif_pos ⟨e.2, i.2⟩)).2 n (Nat.lt_succ_self n)⟩

/-- The stationary solution is not a steady state of the scheme for `theta = 1/2`. -/
theorem C111_wrong_example : ∃ x : State 2 1 1 ℚ, IsMixedSolution (form (SteadyEdges 0 1).stat 1) (coupling (SteadyEdges 0 1).stat 0) 0 1 1 (x.traceU (SteadyEdges 0 1) 0) (x.traceW (SteadyEdges 0 1) 0) 0
    (source (SteadyEdges 0 1).stat 0) x.q x.u x.p x.w ∧ Step (S1 1) (SteadyEdges 0 1) 0 x.u x ∧ ¬ Step (S1 (1 / 2)) (SteadyEdges 0 1) 0 x.u x := by
  have hS := (Bilaplacian.C59_solvable .debug (cramerSolve _ _ ℚ) (C44_example _ _ ℚ) 1 (SteadyEdges 0 1).stat 0 (SteadyEdges_laws 0 1) one_pos (0 : LocDofs 2 (2 * 1) ℚ) 0).1
  obtain ⟨q, u, p, w, h1, _⟩ := (Bilaplacian.C60_residual (nB := 1) .debug (cramerSolve _ _ ℚ) (C44_example _ _ ℚ) 1 (SteadyEdges 0 1).stat 0 (fun _ _ => 2) (fun _ _ => 0)).1 hS
  refine ⟨⟨q, u, p, w, fun _ _ => 2⟩, h1, ?_, ?_⟩
  · exact (C111_correct (S1 1) (by norm_num [S1]) (SteadyEdges 0 1) (SteadyEdges_steady 0 1) 0 ⟨q, u, p, w, fun _ _ => 2⟩ h1).mpr (.inl rfl)
  · rw [C111_correct (S1 (1 / 2)) (by norm_num [S1]) (SteadyEdges 0 1) (SteadyEdges_steady 0 1) 0 ⟨q, u, p, w, fun _ _ => 2⟩ h1]
    rintro (h | h)
    · exact absurd (show (1 / 2 : ℚ) = 1 from h) (by norm_num)
    · exact absurd (show (20 : ℚ) = 0 from congrFun h 0) (by norm_num)

end Example

end HyperHDG.BilaplacianParab

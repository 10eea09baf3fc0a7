import Verif.Spec.SteadyState
import Verif.Proofs.SteadyState
import Verif.Props.Elliptic

/-!
# Property C102: steady states of the time-dependent diffusion solver

`DiffusionParab` and `Diffusion` are two classes of the library which share the data of a hyperedge (`(E e).toEdge` is hyperedge `e` without initial values).  For data which
do not depend on the time (`Steady`), the time steps computed with `DiffusionParab` approach the discrete solution computed with `Diffusion`.
-/

namespace HyperHDG.DiffusionParab

open Finset Spec Matrix Diffusion HyGraph EllipticProgram

variable {dim nS nB : Nat} {K : Type} [Field K] [LinearOrder K] [IsStrictOrderedRing K]

section
variable (m : Mode) (gesv : Gesv ((dim + 1) * nS) 1 K) (hg : GesvSpec gesv)
  (gesv1 : Gesv nS 1 K) (hg1 : GesvSpec gesv1) (S : Solver K) (ht : 0 < S.tau) (hth : 1 / 2 < S.theta) (hdt : 0 < S.delta_t)
  (E : Nat → Edge dim nS K) (hE : ∀ e time, FormLaws (form (E e).toEdge nB time)) (hR : ∀ e time, Rigid (form (E e).toEdge nB time)) (hst : ∀ e, Steady (E e) nB)
  (G : HyGraph dim nB) (nodes : Fin G.n_hyEdges → Fin (2 * dim) → Fin G.n_hyNodes) (hwf : G.WF nodes)
  (D : Fin G.n_hyNodes → Prop) (hD : ∀ (e : Fin G.n_hyEdges) (f : Fin (2 * dim)), (E e).node_descriptor f ∈ (E e).dirichlet_nodes ↔ D (nodes e f))
  (hcon : Anchored nodes D) (time : K) (old1 new1 : LocDofs dim nB K) (y : Fin (G.n_hyNodes * nB) → K) (hy : VanishesAt D y)
  (hyres : (Elliptic.mk' G).apply m (localResidual m gesv S.tau (fun e => (E e).toEdge) time) old1 new1 (List.ofFn y) = .ok (List.replicate (G.n_hyNodes * nB) 0))
  (q : Fin G.n_hyEdges → Fin dim → Fin nS → K) (u : Fin G.n_hyEdges → Fin nS → K)
  (hsol : ∀ e : Fin G.n_hyEdges, IsSolution (form (E e).toEdge nB time) S.tau 0 1
    (moments (form (E e).toEdge nB time) (faceValues nodes y e) + dirichletMoments (E e).toEdge time) (source (E e).toEdge time) (q e) (u e))

include hg ht hE hwf hyres hsol in
/-- The fluxes of the stationary solution balance. -/
theorem steady_flux : assemble nodes (fun e : Fin G.n_hyEdges => offDirichlet (E e).toEdge (faceFlux (form (E e).toEdge nB time) S.tau (faceValues nodes y e) (q e) (u e))) = 0 := by
  have hS := fun e => (C21_solvable m gesv hg S.tau (E e).toEdge time (hE e time) ht (0 : LocDofs dim nB K) 0).1
  have hloc : ∀ e : Fin G.n_hyEdges, localResidual m gesv S.tau (fun e => (E e).toEdge) time e (faceValues nodes y e) (fun _ _ => 0) =
      .ok (offDirichlet (E e).toEdge (faceFlux (form (E e).toEdge nB time) S.tau (faceValues nodes y e) (q e) (u e))) := fun e => by
    obtain ⟨q', u', h1, h2⟩ := (C21_residual m gesv hg S.tau (E e).toEdge time (faceValues nodes y e) (fun _ _ => 0)).1 (hS e)
    obtain ⟨e1, e2⟩ := solution_unique (hS e) h1 (hsol e)
    rw [e1, e2] at h2
    exact h2
  rw [C23_fresh, mat_vec_eq m G nodes hwf _ y _ hloc old1 new1, ← List.ofFn_const] at hyres
  injection hyres with h
  exact List.ofFn_injective h

/-- The runs considered: a problem with the same data, started anywhere. -/
structure Marches (E' : Nat → Edge dim nS K) (buf0 : LocDofs dim nB K) (x : List K) (data0 : Fin G.n_hyEdges → Data dim nS nB K) (t0 : K) (old0 new0 : LocDofs dim nB K)
    (X : Nat → Fin (G.n_hyNodes * nB) → K) (N : Nat) : Prop where
  same : ∀ e, SameProblem (E e) (E' e) nB
  orthonormal : ∀ e, Orthonormal (E' e)
  length : x.length = G.n_hyNodes * nB
  steps : Steps m gesv gesv1 S E' G buf0 x data0 t0 D old0 new0 X N
  /-- implicit Euler, or initial values compatible with the discretisation -/
  scheme : S.theta = 1 ∨ ((∀ e, InitialLaws (E' e) nB t0) ∧ VanishesAt D (X 0) ∧
    ∀ e : Fin G.n_hyEdges, faceValues nodes (X 0) e = offDirichlet (E' e).toEdge (fun f (j : Fin nB) => (E' e).bdrUni_psifunc t0 j f))

section
variable {m gesv gesv1 S E G nodes D}
variable {E' : Nat → Edge dim nS K} {buf0 : LocDofs dim nB K} {x : List K} {data0 : Fin G.n_hyEdges → Data dim nS nB K} {t0 : K} {old0 new0 : LocDofs dim nB K}
  {X : Nat → Fin (G.n_hyNodes * nB) → K} {N : Nat} (h : Marches m gesv gesv1 S E G nodes D E' buf0 x data0 t0 old0 new0 X N)

include hg hg1 ht hth hdt hE hwf h in
theorem Marches.runs : ∃ (r : List K) (data : Nat → Fin G.n_hyEdges → Data dim nS nB K),
    (∀ n ≤ N, runX m gesv gesv1 S E' G buf0 x data0 t0 X n = .ok (r, List.ofFn (data n))) ∧
    ∀ n < N, globalResidual m gesv S E' G old0 new0 (List.ofFn (data n)) (t0 + (n + 1) • S.delta_t) (List.ofFn (X (n + 1))) = .ok (List.replicate (G.n_hyNodes * nB) 0) := by
  have hth0 : 0 < S.theta := lt_trans (by norm_num) hth
  have hE' : ∀ e time, FormLaws (form (E' e).toEdge nB time) := fun e time => by rw [(h.same e).form]; exact hE e time
  have k := fun n => run_stores m gesv hg gesv1 hg1 S ht.le hth0 hdt E' h.orthonormal hE' G nodes hwf buf0 x h.length data0 t0 X n
  choose st r data hr _ using k
  have hr0 : ∀ n, List.ofFn (r (n + 1)) = List.ofFn (r n) := by
    intro n
    have k3 : (run m gesv gesv1 S E' G buf0 x (List.ofFn data0) t0 (fun k => List.ofFn (X k)) n >>= fun r => _) = Res.ok (List.ofFn (r (n + 1)), List.ofFn (data (n + 1))) := hr (n + 1)
    rw [show run m gesv gesv1 S E' G buf0 x (List.ofFn data0) t0 (fun k => List.ofFn (X k)) n = _ from hr n, Res.ok_bind] at k3
    obtain ⟨d, _, k4⟩ := Res.bind_eq_ok.mp k3
    injection k4 with k4
    exact (congrArg Prod.fst k4).symm
  have hr1 : ∀ n, List.ofFn (r n) = List.ofFn (r 0) := fun n => by
    induction n with
    | zero => rfl
    | succ n ih => rw [hr0, ih]
  refine ⟨List.ofFn (r 0), data, fun n _ => ?_, fun n hn => ?_⟩
  · rw [← hr1 n]
    exact hr n
  · obtain ⟨_, r1, h1, h2⟩ := h.steps n hn
    rw [show run m gesv gesv1 S E' G buf0 x (List.ofFn data0) t0 (fun k => List.ofFn (X k)) n = _ from hr n] at h1
    injection h1 with h1
    rw [← h1] at h2
    exact h2

include hg hg1 ht hth hdt hE hst hwf hD hy hyres hsol h in
/-- One time step. -/
theorem Marches.step {C kappa : K} (hC : 0 < C) (hco : ∀ (z : Fin G.n_hyEdges → State dim nS nB K) (Z : Fin (G.n_hyNodes * nB) → K),
      (∀ e : Fin G.n_hyEdges, HomDual (form (E e).toEdge nB time) (z e)) → (∀ e, (z e).lambda = faceValues nodes Z e) → VanishesAt D Z →
      ∑ e : Fin G.n_hyEdges, (z e).u ⬝ᵥ (form (E e).toEdge nB time).mass0 *ᵥ (z e).u + ∑ k, Z k ^ 2 ≤
        C * ∑ e : Fin G.n_hyEdges, bilin (form (E e).toEdge nB time) S.tau (z e).q (z e).u (z e).lambda (z e).q (z e).u (z e).lambda)
    (hk0 : 0 ≤ kappa) (hk1 : kappa * C ≤ S.delta_t) (hk2 : kappa * (2 * (1 - S.theta) ^ 2) ≤ 2 * S.theta - 1)
    {n : Nat} (hn : n < N) {r : List K} {D0 D1 : Fin G.n_hyEdges → Data dim nS nB K}
    (h0 : runX m gesv gesv1 S E' G buf0 x data0 t0 X n = .ok (r, List.ofFn D0)) (h1 : runX m gesv gesv1 S E' G buf0 x data0 t0 X (n + 1) = .ok (r, List.ofFn D1))
    (hres : globalResidual m gesv S E' G old0 new0 (List.ofFn D0) (t0 + (n + 1) • S.delta_t) (List.ofFn (X (n + 1))) = .ok (List.replicate (G.n_hyNodes * nB) 0)) :
    (1 + kappa) * distance E (fun e => kept (D1 e)) u ≤ distance E (fun e => kept (D0 e)) u ∧
      (S.theta = 1 → 2 * S.delta_t * ∑ k, (X (n + 1) k - y k) ^ 2 ≤ C * distance E (fun e => kept (D0 e)) u) := by
  have hth0 : 0 < S.theta := lt_trans (by norm_num) hth
  have hE' : ∀ e time, FormLaws (form (E' e).toEdge nB time) := fun e time => by rw [(h.same e).form]; exact hE e time
  obtain ⟨old, new, a1, a2, a3⟩ := run_step m gesv hg gesv1 hg1 S ht.le hth0 hdt E' h.orthonormal hE' G nodes hwf buf0 x h.length data0 t0 X n old0 new0 r D0 D1 h0 h1 hres
  let F : Fin G.n_hyEdges → Form dim nS nB K := fun e => form (E e).toEdge nB time
  let st : Fin G.n_hyEdges → State dim nS nB K := fun e => ⟨q e, u e, faceValues nodes y e⟩
  have hform : ∀ (e : Fin G.n_hyEdges) t, form (E e).toEdge nB t = F e := fun e t => (hst e).form t time
  have hdst : ∀ (e : Fin G.n_hyEdges) t, DualEquation (E e) t (st e) := fun e t d => by
    have := (hsol e).flux d
    rw [trace, (hst e).form t time, (hst e).moments t time]
    exact this
  have hrst : ∀ (e : Fin G.n_hyEdges) t, rate (E e) S.tau t (st e) = 0 := fun e t => by
    have := (hsol e).primal
    rw [zero_smul, zero_add, one_smul] at this
    rw [rate, trace, (hst e).form t time, (hst e).moments t time, (hst e).source t time, ← this]
    abel
  have hfst := steady_flux m gesv hg S ht E hE G nodes hwf time old1 new1 y hyres q u hsol
  have hflux : ∀ (e : Fin G.n_hyEdges) t z, flux (E' e) S.tau t z = faceFlux (F e) S.tau z.lambda z.q z.u := fun e t z => by rw [(h.same e).flux_eq, flux, hform]
  have hvan : ∀ Z : Fin (G.n_hyNodes * nB) → K, VanishesAt D Z → ∀ e : Fin G.n_hyEdges, VanishesOnDirichlet (E e).toEdge (faceValues nodes Z e) :=
    fun Z hZ e f hf j => hZ _ ((hD e f).mp hf) j
  -- the balance of the fluxes, tested
  have htest : ∀ Z : Fin (G.n_hyNodes * nB) → K, VanishesAt D Z →
      ∑ e : Fin G.n_hyEdges, ∑ f, faceValues nodes Z e f ⬝ᵥ (S.theta • faceFlux (F e) S.tau (comb 1 (-1) (new e) (st e)).lambda (comb 1 (-1) (new e) (st e)).q (comb 1 (-1) (new e) (st e)).u +
        (1 - S.theta) • faceFlux (F e) S.tau (comb 1 (-1) (old e) (st e)).lambda (comb 1 (-1) (old e) (st e)).q (comb 1 (-1) (old e) (st e)).u) f = 0 := by
    intro Z hZ
    have e1 := pairing_assemble nodes (fun e : Fin G.n_hyEdges => offDirichlet (E' e).toEdge (S.theta • flux (E' e) S.tau (t0 + (n + 1) • S.delta_t) (new e) +
      (1 - S.theta) • flux (E' e) S.tau (t0 + n • S.delta_t) (old e))) Z
    have e2 := pairing_assemble nodes (fun e : Fin G.n_hyEdges => offDirichlet (E e).toEdge (faceFlux (form (E e).toEdge nB time) S.tau (faceValues nodes y e) (q e) (u e))) Z
    rw [a3] at e1
    rw [hfst] at e2
    simp only [(h.same _).off, hflux] at e1
    rw [Finset.sum_congr rfl fun e _ => pair_off (hvan Z hZ e) _] at e1 e2
    have e3 := congrArg₂ (· - ·) e1 e2
    simp only [Pi.zero_apply, mul_zero, Finset.sum_const_zero, sub_self] at e3
    rw [e3, ← Finset.sum_sub_distrib]
    refine Finset.sum_congr rfl fun e _ => ?_
    rw [← Finset.sum_sub_distrib]
    refine Finset.sum_congr rfl fun f _ => ?_
    rw [← dotProduct_sub]
    congr 1
    have k1 := flux_comb (E e) S.tau time 1 (-1) (new e) (st e)
    have k2 := flux_comb (E e) S.tau time 1 (-1) (old e) (st e)
    unfold flux at k1 k2
    rw [show faceFlux (F e) S.tau (comb 1 (-1) (new e) (st e)).lambda (comb 1 (-1) (new e) (st e)).q (comb 1 (-1) (new e) (st e)).u = _ from k1,
      show faceFlux (F e) S.tau (comb 1 (-1) (old e) (st e)).lambda (comb 1 (-1) (old e) (st e)).q (comb 1 (-1) (old e) (st e)).u = _ from k2]
    funext j
    simp only [Pi.add_apply, Pi.sub_apply, Pi.smul_apply, smul_eq_mul]
    show S.theta * (1 * faceFlux (F e) S.tau (new e).lambda (new e).q (new e).u f j + -1 * faceFlux (F e) S.tau (faceValues nodes y e) (q e) (u e) f j) +
      (1 - S.theta) * (1 * faceFlux (F e) S.tau (old e).lambda (old e).q (old e).u f j + -1 * faceFlux (F e) S.tau (faceValues nodes y e) (q e) (u e) f j) =
      S.theta * faceFlux (F e) S.tau (new e).lambda (new e).q (new e).u f j + (1 - S.theta) * faceFlux (F e) S.tau (old e).lambda (old e).q (old e).u f j -
        faceFlux (F e) S.tau (faceValues nodes y e) (q e) (u e) f j
    ring
  have hprimal : ∀ e, (F e).mass0 *ᵥ (((new e).u - u e) - ((old e).u - u e)) =
      S.delta_t • (S.theta • homRate (F e) S.tau (comb 1 (-1) (new e) (st e)) + (1 - S.theta) • homRate (F e) S.tau (comb 1 (-1) (old e) (st e))) := by
    intro e
    have e1 := ((h.same e).step (a1 e).2.2.1).primal
    have e3 := rate_sub (E e) S.tau (t0 + (n + 1) • S.delta_t) (new e) (st e)
    have e4 := rate_sub (E e) S.tau (t0 + (n + 1) • S.delta_t - S.delta_t) (old e) (st e)
    rw [hrst, sub_zero, hform] at e3 e4
    rw [← e3, ← e4, ← e1, hform]
    congr 1
    abel
  have hnewdual : ∀ e, HomDual (F e) (comb 1 (-1) (new e) (st e)) := fun e => by
    have := dual_sub (E e) _ _ _ ((h.same e).step (a1 e).2.2.1).dual (hdst e _)
    rwa [hform] at this
  have hlam : ∀ e : Fin G.n_hyEdges, (comb 1 (-1) (new e) (st e)).lambda = faceValues nodes (X (n + 1) - y) e := by
    intro e
    have : (comb 1 (-1) (new e) (st e)).lambda = (1 : K) • (new e).lambda + (-1 : K) • faceValues nodes y e := rfl
    rw [this, (a1 e).2.2.2, one_smul, neg_smul, one_smul, ← sub_eq_add_neg]
    rfl
  have hXy : ∀ k, VanishesAt D (X k) → VanishesAt D (X k - y) := fun k hk v hv j => by
    show X k _ - y _ = 0
    rw [hk v hv j, hy v hv j, sub_self]
  have hXn := (h.steps n hn).1
  have hdist : ∀ (d : Fin G.n_hyEdges → Data dim nS nB K) (w : Fin G.n_hyEdges → State dim nS nB K), (∀ e, kept (d e) = (w e).u) →
      distance E (fun e => kept (d e)) u = ∑ e, ((w e).u - u e) ⬝ᵥ (F e).mass0 *ᵥ ((w e).u - u e) := fun d w hw => by
    refine sum_congr rfl fun e _ => ?_
    rw [product_eq _ nB time]
    simp only [hw]
    rfl
  rw [hdist D1 new fun e => (a1 e).2.1, hdist D0 old fun e => (a1 e).1]
  by_cases hone : S.theta = 1
  · have hZ := hXy (n + 1) hXn
    refine energy_decay F (fun e => hE e _) S.tau S.delta_t S.theta hdt (fun e => (new e).u - u e) (fun e => (old e).u - u e)
      (fun e => comb 1 (-1) (new e) (st e)) (fun e => ?_) hnewdual (fun e => ?_) ?_ hC (sum_nonneg fun k _ => sq_nonneg _) (hco _ _ hnewdual hlam hZ) hk0 hk1 hk2
    · rw [hone]
      simp only [comb, one_smul, neg_smul, sub_self, zero_smul, add_zero, sub_eq_add_neg]
      rfl
    · rw [hprimal e, hone, sub_self, zero_smul, add_zero, one_smul]
    · have := htest _ hZ
      simp only [hone, sub_self, zero_smul, add_zero, one_smul] at this
      rw [← this]
      refine Finset.sum_congr rfl fun e _ => Finset.sum_congr rfl fun f _ => ?_
      rw [← hlam e]
  · obtain ⟨hinit, hX0D, hX0⟩ := h.scheme.resolve_left hone
    have hold : ∀ e, HomDual (F e) (comb 1 (-1) (old e) (st e)) ∧ (comb 1 (-1) (old e) (st e)).lambda = faceValues nodes (X n - y) e := by
      intro e
      have k1 : DualEquation (E' e) (t0 + n • S.delta_t) (old e) ∧ (old e).lambda = faceValues nodes (X n) e := by
        rcases a2 with ⟨hn, hI⟩ | ⟨_, hI⟩
        · subst hn
          rw [zero_smul, add_zero]
          exact ⟨dual_of_initial (hinit e) (hI e), (hI e).trace.trans (hX0 e).symm⟩
        · exact hI e
      refine ⟨?_, ?_⟩
      · have := dual_sub (E e) _ _ _ ((h.same e).dual k1.1) (hdst e _)
        rwa [hform] at this
      · have : (comb 1 (-1) (old e) (st e)).lambda = (1 : K) • (old e).lambda + (-1 : K) • faceValues nodes y e := rfl
        rw [this, k1.2, one_smul, neg_smul, one_smul, ← sub_eq_add_neg]
        rfl
    let Z := S.theta • (X (n + 1) - y) + (1 - S.theta) • (X n - y)
    have hZl : ∀ e : Fin G.n_hyEdges, (comb S.theta (1 - S.theta) (comb 1 (-1) (new e) (st e)) (comb 1 (-1) (old e) (st e))).lambda = faceValues nodes Z e := by
      intro e
      have : (comb S.theta (1 - S.theta) (comb 1 (-1) (new e) (st e)) (comb 1 (-1) (old e) (st e))).lambda =
        S.theta • (comb 1 (-1) (new e) (st e)).lambda + (1 - S.theta) • (comb 1 (-1) (old e) (st e)).lambda := rfl
      rw [this, hlam e, (hold e).2]
      rfl
    have hXo : VanishesAt D (X n) := by
      cases n with
      | zero => exact hX0D
      | succ n => exact (h.steps n (by omega)).1
    have hZ : VanishesAt D Z := fun v hv j => by
      show S.theta * (X (n + 1) - y) _ + (1 - S.theta) * (X n - y) _ = 0
      rw [hXy _ hXn v hv j, hXy _ hXo v hv j]
      ring
    have hdual := fun e => homDual_comb _ S.theta (1 - S.theta) _ _ (hnewdual e) (hold e).1
    refine ⟨(energy_decay F (fun e => hE e _) S.tau S.delta_t S.theta hdt (fun e => (new e).u - u e) (fun e => (old e).u - u e)
      (fun e => comb S.theta (1 - S.theta) (comb 1 (-1) (new e) (st e)) (comb 1 (-1) (old e) (st e))) (fun e => ?_)
      hdual (fun e => ?_) ?_ hC (sum_nonneg fun k _ => sq_nonneg (Z k)) (hco _ _ hdual hZl hZ) hk0 hk1 hk2).1, fun h => absurd h hone⟩
    · simp only [comb, one_smul, neg_smul, sub_eq_add_neg]
      rfl
    · rw [hprimal e]
      congr 1
      exact (homRate_comb _ _ _ _ _ _).symm
    · rw [← htest Z hZ]
      refine Finset.sum_congr rfl fun e _ => Finset.sum_congr rfl fun f _ => ?_
      rw [← hZl e]
      congr 1
      have := flux_comb (E e) S.tau time S.theta (1 - S.theta) (comb 1 (-1) (new e) (st e)) (comb 1 (-1) (old e) (st e))
      exact congrFun this f

end

include hg hg1 ht hth hdt hE hR hst hwf hD hcon hy hyres hsol

/-- **C102** (steady states).  Let the data not depend on the time, and let `y` with local solutions `q e`, `u e` be the discrete solution of `Diffusion` (`y` vanishes at the
Dirichlet nodes and `Elliptic::residual_flux` returns the zero vector for it).  For `1/2 < theta` there are `rho < 1` and `C` such that every computation of time steps with
`DiffusionParab`, whatever its initial values, approaches `y`, `u` geometrically: after `n` steps the square of the L2 distance to `u` is at most `rho ^ n` times the one at the
beginning, and for implicit Euler the vector of step `n + 1` differs from `y` by at most `C rho ^ n` times it. -/
theorem C102_decay : ∃ rho C : K, 0 ≤ rho ∧ rho < 1 ∧ 0 ≤ C ∧
    ∀ (E' : Nat → Edge dim nS K) (buf0 : LocDofs dim nB K) (x : List K) (data0 : Fin G.n_hyEdges → Data dim nS nB K) (t0 : K) (old0 new0 : LocDofs dim nB K)
      (X : Nat → Fin (G.n_hyNodes * nB) → K) (N : Nat), Marches m gesv gesv1 S E G nodes D E' buf0 x data0 t0 old0 new0 X N →
    ∃ (r : List K) (data : Nat → Fin G.n_hyEdges → Data dim nS nB K), (∀ n ≤ N, runX m gesv gesv1 S E' G buf0 x data0 t0 X n = .ok (r, List.ofFn (data n))) ∧
      (∀ n ≤ N, distance E (fun e => kept (data n e)) u ≤ rho ^ n * distance E (fun e => kept (data 0 e)) u) ∧
      (S.theta = 1 → ∀ n < N, ∑ k, (X (n + 1) k - y k) ^ 2 ≤ C * rho ^ n * distance E (fun e => kept (data 0 e)) u) := by
  obtain ⟨C, hC, hco⟩ := energy_coercive (fun e : Fin G.n_hyEdges => form (E e).toEdge nB time) (fun e => hE e time) (fun e => hR e time) ht nodes D hcon
  have hp : 0 < 2 * (1 - S.theta) ^ 2 + 1 := by nlinarith [sq_nonneg (1 - S.theta)]
  obtain ⟨kappa, hk, hk1, hk2⟩ : ∃ kappa, 0 < kappa ∧ kappa * C ≤ S.delta_t ∧ kappa * (2 * (1 - S.theta) ^ 2) ≤ 2 * S.theta - 1 := by
    refine ⟨min (S.delta_t / C) ((2 * S.theta - 1) / (2 * (1 - S.theta) ^ 2 + 1)), lt_min (div_pos hdt hC) (div_pos (by linarith) hp), ?_, ?_⟩
    · exact (mul_le_mul_of_nonneg_right (min_le_left _ _) hC.le).trans_eq (div_mul_cancel₀ _ hC.ne')
    · refine (mul_le_mul_of_nonneg_right (min_le_right _ _) (by nlinarith [sq_nonneg (1 - S.theta)])).trans ?_
      refine (mul_le_mul_of_nonneg_left (show 2 * (1 - S.theta) ^ 2 ≤ 2 * (1 - S.theta) ^ 2 + 1 by linarith) (div_nonneg (by linarith) hp.le)).trans_eq ?_
      exact div_mul_cancel₀ _ hp.ne'
  have h1k : 0 < 1 + kappa := by linarith
  refine ⟨1 / (1 + kappa), C / (2 * S.delta_t), (div_pos one_pos h1k).le, by rw [div_lt_one h1k]; linarith, (div_pos hC (by linarith)).le,
    fun E' buf0 x data0 t0 old0 new0 X N h => ?_⟩
  obtain ⟨r, data, hr, hres⟩ := h.runs hg hg1 ht hth hdt hE hwf
  have hstep := fun n (hn : n < N) => h.step hg hg1 ht hth hdt hE hst hwf hD time old1 new1 y hy hyres q u hsol hC hco hk.le hk1 hk2 hn (hr n hn.le) (hr (n + 1) hn) (hres n hn)
  have hdec : ∀ n ≤ N, distance E (fun e => kept (data n e)) u ≤ (1 / (1 + kappa)) ^ n * distance E (fun e => kept (data 0 e)) u := by
    intro n
    induction n with
    | zero => intro _; rw [pow_zero, one_mul]
    | succ n ih =>
      intro hn
      have k1 := (hstep n (by omega)).1
      have k2 := ih (by omega)
      rw [pow_succ, mul_comm _ (1 / (1 + kappa)), mul_assoc, div_mul_eq_mul_div, one_mul, le_div_iff₀ h1k, mul_comm]
      exact k1.trans k2
  refine ⟨r, data, hr, hdec, fun h1 n hn => ?_⟩
  have k1 := (hstep n hn).2 h1
  have k2 := mul_le_mul_of_nonneg_left (hdec n hn.le) hC.le
  have h2 : (0 : K) < 2 * S.delta_t := by linarith
  rw [mul_assoc, div_mul_eq_mul_div, le_div_iff₀ h2, mul_comm]
  exact k1.trans k2

/-- **C102** (steady states stay).  A computation started with the stationary solution keeps it: if the hyperedges hold `u` after `make_initial`, then they hold `u` after each step,
and the vectors of implicit Euler are `y`. -/
theorem C102_fixed (E' : Nat → Edge dim nS K) (buf0 : LocDofs dim nB K) (x : List K) (data0 : Fin G.n_hyEdges → Data dim nS nB K) (t0 : K) (old0 new0 : LocDofs dim nB K)
    (X : Nat → Fin (G.n_hyNodes * nB) → K) (N : Nat) (h : Marches m gesv gesv1 S E G nodes D E' buf0 x data0 t0 old0 new0 X N) :
    ∃ (r : List K) (data : Nat → Fin G.n_hyEdges → Data dim nS nB K), (∀ n ≤ N, runX m gesv gesv1 S E' G buf0 x data0 t0 X n = .ok (r, List.ofFn (data n))) ∧
      ((∀ e, kept (data 0 e) = u e) → (∀ n ≤ N, ∀ e, kept (data n e) = u e) ∧ (S.theta = 1 → ∀ n < N, X (n + 1) = y)) := by
  obtain ⟨rho, C, _, _, _, hall⟩ := C102_decay m gesv hg gesv1 hg1 S ht hth hdt E hE hR hst G nodes hwf D hD hcon time old1 new1 y hy hyres q u hsol
  obtain ⟨r, data, h1, h2, h3⟩ := hall E' buf0 x data0 t0 old0 new0 X N h
  refine ⟨r, data, h1, fun h0 => ?_⟩
  have hz : distance E (fun e => kept (data 0 e)) u = 0 := by
    refine sum_eq_zero fun e _ => ?_
    simp only [h0, sub_self, product, Pi.zero_apply, zero_mul, sum_const_zero]
  simp only [hz, mul_zero] at h2 h3
  constructor
  · intro n hn e
    have k1 := h2 n hn
    simp only [distance, product_eq _ nB time] at k1
    have k2 : ∀ e : Fin G.n_hyEdges, 0 ≤ (kept (data n e) - u e) ⬝ᵥ (form (E e).toEdge nB time).mass0 *ᵥ (kept (data n e) - u e) := fun e => quad_nonneg (hE e time).mass0_pos _
    have k3 := (sum_eq_zero_iff_of_nonneg fun e _ => k2 e).mp (le_antisymm k1 (sum_nonneg fun e _ => k2 e)) e (mem_univ e)
    exact sub_eq_zero.mp (quad_zero (hE e time).mass0_pos k3)
  · intro ht1 n hn
    funext k
    have k1 := (sum_eq_zero_iff_of_nonneg fun k _ => sq_nonneg (X (n + 1) k - y k)).mp (le_antisymm (h3 ht1 n hn) (sum_nonneg fun k _ => sq_nonneg _)) k (mem_univ k)
    exact sub_eq_zero.mp (pow_eq_zero_iff (two_ne_zero)|>.mp k1)

/-- **C102** (convergence in time).  Over an archimedean field the vectors of implicit Euler converge to the vector of the stationary problem. -/
theorem C102_limit [Archimedean K] (hone : S.theta = 1) (E' : Nat → Edge dim nS K) (buf0 : LocDofs dim nB K) (x : List K) (data0 : Fin G.n_hyEdges → Data dim nS nB K) (t0 : K)
    (old0 new0 : LocDofs dim nB K) (X : Nat → Fin (G.n_hyNodes * nB) → K) (h : ∀ N, Marches m gesv gesv1 S E G nodes D E' buf0 x data0 t0 old0 new0 X N) (eps : K) (heps : 0 < eps) :
    ∃ n0, ∀ n ≥ n0, ∀ k, |X n k - y k| < eps := by
  obtain ⟨rho, C, hr0, hr1, hC, hall⟩ := C102_decay m gesv hg gesv1 hg1 S ht hth hdt E hE hR hst G nodes hwf D hD hcon time old1 new1 y hy hyres q u hsol
  choose r data h1 h2 h3 using fun N => hall E' buf0 x data0 t0 old0 new0 X N (h N)
  have hd0 : ∀ N, data N 0 = data 0 0 := fun N => by
    have k1 := h1 N 0 (Nat.zero_le N)
    rw [h1 0 0 le_rfl] at k1
    injection k1 with k1
    exact (List.ofFn_injective (congrArg Prod.snd k1)).symm
  have hb : ∀ n, ∑ k, (X (n + 1) k - y k) ^ 2 ≤ C * rho ^ n * distance E (fun e => kept (data 0 0 e)) u := fun n => by
    have := h3 (n + 1) hone n (Nat.lt_succ_self n)
    rwa [hd0] at this
  have hd : 0 ≤ distance E (fun e => kept (data 0 0 e)) u := by
    simp only [distance, product_eq _ nB time]
    exact sum_nonneg fun e _ => quad_nonneg (hE e time).mass0_pos _
  generalize distance E (fun e => kept (data 0 0 e)) u = d at hb hd
  have hcd : 0 ≤ C * d := mul_nonneg hC hd
  obtain ⟨n0, hn0⟩ := exists_pow_lt_of_lt_one (div_pos (pow_pos heps 2) (show 0 < C * d + 1 by linarith)) hr1
  refine ⟨n0 + 1, fun n hn k => ?_⟩
  obtain ⟨n, rfl⟩ : ∃ n', n = n' + 1 := ⟨n - 1, by omega⟩
  have k1 : rho ^ n ≤ rho ^ n0 := pow_le_pow_of_le_one hr0 hr1.le (by omega)
  have k2 := single_le_sum (f := fun k => (X (n + 1) k - y k) ^ 2) (fun k _ => sq_nonneg _) (mem_univ k)
  have k3 : (C * d + 1) * rho ^ n < eps ^ 2 := by
    rw [mul_comm, ← lt_div_iff₀ (by linarith)]
    exact k1.trans_lt hn0
  have k4 := hb n
  have k5 : 0 ≤ rho ^ n := pow_nonneg hr0 n
  refine abs_lt_of_sq_lt_sq ?_ heps.le
  calc (X (n + 1) k - y k) ^ 2 ≤ C * rho ^ n * d := k2.trans k4
    _ ≤ (C * d + 1) * rho ^ n := by nlinarith
    _ < eps ^ 2 := k3

end

/-! ## A concrete case -/

namespace Example

open Diffusion.Example DiffusionUniform.Example EllipticProgram.Example

/-- The two parallelograms of C52, with initial value `w`, the Dirichlet value 2 and the constant source 2. -/
noncomputable def SteadyEdges (w : ℚ) (e : Nat) : Edge 2 1 ℚ := { Edges w e with toEdge := { (Edges w e).toEdge with vol_phifunc := fun _ _ => 40 } }

theorem SteadyEdges_laws (w : ℚ) (e : Nat) (time : ℚ) : FormLaws (form (SteadyEdges w e).toEdge 1 time) := E1_laws w (if e = 0 then [0] else []) time

theorem SteadyEdges_orthonormal (w : ℚ) (e : Nat) : Orthonormal (SteadyEdges w e) := E1_orthonormal w (if e = 0 then [0] else [])

theorem SteadyEdges_rigid (w : ℚ) (e : Nat) (time : ℚ) : Rigid (form (SteadyEdges w e).toEdge 1 time) := fun u f _ h => by
  have h1 : (form (SteadyEdges w e).toEdge 1 time).psi f = .of fun _ _ => 5 := E1_psi w (if e = 0 then [0] else []) time f
  rw [h1] at h
  have h0 := congrFun h 0
  funext i
  have : i = 0 := Subsingleton.elim _ _
  subst this
  simpa [mulVec, dotProduct] using h0

theorem SteadyEdges_steady (w : ℚ) (e : Nat) : Steady (SteadyEdges w e) 1 := ⟨fun _ _ => rfl, fun _ _ => rfl, fun _ _ => rfl⟩

/-- The vectors of all time steps of implicit Euler. -/
theorem march (w : ℚ) : ∃ X, ∀ N, Marches .debug (cramerSolve _ _ ℚ) (cramerSolve _ _ ℚ) (S0 1) (SteadyEdges 0) G2 G2nodes (· = ⟨0, by decide⟩) (SteadyEdges w) (fun _ _ => 7)
    (List.replicate 7 0) (fun _ => Data.init) 0 (fun _ _ => 8) (fun _ _ => 9) X N := by
  have h := fun N => C51_unique_run .debug (cramerSolve _ _ ℚ) (C44_example _ _ ℚ) (cramerSolve _ _ ℚ) (C44_example _ _ ℚ) (S0 1) one_pos one_pos (by norm_num [S0])
    (SteadyEdges w) (SteadyEdges_orthonormal w) (SteadyEdges_laws w) G2 G2nodes G2_wf G2_cov (· = ⟨0, by decide⟩) (Edges_dirichlet w) (fun _ _ => 7) _ x0_length (fun _ => Data.init) 0
    (fun _ _ => 8) (fun _ _ => 9) N 0
  choose X _ hX using fun N => (h N).1
  have hmono : ∀ N M, N ≤ M → Steps .debug (cramerSolve _ _ ℚ) (cramerSolve _ _ ℚ) (S0 1) (SteadyEdges w) G2 (fun _ _ => 7) (List.replicate 7 0) (fun _ => Data.init) 0
      (· = ⟨0, by decide⟩) (fun _ _ => 8) (fun _ _ => 9) (X M) N := fun N M hNM k hk => hX M k (by omega)
  have hag : ∀ k N, k < N → X N (k + 1) = X (k + 1) (k + 1) := fun k N hk =>
    (h (k + 1)).2 _ _ (hmono _ _ hk) (hX (k + 1)) k (Nat.lt_succ_self k)
  refine ⟨fun n => X n n, fun N => ⟨fun e => ⟨fun _ => rfl, fun _ => rfl, fun _ => rfl, fun _ => Iff.rfl⟩, SteadyEdges_orthonormal w, x0_length, fun k hk => ?_, .inl rfl⟩⟩
  obtain ⟨h1, r, h2, h3⟩ := hX (k + 1) k (Nat.lt_succ_self k)
  refine ⟨h1, r, ?_, h3⟩
  rw [← h2]
  exact run_congr _ _ _ _ _ _ _ _ _ _ k fun i hi => congrArg List.ofFn (hag i (k + 1) (by omega)).symm

/-- The hypotheses of C102 can be met: whatever the initial value, implicit Euler on two parallelograms with a source and a Dirichlet node converges to the stationary solution. -/
theorem C102_example : ∃ y : Fin (G2.n_hyNodes * 1) → ℚ,
    (Elliptic.mk' G2).apply .debug (localResidual .debug (cramerSolve _ _ ℚ) 1 (fun e => (SteadyEdges 0 e).toEdge) 0) (fun _ _ => 3) (fun _ _ => 4) (List.ofFn y) =
      .ok (List.replicate (G2.n_hyNodes * 1) 0) ∧
    ∀ w, ∃ X, (∀ N, Marches .debug (cramerSolve _ _ ℚ) (cramerSolve _ _ ℚ) (S0 1) (SteadyEdges 0) G2 G2nodes (· = ⟨0, by decide⟩) (SteadyEdges w) (fun _ _ => 7)
      (List.replicate 7 0) (fun _ => Data.init) 0 (fun _ _ => 8) (fun _ _ => 9) X N) ∧ ∀ eps > 0, ∃ n0, ∀ n ≥ n0, ∀ k, |X n k - y k| < eps := by
  have hE := SteadyEdges_laws 0
  obtain ⟨y, ⟨hy, hres⟩, _⟩ := C54_unique .debug (cramerSolve _ _ ℚ) (C44_example _ _ ℚ) 1 one_pos (fun e => (SteadyEdges 0 e).toEdge) 0 (fun e => hE e 0)
    (fun e => SteadyEdges_rigid 0 e 0) G2 G2nodes G2_wf (· = ⟨0, by decide⟩) (Edges_dirichlet 0) G2_anchored (fun _ _ => 3) (fun _ _ => 4)
  have hS := fun e => (C21_solvable .debug (cramerSolve _ _ ℚ) (C44_example _ _ ℚ) 1 (SteadyEdges 0 e).toEdge 0 (hE e 0) one_pos (0 : LocDofs 2 1 ℚ) 0).1
  choose q u hsol _ using fun e : Fin G2.n_hyEdges => (C21_residual .debug (cramerSolve _ _ ℚ) (C44_example _ _ ℚ) 1 (SteadyEdges 0 e).toEdge 0 (faceValues G2nodes y e) (fun _ _ => 0)).1 (hS e)
  refine ⟨y, hres, fun w => ?_⟩
  obtain ⟨X, hX⟩ := march w
  exact ⟨X, hX, C102_limit .debug (cramerSolve _ _ ℚ) (C44_example _ _ ℚ) (cramerSolve _ _ ℚ) (C44_example _ _ ℚ) (S0 1) one_pos (by norm_num [S0]) (by norm_num [S0]) (SteadyEdges 0) hE
    (SteadyEdges_rigid 0) (SteadyEdges_steady 0) G2 G2nodes G2_wf (· = ⟨0, by decide⟩) (Edges_dirichlet 0) G2_anchored 0 (fun _ _ => 3) (fun _ _ => 4) y hy hres q u hsol rfl (SteadyEdges w)
    (fun _ _ => 7) (List.replicate 7 0) (fun _ => Data.init) 0 (fun _ _ => 8) (fun _ _ => 9) X hX⟩

end Example

end HyperHDG.DiffusionParab

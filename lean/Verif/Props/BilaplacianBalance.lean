import Verif.Spec.Neumann
import Verif.Proofs.Neumann
import Verif.Props.BilaplacianSteady

/-!
# Property C112: balances of the biharmonic solvers

`outflow` (`Verif/Spec/Neumann.lean`) is what flows out of a hyperedge through a face: of `w`, the integral of `p . n + tau (w - trace of w)`, and of `u`, that of `q . n + tau (u - trace of u)`.
-/

namespace HyperHDG.BilaplacianParab

open Finset Spec Matrix LDG Mixed HyGraph
open Bilaplacian (n_loc_dofs form coupling source offDirichlet VanishesOnDirichlet IsDirichlet IsDirichletLaplacian dirichletMoments laplacianMoments
  pair_off ofNodes ofNodes_dof localResidual localOperator discrete_mixed)

variable {dim nS nB : Nat} {K : Type} [Field K] [LinearOrder K] [IsStrictOrderedRing K]

omit [LinearOrder K] [IsStrictOrderedRing K] in
/-- The operator tested by a constant. -/
theorem laplace_const {F : Form dim nS nB K} {one : Fin nS → K} (h1 : IsConst F one) (tau : K) (h : Fin (2 * dim) → Fin nS → K) (p : Fin dim → Fin nS → K) (w : Fin nS → K) :
    one ⬝ᵥ laplace F tau h p w = ∑ f, outflow F one tau h p w f := by
  rw [laplace, dotProduct_add, dotProduct_neg, dotProduct_sum, dotProduct_sum, sum_eq_zero fun d _ => ?_, neg_zero, zero_add]
  · rfl
  · rw [dotProduct_mulVec, ← mulVec_transpose, h1 d, zero_dotProduct]

omit [IsStrictOrderedRing K] in
open Classical in
/-- Fluxes which balance: what flows out of the hyperedges flows out at the prescribed hypernodes. -/
theorem outflow_prescribed {nE nN : Nat} {F : Fin nE → Form dim nS nB K} (hF : ∀ e, FormLaws (F e)) {one : Fin nE → Fin nS → K} {oneB : Fin nB → K} (h1 : ∀ e f, IsTrace (F e) (one e) f oneB)
    {nodes : Fin nE → Fin (2 * dim) → Fin nN} {D : Fin nN → Prop} {tau : K} {lambda : Fin nE → LocDofs dim nB K} {g : Fin nE → Fin (2 * dim) → Fin nS → K}
    (hg : ∀ e f, ¬ D (nodes e f) → g e f = moments (F e) (lambda e) f) {p : Fin nE → Fin dim → Fin nS → K} {w : Fin nE → Fin nS → K}
    (h : ∀ Z : Fin (nN * nB) → K, VanishesAt D Z → ∑ e, ∑ f, faceValues nodes Z e f ⬝ᵥ faceFlux (F e) tau (lambda e) (p e) (w e) f = 0) :
    ∑ e, ∑ f, outflow (F e) (one e) tau (g e) (p e) (w e) f = ∑ e, ∑ f, if D (nodes e f) then outflow (F e) (one e) tau (g e) (p e) (w e) f else 0 := by
  have k := h (ofNodes fun v j => if D v then 0 else oneB j) (fun v hv j => by rw [ofNodes_dof (fun v j => if D v then 0 else oneB j) v j, if_pos hv])
  refine sub_eq_zero.mp (Eq.trans ?_ k)
  rw [← sum_sub_distrib]
  refine sum_congr rfl fun e _ => ?_
  rw [← sum_sub_distrib]
  refine sum_congr rfl fun f _ => ?_
  have hz : faceValues nodes (ofNodes fun v j => if D v then 0 else oneB j) e f = fun j => if D (nodes e f) then 0 else oneB j :=
    funext fun j => ofNodes_dof (fun v j => if D v then 0 else oneB j) (nodes e f) j
  rw [hz]
  by_cases hf : D (nodes e f)
  · simp only [if_pos hf, sub_self]
    exact (zero_dotProduct _).symm
  · simp only [if_neg hf, sub_zero]
    exact (flux_outflow (hF e) (h1 e f) (lambda e) (hg e f hf) (p e) (w e)).symm

section
variable (m : Mode) (gesv : Gesv (n_loc_dofs dim nS) 1 K) (hg : GesvSpec gesv) (S : Solver K) (ht : 0 < S.tau) (hth : 0 < S.theta) (hdt : 0 < S.delta_t)

omit [LinearOrder K] [IsStrictOrderedRing K] in
include hg in
/-- **C112** (hyperedges).  For every trace, `set_data` with a time step replaces the value `u_old` kept by the hyperedge by a value `u` such that the integral of `u` is that of `u_old`, plus `delta_t` times
the integral of the source (weighted between the ends of the step) minus `theta` times what flows out of `w` through the faces; and what flows out of `u` is the integral of `b w`. -/
theorem C112_edge (E : Edge dim nS K) (data : Data dim nS K) (time : K) (hs : StepSolvable S E nB time) {one : Fin nS → K} (h1 : IsConst (form E.stat nB) one) (u_old : Fin nS → K)
    (hu : StoresU data u_old) (lambda : LocDofs dim (2 * nB) K) :
    ∃ (c : Data dim nS K) (x : State dim nS nB K), set_data m gesv S lambda E data time = .ok c ∧ Stores c x ∧ x.lambda = lambda ∧
      product E one x.u = product E one u_old + S.delta_t * (S.theta * (one ⬝ᵥ source E.stat time) + (1 - S.theta) * (one ⬝ᵥ source E.stat (time - S.delta_t)) -
        S.theta * ∑ f, outflow (form E.stat nB) one S.tau (x.traceW E time) x.p x.w f) ∧
      ∑ f, outflow (form E.stat nB) one S.tau (x.traceU E time) x.q x.u f = one ⬝ᵥ coupling E.stat time *ᵥ x.w := by
  obtain ⟨c, x, k1, k2, k3, k4⟩ := C63_set_data m gesv hg S E data time hs u_old hu lambda
  refine ⟨c, x, k1, k2, k3, ?_, ?_⟩
  · have k5 := congrArg (one ⬝ᵥ ·) k4.primal
    simp only [rate, mulVec_sub, dotProduct_sub, dotProduct_add, dotProduct_smul, smul_eq_mul, laplace_const h1] at k5
    rw [product_eq E nB, product_eq E nB]
    linear_combination k5
  · rw [← laplace_const h1, k4.constraints.laplace_u]

variable (E : Nat → Edge dim nS K) (hE : ∀ e, FormLaws (form (E e).stat nB)) (hB : ∀ e time v, 0 ≤ v ⬝ᵥ coupling (E e).stat time *ᵥ v)
  (one : Nat → Fin nS → K) (oneB : Fin nB → K) (h1 : ∀ e, IsConst (form (E e).stat nB) (one e)) (h1B : ∀ e f, IsTrace (form (E e).stat nB) (one e) f oneB)
  (G : HyGraph dim (2 * nB)) (nodes : Fin G.n_hyEdges → Fin (2 * dim) → Fin G.n_hyNodes) (hwf : G.WF nodes) (D : Fin G.n_hyNodes → Prop)
  (hD : ∀ (e : Fin G.n_hyEdges) (f : Fin (2 * dim)), (E e).node_descriptor f ∈ (E e).dirichlet_nodes ↔ D (nodes e f))
  (hD' : ∀ (e : Fin G.n_hyEdges) (f : Fin (2 * dim)), (E e).node_descriptor f ∈ (E e).dirichlet_laplacian_nodes ↔ D (nodes e f))
  (buf0 : LocDofs dim (2 * nB) K) (x : List K) (hx : x.length = G.n_hyNodes * (2 * nB)) (data0 : Fin G.n_hyEdges → Data dim nS K) (t0 : K)
  (old0 new0 : LocDofs dim (2 * nB) K) (X : Nat → Fin (G.n_hyNodes * (2 * nB)) → K)

include hg ht hth hdt hE hB h1 h1B hwf hD hD' hx

open Classical in
/-- **C112** (a time step).  Let `u` and the Laplacian be prescribed at the hypernodes `D`.  If step `n + 1` solves the linear system, the integral of `u` over all hyperedges is the one before, plus `delta_t` times the
integral of all sources, minus `delta_t theta` times what flows out of `w` at `D`: nothing is lost or created at the other hypernodes.  And the integral of `b w` is what flows out of `u` at `D`. -/
theorem C112_step (n : Nat) (r : List K) (D0 D1 : Fin G.n_hyEdges → Data dim nS K)
    (hd : runX m gesv S E G buf0 x data0 t0 X n = .ok (r, List.ofFn D0)) (hd' : runX m gesv S E G buf0 x data0 t0 X (n + 1) = .ok (r, List.ofFn D1))
    (tA : K) (hA : ∀ e : Fin G.n_hyEdges, coupling (E e).stat tA = coupling (E e).stat (t0 + (n + 1) • S.delta_t)) (R : Fin (G.n_hyNodes * (2 * nB)) → K)
    (hR : globalResidual m gesv S E G old0 new0 (List.ofFn D0) (t0 + (n + 1) • S.delta_t) (List.ofFn (0 : Fin (G.n_hyNodes * (2 * nB)) → K)) = .ok (List.ofFn R))
    (hsys : globalFlux m gesv S E G old0 new0 (List.ofFn D0) tA (List.ofFn (X (n + 1))) = .ok (List.ofFn (-R)))
    (u0 u1 : Fin G.n_hyEdges → Fin nS → K) (hu0 : ∀ e, StoresU (D0 e) (u0 e)) (hu1 : ∀ e, StoresU (D1 e) (u1 e)) :
    ∃ new : Fin G.n_hyEdges → State dim nS nB K,
      (∀ e : Fin G.n_hyEdges, (new e).u = u1 e ∧ (new e).lambda = faceValues nodes (X (n + 1)) e ∧ Step S (E e) (t0 + (n + 1) • S.delta_t) (u0 e) (new e)) ∧
      ∑ e : Fin G.n_hyEdges, product (E e) (one e) (u1 e) = ∑ e : Fin G.n_hyEdges, product (E e) (one e) (u0 e) + S.delta_t *
        (∑ e : Fin G.n_hyEdges, (S.theta * (one e ⬝ᵥ source (E e).stat (t0 + (n + 1) • S.delta_t)) + (1 - S.theta) * (one e ⬝ᵥ source (E e).stat (t0 + n • S.delta_t))) -
          S.theta * ∑ e : Fin G.n_hyEdges, ∑ f, if D (nodes e f) then outflow (form (E e).stat nB) (one e) S.tau ((new e).traceW (E e) (t0 + (n + 1) • S.delta_t)) (new e).p (new e).w f else 0) ∧
      ∑ e : Fin G.n_hyEdges, one e ⬝ᵥ coupling (E e).stat (t0 + (n + 1) • S.delta_t) *ᵥ (new e).w =
        ∑ e : Fin G.n_hyEdges, ∑ f, if D (nodes e f) then outflow (form (E e).stat nB) (one e) S.tau ((new e).traceU (E e) (t0 + (n + 1) • S.delta_t)) (new e).q (new e).u f else 0 := by
  obtain ⟨old, new, a1, a2⟩ := run_step m gesv hg S ht hth hdt E hE hB G nodes hwf buf0 x hx data0 t0 X n old0 new0 r D0 D1 hd hd' tA hA R hR hsys
  have huniq : ∀ {c : Data dim nS K} {u u' : Fin nS → K}, StoresU c u → StoresU c u' → u = u' := fun {c u u'} h h' => ((storesU_iff c u).mp h).symm.trans ((storesU_iff c u').mp h')
  have c0 : ∀ e, old e = u0 e := fun e => huniq (a1 e).1 (hu0 e)
  have c1 : ∀ e, (new e).u = u1 e := fun e => huniq (a1 e).2.1 (hu1 e)
  have hstep : ∀ e : Fin G.n_hyEdges, Step S (E e) (t0 + (n + 1) • S.delta_t) (u0 e) (new e) := fun e => c0 e ▸ (a1 e).2.2.1
  have hbal := fun Z hZ => flux_test_halves S E G nodes D a2 hD hD' Z hZ
  have hw := outflow_prescribed (fun e : Fin G.n_hyEdges => hE e) (one := fun e => one e) (fun e f => h1B e f) (D := D) (tau := S.tau) (lambda := fun e => lower (new e).lambda)
    (g := fun e => (new e).traceW (E e) (t0 + (n + 1) • S.delta_t)) (fun e f hf => by
      funext i
      have : laplacianMoments (E e).stat (t0 + (n + 1) • S.delta_t) f i = 0 := if_neg fun h => hf ((hD' e f).mp h)
      rw [State.traceW, Pi.add_apply, Pi.add_apply, this, add_zero]) (fun Z hZ => (hbal Z hZ).2)
  have hu := outflow_prescribed (fun e : Fin G.n_hyEdges => hE e) (one := fun e => one e) (fun e f => h1B e f) (D := D) (tau := S.tau) (lambda := fun e => upper (new e).lambda)
    (g := fun e => (new e).traceU (E e) (t0 + (n + 1) • S.delta_t)) (fun e f hf => by
      funext i
      have : dirichletMoments (E e).stat (t0 + (n + 1) • S.delta_t) f i = 0 := if_neg fun h => hf ((hD e f).mp h)
      rw [State.traceU, Pi.add_apply, Pi.add_apply, this, add_zero]) (fun Z hZ => (hbal Z hZ).1)
  have htime : t0 + (n + 1) • S.delta_t - S.delta_t = t0 + n • S.delta_t := by rw [succ_nsmul]; ring
  refine ⟨new, fun e => ⟨c1 e, (a1 e).2.2.2, hstep e⟩, ?_, ?_⟩
  · rw [← hw, mul_sum, ← sum_sub_distrib, mul_sum, ← sum_add_distrib]
    refine sum_congr rfl fun e _ => ?_
    have k5 := congrArg (one e ⬝ᵥ ·) (hstep e).primal
    simp only [rate, mulVec_sub, dotProduct_sub, dotProduct_add, dotProduct_smul, smul_eq_mul, laplace_const (h1 e), c1 e, htime] at k5
    rw [product_eq (E e) nB, product_eq (E e) nB]
    linear_combination k5
  · rw [← hu]
    refine sum_congr rfl fun e _ => ?_
    rw [← (hstep e).constraints.laplace_u, laplace_const (h1 e)]

/-- **C112** (conservation).  Let nothing be prescribed, and let the coefficient not depend on the time.  If the first `N` steps solve their linear systems, then after each of them the integral of `u` over all hyperedges is the integral of
the initial value plus the sum of the weighted integrals of the sources: in particular it does not change without sources. -/
theorem C112_run (hno : ∀ v, ¬ D v) (hC : ∀ e t t', coupling (E e).stat t = coupling (E e).stat t') (N : Nat) (h : Marches m gesv S E G D E buf0 x data0 t0 old0 new0 X N) :
    ∀ n ≤ N, ∃ (r : List K) (data : Fin G.n_hyEdges → Data dim nS K) (u : Fin G.n_hyEdges → Fin nS → K), runX m gesv S E G buf0 x data0 t0 X n = .ok (r, List.ofFn data) ∧ (∀ e, StoresU (data e) (u e)) ∧
      ∑ e : Fin G.n_hyEdges, product (E e) (one e) (u e) = ∑ e : Fin G.n_hyEdges, product (E e) (one e) (fun i : Fin nS => (E e).volUni_initial t0 i) + S.delta_t *
        ∑ k ∈ range n, ∑ e : Fin G.n_hyEdges, (S.theta * (one e ⬝ᵥ source (E e).stat (t0 + (k + 1) • S.delta_t)) + (1 - S.theta) * (one e ⬝ᵥ source (E e).stat (t0 + k • S.delta_t))) := by
  intro n
  induction n with
  | zero =>
    intro _
    obtain ⟨st, r, data, k1, k2, _, k4, _⟩ := C64_history (nB := nB) m gesv hg S ht hth hdt E hE hB G nodes hwf buf0 x hx data0 t0 X 0
    refine ⟨_, data, fun e => (st 0 e).u, k1, fun e => (k4 e).1, ?_⟩
    rw [range_zero, sum_empty, mul_zero, add_zero]
    exact sum_congr rfl fun e _ => congrArg (product (E e) (one e)) (k2 e)
  | succ n ih =>
    intro hn
    obtain ⟨r, data, u, k1, k2, k3⟩ := ih (by omega)
    obtain ⟨_, r', data', tA, R, g1, g2, g3⟩ := h.steps n (by omega)
    rw [k1] at g1
    obtain rfl : data = data' := List.ofFn_injective (Prod.mk.inj (Res.ok.inj g1)).2
    obtain ⟨st, r1, data1, l1, _, _, l4, _⟩ := C64_history (nB := nB) m gesv hg S ht hth hdt E hE hB G nodes hwf buf0 x hx data0 t0 X (n + 1)
    have hr : List.ofFn r1 = r := by
      have k5 : (run m gesv S E G buf0 x (List.ofFn data0) t0 (fun k => List.ofFn (X k)) n >>= fun r => _) = Res.ok (List.ofFn r1, List.ofFn data1) := l1
      rw [show run m gesv S E G buf0 x (List.ofFn data0) t0 (fun k => List.ofFn (X k)) n = _ from k1, Res.ok_bind] at k5
      obtain ⟨d, _, k6⟩ := Res.bind_eq_ok.mp k5
      injection k6 with k6
      exact (congrArg Prod.fst k6).symm
    rw [hr] at l1
    obtain ⟨new, _, b2, _⟩ := C112_step m gesv hg S ht hth hdt E hE hB one oneB h1 h1B G nodes hwf D hD hD' buf0 x hx data0 t0 old0 new0 X n r data data1 k1 l1 tA (fun e => hC e _ _) R g2 g3
      u (fun e => (st (n + 1) e).u) k2 (fun e => (l4 e).1)
    refine ⟨r, data1, fun e => (st (n + 1) e).u, l1, fun e => (l4 e).1, ?_⟩
    refine b2.trans ?_
    rw [k3, sum_range_succ]
    simp only [hno, if_false, sum_const_zero]
    ring

end

end HyperHDG.BilaplacianParab

namespace HyperHDG.Bilaplacian

open Finset Spec Matrix HyGraph LDG Mixed
open BilaplacianParab (outflow_prescribed)

variable {K : Type} {dim nS nB : Nat} [Field K] [LinearOrder K] [IsStrictOrderedRing K]

open Classical in
/-- **C112** (stationary problem).  Let `u` and the Laplacian be prescribed at the hypernodes `D`.  For each solution of the linear system, what flows out of `w` at `D` is the integral of all sources, and what flows out
of `u` at `D` is the integral of `b w`. -/
theorem C112_stationary (m : Mode) (gesv : Gesv (n_loc_dofs dim nS) 1 K) (hg : GesvSpec gesv) (tau : K) (ht : 0 < tau)
    (E : Nat → Edge dim nS K) (time : K) (hE : ∀ e, FormLaws (form (E e) nB)) (one : Nat → Fin nS → K) (oneB : Fin nB → K) (h1 : ∀ e, IsConst (form (E e) nB) (one e))
    (h1B : ∀ e f, IsTrace (form (E e) nB) (one e) f oneB) (G : HyGraph dim (2 * nB)) (nodes : Fin G.n_hyEdges → Fin (2 * dim) → Fin G.n_hyNodes)
    (hwf : G.WF nodes) (old0 new0 : LocDofs dim (2 * nB) K) (D : Fin G.n_hyNodes → Prop)
    (hD : ∀ (e : Fin G.n_hyEdges) (f : Fin (2 * dim)), (E e).node_descriptor f ∈ (E e).dirichlet_nodes ↔ D (nodes e f))
    (hD' : ∀ (e : Fin G.n_hyEdges) (f : Fin (2 * dim)), (E e).node_descriptor f ∈ (E e).dirichlet_laplacian_nodes ↔ D (nodes e f))
    (R y : Fin (G.n_hyNodes * (2 * nB)) → K)
    (hR : G.mat_vec_multiply m (localResidual m gesv tau E time) old0 new0 (List.ofFn (0 : Fin (G.n_hyNodes * (2 * nB)) → K)) = .ok (List.ofFn R))
    (hy : G.mat_vec_multiply m (localOperator m gesv tau E time) old0 new0 (List.ofFn y) = .ok (List.ofFn (-R))) :
    ∃ (q : Fin G.n_hyEdges → Fin dim → Fin nS → K) (u : Fin G.n_hyEdges → Fin nS → K) (p : Fin G.n_hyEdges → Fin dim → Fin nS → K) (w : Fin G.n_hyEdges → Fin nS → K),
      (∀ e : Fin G.n_hyEdges, IsMixedSolution (form (E e) nB) (coupling (E e) time) 0 tau 1 (moments (form (E e) nB) (upper (faceValues nodes y e)) + dirichletMoments (E e) time)
        (moments (form (E e) nB) (lower (faceValues nodes y e)) + laplacianMoments (E e) time) 0 (source (E e) time) (q e) (u e) (p e) (w e)) ∧
      ∑ e : Fin G.n_hyEdges, one e ⬝ᵥ source (E e) time = ∑ e : Fin G.n_hyEdges, ∑ f, (if D (nodes e f) then
        outflow (form (E e) nB) (one e) tau (moments (form (E e) nB) (lower (faceValues nodes y e)) + laplacianMoments (E e) time) (p e) (w e) f else 0) ∧
      ∑ e : Fin G.n_hyEdges, one e ⬝ᵥ coupling (E e) time *ᵥ w e = ∑ e : Fin G.n_hyEdges, ∑ f, (if D (nodes e f) then
        outflow (form (E e) nB) (one e) tau (moments (form (E e) nB) (upper (faceValues nodes y e)) + dirichletMoments (E e) time) (q e) (u e) f else 0) := by
  obtain ⟨q, u, p, w, k1, k2, k3⟩ := discrete_mixed m gesv hg tau ht E time hE G nodes hwf old0 new0 D hD hD' hR hy
  refine ⟨q, u, p, w, k1, ?_, ?_⟩
  · rw [← outflow_prescribed (fun e : Fin G.n_hyEdges => hE e) (one := fun e => one e) (fun e f => h1B e f) (D := D) (tau := tau) (lambda := fun e => lower (faceValues nodes y e))
      (g := fun e => moments (form (E e) nB) (lower (faceValues nodes y e)) + laplacianMoments (E e) time) (fun e f hf => by
        funext i
        have : laplacianMoments (E e) time f i = 0 := if_neg fun h => hf ((hD' e f).mp h)
        rw [Pi.add_apply, Pi.add_apply, this, add_zero]) (fun Z hZ => BilaplacianParab.test_balance k2 Z hZ)]
    refine sum_congr rfl fun e _ => ?_
    rw [outflow_sum (h1 e) (k1 e).second, zero_mulVec, sub_zero]
  · rw [← outflow_prescribed (fun e : Fin G.n_hyEdges => hE e) (one := fun e => one e) (fun e f => h1B e f) (D := D) (tau := tau) (lambda := fun e => upper (faceValues nodes y e))
      (g := fun e => moments (form (E e) nB) (upper (faceValues nodes y e)) + dirichletMoments (E e) time) (fun e f hf => by
        funext i
        have : dirichletMoments (E e) time f i = 0 := if_neg fun h => hf ((hD e f).mp h)
        rw [Pi.add_apply, Pi.add_apply, this, add_zero]) (fun Z hZ => BilaplacianParab.test_balance k3 Z hZ)]
    refine sum_congr rfl fun e _ => ?_
    rw [outflow_sum (h1 e) (k1 e).first, zero_add]

/-- **C112** (nothing prescribed).  Without prescribed hypernodes the linear system has a solution only if the integral of all sources is zero. -/
theorem C112_compatible (m : Mode) (gesv : Gesv (n_loc_dofs dim nS) 1 K) (hg : GesvSpec gesv) (tau : K) (ht : 0 < tau)
    (E : Nat → Edge dim nS K) (time : K) (hE : ∀ e, FormLaws (form (E e) nB)) (one : Nat → Fin nS → K) (oneB : Fin nB → K) (h1 : ∀ e, IsConst (form (E e) nB) (one e))
    (h1B : ∀ e f, IsTrace (form (E e) nB) (one e) f oneB) (G : HyGraph dim (2 * nB)) (nodes : Fin G.n_hyEdges → Fin (2 * dim) → Fin G.n_hyNodes)
    (hwf : G.WF nodes) (old0 new0 : LocDofs dim (2 * nB) K) (hD : ∀ (e : Fin G.n_hyEdges) (f : Fin (2 * dim)), (E e).node_descriptor f ∉ (E e).dirichlet_nodes)
    (hD' : ∀ (e : Fin G.n_hyEdges) (f : Fin (2 * dim)), (E e).node_descriptor f ∉ (E e).dirichlet_laplacian_nodes) (R : Fin (G.n_hyNodes * (2 * nB)) → K)
    (hR : G.mat_vec_multiply m (localResidual m gesv tau E time) old0 new0 (List.ofFn (0 : Fin (G.n_hyNodes * (2 * nB)) → K)) = .ok (List.ofFn R))
    (hsrc : ∑ e : Fin G.n_hyEdges, one e ⬝ᵥ source (E e) time ≠ 0) (y : Fin (G.n_hyNodes * (2 * nB)) → K) :
    G.mat_vec_multiply m (localOperator m gesv tau E time) old0 new0 (List.ofFn y) ≠ .ok (List.ofFn (-R)) := by
  intro hy
  obtain ⟨q, u, p, w, _, h, _⟩ := C112_stationary m gesv hg tau ht E time hE one oneB h1 h1B G nodes hwf old0 new0 (fun _ => False) (fun e f => iff_false_intro (hD e f)) (fun e f => iff_false_intro (hD' e f)) R y hR hy
  refine hsrc (h.trans ?_)
  simp only [if_false, sum_const_zero]

end HyperHDG.Bilaplacian

namespace HyperHDG.BilaplacianParab.Example

open Finset Spec Matrix LDG Mixed HyGraph
open Bilaplacian (n_loc_dofs form coupling source localResidual localOperator)
open Diffusion.Example DiffusionUniform.Example DiffusionParab.Example Bilaplacian.Example EllipticProgram.Example

theorem E2_const (dir : List Nat) : IsConst (form (E2 dir) 1) (fun _ => 1) := fun d => by
  have : (form (E2 dir) 1).grad d = 0 := E1_grad 3 dir 0 d
  rw [this, transpose_zero, zero_mulVec]

theorem E2_trace (dir : List Nat) (f : Fin (2 * 2)) : IsTrace (form (E2 dir) 1) (fun _ => 1) f (fun _ => 1) := by
  unfold IsTrace
  funext j
  rw [E2_psi]
  simp [mulVec, dotProduct, form, E2, E1, E0]

example (v : ℚ) := C112_edge (nB := 1) .debug (cramerSolve _ _ ℚ) (C44_example _ _ ℚ) (S1 1) (E3 v [0]) (fun _ => 3) 0 (E3_solvable 1 one_pos v [0] 0) (E2_const [0]) _ ((storesU_iff _ _).mpr rfl) trace1

/-- The hypotheses of C112 can be met: two parallelograms of area 20 with initial value `v`, source `t` at time `t`, nothing prescribed; for every `theta > 0` there are vectors for all time steps, and the integral of `u` after `n` steps
of size 1/10 is `40 v` plus the sum of the weighted integrals of the source. -/
theorem C112_example (theta : ℚ) (hth : 0 < theta) (v : ℚ) : ∃ X, (∀ N, Marches .debug (cramerSolve _ _ ℚ) (S1 theta) (fun _ => E3 v []) G3 (fun _ => False) (fun _ => E3 v []) (fun _ _ => 7) (List.replicate 14 5) (fun _ _ => 3) 0
    (fun _ _ => 8) (fun _ _ => 9) X N) ∧
    ∀ n, ∃ (r : List ℚ) (data : Fin G3.n_hyEdges → Data 2 1 ℚ) (u : Fin G3.n_hyEdges → Fin 1 → ℚ),
      runX .debug (cramerSolve _ _ ℚ) (S1 theta) (fun _ => E3 v []) G3 (fun _ _ => 7) (List.replicate 14 5) (fun _ _ => 3) 0 X n = .ok (r, List.ofFn data) ∧ (∀ e, StoresU (data e) (u e)) ∧
      ∑ e, 20 * u e 0 = 40 * v + 1 / 10 * ∑ k ∈ range n, 40 * (theta * ((k + 1) / 10) + (1 - theta) * (k / 10)) := by
  obtain ⟨X, hX⟩ := C111_runs (nB := 1) .debug (cramerSolve _ _ ℚ) (C44_example _ _ ℚ) (S1 theta) one_pos hth (by norm_num [S1]) (fun _ => E3 v []) (fun _ => E2_laws []) (fun _ => E3_pos v []) G3 G2nodes G3_wf G2_cov
    (fun _ => False) (fun _ _ => iff_false_intro List.not_mem_nil) (fun _ _ => iff_false_intro List.not_mem_nil) (fun _ _ => 7) (List.replicate 14 5) (by decide) (fun _ _ => 3) 0 (fun _ _ => 8) (fun _ _ => 9)
  refine ⟨X, hX, fun n => ?_⟩
  obtain ⟨r, data, u, k1, k2, k3⟩ := C112_run (nB := 1) .debug (cramerSolve _ _ ℚ) (C44_example _ _ ℚ) (S1 theta) one_pos hth (by norm_num [S1]) (fun _ => E3 v []) (fun _ => E2_laws []) (fun _ => E3_nonneg v [])
    (fun _ _ => 1) (fun _ => 1) (fun _ => E2_const []) (fun _ => E2_trace []) G3 G2nodes G3_wf (fun _ => False) (fun _ _ => iff_false_intro List.not_mem_nil) (fun _ _ => iff_false_intro List.not_mem_nil)
    (fun _ _ => 7) (List.replicate 14 5) (by decide) (fun _ _ => 3) 0 (fun _ _ => 8) (fun _ _ => 9) X (fun _ => id) (fun _ _ _ => rfl) n (hX n) n le_rfl
  refine ⟨r, data, u, k1, k2, ?_⟩
  have hp : ∀ w : Fin 1 → ℚ, product (E3 v []) (fun _ => 1) w = 20 * w 0 := fun w => by
    have : (E3 v []).vol_phiphi 0 0 = 20 := by
      show 20 * I2.vol_phiphi 0 0 = 20
      simp [I2, tensorIntegrator]
    simp only [product, Fin.sum_univ_one, one_mul]
    exact congrArg (· * w 0) this
  have hs : ∀ t : ℚ, (fun _ : Fin 1 => (1 : ℚ)) ⬝ᵥ source (E3 v []).stat t = 20 * t := fun t => by
    rw [dotProduct, Fin.sum_univ_one, one_mul]
    rfl
  simp only [hp, hs] at k3
  refine k3.trans ?_
  show ∑ e : Fin 2, 20 * v + 1 / 10 * _ = _
  simp only [sum_const, card_univ, Fintype.card_fin]
  congr 1
  · norm_num
    ring
  · congr 1
    refine sum_congr rfl fun k _ => ?_
    show (Fintype.card (Fin 2)) • (theta * (20 * (0 + (k + 1) • (1 / 10))) + (1 - theta) * (20 * (0 + k • (1 / 10)))) = _
    simp only [Fintype.card_fin, nsmul_eq_mul]
    push_cast
    ring

/-- The hypotheses of `C112_stationary` can be met, with the integral 40 of the sources. -/
theorem C112_stationary_example : ∃ R y : Fin (G3.n_hyNodes * (2 * 1)) → ℚ,
    G3.mat_vec_multiply .debug (localResidual .debug (cramerSolve _ _ ℚ) 1 edges 1) (fun _ _ => 3) (fun _ _ => 4) (List.ofFn (0 : Fin (G3.n_hyNodes * (2 * 1)) → ℚ)) = .ok (List.ofFn R) ∧
    G3.mat_vec_multiply .debug (localOperator .debug (cramerSolve _ _ ℚ) 1 edges 1) (fun _ _ => 3) (fun _ _ => 4) (List.ofFn y) = .ok (List.ofFn (-R)) ∧
    ∃ (p : Fin G3.n_hyEdges → Fin 2 → Fin 1 → ℚ) (w : Fin G3.n_hyEdges → Fin 1 → ℚ), (40 : ℚ) = ∑ e : Fin G3.n_hyEdges, ∑ f, (if G2nodes e f = ⟨0, by decide⟩ then
      outflow (form (edges e) 1) (fun _ => 1) 1 (moments (form (edges e) 1) (lower (faceValues G2nodes y e)) + Bilaplacian.laplacianMoments (edges e) 1) (p e) (w e) f else 0) := by
  obtain ⟨R, hR, y, ⟨hy, hsys⟩, _⟩ := Bilaplacian.C61_unique (nB := 1) .debug (cramerSolve _ _ ℚ) (C44_example _ _ ℚ) 1 one_pos edges 1 (fun e => E2_laws (if e = 0 then [0] else [])) G3 G2nodes G3_wf
    (fun _ _ => 3) (fun _ _ => 4) (fun e => E2_rigid (if e = 0 then [0] else [])) (· = ⟨0, by decide⟩) (Edges_dirichlet 3) (Edges_dirichlet 3) G2_anchored
  obtain ⟨q, u, p, w, k1, k2, k3⟩ := Bilaplacian.C112_stationary (nB := 1) .debug (cramerSolve _ _ ℚ) (C44_example _ _ ℚ) 1 one_pos edges 1 (fun e => E2_laws (if e = 0 then [0] else []))
    (fun _ _ => 1) (fun _ => 1) (fun e => E2_const (if e = 0 then [0] else [])) (fun e => E2_trace (if e = 0 then [0] else [])) G3 G2nodes G3_wf (fun _ _ => 3) (fun _ _ => 4) (· = ⟨0, by decide⟩)
    (Edges_dirichlet 3) (Edges_dirichlet 3) R y hR hsys
  refine ⟨R, y, hR, hsys, p, w, ?_⟩
  have hs : ∀ e, (fun _ : Fin 1 => (1 : ℚ)) ⬝ᵥ source (edges e) 1 = 20 := fun e => by
    rw [dotProduct, Fin.sum_univ_one, one_mul]
    show (20 : ℚ) * 1 = 20
    norm_num
  simp only [hs] at k2
  refine Eq.trans ?_ (k2.trans (sum_congr rfl fun e _ => sum_congr rfl fun f _ => ?_))
  · show (40 : ℚ) = ∑ _e : Fin 2, (20 : ℚ)
    norm_num
  · congr

/-- With the source one and nothing prescribed there is no solution. -/
example (R y : Fin (G3.n_hyNodes * (2 * 1)) → ℚ)
    (hR : G3.mat_vec_multiply .debug (localResidual .debug (cramerSolve _ _ ℚ) 1 (fun _ => E2 []) 1) (fun _ _ => 3) (fun _ _ => 4) (List.ofFn (0 : Fin (G3.n_hyNodes * (2 * 1)) → ℚ)) = .ok (List.ofFn R)) :=
  Bilaplacian.C112_compatible (nB := 1) .debug (cramerSolve _ _ ℚ) (C44_example _ _ ℚ) 1 one_pos (fun _ => E2 []) 1 (fun _ => E2_laws []) (fun _ _ => 1) (fun _ => 1) (fun _ => E2_const []) (fun _ => E2_trace []) G3 G2nodes
    G3_wf (fun _ _ => 3) (fun _ _ => 4) (fun _ _ => List.not_mem_nil) (fun _ _ => List.not_mem_nil) R hR (by
      show ∑ e : Fin 2, (fun _ : Fin 1 => (1 : ℚ)) ⬝ᵥ source (E2 []) 1 ≠ 0
      rw [dotProduct, Fin.sum_univ_one, one_mul]
      show ∑ e : Fin 2, (20 : ℚ) * 1 ≠ 0
      norm_num) y

end HyperHDG.BilaplacianParab.Example

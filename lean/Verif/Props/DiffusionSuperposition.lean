import Verif.Props.SteadyState
import Verif.Props.Reciprocity
import Verif.Spec.Superposition

/-!
# Property C115: superposition for the time-dependent diffusion solver
-/

namespace HyperHDG.DiffusionParab

open Finset Spec Matrix Diffusion LDG HyGraph
open EllipticProgram (SameOperator Superposed)

variable {dim nS nB : Nat} {K : Type} [Field K]

/-- The combination of two states. -/
def State.comb (a b : K) (x y : State dim nS nB K) : State dim nS nB K := ⟨a • x.q + b • y.q, a • x.u + b • y.u, a • x.lambda + b • y.lambda⟩

section
variable {E₁ E₂ E : Edge dim nS K} {time a b : K} (h12 : SameOperator E₁.toEdge E₂.toEdge nB time) (hsame : SameOperator E₁.toEdge E.toEdge nB time)
  (hsup : Superposed a b E₁.toEdge E₂.toEdge E.toEdge time)
include h12 hsame hsup

theorem dirichlet_comb : dirichletMoments E.toEdge time = a • dirichletMoments E₁.toEdge time + b • dirichletMoments E₂.toEdge time := by
  classical
  funext f i
  show dirichletMoments E.toEdge time f i = a * dirichletMoments E₁.toEdge time f i + b * dirichletMoments E₂.toEdge time f i
  have c1 := hsame.dirichlet f
  have c2 := h12.dirichlet f
  by_cases hf : IsDirichlet E₁.toEdge f
  · simp only [dirichletMoments, if_pos hf, if_pos (c1.mpr hf), if_pos (c2.mpr hf)]
    exact hsup.values f i (c1.mpr hf)
  · simp only [dirichletMoments, if_neg hf, if_neg (mt c1.mp hf), if_neg (mt c2.mp hf), mul_zero, add_zero]

theorem trace_comb (l₁ l₂ : LocDofs dim nB K) : trace E time (a • l₁ + b • l₂) = a • trace E₁ time l₁ + b • trace E₂ time l₂ := by
  unfold trace
  rw [dirichlet_comb h12 hsame hsup, h12.form, hsame.form, moments_lin]
  module

theorem dual_comb {x₁ x₂ : State dim nS nB K} (h1 : DualEquation E₁ time x₁) (h2 : DualEquation E₂ time x₂) : DualEquation E time (State.comb a b x₁ x₂) := by
  intro d
  have k1 := congrArg (fun x => a • x) (h1 d)
  have k2 := congrArg (fun x => b • x) (h2 d)
  have k3 := congrArg₂ (· + ·) k1 k2
  simp only [smul_zero, add_zero, h12.form] at k3
  rw [← k3]
  simp only [State.comb, trace_comb h12 hsame hsup, hsame.form]
  simp only [Pi.add_apply, Pi.smul_apply, mulVec_add, mulVec_smul, smul_add, smul_sub, Finset.smul_sum, Finset.sum_add_distrib, smul_comm a, smul_comm b]
  abel

theorem rate_comb (tau : K) (x₁ x₂ : State dim nS nB K) : rate E tau time (State.comb a b x₁ x₂) = a • rate E₁ tau time x₁ + b • rate E₂ tau time x₂ := by
  have s1 : source E.toEdge time = a • source E₁.toEdge time + b • source E₂.toEdge time := funext hsup.source
  unfold rate
  rw [s1]
  simp only [State.comb, trace_comb h12 hsame hsup, hsame.form, h12.form]
  simp only [Pi.add_apply, Pi.smul_apply, mulVec_add, mulVec_smul, mulVec_sum, smul_add, smul_sub, Finset.smul_sum, Finset.sum_add_distrib,
    Finset.sum_sub_distrib, smul_comm a, smul_comm b]
  module

end

/-- Steps are superposed. -/
theorem step_comb (S : Solver K) {E₁ E₂ E : Edge dim nS K} {time a b : K} (h12 : ∀ t, SameOperator E₁.toEdge E₂.toEdge nB t) (hsame : ∀ t, SameOperator E₁.toEdge E.toEdge nB t)
    (hsup : ∀ t, Superposed a b E₁.toEdge E₂.toEdge E.toEdge t) {x₁ x₂ y₁ y₂ : State dim nS nB K}
    (h1 : ThetaStep S E₁ time x₁ y₁) (h2 : ThetaStep S E₂ time x₂ y₂) : ThetaStep S E time (State.comb a b x₁ x₂) (State.comb a b y₁ y₂) := by
  refine ⟨dual_comb (h12 _) (hsame _) (hsup _) h1.dual h2.dual, ?_⟩
  have k2 := h2.primal
  rw [(h12 time).form] at k2
  rw [rate_comb (h12 _) (hsame _) (hsup _), rate_comb (h12 _) (hsame _) (hsup _), (hsame time).form]
  have e1 : (State.comb a b y₁ y₂).u - (State.comb a b x₁ x₂).u = a • (y₁.u - x₁.u) + b • (y₂.u - x₂.u) := by
    simp only [State.comb]
    module
  rw [e1, mulVec_add, mulVec_smul, mulVec_smul, h1.primal, k2]
  module

/-- A step solves a local problem. -/
theorem step_solution (S : Solver K) (E : Edge dim nS K) (time : K) {x y : State dim nS nB K} (h : ThetaStep S E time x y) :
    IsSolution (form E.toEdge nB time) S.tau 1 (S.theta * S.delta_t) (trace E time y.lambda)
      ((form E.toEdge nB time).mass0 *ᵥ x.u + (S.theta * S.delta_t) • source E.toEdge time + (S.delta_t * (1 - S.theta)) • rate E S.tau (time - S.delta_t) x) y.q y.u := by
  refine ⟨h.dual, ?_⟩
  have k := h.primal
  rw [mulVec_sub, sub_eq_iff_eq_add] at k
  have e : -(∑ d, (form E.toEdge nB time).grad d *ᵥ y.q d) + ∑ f, ((form E.toEdge nB time).bdr f *ᵥ (∑ d, (form E.toEdge nB time).normal f d • y.q d + S.tau • y.u) - S.tau • trace E time y.lambda f) =
      source E.toEdge time - rate E S.tau time y := by
    unfold rate
    abel
  rw [e, one_smul, k]
  module

/-- There is one state after a step. -/
theorem step_unique (S : Solver K) (E : Edge dim nS K) (time : K) (hs : Solvable (form E.toEdge nB time) S.tau 1 (S.theta * S.delta_t)) {x y z : State dim nS nB K} (h : ThetaStep S E time x y)
    (h' : ThetaStep S E time x z) (hl : y.lambda = z.lambda) : y = z := by
  have k := step_solution S E time h
  rw [hl] at k
  obtain ⟨h1, h2⟩ := solution_unique hs k (step_solution S E time h')
  cases y
  cases z
  simp only at h1 h2 hl
  rw [h1, h2, hl]

/-- Initial states are superposed. -/
theorem initial_comb {E₁ E₂ E : Edge dim nS K} {time a b : K} (h12 : SameOperator E₁.toEdge E₂.toEdge nB time) (hsame : SameOperator E₁.toEdge E.toEdge nB time)
    (hn2 : SameNormals E₁ E₂) (hn : SameNormals E₁ E) (hini : InitialSuperposed a b E₁ E₂ E nB time) {x₁ x₂ : State dim nS nB K}
    (h1 : IsInitial E₁ time x₁) (h2 : IsInitial E₂ time x₂) : IsInitial E time (State.comb a b x₁ x₂) := by
  refine ⟨?_, ?_, fun d => ?_⟩
  · funext i
    rw [hini.volume i]
    simp only [State.comb, h1.primal, h2.primal]
    rfl
  · have e1 : (fun f j => E.bdrUni_psifunc time j f : LocDofs dim nB K) = a • (fun f j => E₁.bdrUni_psifunc time j f : LocDofs dim nB K) + b • (fun f j => E₂.bdrUni_psifunc time j f : LocDofs dim nB K) :=
      funext fun f => funext fun j => hini.faces f j
    rw [EllipticProgram.off_same hsame, e1, EllipticProgram.off_comb]
    show a • x₁.lambda + b • x₂.lambda = _
    rw [h1.trace, h2.trace, EllipticProgram.off_same h12]
  · have k2 := h2.dual d
    rw [h12.form] at k2
    rw [hsame.form]
    show _ *ᵥ (a • x₁.q d + b • x₂.q d) = _
    rw [mulVec_add, mulVec_smul, mulVec_smul, h1.dual d, k2]
    funext i
    simp only [Pi.add_apply, Pi.smul_apply, smul_eq_mul, hini.derivatives d i, hini.traces _ i, hn2 _ d, hn _ d, mul_sub, Finset.mul_sum, add_mul, Finset.sum_add_distrib, mul_assoc]
    ring

/-- There is one initial state. -/
theorem initial_unique {E : Edge dim nS K} {time : K} (hm : IsUnit (form E.toEdge nB time).mass) {x y : State dim nS nB K} (h : IsInitial E time x) (h' : IsInitial E time y) : x = y := by
  have h1 : x.u = y.u := h.primal.trans h'.primal.symm
  have h2 : x.lambda = y.lambda := h.trace.trans h'.trace.symm
  have h3 : x.q = y.q := funext fun d => (Matrix.mulVec_injective_iff_isUnit.mpr hm) ((h.dual d).trans (h'.dual d).symm)
  cases x
  cases y
  simp only at h1 h2 h3
  rw [h1, h2, h3]

theorem flux_superposed {E₁ E₂ E : Edge dim nS K} {time : K} (a b tau : K) (h12 : SameOperator E₁.toEdge E₂.toEdge nB time) (hsame : SameOperator E₁.toEdge E.toEdge nB time) (x₁ x₂ : State dim nS nB K) :
    flux E tau time (State.comb a b x₁ x₂) = a • flux E₁ tau time x₁ + b • flux E₂ tau time x₂ := by
  unfold flux
  rw [h12.form, hsame.form, ← flux_lin]
  rfl

section
variable [LinearOrder K] [IsStrictOrderedRing K] (m : Mode) (gesv : Gesv ((dim + 1) * nS) 1 K) (hg : GesvSpec gesv) (gesv1 : Gesv nS 1 K) (hg1 : GesvSpec gesv1) (S : Solver K)
  (ht : 0 ≤ S.tau) (hth : 0 < S.theta) (hdt : 0 < S.delta_t) (E₁ E₂ E : Nat → Edge dim nS K) (hO₁ : ∀ e, Orthonormal (E₁ e)) (hO₂ : ∀ e, Orthonormal (E₂ e)) (hO : ∀ e, Orthonormal (E e))
  (hE : ∀ e time, FormLaws (form (E₁ e).toEdge nB time))
  (h12 : ∀ e time, SameOperator (E₁ e).toEdge (E₂ e).toEdge nB time) (hsame : ∀ e time, SameOperator (E₁ e).toEdge (E e).toEdge nB time)
  (hn2 : ∀ e, SameNormals (E₁ e) (E₂ e)) (hn : ∀ e, SameNormals (E₁ e) (E e)) (a b : K)
  (hsup : ∀ e time, Superposed a b (E₁ e).toEdge (E₂ e).toEdge (E e).toEdge time)
  (G : HyGraph dim nB) (nodes : Fin G.n_hyEdges → Fin (2 * dim) → Fin G.n_hyNodes) (hwf : G.WF nodes)
  (buf0 : LocDofs dim nB K) (x : List K) (hx : x.length = G.n_hyNodes * nB) (data0 : Fin G.n_hyEdges → Data dim nS nB K) (t0 : K)
  (hini : ∀ e, InitialSuperposed a b (E₁ e) (E₂ e) (E e) nB t0)
  (X₁ X₂ : Nat → Fin (G.n_hyNodes * nB) → K) (n : Nat) (r₁ r₂ : List K) (D₁ D₂ : Fin G.n_hyEdges → Data dim nS nB K)
  (hd₁ : runX m gesv gesv1 S E₁ G buf0 x data0 t0 X₁ n = .ok (r₁, List.ofFn D₁)) (hd₂ : runX m gesv gesv1 S E₂ G buf0 x data0 t0 X₂ n = .ok (r₂, List.ofFn D₂))

include hg hg1 ht hth hdt hO₁ hO₂ hO hE h12 hsame hn2 hn hsup hwf hx hini hd₁ hd₂

/-- **C115** (superposition of computations).  Let initial values, sources and Dirichlet values of a problem be, at all times, `a` times those of one problem plus `b` times those of another with the same hypergraph, geometry and coefficient.  If a program does the time
steps with the same combinations of the vectors of the two problems, the hyperedges keep, after any number of steps, the same combinations of the values which they keep for the two problems; and `residual_flux` of a combination of vectors returns the
combination of the residuals of the two problems, so that the combination of two solutions of the linear systems is a solution. -/
theorem C115_superposition : ∃ (r : List K) (D : Fin G.n_hyEdges → Data dim nS nB K), runX m gesv gesv1 S E G buf0 x data0 t0 (fun k => a • X₁ k + b • X₂ k) n = .ok (r, List.ofFn D) ∧
    (∀ e, kept (D e) = a • kept (D₁ e) + b • kept (D₂ e)) ∧
    ∀ (old0 new0 : LocDofs dim nB K) (y₁ y₂ R₁ R₂ : Fin (G.n_hyNodes * nB) → K),
      globalResidual m gesv S E₁ G old0 new0 (List.ofFn D₁) (t0 + (n + 1) • S.delta_t) (List.ofFn y₁) = .ok (List.ofFn R₁) →
      globalResidual m gesv S E₂ G old0 new0 (List.ofFn D₂) (t0 + (n + 1) • S.delta_t) (List.ofFn y₂) = .ok (List.ofFn R₂) →
      globalResidual m gesv S E G old0 new0 (List.ofFn D) (t0 + (n + 1) • S.delta_t) (List.ofFn (a • y₁ + b • y₂)) = .ok (List.ofFn (a • R₁ + b • R₂)) := by
  have hE2 : ∀ e time, FormLaws (form (E₂ e).toEdge nB time) := fun e time => by rw [(h12 e time).form]; exact hE e time
  have hE3 : ∀ e time, FormLaws (form (E e).toEdge nB time) := fun e time => by rw [(hsame e time).form]; exact hE e time
  obtain ⟨st₁, ρ₁, c₁, p1, p2, _, p3, p4, _, p5⟩ := C50_history m gesv hg gesv1 hg1 S ht hth hdt E₁ hO₁ hE G nodes hwf buf0 x hx data0 t0 X₁ n
  obtain ⟨st₂, ρ₂, c₂, q1, q2, _, q3, q4, _, q5⟩ := C50_history m gesv hg gesv1 hg1 S ht hth hdt E₂ hO₂ hE2 G nodes hwf buf0 x hx data0 t0 X₂ n
  obtain ⟨st, ρ, c, s1, s2, _, s3, s4, _, s5⟩ := C50_history m gesv hg gesv1 hg1 S ht hth hdt E hO hE3 G nodes hwf buf0 x hx data0 t0 (fun k => a • X₁ k + b • X₂ k) n
  rw [hd₁] at p1
  rw [hd₂] at q1
  obtain rfl : D₁ = c₁ := List.ofFn_injective (Prod.mk.inj (Res.ok.inj p1)).2
  obtain rfl : D₂ = c₂ := List.ofFn_injective (Prod.mk.inj (Res.ok.inj q1)).2
  have hs := fun (e : Fin G.n_hyEdges) (time : K) => C50_solvable S ht hth hdt (E e) time (hE3 e time)
  have hst : ∀ k ≤ n, ∀ e : Fin G.n_hyEdges, st k e = State.comb a b (st₁ k e) (st₂ k e) := by
    intro k
    induction k with
    | zero => exact fun _ e => initial_unique (hs e t0).2 (s2 e) (initial_comb (h12 e _) (hsame e _) (hn2 e) (hn e) (hini e) (p2 e) (q2 e))
    | succ k ih =>
      intro hk e
      obtain ⟨g1, g2⟩ := s3 k hk e
      have g := step_comb S (h12 e) (hsame e) (hsup e) (p3 k hk e).1 (q3 k hk e).1
      rw [← ih (Nat.le_of_succ_le hk) e] at g
      refine step_unique S (E e) _ (hs e _).1 g1 g ?_
      rw [g2]
      show _ = a • (st₁ (k + 1) e).lambda + b • (st₂ (k + 1) e).lambda
      rw [(p3 k hk e).2, (q3 k hk e).2]
      rfl
  refine ⟨List.ofFn ρ, c, s1, fun e => ?_, fun old0 new0 y₁ y₂ R₁ R₂ f1 f2 => ?_⟩
  · have e1 : kept (c e) = (st n e).u := funext (s4 e)
    have e2 : kept (D₁ e) = (st₁ n e).u := funext (p4 e)
    have e3 : kept (D₂ e) = (st₂ n e).u := funext (q4 e)
    rw [e1, e2, e3, hst n le_rfl e]
    rfl
  · obtain ⟨new₁, v1, v2⟩ := p5 old0 new0 y₁
    obtain ⟨new₂, w1, w2⟩ := q5 old0 new0 y₂
    obtain ⟨new, z1, z2⟩ := s5 old0 new0 (a • y₁ + b • y₂)
    have hnew : ∀ e, new e = State.comb a b (new₁ e) (new₂ e) := fun e => by
      have g := step_comb S (h12 e) (hsame e) (hsup e) (v1 e).1 (w1 e).1
      rw [← hst n le_rfl e] at g
      refine step_unique S (E e) _ (hs e _).1 (z1 e).1 g ?_
      rw [(z1 e).2]
      show _ = a • (new₁ e).lambda + b • (new₂ e).lambda
      rw [(v1 e).2, (w1 e).2]
      rfl
    have d1 := List.ofFn_injective (Res.ok.inj (f1.symm.trans v2))
    have d2 := List.ofFn_injective (Res.ok.inj (f2.symm.trans w2))
    rw [z2, d1, d2]
    refine congrArg (fun z => Res.ok (List.ofFn z)) ?_
    refine Eq.trans ?_ (EllipticProgram.assemble_comb nodes a b
      (fun e : Fin G.n_hyEdges => offDirichlet (E₁ e).toEdge (S.theta • flux (E₁ e) S.tau (t0 + (n + 1) • S.delta_t) (new₁ e) + (1 - S.theta) • flux (E₁ e) S.tau (t0 + n • S.delta_t) (st₁ n e)))
      (fun e : Fin G.n_hyEdges => offDirichlet (E₂ e).toEdge (S.theta • flux (E₂ e) S.tau (t0 + (n + 1) • S.delta_t) (new₂ e) + (1 - S.theta) • flux (E₂ e) S.tau (t0 + n • S.delta_t) (st₂ n e))))
    have hfl : (fun e : Fin G.n_hyEdges => offDirichlet (E e).toEdge (S.theta • flux (E e) S.tau (t0 + (n + 1) • S.delta_t) (new e) + (1 - S.theta) • flux (E e) S.tau (t0 + n • S.delta_t) (st n e))) =
        fun e : Fin G.n_hyEdges =>
          a • offDirichlet (E₁ e).toEdge (S.theta • flux (E₁ e) S.tau (t0 + (n + 1) • S.delta_t) (new₁ e) + (1 - S.theta) • flux (E₁ e) S.tau (t0 + n • S.delta_t) (st₁ n e)) +
          b • offDirichlet (E₂ e).toEdge (S.theta • flux (E₂ e) S.tau (t0 + (n + 1) • S.delta_t) (new₂ e) + (1 - S.theta) • flux (E₂ e) S.tau (t0 + n • S.delta_t) (st₂ n e)) := funext fun e => by
      rw [hnew e, hst n le_rfl e, flux_superposed a b _ (h12 e _) (hsame e _), flux_superposed a b _ (h12 e _) (hsame e _), EllipticProgram.off_same (hsame e t0), EllipticProgram.off_same (h12 e t0), ← EllipticProgram.off_comb]
      congr 1
      module
    show assemble nodes _ = _
    rw [← hfl]

omit hd₁ hd₂ in
/-- **C115** (superposition of solutions).  The combination of the vectors which a program computes in the time steps of the two problems (solving the linear system in each step) are vectors of the time steps of the problem. -/
theorem C115_solutions (D : Fin G.n_hyNodes → Prop) (old0 new0 : LocDofs dim nB K) (N : Nat)
    (h₁ : Steps m gesv gesv1 S E₁ G buf0 x data0 t0 D old0 new0 X₁ N) (h₂ : Steps m gesv gesv1 S E₂ G buf0 x data0 t0 D old0 new0 X₂ N) :
    Steps m gesv gesv1 S E G buf0 x data0 t0 D old0 new0 (fun k => a • X₁ k + b • X₂ k) N := by
  intro k hk
  obtain ⟨v1, ⟨r₁, d₁⟩, p1, p2⟩ := h₁ k hk
  obtain ⟨v2, ⟨r₂, d₂⟩, q1, q2⟩ := h₂ k hk
  have hE2 : ∀ e time, FormLaws (form (E₂ e).toEdge nB time) := fun e time => by rw [(h12 e time).form]; exact hE e time
  obtain ⟨_, ρ₁, c₁, a1, _⟩ := C50_history m gesv hg gesv1 hg1 S ht hth hdt E₁ hO₁ hE G nodes hwf buf0 x hx data0 t0 X₁ k
  obtain ⟨_, ρ₂, c₂, b1, _⟩ := C50_history m gesv hg gesv1 hg1 S ht hth hdt E₂ hO₂ hE2 G nodes hwf buf0 x hx data0 t0 X₂ k
  obtain rfl : d₁ = List.ofFn c₁ := (Prod.mk.inj (Res.ok.inj (p1.symm.trans a1))).2
  obtain rfl : d₂ = List.ofFn c₂ := (Prod.mk.inj (Res.ok.inj (q1.symm.trans b1))).2
  obtain ⟨r, c, f1, _, f2⟩ := C115_superposition m gesv hg gesv1 hg1 S ht hth hdt E₁ E₂ E hO₁ hO₂ hO hE h12 hsame hn2 hn a b hsup G nodes hwf buf0 x hx data0 t0 hini X₁ X₂ k _ _ c₁ c₂ a1 b1
  refine ⟨fun v hv j => ?_, (r, List.ofFn c), f1, ?_⟩
  · show a * X₁ (k + 1) _ + b * X₂ (k + 1) _ = 0
    rw [v1 v hv j, v2 v hv j, mul_zero, mul_zero, add_zero]
  · have e0 : List.replicate (G.n_hyNodes * nB) (0 : K) = List.ofFn (0 : Fin (G.n_hyNodes * nB) → K) := (List.ofFn_const _ _).symm
    rw [e0] at p2 q2 ⊢
    have := f2 old0 new0 _ _ _ _ p2 q2
    rw [smul_zero, smul_zero, add_zero] at this
    exact this

end

namespace Example

open Diffusion.Example DiffusionUniform.Example EllipticProgram.Example

/-- Two parallelograms with initial value `w`, source `s e` and Dirichlet value `g`. -/
noncomputable def timed (w : ℚ) (s : Nat → ℚ) (g : ℚ) (e : Nat) : Edge 2 1 ℚ :=
  { Edges w e with toEdge := { (Edges w e).toEdge with vol_phifunc := fun _ _ => s e, bdr_phifunc := fun _ _ _ => g } }

theorem timed_laws (w : ℚ) (s : Nat → ℚ) (g : ℚ) (e : Nat) (time : ℚ) : FormLaws (form (timed w s g e).toEdge 1 time) := E1_laws w (if e = 0 then [0] else []) time

theorem timed_orthonormal (w : ℚ) (s : Nat → ℚ) (g : ℚ) (e : Nat) : Orthonormal (timed w s g e) := E1_orthonormal w (if e = 0 then [0] else [])

/-- The hypotheses of C115 can be met, with initial values, sources and Dirichlet values which are not zero: for every number of steps of the Crank-Nicolson scheme there are vectors of the time steps of two problems, and their combination are those of the third. -/
theorem C115_example (s s' : Nat → ℚ) (N : Nat) : ∃ X₁ X₂ : Nat → Fin (G2.n_hyNodes * 1) → ℚ,
    Steps .debug (cramerSolve _ _ ℚ) (cramerSolve _ _ ℚ) (S0 (1 / 2)) (timed 4 s 1) G2 (fun _ _ => 7) (List.replicate 7 0) (fun _ => Data.init) 0 (· = ⟨0, by decide⟩) (fun _ _ => 8) (fun _ _ => 9) X₁ N ∧
    Steps .debug (cramerSolve _ _ ℚ) (cramerSolve _ _ ℚ) (S0 (1 / 2)) (timed (-1) s' 5) G2 (fun _ _ => 7) (List.replicate 7 0) (fun _ => Data.init) 0 (· = ⟨0, by decide⟩) (fun _ _ => 8) (fun _ _ => 9) X₂ N ∧
    Steps .debug (cramerSolve _ _ ℚ) (cramerSolve _ _ ℚ) (S0 (1 / 2)) (timed 5 (2 * s + 3 * s') 17) G2 (fun _ _ => 7) (List.replicate 7 0) (fun _ => Data.init) 0 (· = ⟨0, by decide⟩) (fun _ _ => 8) (fun _ _ => 9)
      (fun k => (2 : ℚ) • X₁ k + (3 : ℚ) • X₂ k) N := by
  have hex := fun w s g => (C51_unique_run (nB := 1) .debug (cramerSolve _ _ ℚ) (C44_example _ _ ℚ) (cramerSolve _ _ ℚ) (C44_example _ _ ℚ) (S0 (1 / 2)) one_pos (by norm_num [S0]) (by norm_num [S0])
    (timed w s g) (timed_orthonormal w s g) (timed_laws w s g) G2 G2nodes G2_wf G2_cov (· = ⟨0, by decide⟩) (Edges_dirichlet w) (fun _ _ => 7) _ x0_length (fun _ => Data.init) 0
    (fun _ _ => 8) (fun _ _ => 9) N 0).1
  obtain ⟨X₁, _, h1⟩ := hex 4 s 1
  obtain ⟨X₂, _, h2⟩ := hex (-1) s' 5
  exact ⟨X₁, X₂, h1, h2, C115_solutions (nB := 1) .debug (cramerSolve _ _ ℚ) (C44_example _ _ ℚ) (cramerSolve _ _ ℚ) (C44_example _ _ ℚ) (S0 (1 / 2)) zero_le_one (by norm_num [S0]) (by norm_num [S0])
    (timed 4 s 1) (timed (-1) s' 5) (timed 5 (2 * s + 3 * s') 17) (timed_orthonormal _ _ _) (timed_orthonormal _ _ _) (timed_orthonormal _ _ _) (timed_laws 4 s 1)
    (fun _ _ => ⟨rfl, fun _ => Iff.rfl⟩) (fun _ _ => ⟨rfl, fun _ => Iff.rfl⟩) (fun _ _ _ => rfl) (fun _ _ _ => rfl) 2 3 (fun _ _ => ⟨fun _ => rfl, fun _ _ _ => by norm_num [timed]⟩) G2 G2nodes G2_wf
    (fun _ _ => 7) _ x0_length (fun _ => Data.init) 0
    (fun _ => ⟨fun _ => by norm_num [timed, Edges, E1], fun _ _ => by norm_num [timed, Edges, E1], fun _ _ => by norm_num [timed, Edges, E1], fun _ _ => by norm_num [timed, Edges, E1]⟩)
    X₁ X₂ (· = ⟨0, by decide⟩) (fun _ _ => 8) (fun _ _ => 9) N h1 h2⟩

end Example

end HyperHDG.DiffusionParab

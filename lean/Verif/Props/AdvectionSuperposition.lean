import Verif.Props.AdvectionParab
import Verif.Props.Reciprocity
import Verif.Spec.AdvectionSuperposition

/-!
# Property C116: superposition for the advection solver
-/

namespace HyperHDG.AdvectionParab

open Finset Spec Matrix HyGraph

variable {dim nS nB : Nat} {K : Type} [Field K] [LinearOrder K]

section
variable {a b t0 : K} {E₁ E₂ E : Edge dim nS K} (h : Superposed a b E₁ E₂ E nB t0)
include h

theorem dirichletFlux_comb (time : K) (f : Fin (2 * dim)) : dirichletFlux E time f = a • dirichletFlux E₁ time f + b • dirichletFlux E₂ time f := by
  have c1 : IsDirichlet E time f ↔ IsDirichlet E₁ time f := by obtain ⟨_, _, _, _, _, rfl⟩ := h.same; exact Iff.rfl
  have c2 : IsDirichlet E₂ time f ↔ IsDirichlet E₁ time f := by obtain ⟨_, _, _, _, _, rfl⟩ := h.same₂; exact Iff.rfl
  funext i
  by_cases hf : IsDirichlet E₁ time f
  · simp only [dirichletFlux, Pi.add_apply, Pi.smul_apply, smul_eq_mul, if_pos hf, if_pos (c1.mpr hf), if_pos (c2.mpr hf)]
    exact h.dirichlet time f i (c1.mpr hf)
  · simp only [dirichletFlux, Pi.add_apply, Pi.smul_apply, smul_eq_mul, if_neg hf, if_neg (mt c1.mp hf), if_neg (mt c2.mp hf), mul_zero, add_zero]

theorem rate_comb (tau time : K) (x₁ x₂ : State dim nS nB K) : rate E tau time (comb a b x₁ x₂) = a • rate E₁ tau time x₁ + b • rate E₂ tau time x₂ := by
  have e0 : ∀ (E : Edge dim nS K) (x : State dim nS nB K), rate E tau time x = source E time + homRate E tau time x - ∑ f, dirichletFlux E time f := fun E x => by
    simp only [rate, homRate, Finset.sum_add_distrib]
    abel
  have e1 : source E time = a • source E₁ time + b • source E₂ time := funext fun i => h.source time i
  have e2 : ∑ f, dirichletFlux E time f = a • ∑ f, dirichletFlux E₁ time f + b • ∑ f, dirichletFlux E₂ time f := by
    rw [Finset.sum_congr rfl fun f _ => dirichletFlux_comb h time f, Finset.sum_add_distrib, Finset.smul_sum, Finset.smul_sum]
  have e3 : homRate E tau time (comb a b x₁ x₂) = a • homRate E₁ tau time x₁ + b • homRate E₂ tau time x₂ := by
    obtain ⟨_, _, _, _, _, rfl⟩ := h.same₂
    obtain ⟨_, _, _, _, _, rfl⟩ := h.same
    exact homRate_comb E₁ tau time a b x₁ x₂
  rw [e0, e0, e0, e1, e2, e3]
  module

/-- Steps are superposed. -/
theorem step_comb (S : Solver K) (time : K) {x₁ x₂ y₁ y₂ : State dim nS nB K} (h1 : ThetaStep S E₁ time x₁ y₁) (h2 : ThetaStep S E₂ time x₂ y₂) :
    ThetaStep S E time (comb a b x₁ x₂) (comb a b y₁ y₂) := by
  unfold ThetaStep at *
  rw [rate_comb h, rate_comb h]
  have m1 : mass E = mass E₁ := by obtain ⟨_, _, _, _, _, rfl⟩ := h.same; rfl
  have m2 : mass E₂ = mass E₁ := by obtain ⟨_, _, _, _, _, rfl⟩ := h.same₂; rfl
  have e1 : (comb a b y₁ y₂).u - (comb a b x₁ x₂).u = a • (y₁.u - x₁.u) + b • (y₂.u - x₂.u) := by
    simp only [comb]
    module
  rw [m2] at h2
  rw [e1, m1, mulVec_add, mulVec_smul, mulVec_smul, h1, h2]
  module

theorem off_comb_same (time : K) (y z : LocDofs dim nB K) : offDirichlet E time (a • y + b • z) = a • offDirichlet E₁ time y + b • offDirichlet E₂ time z := by
  obtain ⟨_, _, _, _, _, rfl⟩ := h.same₂
  obtain ⟨_, _, _, _, _, rfl⟩ := h.same
  exact off_comb E₁ time a b y z

theorem nodeFlux_superposed (tau time : K) (x₁ x₂ : State dim nS nB K) : nodeFlux E tau time (comb a b x₁ x₂) = a • nodeFlux E₁ tau time x₁ + b • nodeFlux E₂ tau time x₂ := by
  obtain ⟨_, _, _, _, _, rfl⟩ := h.same₂
  obtain ⟨_, _, _, _, _, rfl⟩ := h.same
  exact nodeFlux_comb E₁ tau time a b x₁ x₂

theorem initial_comb {x₁ x₂ : State dim nS nB K} (h1 : IsInitial E₁ t0 x₁) (h2 : IsInitial E₂ t0 x₂) : IsInitial E t0 (comb a b x₁ x₂) := by
  constructor
  · funext i
    rw [h.initial i]
    simp only [comb, h1.primal, h2.primal]
    rfl
  · have e1 : (fun f j => E.bdrUni_initial t0 j f : LocDofs dim nB K) = a • (fun f j => E₁.bdrUni_initial t0 j f : LocDofs dim nB K) + b • (fun f j => E₂.bdrUni_initial t0 j f : LocDofs dim nB K) :=
      funext fun f => funext fun j => h.initial_faces f j
    rw [e1, off_comb_same h, ← h1.trace, ← h2.trace]
    rfl

end

/-- There is one state after a step. -/
theorem step_unique (S : Solver K) (E : Edge dim nS K) (time : K) (hs : Solvable S E nB time) {x y z : State dim nS nB K} (h : ThetaStep S E time x y) (h' : ThetaStep S E time x z)
    (hl : y.lambda = z.lambda) : y = z := by
  have e0 : ∀ x : State dim nS nB K, rate E S.tau time x = source E time + homRate E S.tau time x - ∑ f, dirichletFlux E time f := fun x => by
    simp only [rate, homRate, Finset.sum_add_distrib]
    abel
  have e1 : (⟨y.u - z.u, 0⟩ : State dim nS nB K) = comb 1 (-1) y z := by
    simp only [comb, hl, one_smul, neg_smul, add_neg_cancel, sub_eq_add_neg]
  have hu := hs (y.u - z.u) (by
    have k : homRate E S.tau time (⟨y.u - z.u, 0⟩ : State dim nS nB K) = homRate E S.tau time y - homRate E S.tau time z := by
      rw [e1, homRate_comb]
      module
    unfold ThetaStep at h h'
    rw [e0, mulVec_sub, sub_eq_iff_eq_add] at h h'
    show mass E *ᵥ (y.u - z.u) - (S.theta * S.delta_t) • homRate E S.tau time (⟨y.u - z.u, 0⟩ : State dim nS nB K) = 0
    rw [k, mulVec_sub, h, h']
    module)
  have hu' : y.u = z.u := sub_eq_zero.mp hu
  cases y
  cases z
  simp only at hu' hl
  rw [hu', hl]

theorem initial_unique {E : Edge dim nS K} {time : K} {x y : State dim nS nB K} (h : IsInitial E time x) (h' : IsInitial E time y) : x = y := by
  have h1 : x.u = y.u := h.primal.trans h'.primal.symm
  have h2 : x.lambda = y.lambda := h.trace.trans h'.trace.symm
  cases x
  cases y
  simp only at h1 h2
  rw [h1, h2]

section
variable (m : Mode) (gesv : Gesv nS 1 K) (hg : GesvSpec gesv) (S : Solver K)
  (E₁ E₂ E : Nat → Edge dim nS K) (hO : ∀ e, Orthonormal (E₁ e))
  (G : HyGraph dim nB) (nodes : Fin G.n_hyEdges → Fin (2 * dim) → Fin G.n_hyNodes) (hwf : G.WF nodes)
  (buf0 : LocDofs dim nB K) (x : List K) (hx : x.length = G.n_hyNodes * nB) (data0 : Fin G.n_hyEdges → Data dim nS nB K) (t0 : K)
  (hs : ∀ e (k : Nat), Solvable S (E₁ e) nB (t0 + k • S.delta_t)) (a b : K) (hsup : ∀ e, Superposed a b (E₁ e) (E₂ e) (E e) nB t0)
  (X₁ X₂ : Nat → Fin (G.n_hyNodes * nB) → K)
include hg hO hwf hx hs hsup

/-- **C116** (superposition of computations).  Let initial values, sources and Dirichlet values of an advection problem be, at all times, `a` times those of one problem plus `b` times those of another with the same hypergraph, geometry, velocity and types of
faces.  If a program does the time steps with the same combinations of the vectors of the two problems (which vanish on the Dirichlet faces), the hyperedges keep, after any number of steps, the same combinations of the values which they keep for the two problems; and
`residual_flux` of a combination of vectors returns the combination of the residuals of the two problems. -/
theorem C116_superposition (n : Nat) (r₁ r₂ : List K) (D₁ D₂ : Fin G.n_hyEdges → Data dim nS nB K)
    (hX₁ : ∀ k < n, ∀ e : Fin G.n_hyEdges, VanishesOnDirichlet (E₁ e) (t0 + (k + 1) • S.delta_t) (faceValues nodes (X₁ (k + 1)) e))
    (hX₂ : ∀ k < n, ∀ e : Fin G.n_hyEdges, VanishesOnDirichlet (E₂ e) (t0 + (k + 1) • S.delta_t) (faceValues nodes (X₂ (k + 1)) e))
    (hd₁ : runX m gesv S E₁ G buf0 x data0 t0 X₁ n = .ok (r₁, List.ofFn D₁)) (hd₂ : runX m gesv S E₂ G buf0 x data0 t0 X₂ n = .ok (r₂, List.ofFn D₂)) :
    ∃ (r : List K) (D : Fin G.n_hyEdges → Data dim nS nB K), runX m gesv S E G buf0 x data0 t0 (fun k => a • X₁ k + b • X₂ k) n = .ok (r, List.ofFn D) ∧
    (∀ e, kept (D e) = a • kept (D₁ e) + b • kept (D₂ e)) ∧
    ∀ (old0 new0 : LocDofs dim nB K) (y₁ y₂ R₁ R₂ : Fin (G.n_hyNodes * nB) → K),
      globalResidual m gesv S E₁ G old0 new0 (List.ofFn D₁) (t0 + (n + 1) • S.delta_t) (List.ofFn y₁) = .ok (List.ofFn R₁) →
      globalResidual m gesv S E₂ G old0 new0 (List.ofFn D₂) (t0 + (n + 1) • S.delta_t) (List.ofFn y₂) = .ok (List.ofFn R₂) →
      globalResidual m gesv S E G old0 new0 (List.ofFn D) (t0 + (n + 1) • S.delta_t) (List.ofFn (a • y₁ + b • y₂)) = .ok (List.ofFn (a • R₁ + b • R₂)) := by
  have hO2 : ∀ e, Orthonormal (E₂ e) := fun e => by obtain ⟨_, _, _, _, _, k⟩ := (hsup e).same₂; rw [k]; exact hO e
  have hO3 : ∀ e, Orthonormal (E e) := fun e => by obtain ⟨_, _, _, _, _, k⟩ := (hsup e).same; rw [k]; exact hO e
  have hs2 : ∀ e (k : Nat), Solvable S (E₂ e) nB (t0 + k • S.delta_t) := fun e => by obtain ⟨_, _, _, _, _, k⟩ := (hsup e).same₂; rw [k]; exact hs e
  have hs3 : ∀ e (k : Nat), Solvable S (E e) nB (t0 + k • S.delta_t) := fun e => by obtain ⟨_, _, _, _, _, k⟩ := (hsup e).same; rw [k]; exact hs e
  have hX : ∀ k < n, ∀ e : Fin G.n_hyEdges, VanishesOnDirichlet (E e) (t0 + (k + 1) • S.delta_t) (faceValues nodes ((fun k => a • X₁ k + b • X₂ k) (k + 1)) e) := by
    intro k hk e f hf
    have h1 := hX₁ k hk e f
    have h2 := hX₂ k hk e f
    obtain ⟨_, _, _, _, _, k2⟩ := (hsup e).same₂
    obtain ⟨_, _, _, _, _, k3⟩ := (hsup e).same
    rw [k2] at h2
    rw [k3] at hf
    have e1 := h1 hf
    have e2 := h2 hf
    show a • faceValues nodes (X₁ (k + 1)) e f + b • faceValues nodes (X₂ (k + 1)) e f = 0
    rw [e1, e2, smul_zero, smul_zero, add_zero]
  obtain ⟨st₁, ρ₁, c₁, p1, p2, _, p3, p4, _, p5⟩ := C72_history m gesv hg S E₁ hO G nodes hwf buf0 x hx data0 t0 hs X₁ n hX₁
  obtain ⟨st₂, ρ₂, c₂, q1, q2, _, q3, q4, _, q5⟩ := C72_history m gesv hg S E₂ hO2 G nodes hwf buf0 x hx data0 t0 hs2 X₂ n hX₂
  obtain ⟨st, ρ, c, s1, s2, _, s3, s4, _, s5⟩ := C72_history m gesv hg S E hO3 G nodes hwf buf0 x hx data0 t0 hs3 (fun k => a • X₁ k + b • X₂ k) n hX
  rw [hd₁] at p1
  rw [hd₂] at q1
  obtain rfl : D₁ = c₁ := List.ofFn_injective (Prod.mk.inj (Res.ok.inj p1)).2
  obtain rfl : D₂ = c₂ := List.ofFn_injective (Prod.mk.inj (Res.ok.inj q1)).2
  have hst : ∀ k ≤ n, ∀ e : Fin G.n_hyEdges, st k e = comb a b (st₁ k e) (st₂ k e) := by
    intro k
    induction k with
    | zero => exact fun _ e => initial_unique (s2 e) (initial_comb (hsup e) (p2 e) (q2 e))
    | succ k ih =>
      intro hk e
      obtain ⟨g1, g2⟩ := s3 k hk e
      have g := step_comb (hsup e) S _ (p3 k hk e).1 (q3 k hk e).1
      rw [← ih (Nat.le_of_succ_le hk) e] at g
      refine step_unique S (E e) _ (hs3 e _) g1 g ?_
      rw [g2]
      show _ = a • (st₁ (k + 1) e).lambda + b • (st₂ (k + 1) e).lambda
      rw [(p3 k hk e).2, (q3 k hk e).2]
      rfl
  refine ⟨List.ofFn ρ, c, s1, fun e => ?_, fun old0 new0 y₁ y₂ R₁ R₂ f1 f2 => ?_⟩
  · rw [s4 e, p4 e, q4 e, hst n le_rfl e]
    rfl
  · obtain ⟨new₁, v1, v2⟩ := p5 old0 new0 y₁
    obtain ⟨new₂, w1, w2⟩ := q5 old0 new0 y₂
    obtain ⟨new, z1, z2⟩ := s5 old0 new0 (a • y₁ + b • y₂)
    have hnew : ∀ e, new e = comb a b (new₁ e) (new₂ e) := fun e => by
      have g := step_comb (hsup e) S _ (v1 e).1 (w1 e).1
      rw [← hst n le_rfl e] at g
      refine step_unique S (E e) _ (hs3 e _) (z1 e).1 g ?_
      rw [(z1 e).2]
      show _ = a • (new₁ e).lambda + b • (new₂ e).lambda
      rw [(v1 e).2, (w1 e).2]
      rfl
    have d1 := List.ofFn_injective (Res.ok.inj (f1.symm.trans v2))
    have d2 := List.ofFn_injective (Res.ok.inj (f2.symm.trans w2))
    rw [z2, d1, d2]
    refine congrArg (fun z => Res.ok (List.ofFn z)) ?_
    refine Eq.trans ?_ (EllipticProgram.assemble_comb nodes a b
      (fun e : Fin G.n_hyEdges => offDirichlet (E₁ e) (t0 + (n + 1) • S.delta_t) (S.theta • nodeFlux (E₁ e) S.tau (t0 + (n + 1) • S.delta_t) (new₁ e) + (1 - S.theta) • nodeFlux (E₁ e) S.tau (t0 + n • S.delta_t) (st₁ n e)))
      (fun e : Fin G.n_hyEdges => offDirichlet (E₂ e) (t0 + (n + 1) • S.delta_t) (S.theta • nodeFlux (E₂ e) S.tau (t0 + (n + 1) • S.delta_t) (new₂ e) + (1 - S.theta) • nodeFlux (E₂ e) S.tau (t0 + n • S.delta_t) (st₂ n e))))
    have hfl : (fun e : Fin G.n_hyEdges => offDirichlet (E e) (t0 + (n + 1) • S.delta_t) (S.theta • nodeFlux (E e) S.tau (t0 + (n + 1) • S.delta_t) (new e) + (1 - S.theta) • nodeFlux (E e) S.tau (t0 + n • S.delta_t) (st n e))) =
        fun e : Fin G.n_hyEdges =>
          a • offDirichlet (E₁ e) (t0 + (n + 1) • S.delta_t) (S.theta • nodeFlux (E₁ e) S.tau (t0 + (n + 1) • S.delta_t) (new₁ e) + (1 - S.theta) • nodeFlux (E₁ e) S.tau (t0 + n • S.delta_t) (st₁ n e)) +
          b • offDirichlet (E₂ e) (t0 + (n + 1) • S.delta_t) (S.theta • nodeFlux (E₂ e) S.tau (t0 + (n + 1) • S.delta_t) (new₂ e) + (1 - S.theta) • nodeFlux (E₂ e) S.tau (t0 + n • S.delta_t) (st₂ n e)) := funext fun e => by
      rw [hnew e, hst n le_rfl e, nodeFlux_superposed (hsup e), nodeFlux_superposed (hsup e), ← off_comb_same (hsup e)]
      congr 1
      module
    show assemble nodes _ = _
    rw [← hfl]

/-- **C116** (superposition of solutions).  The combination of the vectors which a program computes in the time steps of the two problems (solving the linear system in each step) are vectors of the time steps of the problem.  `D` are hypernodes at which the vectors vanish, among
them those of the Dirichlet faces. -/
theorem C116_solutions (D : Fin G.n_hyNodes → Prop) (hD : ∀ (k : Nat) (e : Fin G.n_hyEdges) (f : Fin (2 * dim)), IsDirichlet (E₁ e) (t0 + (k + 1) • S.delta_t) f → D (nodes e f)) (old0 new0 : LocDofs dim nB K) (N : Nat)
    (h₁ : Steps m gesv S E₁ G buf0 x data0 t0 D old0 new0 X₁ N) (h₂ : Steps m gesv S E₂ G buf0 x data0 t0 D old0 new0 X₂ N) :
    Steps m gesv S E G buf0 x data0 t0 D old0 new0 (fun k => a • X₁ k + b • X₂ k) N := by
  intro k hk
  obtain ⟨v1, ⟨r₁, d₁⟩, p1, p2⟩ := h₁ k hk
  obtain ⟨v2, ⟨r₂, d₂⟩, q1, q2⟩ := h₂ k hk
  have hO2 : ∀ e, Orthonormal (E₂ e) := fun e => by obtain ⟨_, _, _, _, _, k⟩ := (hsup e).same₂; rw [k]; exact hO e
  have hs2 : ∀ e (k : Nat), Solvable S (E₂ e) nB (t0 + k • S.delta_t) := fun e => by obtain ⟨_, _, _, _, _, k⟩ := (hsup e).same₂; rw [k]; exact hs e
  have hX₁ : ∀ i < k, ∀ e : Fin G.n_hyEdges, VanishesOnDirichlet (E₁ e) (t0 + (i + 1) • S.delta_t) (faceValues nodes (X₁ (i + 1)) e) := fun i hi e f hf =>
    funext fun j => (h₁ i (hi.trans hk)).1 _ (hD i e f hf) j
  have hX₂ : ∀ i < k, ∀ e : Fin G.n_hyEdges, VanishesOnDirichlet (E₂ e) (t0 + (i + 1) • S.delta_t) (faceValues nodes (X₂ (i + 1)) e) := fun i hi e f hf =>
    funext fun j => (h₂ i (hi.trans hk)).1 _ (hD i e f (by obtain ⟨_, _, _, _, _, k⟩ := (hsup e).same₂; rw [k] at hf; exact hf)) j
  obtain ⟨_, ρ₁, c₁, a1, _⟩ := C72_history m gesv hg S E₁ hO G nodes hwf buf0 x hx data0 t0 hs X₁ k hX₁
  obtain ⟨_, ρ₂, c₂, b1, _⟩ := C72_history m gesv hg S E₂ hO2 G nodes hwf buf0 x hx data0 t0 hs2 X₂ k hX₂
  obtain rfl : d₁ = List.ofFn c₁ := (Prod.mk.inj (Res.ok.inj (p1.symm.trans a1))).2
  obtain rfl : d₂ = List.ofFn c₂ := (Prod.mk.inj (Res.ok.inj (q1.symm.trans b1))).2
  obtain ⟨r, c, f1, _, f2⟩ := C116_superposition m gesv hg S E₁ E₂ E hO G nodes hwf buf0 x hx data0 t0 hs a b hsup X₁ X₂ k _ _ c₁ c₂ hX₁ hX₂ a1 b1
  refine ⟨fun v hv j => ?_, (r, List.ofFn c), f1, ?_⟩
  · show a * X₁ (k + 1) _ + b * X₂ (k + 1) _ = 0
    rw [v1 v hv j, v2 v hv j, mul_zero, mul_zero, add_zero]
  · have e0 : List.replicate (G.n_hyNodes * nB) (0 : K) = List.ofFn (0 : Fin (G.n_hyNodes * nB) → K) := (List.ofFn_const _ _).symm
    rw [e0] at p2 q2 ⊢
    have := f2 old0 new0 _ _ _ _ p2 q2
    rw [smul_zero, smul_zero, add_zero] at this
    exact this

end

namespace Example

open HyGraph.Example

/-- The hyperedges of `E1` with initial value `w`, source `s` and Dirichlet value `g`. -/
def timed (w s g : ℚ) (e : Nat) : Edge 1 1 ℚ := (E1 0 e).withData (fun _ _ => s) (fun _ _ f => g * min (wind f) 0) (fun _ _ => w) (fun _ _ _ => w) fun _ u => u 0 ^ 2

theorem timed_laws (w s g time : ℚ) (e : Nat) : UpwindLaws (timed w s g e) time P1 :=
  let h := E1_laws 0 time e
  ⟨h.weight, h.stab, h.phiphinu, h.phipsinu, h.psiphinu, h.psipsinu, h.phiphi, h.phipsi, h.psiphi, h.psipsi, h.mass_symm, h.mass_pos⟩

theorem timed_nodes (w s g time : ℚ) : NodeLaws (timed w s g) 0 time (fun _ => P1) pathNodes (fun v => v.1 ≠ 1) :=
  let h := E1_nodes 0 time
  ⟨h.dirichlet, h.outflow, h.noSink, h.determined⟩

theorem timed_steps (w s g theta : ℚ) (hth : 0 < theta) (N : Nat) : ∃ X,
    Steps .debug (cramerSolve _ _ ℚ) (S1 theta) (timed w s g) path (fun _ _ => 7) (List.replicate 3 0) (fun _ => Data.init) 0 (fun v => v.1 ≠ 1) (fun _ _ => 8) (fun _ _ => 9) X N := by
  obtain ⟨X, _, h⟩ := (C74_unique_run .debug (cramerSolve _ _ ℚ) (C44_example _ _ ℚ) (S1 theta) le_rfl hth (by norm_num [S1]) (timed w s g) (E1_orthonormal 0) 0 (fun _ _ => P1) (fun e k => timed_laws w s g _ e)
    (fun e k => E1_noSinks 0 (0 + k • (S1 theta).delta_t) e) path pathNodes path_wf (fun v => v.1 ≠ 1) (fun k => timed_nodes w s g _) (.inr fun e f k => by
      exact (E1_dirichlet 0 (0 + (k + 1) • (S1 theta).delta_t) e f).trans (E1_dirichlet 0 (0 + k • (S1 theta).delta_t) e f).symm) (fun _ _ => 7)
    (List.replicate 3 0) rfl (fun _ => Data.init) (fun _ _ => 8) (fun _ _ => 9) N 0).1
  exact ⟨X, h⟩

/-- The hypotheses of C116 can be met, with initial values, sources and Dirichlet values which are not zero: for every number of steps there are vectors of the time steps of two problems, and their combination are those of the third. -/
theorem C116_example (s s' theta : ℚ) (hth : 0 < theta) (N : Nat) : ∃ X₁ X₂ : Nat → Fin (path.n_hyNodes * 1) → ℚ,
    Steps .debug (cramerSolve _ _ ℚ) (S1 theta) (timed 4 s 1) path (fun _ _ => 7) (List.replicate 3 0) (fun _ => Data.init) 0 (fun v => v.1 ≠ 1) (fun _ _ => 8) (fun _ _ => 9) X₁ N ∧
    Steps .debug (cramerSolve _ _ ℚ) (S1 theta) (timed (-1) s' 5) path (fun _ _ => 7) (List.replicate 3 0) (fun _ => Data.init) 0 (fun v => v.1 ≠ 1) (fun _ _ => 8) (fun _ _ => 9) X₂ N ∧
    Steps .debug (cramerSolve _ _ ℚ) (S1 theta) (timed 5 (2 * s + 3 * s') 17) path (fun _ _ => 7) (List.replicate 3 0) (fun _ => Data.init) 0 (fun v => v.1 ≠ 1) (fun _ _ => 8) (fun _ _ => 9)
      (fun k => (2 : ℚ) • X₁ k + (3 : ℚ) • X₂ k) N := by
  obtain ⟨X₁, h1⟩ := timed_steps 4 s 1 theta hth N
  obtain ⟨X₂, h2⟩ := timed_steps (-1) s' 5 theta hth N
  refine ⟨X₁, X₂, h1, h2, C116_solutions .debug (cramerSolve _ _ ℚ) (C44_example _ _ ℚ) (S1 theta) (timed 4 s 1) (timed (-1) s' 5) (timed 5 (2 * s + 3 * s') 17) (E1_orthonormal 0) path pathNodes path_wf
    (fun _ _ => 7) (List.replicate 3 0) rfl (fun _ => Data.init) 0 (fun e k => E1_solvable 0 theta hth.le e (0 + k • (S1 theta).delta_t)) 2 3 (fun e => ⟨⟨_, _, _, _, _, rfl⟩, ⟨_, _, _, _, _, rfl⟩, fun _ _ => rfl, fun _ f _ _ => ?_, fun _ => ?_, fun _ _ => ?_⟩)
    X₁ X₂ (fun v => v.1 ≠ 1) (fun k e f hf => ((timed_nodes 4 s 1 (0 + (k + 1) • (S1 theta).delta_t)).dirichlet e f).mp (.inl hf)) (fun _ _ => 8) (fun _ _ => 9) N h1 h2⟩
  · show 17 * min (wind f) 0 = 2 * (1 * min (wind f) 0) + 3 * (5 * min (wind f) 0)
    ring
  · show (5 : ℚ) = 2 * 4 + 3 * (-1)
    norm_num
  · show (5 : ℚ) = 2 * 4 + 3 * (-1)
    norm_num

end Example

end HyperHDG.AdvectionParab

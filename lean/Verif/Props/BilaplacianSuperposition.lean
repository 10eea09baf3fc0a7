import Verif.Props.BilaplacianReciprocity
import Verif.Props.BilaplacianBalance

/-!
# Property C114: superposition for the time-dependent biharmonic solver
-/

namespace HyperHDG.BilaplacianParab

open Finset Spec Matrix LDG Mixed HyGraph
open Bilaplacian (n_loc_dofs form coupling source offDirichlet dirichletMoments laplacianMoments SameOperator Superposed)

variable {dim nS nB : Nat} {K : Type} [Field K]

/-- The combination of two states. -/
def State.comb (a b : K) (x y : State dim nS nB K) : State dim nS nB K := ⟨a • x.q + b • y.q, a • x.u + b • y.u, a • x.p + b • y.p, a • x.w + b • y.w, a • x.lambda + b • y.lambda⟩

/-- Steps are superposed. -/
theorem step_comb (S : Solver K) {E₁ E₂ E : Edge dim nS K} {time a b : K} (h12 : SameOperator E₁.stat E₂.stat nB time) (hsame : SameOperator E₁.stat E.stat nB time)
    (hsup : Superposed a b E₁.stat E₂.stat E.stat time) (hsup' : Superposed a b E₁.stat E₂.stat E.stat (time - S.delta_t)) {u₁ u₂ : Fin nS → K} {x₁ x₂ : State dim nS nB K}
    (h1 : Step S E₁ time u₁ x₁) (h2 : Step S E₂ time u₂ x₂) : Step S E time (a • u₁ + b • u₂) (State.comb a b x₁ x₂) := by
  have k1 := (step_iff S E₁ time u₁ x₁).mpr h1
  have k2 := (step_iff S E₂ time u₂ x₂).mpr h2
  refine (step_iff S E time _ _).mp ?_
  unfold StepSolution at k1 k2 ⊢
  rw [h12.form, h12.coupling] at k2
  rw [hsame.form, hsame.coupling]
  have k := mixed_lin a b k1 k2
  have s1 : ∀ t, Superposed a b E₁.stat E₂.stat E.stat t → source E.stat t = a • source E₁.stat t + b • source E₂.stat t := fun t h => funext h.source
  have e1 : (State.comb a b x₁ x₂).traceU E time = a • x₁.traceU E₁ time + b • x₂.traceU E₂ time := by
    unfold State.traceU
    rw [Bilaplacian.dirichlet_comb h12 hsame hsup, h12.form, hsame.form]
    have : moments (form E₁.stat nB) (upper (State.comb a b x₁ x₂).lambda) = a • moments (form E₁.stat nB) (upper x₁.lambda) + b • moments (form E₁.stat nB) (upper x₂.lambda) := by
      rw [← moments_lin]
      rfl
    rw [this]
    module
  have e2 : (State.comb a b x₁ x₂).traceW E time = a • x₁.traceW E₁ time + b • x₂.traceW E₂ time := by
    unfold State.traceW
    rw [Bilaplacian.laplacian_comb h12 hsame hsup, h12.form, hsame.form]
    have : moments (form E₁.stat nB) (lower (State.comb a b x₁ x₂).lambda) = a • moments (form E₁.stat nB) (lower x₁.lambda) + b • moments (form E₁.stat nB) (lower x₂.lambda) := by
      rw [← moments_lin]
      rfl
    rw [this]
    module
  have e3 : stepSource S E nB (a • u₁ + b • u₂) time = a • stepSource S E₁ nB u₁ time + b • stepSource S E₂ nB u₂ time := by
    unfold stepSource
    rw [s1 _ hsup, s1 _ hsup', h12.form, hsame.form, mulVec_add, mulVec_smul, mulVec_smul]
    module
  rw [e1, e2, e3]
  rw [smul_zero, smul_zero, add_zero] at k
  exact k

/-- Their fluxes, too. -/
theorem fluxes_comb {tau : K} {E₁ E₂ E : Edge dim nS K} {time : K} (a b : K) (h12 : SameOperator E₁.stat E₂.stat nB time) (hsame : SameOperator E₁.stat E.stat nB time) (x₁ x₂ : State dim nS nB K) :
    fluxes E tau (State.comb a b x₁ x₂) = a • fluxes E₁ tau x₁ + b • fluxes E₂ tau x₂ := by
  unfold fluxes
  rw [Bilaplacian.off_same hsame, Bilaplacian.off_same h12, h12.form, hsame.form, ← Bilaplacian.off_comb, ← flux_lin, ← flux_lin]
  rfl

section
variable [LinearOrder K] [IsStrictOrderedRing K] (m : Mode) (gesv : Gesv (n_loc_dofs dim nS) 1 K) (hg : GesvSpec gesv) (S : Solver K)
  (ht : 0 < S.tau) (hth : 0 < S.theta) (hdt : 0 < S.delta_t) (E₁ E₂ E : Nat → Edge dim nS K) (hE : ∀ e, FormLaws (form (E₁ e).stat nB))
  (hB : ∀ e time v, 0 ≤ v ⬝ᵥ coupling (E₁ e).stat time *ᵥ v)
  (h12 : ∀ e time, SameOperator (E₁ e).stat (E₂ e).stat nB time) (hsame : ∀ e time, SameOperator (E₁ e).stat (E e).stat nB time) (a b : K)
  (hsup : ∀ e time, Superposed a b (E₁ e).stat (E₂ e).stat (E e).stat time)
  (G : HyGraph dim (2 * nB)) (nodes : Fin G.n_hyEdges → Fin (2 * dim) → Fin G.n_hyNodes) (hwf : G.WF nodes)
  (buf0 : LocDofs dim (2 * nB) K) (x : List K) (hx : x.length = G.n_hyNodes * (2 * nB)) (data0 : Fin G.n_hyEdges → Data dim nS K) (t0 : K)
  (hini : ∀ (e : Nat) (i : Fin nS), (E e).volUni_initial t0 i = a * (E₁ e).volUni_initial t0 i + b * (E₂ e).volUni_initial t0 i)
  (X₁ X₂ : Nat → Fin (G.n_hyNodes * (2 * nB)) → K) (n : Nat) (r₁ r₂ : List K) (D₁ D₂ : Fin G.n_hyEdges → Data dim nS K)
  (hd₁ : runX m gesv S E₁ G buf0 x data0 t0 X₁ n = .ok (r₁, List.ofFn D₁)) (hd₂ : runX m gesv S E₂ G buf0 x data0 t0 X₂ n = .ok (r₂, List.ofFn D₂))

include hg ht hth hdt hE hB h12 hsame hsup hwf hx hini hd₁ hd₂

/-- **C114** (superposition of computations).  Let initial values, sources and prescribed values (of `u` and of the Laplacian) of a problem be, at all times, `a` times those of one problem plus `b` times those of another with the same hypergraph, geometry and
coefficient.  If a program does the time steps with the same combinations of the vectors of the two problems, the hyperedges keep, after any number of steps, the same combinations of the values which they keep for the two problems; and if the next vectors
solve the linear systems of the two problems, then their combination solves the linear system of the problem. -/
theorem C114_superposition : ∃ (r : List K) (D : Fin G.n_hyEdges → Data dim nS K), runX m gesv S E G buf0 x data0 t0 (fun k => a • X₁ k + b • X₂ k) n = .ok (r, List.ofFn D) ∧
    (∀ e u₁ u₂, StoresU (D₁ e) u₁ → StoresU (D₂ e) u₂ → StoresU (D e) (a • u₁ + b • u₂)) ∧
    (0 < n → ∀ e (x₁ x₂ : State dim nS nB K), Stores (D₁ e) x₁ → Stores (D₂ e) x₂ → Stores (D e) (State.comb a b x₁ x₂)) ∧
    ∀ (old0 new0 : LocDofs dim (2 * nB) K) (tA : K), (∀ e : Fin G.n_hyEdges, coupling (E₁ e).stat tA = coupling (E₁ e).stat (t0 + (n + 1) • S.delta_t)) →
      ∀ R₁ R₂ y₁ y₂ : Fin (G.n_hyNodes * (2 * nB)) → K,
        globalResidual m gesv S E₁ G old0 new0 (List.ofFn D₁) (t0 + (n + 1) • S.delta_t) (List.ofFn (0 : Fin (G.n_hyNodes * (2 * nB)) → K)) = .ok (List.ofFn R₁) →
        globalFlux m gesv S E₁ G old0 new0 (List.ofFn D₁) tA (List.ofFn y₁) = .ok (List.ofFn (-R₁)) →
        globalResidual m gesv S E₂ G old0 new0 (List.ofFn D₂) (t0 + (n + 1) • S.delta_t) (List.ofFn (0 : Fin (G.n_hyNodes * (2 * nB)) → K)) = .ok (List.ofFn R₂) →
        globalFlux m gesv S E₂ G old0 new0 (List.ofFn D₂) tA (List.ofFn y₂) = .ok (List.ofFn (-R₂)) →
        ∃ R : Fin (G.n_hyNodes * (2 * nB)) → K,
          globalResidual m gesv S E G old0 new0 (List.ofFn D) (t0 + (n + 1) • S.delta_t) (List.ofFn (0 : Fin (G.n_hyNodes * (2 * nB)) → K)) = .ok (List.ofFn R) ∧
          globalFlux m gesv S E G old0 new0 (List.ofFn D) tA (List.ofFn (a • y₁ + b • y₂)) = .ok (List.ofFn (-R)) := by
  have hE2 : ∀ e, FormLaws (form (E₂ e).stat nB) := fun e => by rw [(h12 e t0).form]; exact hE e
  have hE3 : ∀ e, FormLaws (form (E e).stat nB) := fun e => by rw [(hsame e t0).form]; exact hE e
  have hB2 : ∀ e time v, 0 ≤ v ⬝ᵥ coupling (E₂ e).stat time *ᵥ v := fun e time => by rw [(h12 e time).coupling]; exact hB e time
  have hB3 : ∀ e time v, 0 ≤ v ⬝ᵥ coupling (E e).stat time *ᵥ v := fun e time => by rw [(hsame e time).coupling]; exact hB e time
  obtain ⟨st₁, ρ₁, c₁, p1, p2, p3, p4, p5⟩ := C64_history m gesv hg S ht hth hdt E₁ hE hB G nodes hwf buf0 x hx data0 t0 X₁ n
  obtain ⟨st₂, ρ₂, c₂, q1, q2, q3, q4, q5⟩ := C64_history m gesv hg S ht hth hdt E₂ hE2 hB2 G nodes hwf buf0 x hx data0 t0 X₂ n
  obtain ⟨st, ρ, c, s1, s2, s3, s4, s5⟩ := C64_history m gesv hg S ht hth hdt E hE3 hB3 G nodes hwf buf0 x hx data0 t0 (fun k => a • X₁ k + b • X₂ k) n
  rw [hd₁] at p1
  rw [hd₂] at q1
  obtain rfl : D₁ = c₁ := List.ofFn_injective (Prod.mk.inj (Res.ok.inj p1)).2
  obtain rfl : D₂ = c₂ := List.ofFn_injective (Prod.mk.inj (Res.ok.inj q1)).2
  have hs : ∀ (e : Fin G.n_hyEdges) (time : K), StepSolvable S (E e) nB time := fun e time => C63_solvable S ht hth hdt (E e) _ (hE3 e) (hB3 e _)
  have huniq : ∀ {c : Data dim nS K} {u u' : Fin nS → K}, StoresU c u → StoresU c u' → u = u' := fun {c u u'} h h' => ((storesU_iff c u).mp h).symm.trans ((storesU_iff c u').mp h')
  -- the states are superposed
  have hu : ∀ k ≤ n, ∀ e : Fin G.n_hyEdges, (st k e).u = a • (st₁ k e).u + b • (st₂ k e).u ∧ (0 < k → st k e = State.comb a b (st₁ k e) (st₂ k e)) := by
    intro k
    induction k with
    | zero =>
      intro _ e
      refine ⟨?_, fun h => absurd h (lt_irrefl _)⟩
      rw [s2 e, p2 e, q2 e]
      exact funext fun i => hini e i
    | succ k ih =>
      intro hk e
      obtain ⟨g1, g2⟩ := s3 k hk e
      have g := step_comb S (h12 e _) (hsame e _) (hsup e _) (hsup e _) (p3 k hk e).1 (q3 k hk e).1
      rw [← (ih (Nat.le_of_succ_le hk) e).1] at g
      have := step_unique S (E e) _ (hs e _) g1 g (by
        rw [g2]
        show _ = a • (st₁ (k + 1) e).lambda + b • (st₂ (k + 1) e).lambda
        rw [(p3 k hk e).2, (q3 k hk e).2]
        rfl)
      exact ⟨congrArg State.u this, fun _ => this⟩
  refine ⟨List.ofFn ρ, c, s1, fun e u₁ u₂ k1 k2 => ?_, fun hn e x₁ x₂ k1 k2 => ?_, fun old0 new0 tA hA R₁ R₂ y₁ y₂ a1 a2 b1 b2 => ?_⟩
  · rw [huniq k1 (p4 e).1, huniq k2 (q4 e).1, ← (hu n le_rfl e).1]
    exact (s4 e).1
  · have hstore := (s4 e).2 hn
    have l1 := (p4 e).2 hn
    have l2 := (q4 e).2 hn
    rw [(hu n le_rfl e).2 hn] at hstore
    have hq : ∀ {c : Data dim nS K} {x y : State dim nS nB K}, Stores c x → Stores c y → x.q = y.q ∧ x.u = y.u ∧ x.p = y.p ∧ x.w = y.w := fun h h' =>
      ⟨funext fun d => funext fun i => Res.ok.inj ((h.q d i).symm.trans (h'.q d i)), funext fun i => Res.ok.inj ((h.u i).symm.trans (h'.u i)),
        funext fun d => funext fun i => Res.ok.inj ((h.p d i).symm.trans (h'.p d i)), funext fun i => Res.ok.inj ((h.w i).symm.trans (h'.w i))⟩
    obtain ⟨m1, m2, m3, m4⟩ := hq k1 l1
    obtain ⟨m5, m6, m7, m8⟩ := hq k2 l2
    constructor
    · intro d i
      rw [hstore.q d i]
      simp only [State.comb, m1, m5]
    · intro i
      rw [hstore.u i]
      simp only [State.comb, m2, m6]
    · intro d i
      rw [hstore.p d i]
      simp only [State.comb, m3, m7]
    · intro i
      rw [hstore.w i]
      simp only [State.comb, m4, m8]
  · obtain ⟨R₁', f1, f2⟩ := p5 old0 new0 tA hA
    obtain ⟨R₂', g1, g2⟩ := q5 old0 new0 tA fun e => by rw [(h12 e tA).coupling, (h12 e _).coupling]; exact hA e
    obtain ⟨R, k1, k2⟩ := s5 old0 new0 tA fun e => by rw [(hsame e tA).coupling, (hsame e _).coupling]; exact hA e
    rw [a1] at f1
    rw [b1] at g1
    obtain rfl : R₁ = R₁' := List.ofFn_injective (Res.ok.inj f1)
    obtain rfl : R₂ = R₂' := List.ofFn_injective (Res.ok.inj g1)
    obtain ⟨new₁, v1, v2⟩ := f2 y₁
    obtain ⟨new₂, w1, w2⟩ := g2 y₂
    obtain ⟨new, z1, z2⟩ := k2 (a • y₁ + b • y₂)
    refine ⟨R, k1, z2.mpr ?_⟩
    have hnew : ∀ e, new e = State.comb a b (new₁ e) (new₂ e) := fun e => by
      have g := step_comb S (h12 e _) (hsame e _) (hsup e _) (hsup e _) (v1 e).1 (w1 e).1
      rw [← (hu n le_rfl e).1] at g
      refine step_unique S (E e) _ (hs e _) (z1 e).1 g ?_
      rw [(z1 e).2]
      show _ = a • (new₁ e).lambda + b • (new₂ e).lambda
      rw [(v1 e).2, (w1 e).2]
      rfl
    have d1 : assemble nodes (fun e : Fin G.n_hyEdges => fluxes (E₁ e) S.tau (new₁ e)) = 0 := funext fun k => v2.mp a2 k
    have d2 : assemble nodes (fun e : Fin G.n_hyEdges => fluxes (E₂ e) S.tau (new₂ e)) = 0 := funext fun k => w2.mp b2 k
    have k := EllipticProgram.assemble_comb nodes a b (fun e : Fin G.n_hyEdges => fluxes (E₁ e) S.tau (new₁ e)) (fun e : Fin G.n_hyEdges => fluxes (E₂ e) S.tau (new₂ e))
    rw [d1, d2, smul_zero, smul_zero, add_zero] at k
    have hfl : (fun e : Fin G.n_hyEdges => fluxes (E e) S.tau (new e)) = fun e : Fin G.n_hyEdges => a • fluxes (E₁ e) S.tau (new₁ e) + b • fluxes (E₂ e) S.tau (new₂ e) := funext fun e => by
      rw [hnew e]
      exact fluxes_comb a b (h12 e t0) (hsame e t0) _ _
    intro j
    have k' : assemble nodes (fun e : Fin G.n_hyEdges => fluxes (E e) S.tau (new e)) = 0 := by
      rw [hfl]
      exact k
    exact congrFun k' j

end

namespace Example

open Diffusion.Example DiffusionUniform.Example DiffusionParab.Example Bilaplacian.Example EllipticProgram.Example

/-- Two parallelograms with initial value `v`, source `s e` and prescribed values `g` and `h`. -/
noncomputable def timed (v : ℚ) (s : Nat → ℚ) (g h : ℚ) (e : Nat) : Edge 2 1 ℚ := { SteadyEdges v e with stat := Bilaplacian.Example.loaded s g h e }

theorem timed_pos (v : ℚ) (s : Nat → ℚ) (g h : ℚ) (e : Nat) (time : ℚ) (w : Fin 1 → ℚ) (hw : w ≠ 0) : 0 < w ⬝ᵥ coupling (timed v s g h e).stat time *ᵥ w := SteadyEdges_pos 0 e time w hw

/-- The hypotheses of C114 can be met, with initial values, sources and prescribed values which are not zero: for every number of steps there are vectors which solve the systems of the two problems, and their combination solves that of the third. -/
theorem C114_example (s s' : Nat → ℚ) (X₁ X₂ : Nat → Fin (G3.n_hyNodes * (2 * 1)) → ℚ) (n : Nat) : ∃ (r₁ r₂ r : List ℚ) (D₁ D₂ D : Fin G3.n_hyEdges → Data 2 1 ℚ) (y₁ y₂ R₁ R₂ R : Fin (G3.n_hyNodes * (2 * 1)) → ℚ),
    runX .debug (cramerSolve _ _ ℚ) (S1 (1 / 2)) (timed 4 s 1 2) G3 (fun _ _ => 7) (List.replicate 14 5) (fun _ _ => 3) 0 X₁ n = .ok (r₁, List.ofFn D₁) ∧
    runX .debug (cramerSolve _ _ ℚ) (S1 (1 / 2)) (timed (-1) s' 5 7) G3 (fun _ _ => 7) (List.replicate 14 5) (fun _ _ => 3) 0 X₂ n = .ok (r₂, List.ofFn D₂) ∧
    runX .debug (cramerSolve _ _ ℚ) (S1 (1 / 2)) (timed 5 (2 * s + 3 * s') 17 25) G3 (fun _ _ => 7) (List.replicate 14 5) (fun _ _ => 3) 0 (fun k => (2 : ℚ) • X₁ k + (3 : ℚ) • X₂ k) n = .ok (r, List.ofFn D) ∧
    globalFlux .debug (cramerSolve _ _ ℚ) (S1 (1 / 2)) (timed 4 s 1 2) G3 (fun _ _ => 8) (fun _ _ => 9) (List.ofFn D₁) 0 (List.ofFn y₁) = .ok (List.ofFn (-R₁)) ∧
    globalFlux .debug (cramerSolve _ _ ℚ) (S1 (1 / 2)) (timed (-1) s' 5 7) G3 (fun _ _ => 8) (fun _ _ => 9) (List.ofFn D₂) 0 (List.ofFn y₂) = .ok (List.ofFn (-R₂)) ∧
    globalResidual .debug (cramerSolve _ _ ℚ) (S1 (1 / 2)) (timed 5 (2 * s + 3 * s') 17 25) G3 (fun _ _ => 8) (fun _ _ => 9) (List.ofFn D) (0 + (n + 1) • (S1 (1 / 2)).delta_t)
      (List.ofFn (0 : Fin (G3.n_hyNodes * (2 * 1)) → ℚ)) = .ok (List.ofFn R) ∧
    globalFlux .debug (cramerSolve _ _ ℚ) (S1 (1 / 2)) (timed 5 (2 * s + 3 * s') 17 25) G3 (fun _ _ => 8) (fun _ _ => 9) (List.ofFn D) 0 (List.ofFn ((2 : ℚ) • y₁ + (3 : ℚ) • y₂)) = .ok (List.ofFn (-R)) := by
  have hrun := fun v s g h X => C64_history (nB := 1) .debug (cramerSolve _ _ ℚ) (C44_example _ _ ℚ) (S1 (1 / 2)) one_pos (by norm_num [S1]) (by norm_num [S1]) (timed v s g h) (loaded_laws s g h)
    (fun e time => quad_nonneg (timed_pos v s g h e time)) G3 G2nodes G3_wf (fun _ _ => 7) (List.replicate 14 5) (by decide) (fun _ _ => 3) 0 X n
  have hsol := fun v s g h data => C64_unique_step (nB := 1) .debug (cramerSolve _ _ ℚ) (C44_example _ _ ℚ) (S1 (1 / 2)) one_pos (by norm_num [S1]) (by norm_num [S1]) (timed v s g h) (loaded_laws s g h)
    (0 + (n + 1) • (S1 (1 / 2)).delta_t) 0 (fun e => quad_nonneg (timed_pos v s g h e _)) (fun e => timed_pos v s g h e 0) G3 G2nodes G3_wf G2_cov (· = ⟨0, by decide⟩) (Edges_dirichlet 3) (Edges_dirichlet 3) data data
    (fun _ _ => 8) (fun _ _ => 9)
  obtain ⟨_, r₁, D₁, h1, _⟩ := hrun 4 s 1 2 X₁
  obtain ⟨_, r₂, D₂, h2, _⟩ := hrun (-1) s' 5 7 X₂
  obtain ⟨R₁, a1, y₁, ⟨_, a2⟩, _⟩ := hsol 4 s 1 2 D₁
  obtain ⟨R₂, b1, y₂, ⟨_, b2⟩, _⟩ := hsol (-1) s' 5 7 D₂
  obtain ⟨r, D, h3, _, _, h4⟩ := C114_superposition (nB := 1) .debug (cramerSolve _ _ ℚ) (C44_example _ _ ℚ) (S1 (1 / 2)) one_pos (by norm_num [S1]) (by norm_num [S1]) (timed 4 s 1 2) (timed (-1) s' 5 7)
    (timed 5 (2 * s + 3 * s') 17 25) (loaded_laws s 1 2) (fun e time => quad_nonneg (timed_pos 4 s 1 2 e time)) (fun _ _ => ⟨rfl, rfl, fun _ => Iff.rfl, fun _ => Iff.rfl⟩)
    (fun _ _ => ⟨rfl, rfl, fun _ => Iff.rfl, fun _ => Iff.rfl⟩) 2 3 (fun _ _ => ⟨fun _ => rfl, fun _ _ _ => by norm_num [timed, Bilaplacian.Example.loaded], fun _ _ _ => by norm_num [timed, Bilaplacian.Example.loaded]⟩) G3 G2nodes G3_wf
    (fun _ _ => 7) (List.replicate 14 5) (by decide) (fun _ _ => 3) 0 (fun _ _ => by show (5 : ℚ) = 2 * 4 + 3 * (-1); norm_num) X₁ X₂ n _ _ D₁ D₂ h1 h2
  obtain ⟨R, c1, c2⟩ := h4 (fun _ _ => 8) (fun _ _ => 9) 0 (fun _ => rfl) R₁ R₂ y₁ y₂ a1 a2 b1 b2
  exact ⟨_, _, r, D₁, D₂, D, y₁, y₂, R₁, R₂, R, h1, h2, h3, a2, b2, c1, c2⟩

end Example

end HyperHDG.BilaplacianParab

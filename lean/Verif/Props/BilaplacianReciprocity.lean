import Verif.Spec.BilaplacianReciprocity
import Verif.Props.BilaplacianSteady
import Verif.Props.Reciprocity

/-!
# Property C113: superposition, reciprocity and work of loads for the biharmonic problem
-/

namespace HyperHDG.Bilaplacian

open Finset Spec Matrix LDG Mixed HyGraph

variable {dim nS nB : Nat} {K : Type} [Field K]

open Classical in
theorem off_same {E E' : Edge dim nS K} {time : K} (h : SameOperator E E' nB time) (y z : LocDofs dim nB K) : offDirichlet E' y z = offDirichlet E y z := by
  funext f j
  obtain ⟨k, rfl | rfl⟩ := halves_cases j
  · rw [offDirichlet_up, offDirichlet_up]
    exact if_congr (h.dirichlet f) rfl rfl
  · rw [offDirichlet_lo, offDirichlet_lo]
    exact if_congr (h.laplacian f) rfl rfl

theorem off_comb (E : Edge dim nS K) (a b : K) (y z y' z' : LocDofs dim nB K) : offDirichlet E (a • y + b • y') (a • z + b • z') = a • offDirichlet E y z + b • offDirichlet E y' z' := by
  funext f j
  obtain ⟨k, rfl | rfl⟩ := halves_cases j
  · simp only [offDirichlet_up, Pi.add_apply, Pi.smul_apply]
    split <;> simp
  · simp only [offDirichlet_lo, Pi.add_apply, Pi.smul_apply]
    split <;> simp

theorem zero_dirichlet {E : Edge dim nS K} {time : K} (h : ZeroValues E time) : dirichletMoments E time = 0 := by
  funext f i
  simp only [dirichletMoments]
  split
  · exact h.values f i ‹_›
  · rfl

theorem zero_laplacian {E : Edge dim nS K} {time : K} (h : ZeroValues E time) : laplacianMoments E time = 0 := by
  funext f i
  simp only [laplacianMoments]
  split
  · exact h.laplacian f i ‹_›
  · rfl

/-- The prescribed values are superposed. -/
theorem dirichlet_comb {E₁ E₂ E : Edge dim nS K} {time a b : K} (h12 : SameOperator E₁ E₂ nB time) (hsame : SameOperator E₁ E nB time) (hsup : Superposed a b E₁ E₂ E time) :
    dirichletMoments E time = a • dirichletMoments E₁ time + b • dirichletMoments E₂ time := by
  funext f i
  show dirichletMoments E time f i = a * dirichletMoments E₁ time f i + b * dirichletMoments E₂ time f i
  have hv := hsup.values f i
  have c1 := h12.dirichlet f
  have c2 := hsame.dirichlet f
  by_cases hf : IsDirichlet E₁ f
  · simp only [dirichletMoments, if_pos hf, if_pos (c1.mpr hf), if_pos (c2.mpr hf)]
    exact hv (c2.mpr hf)
  · simp only [dirichletMoments, if_neg hf, if_neg (mt c1.mp hf), if_neg (mt c2.mp hf), mul_zero, add_zero]

theorem laplacian_comb {E₁ E₂ E : Edge dim nS K} {time a b : K} (h12 : SameOperator E₁ E₂ nB time) (hsame : SameOperator E₁ E nB time) (hsup : Superposed a b E₁ E₂ E time) :
    laplacianMoments E time = a • laplacianMoments E₁ time + b • laplacianMoments E₂ time := by
  funext f i
  show laplacianMoments E time f i = a * laplacianMoments E₁ time f i + b * laplacianMoments E₂ time f i
  have hv := hsup.laplacian f i
  have c1 := h12.laplacian f
  have c2 := hsame.laplacian f
  by_cases hf : IsDirichletLaplacian E₁ f
  · simp only [laplacianMoments, if_pos hf, if_pos (c1.mpr hf), if_pos (c2.mpr hf)]
    exact hv (c2.mpr hf)
  · simp only [laplacianMoments, if_neg hf, if_neg (mt c1.mp hf), if_neg (mt c2.mp hf), mul_zero, add_zero]

section
variable [LinearOrder K] [IsStrictOrderedRing K] (m : Mode) (gesv : Gesv (n_loc_dofs dim nS) 1 K) (hg : GesvSpec gesv) (tau : K) (ht : 0 < tau) (time : K)
  (G : HyGraph dim (2 * nB)) (nodes : Fin G.n_hyEdges → Fin (2 * dim) → Fin G.n_hyNodes) (hwf : G.WF nodes) (D : Fin G.n_hyNodes → Prop) (old0 new0 : LocDofs dim (2 * nB) K)

include hg ht hwf

/-- The linear system says that the fluxes balance. -/
theorem system_iff (E : Nat → Edge dim nS K) (hE : ∀ e, FormLaws (form (E e) nB)) {y : Fin (G.n_hyNodes * (2 * nB)) → K} {q p : Fin G.n_hyEdges → Fin dim → Fin nS → K} {u w : Fin G.n_hyEdges → Fin nS → K}
    (hsol : ∀ e : Fin G.n_hyEdges, IsMixedSolution (form (E e) nB) (coupling (E e) time) 0 tau 1 (moments (form (E e) nB) (upper (faceValues nodes y e)) + dirichletMoments (E e) time)
      (moments (form (E e) nB) (lower (faceValues nodes y e)) + laplacianMoments (E e) time) 0 (source (E e) time) (q e) (u e) (p e) (w e)) :
    (∃ R : Fin (G.n_hyNodes * (2 * nB)) → K, G.mat_vec_multiply m (localResidual m gesv tau E time) old0 new0 (List.ofFn (0 : Fin (G.n_hyNodes * (2 * nB)) → K)) = .ok (List.ofFn R) ∧
      G.mat_vec_multiply m (localOperator m gesv tau E time) old0 new0 (List.ofFn y) = .ok (List.ofFn (-R))) ↔
      assemble nodes (fun e : Fin G.n_hyEdges => offDirichlet (E e) (faceFlux (form (E e) nB) tau (lower (faceValues nodes y e)) (p e) (w e)) (faceFlux (form (E e) nB) tau (upper (faceValues nodes y e)) (q e) (u e))) = 0 := by
  have hS := fun e : Fin G.n_hyEdges => (C59_solvable m gesv hg tau (E e) time (hE e) ht (0 : LocDofs dim (2 * nB) K) 0).1
  have h1 := fun e : Fin G.n_hyEdges => (C59_flux m gesv hg tau (E e) time (faceValues nodes y e) (fun _ _ => 0)).1 (hS e)
  choose q1 u1 r1 w1 h1 hl1 using h1
  have h2 := fun e : Fin G.n_hyEdges => (C60_residual m gesv hg tau (E e) time (faceValues nodes (0 : Fin (G.n_hyNodes * (2 * nB)) → K) e) (fun _ _ => 0)).1 (hS e)
  choose q2 u2 r2 w2 h2 hl2 using h2
  have hz : ∀ e, faceValues nodes (0 : Fin (G.n_hyNodes * (2 * nB)) → K) e = 0 := fun e => rfl
  have hup : upper (0 : LocDofs dim (2 * nB) K) = 0 := rfl
  have hlo : lower (0 : LocDofs dim (2 * nB) K) = 0 := rfl
  have hm0 : ∀ e : Fin G.n_hyEdges, moments (form (E e) nB) (0 : LocDofs dim nB K) = 0 := fun e => by funext f; exact mulVec_zero _
  rw [mat_vec_eq m G nodes hwf (localOperator m gesv tau E time) y _ hl1 old0 new0, mat_vec_eq m G nodes hwf (localResidual m gesv tau E time) 0 _ hl2 old0 new0]
  have hfl : ∀ (e : Fin G.n_hyEdges) (l : LocDofs dim nB K) (q q' : Fin dim → Fin nS → K) (u u' : Fin nS → K), faceFlux (form (E e) nB) tau l (q + q') (u + u') = faceFlux (form (E e) nB) tau l q u + faceFlux (form (E e) nB) tau 0 q' u' :=
    fun e l q q' u u' => by
      have := flux_lin (F := form (E e) nB) (tau := tau) (lambda := l) (mu := 0) (q := q) (q' := q') (u := u) (u' := u') 1 1
      simpa only [one_smul, add_zero, smul_zero] using this
  have hsum : assemble nodes (fun e : Fin G.n_hyEdges => offDirichlet (E e) (faceFlux (form (E e) nB) tau (lower (faceValues nodes y e)) (p e) (w e)) (faceFlux (form (E e) nB) tau (upper (faceValues nodes y e)) (q e) (u e))) =
      assemble nodes (fun e : Fin G.n_hyEdges => offDirichlet (E e) (faceFlux (form (E e) nB) tau (lower (faceValues nodes y e)) (r1 e) (w1 e)) (faceFlux (form (E e) nB) tau (upper (faceValues nodes y e)) (q1 e) (u1 e))) +
      assemble nodes (fun e : Fin G.n_hyEdges => offDirichlet (E e) (faceFlux (form (E e) nB) tau 0 (r2 e) (w2 e)) (faceFlux (form (E e) nB) tau 0 (q2 e) (u2 e))) := by
    have k := EllipticProgram.assemble_comb nodes (1 : K) 1 (fun e : Fin G.n_hyEdges => offDirichlet (E e) (faceFlux (form (E e) nB) tau (lower (faceValues nodes y e)) (r1 e) (w1 e)) (faceFlux (form (E e) nB) tau (upper (faceValues nodes y e)) (q1 e) (u1 e)))
      (fun e : Fin G.n_hyEdges => offDirichlet (E e) (faceFlux (form (E e) nB) tau 0 (r2 e) (w2 e)) (faceFlux (form (E e) nB) tau 0 (q2 e) (u2 e)))
    rw [one_smul, one_smul] at k
    rw [← k]
    refine congrArg (assemble nodes) (funext fun e => ?_)
    have h3 := mixed_lin 1 1 (h1 e) (h2 e)
    rw [hz, hup, hlo, hm0] at h3
    simp only [one_smul, zero_add, add_zero] at h3
    obtain ⟨e1, e2, e3, e4⟩ := mixed_unique (hS e) (hsol e) h3
    rw [← off_comb, e1, e2, e3, e4, hfl, hfl, one_smul, one_smul, one_smul, one_smul]
  rw [hsum]
  constructor
  · rintro ⟨R, k1, k2⟩
    have k1' := List.ofFn_injective (Res.ok.inj k1)
    have k2' := List.ofFn_injective (Res.ok.inj k2)
    rw [k2']
    refine Eq.trans ?_ (neg_add_cancel R)
    exact congrArg (-R + ·) k1'
  · intro k
    refine ⟨_, rfl, ?_⟩
    exact congrArg (fun v => Res.ok (List.ofFn v)) (eq_neg_of_add_eq_zero_left k)

variable (E₁ E₂ : Nat → Edge dim nS K) (hE : ∀ e, FormLaws (form (E₁ e) nB)) (h12 : ∀ e, SameOperator (E₁ e) (E₂ e) nB time)
  {y₁ y₂ : Fin (G.n_hyNodes * (2 * nB)) → K} {u₁ w₁ u₂ w₂ : Fin G.n_hyEdges → Fin nS → K}
  (h1 : SolvesLoad m gesv tau time G nodes D old0 new0 E₁ y₁ u₁ w₁) (h2 : SolvesLoad m gesv tau time G nodes D old0 new0 E₂ y₂ u₂ w₂)

include hE

include h12 h1 h2 in
/-- **C113** (superposition).  If right-hand sides and prescribed values of a problem are `a` times those of one problem plus `b` times those of another, then `a` times a discrete solution of the one
plus `b` times a discrete solution of the other is a discrete solution of it. -/
theorem C113_superposition (E : Nat → Edge dim nS K) (hsame : ∀ e, SameOperator (E₁ e) (E e) nB time) (a b : K) (hsup : ∀ e, Superposed a b (E₁ e) (E₂ e) (E e) time) :
    SolvesLoad m gesv tau time G nodes D old0 new0 E (a • y₁ + b • y₂) (a • u₁ + b • u₂) (a • w₁ + b • w₂) := by
  choose q₁ p₁ hq₁ using h1.local_solution
  choose q₂ p₂ hq₂ using h2.local_solution
  have su : ∀ e, upper (faceValues nodes (a • y₁ + b • y₂) e) = a • upper (faceValues nodes y₁ e) + b • upper (faceValues nodes y₂ e) := fun e => rfl
  have sl : ∀ e, lower (faceValues nodes (a • y₁ + b • y₂) e) = a • lower (faceValues nodes y₁ e) + b • lower (faceValues nodes y₂ e) := fun e => rfl
  have hsol : ∀ e : Fin G.n_hyEdges, IsMixedSolution (form (E e) nB) (coupling (E e) time) 0 tau 1
      (moments (form (E e) nB) (upper (faceValues nodes (a • y₁ + b • y₂) e)) + dirichletMoments (E e) time)
      (moments (form (E e) nB) (lower (faceValues nodes (a • y₁ + b • y₂) e)) + laplacianMoments (E e) time) 0 (source (E e) time)
      ((a • q₁ + b • q₂) e) ((a • u₁ + b • u₂) e) ((a • p₁ + b • p₂) e) ((a • w₁ + b • w₂) e) := by
    intro e
    have k2 := hq₂ e
    rw [(h12 e).form, (h12 e).coupling] at k2
    have k := mixed_lin a b (hq₁ e) k2
    have s1 : source (E e) time = a • source (E₁ e) time + b • source (E₂ e) time := funext (hsup e).source
    have s2 := dirichlet_comb (h12 e) (hsame e) (hsup e)
    have s3 := laplacian_comb (h12 e) (hsame e) (hsup e)
    rw [(hsame e).form, (hsame e).coupling, s1, s2, s3, su, sl, moments_lin, moments_lin]
    rw [smul_zero, smul_zero, add_zero] at k
    refine Eq.mp (congrArg₂ (fun g h => IsMixedSolution _ _ 0 tau 1 g h _ _ _ _ _ _) ?_ ?_) k <;> module
  refine ⟨fun v hv j => ?_, ?_, fun e => ⟨_, _, hsol e⟩⟩
  · show a * y₁ _ + b * y₂ _ = 0
    rw [h1.vanishes v hv j, h2.vanishes v hv j]
    ring
  · have hE' : ∀ e, FormLaws (form (E e) nB) := fun e => by rw [(hsame e).form]; exact hE e
    have hE2 : ∀ e, FormLaws (form (E₂ e) nB) := fun e => by rw [(h12 e).form]; exact hE e
    have b1 := (system_iff m gesv hg tau ht time G nodes hwf old0 new0 E₁ hE hq₁).mp h1.system
    have b2 := (system_iff m gesv hg tau ht time G nodes hwf old0 new0 E₂ hE2 hq₂).mp h2.system
    refine (system_iff m gesv hg tau ht time G nodes hwf old0 new0 E hE' hsol).mpr ?_
    have k := EllipticProgram.assemble_comb nodes a b (fun e : Fin G.n_hyEdges => offDirichlet (E₁ e) (faceFlux (form (E₁ e) nB) tau (lower (faceValues nodes y₁ e)) (p₁ e) (w₁ e)) (faceFlux (form (E₁ e) nB) tau (upper (faceValues nodes y₁ e)) (q₁ e) (u₁ e)))
      (fun e : Fin G.n_hyEdges => offDirichlet (E₂ e) (faceFlux (form (E₂ e) nB) tau (lower (faceValues nodes y₂ e)) (p₂ e) (w₂ e)) (faceFlux (form (E₂ e) nB) tau (upper (faceValues nodes y₂ e)) (q₂ e) (u₂ e)))
    rw [b1, b2, smul_zero, smul_zero, add_zero] at k
    rw [← k]
    refine congrArg (assemble nodes) (funext fun e => ?_)
    have t1 : (a • q₁ + b • q₂) e = a • q₁ e + b • q₂ e := rfl
    have t2 : (a • u₁ + b • u₂) e = a • u₁ e + b • u₂ e := rfl
    have t3 : (a • p₁ + b • p₂) e = a • p₁ e + b • p₂ e := rfl
    have t4 : (a • w₁ + b • w₂) e = a • w₁ e + b • w₂ e := rfl
    rw [off_same (hsame e), off_same (h12 e), (hsame e).form, (h12 e).form, su, sl, t1, t2, t3, t4, flux_lin, flux_lin, off_comb]

variable (hD : ∀ (e : Fin G.n_hyEdges) (f : Fin (2 * dim)), (E₁ e).node_descriptor f ∈ (E₁ e).dirichlet_nodes ↔ D (nodes e f))
  (hD' : ∀ (e : Fin G.n_hyEdges) (f : Fin (2 * dim)), (E₁ e).node_descriptor f ∈ (E₁ e).dirichlet_laplacian_nodes ↔ D (nodes e f))

include hD hD'

/-- **C113** (the discrete solution).  Let `u` and the Laplacian be prescribed at the same hypernodes.  If each hypernode is connected to one of them, there is exactly one discrete solution. -/
theorem C113_exists (hR : ∀ e, Rigid (form (E₁ e) nB)) (hcon : Anchored nodes D) :
    ∃! yuw : (Fin (G.n_hyNodes * (2 * nB)) → K) × (Fin G.n_hyEdges → Fin nS → K) × (Fin G.n_hyEdges → Fin nS → K), SolvesLoad m gesv tau time G nodes D old0 new0 E₁ yuw.1 yuw.2.1 yuw.2.2 := by
  obtain ⟨R, hRes, y, ⟨hy, hsys⟩, huniq⟩ := C61_unique m gesv hg tau ht E₁ time hE G nodes hwf old0 new0 hR D hD hD' hcon
  obtain ⟨q, u, p, w, k1, _, _⟩ := discrete_mixed m gesv hg tau ht E₁ time hE G nodes hwf old0 new0 D hD hD' hRes hsys
  refine ⟨(y, u, w), ⟨hy, ⟨R, hRes, hsys⟩, fun e => ⟨q e, p e, k1 e⟩⟩, fun yuw h => ?_⟩
  obtain ⟨R', g1, g2⟩ := h.system
  rw [hRes] at g1
  obtain rfl : R = R' := List.ofFn_injective (Res.ok.inj g1)
  have e1 : yuw.1 = y := huniq _ ⟨h.vanishes, g2⟩
  have hS := fun e : Fin G.n_hyEdges => (C59_solvable m gesv hg tau (E₁ e) time (hE e) ht (0 : LocDofs dim (2 * nB) K) 0).1
  have k2 : ∀ e, yuw.2.1 e = u e ∧ yuw.2.2 e = w e := fun e => by
    obtain ⟨q', p', hq'⟩ := h.local_solution e
    rw [e1] at hq'
    obtain ⟨_, e2, _, e3⟩ := mixed_unique (hS e) hq' (k1 e)
    exact ⟨e2, e3⟩
  exact Prod.ext e1 (Prod.ext (funext fun e => (k2 e).1) (funext fun e => (k2 e).2))

include h12 h1 h2 in
/-- The work of the load of one problem along the solution of another is the integral of `b w₁ w₂`. -/
theorem work_moments (hz₁ : ∀ e, ZeroValues (E₁ e) time) (hz₂ : ∀ e, ZeroValues (E₂ e) time) : work E₁ time u₂ = ∑ e : Fin G.n_hyEdges, w₁ e ⬝ᵥ coupling (E₁ e) time *ᵥ w₂ e := by
  choose q₁ p₁ hq₁ using h1.local_solution
  choose q₂ p₂ hq₂ using h2.local_solution
  have hE2 : ∀ e, FormLaws (form (E₂ e) nB) := fun e => by rw [(h12 e).form]; exact hE e
  have b1 := (system_iff m gesv hg tau ht time G nodes hwf old0 new0 E₁ hE hq₁).mp h1.system
  have b2 := (system_iff m gesv hg tau ht time G nodes hwf old0 new0 E₂ hE2 hq₂).mp h2.system
  have test : ∀ (E : Nat → Edge dim nS K), (∀ (e : Fin G.n_hyEdges) (f : Fin (2 * dim)), IsDirichlet (E e) f ↔ D (nodes e f)) → (∀ (e : Fin G.n_hyEdges) (f : Fin (2 * dim)), IsDirichletLaplacian (E e) f ↔ D (nodes e f)) →
      ∀ (a b : Fin G.n_hyEdges → LocDofs dim nB K), assemble nodes (fun e : Fin G.n_hyEdges => offDirichlet (E e) (a e) (b e)) = 0 → ∀ Z : Fin (G.n_hyNodes * (2 * nB)) → K, VanishesAt D Z →
      ∑ e, ∑ f, upper (faceValues nodes Z e) f ⬝ᵥ a e f + ∑ e, ∑ f, lower (faceValues nodes Z e) f ⬝ᵥ b e f = 0 := by
    intro E d1 d2 a b h Z hZ
    have k := pairing_assemble nodes (fun e : Fin G.n_hyEdges => offDirichlet (E e) (a e) (b e)) Z
    rw [h] at k
    have hv : ∀ e : Fin G.n_hyEdges, VanishesOnDirichlet (E e) (faceValues nodes Z e) := fun e f => ⟨fun hf j => hZ _ ((d1 e f).mp hf) _, fun hf j => hZ _ ((d2 e f).mp hf) _⟩
    simp only [pair_off (hv _), sum_add_distrib, Pi.zero_apply, mul_zero, sum_const_zero] at k
    exact k.symm
  have d2 : ∀ (e : Fin G.n_hyEdges) (f : Fin (2 * dim)), IsDirichlet (E₂ e) f ↔ D (nodes e f) := fun e f => ((h12 e).dirichlet f).trans (hD e f)
  have d2' : ∀ (e : Fin G.n_hyEdges) (f : Fin (2 * dim)), IsDirichletLaplacian (E₂ e) f ↔ D (nodes e f) := fun e f => ((h12 e).laplacian f).trans (hD' e f)
  -- the vector with the given halves
  have hvec : ∀ (a b : Fin (G.n_hyNodes * nB) → K), VanishesAt D a → VanishesAt D b → ∃ Z : Fin (G.n_hyNodes * (2 * nB)) → K, VanishesAt D Z ∧
      (∀ e, upper (faceValues nodes Z e) = faceValues nodes a e) ∧ ∀ e, lower (faceValues nodes Z e) = faceValues nodes b e := by
    intro a b ha hb
    refine ⟨ofNodes fun v j => if h : j.1 < nB then a (dof v ⟨j.1, h⟩) else b (dof v ⟨j.1 - nB, by omega⟩), fun v hv j => ?_, fun e => ?_, fun e => ?_⟩
    · rw [ofNodes_dof (fun v (j : Fin (2 * nB)) => if h : j.1 < nB then a (dof v ⟨j.1, h⟩) else b (dof v ⟨j.1 - nB, by omega⟩)) v j]
      split
      · exact ha v hv _
      · exact hb v hv _
    · funext f j
      refine (ofNodes_dof (fun v (j : Fin (2 * nB)) => if h : j.1 < nB then a (dof v ⟨j.1, h⟩) else b (dof v ⟨j.1 - nB, by omega⟩)) (nodes e f) _).trans ?_
      rw [dif_pos j.2]
      rfl
    · funext f j
      refine (ofNodes_dof (fun v (j : Fin (2 * nB)) => if h : j.1 < nB then a (dof v ⟨j.1, h⟩) else b (dof v ⟨j.1 - nB, by omega⟩)) (nodes e f) _).trans ?_
      rw [dif_neg (by simp)]
      exact congrArg (fun k => b (dof (nodes e f) k)) (Fin.ext (by simp))
  have hz0 : VanishesAt D (0 : Fin (G.n_hyNodes * nB) → K) := fun _ _ _ => rfl
  let yu₂ : Fin (G.n_hyNodes * nB) → K := ofNodes fun v j => y₂ (dof v (up j))
  let yw₁ : Fin (G.n_hyNodes * nB) → K := ofNodes fun v j => y₁ (dof v (lo j))
  have hyu₂ : VanishesAt D yu₂ := fun v hv j => (ofNodes_dof (fun v j => y₂ (dof v (up j))) v j).trans (h2.vanishes v hv _)
  have hyw₁ : VanishesAt D yw₁ := fun v hv j => (ofNodes_dof (fun v j => y₁ (dof v (lo j))) v j).trans (h1.vanishes v hv _)
  have fu₂ : ∀ e, faceValues nodes yu₂ e = upper (faceValues nodes y₂ e) := fun e => funext fun f => funext fun j => ofNodes_dof (fun v j => y₂ (dof v (up j))) (nodes e f) j
  have fw₁ : ∀ e, faceValues nodes yw₁ e = lower (faceValues nodes y₁ e) := fun e => funext fun f => funext fun j => ofNodes_dof (fun v j => y₁ (dof v (lo j))) (nodes e f) j
  obtain ⟨Z, hZ, z1, z2⟩ := hvec yu₂ 0 hyu₂ hz0
  obtain ⟨Y, hY, v1, v2⟩ := hvec 0 yw₁ hz0 hyw₁
  have t1 := test E₁ hD hD' _ _ b1 Z hZ
  have t2 := test E₂ d2 d2' _ _ b2 Y hY
  have f0 : ∀ e, faceValues nodes (0 : Fin (G.n_hyNodes * nB) → K) e = 0 := fun _ => rfl
  simp only [z1, z2, fu₂, f0, Pi.zero_apply, zero_dotProduct, sum_const_zero, add_zero] at t1
  simp only [v1, v2, fw₁, f0, Pi.zero_apply, zero_dotProduct, sum_const_zero, zero_add] at t2
  have c1 : ∀ e : Fin G.n_hyEdges, IsSolution (form (E₁ e) nB) tau 0 1 (moments (form (E₁ e) nB) (lower (faceValues nodes y₁ e))) (source (E₁ e) time) (p₁ e) (w₁ e) := fun e => by
    have := (hq₁ e).second
    rwa [zero_laplacian (hz₁ e), add_zero, zero_mulVec, sub_zero] at this
  have c2 : ∀ e : Fin G.n_hyEdges, IsSolution (form (E₁ e) nB) tau 0 1 (moments (form (E₁ e) nB) (upper (faceValues nodes y₂ e))) (coupling (E₁ e) time *ᵥ w₂ e) (q₂ e) (u₂ e) := fun e => by
    have := (hq₂ e).first
    rwa [zero_dirichlet (hz₂ e), add_zero, zero_add, (h12 e).form, (h12 e).coupling] at this
  simp only [(h12 _).form] at t2
  rw [sum_congr rfl fun (e : Fin G.n_hyEdges) _ => flux_form (hE e) one_ne_zero (c1 e) (c2 e)] at t1
  rw [sum_congr rfl fun (e : Fin G.n_hyEdges) _ => flux_form (hE e) one_ne_zero (c2 e) (c1 e)] at t2
  simp only [inv_one, one_mul, zero_mul, sub_zero, sum_add_distrib, sum_neg_distrib] at t1 t2
  rw [sum_congr rfl fun (e : Fin G.n_hyEdges) _ => bilin_symm (hE e)] at t2
  have hwk : work E₁ time u₂ = ∑ e : Fin G.n_hyEdges, u₂ e ⬝ᵥ source (E₁ e) time := rfl
  rw [hwk]
  linarith

include h12 h1 h2 in
/-- **C113** (reciprocity).  If nothing but zero is prescribed, then the load of the first problem does the same work along the solution of the second as the load of the second along the solution of the
first. -/
theorem C113_reciprocity (hBs : ∀ e, (coupling (E₁ e) time)ᵀ = coupling (E₁ e) time) (hz₁ : ∀ e, ZeroValues (E₁ e) time) (hz₂ : ∀ e, ZeroValues (E₂ e) time) : work E₁ time u₂ = work E₂ time u₁ := by
  have hE2 : ∀ e, FormLaws (form (E₂ e) nB) := fun e => by rw [(h12 e).form]; exact hE e
  have h21 : ∀ e, SameOperator (E₂ e) (E₁ e) nB time := fun e => ⟨(h12 e).form.symm, (h12 e).coupling.symm, fun f => ((h12 e).dirichlet f).symm, fun f => ((h12 e).laplacian f).symm⟩
  rw [work_moments m gesv hg tau ht time G nodes hwf D old0 new0 E₁ E₂ hE h12 h1 h2 hD hD' hz₁ hz₂,
    work_moments m gesv hg tau ht time G nodes hwf D old0 new0 E₂ E₁ hE2 h21 h2 h1 (fun e f => ((h12 e).dirichlet f).trans (hD e f)) (fun e f => ((h12 e).laplacian f).trans (hD' e f)) hz₂ hz₁]
  refine sum_congr rfl fun e _ => ?_
  rw [(h12 e).coupling]
  exact symm_dot (hBs e) _ _

include h1 in
/-- **C113** (work).  If nothing but zero is prescribed, the work of the load along the solution is the integral of `b w w`; so it is not negative for a coefficient which is not negative.  If the coefficient is positive, it is zero only if
the Laplacian and the load are zero. -/
theorem C113_work (hz₁ : ∀ e, ZeroValues (E₁ e) time) : work E₁ time u₁ = ∑ e : Fin G.n_hyEdges, w₁ e ⬝ᵥ coupling (E₁ e) time *ᵥ w₁ e ∧
    ((∀ e v, 0 ≤ v ⬝ᵥ coupling (E₁ e) time *ᵥ v) → 0 ≤ work E₁ time u₁) ∧
    ((∀ e v, v ≠ 0 → 0 < v ⬝ᵥ coupling (E₁ e) time *ᵥ v) → work E₁ time u₁ = 0 →
      w₁ = 0 ∧ ∀ (e : Fin G.n_hyEdges) (i : Fin nS), (E₁ e).vol_phifunc time i = 0) := by
  have k := work_moments m gesv hg tau ht time G nodes hwf D old0 new0 E₁ E₁ hE (fun e => ⟨rfl, rfl, fun _ => Iff.rfl, fun _ => Iff.rfl⟩) h1 h1 hD hD' hz₁ hz₁
  refine ⟨k, fun hB => k ▸ sum_nonneg fun e _ => hB e _, fun hB h0 => ?_⟩
  rw [k] at h0
  have k2 := (sum_eq_zero_iff_of_nonneg fun (e : Fin G.n_hyEdges) _ => quad_nonneg (hB e) (w₁ e)).mp h0
  have hw : w₁ = 0 := funext fun e => quad_zero (hB e) (k2 e (mem_univ e))
  refine ⟨hw, fun e i => ?_⟩
  obtain ⟨R, r1, r2⟩ := h1.system
  obtain ⟨q, u, p, w, g1, g2, _⟩ := discrete_mixed m gesv hg tau ht E₁ time hE G nodes hwf old0 new0 D hD hD' r1 r2
  have hS := fun e : Fin G.n_hyEdges => (C59_solvable m gesv hg tau (E₁ e) time (hE e) ht (0 : LocDofs dim (2 * nB) K) 0).1
  have hw0 : ∀ e, w e = 0 := fun e => by
    obtain ⟨q', p', hq'⟩ := h1.local_solution e
    exact (mixed_unique (hS e) (g1 e) hq').2.2.2.trans (congrFun hw e)
  have c : ∀ e : Fin G.n_hyEdges, IsSolution (form (E₁ e) nB) tau 0 1 (moments (form (E₁ e) nB) (lower (faceValues nodes y₁ e))) (source (E₁ e) time) (p e) (w e) := fun e => by
    have := (g1 e).second
    rwa [zero_laplacian (hz₁ e), add_zero, zero_mulVec, sub_zero] at this
  have t := BilaplacianParab.test_balance g2 (ofNodes fun v j => y₁ (dof v (lo j))) fun v hv j => (ofNodes_dof (fun v j => y₁ (dof v (lo j))) v j).trans (h1.vanishes v hv _)
  have fw : ∀ e, faceValues nodes (ofNodes fun v (j : Fin nB) => y₁ (dof v (lo j))) e = lower (faceValues nodes y₁ e) := fun e =>
    funext fun f => funext fun j => ofNodes_dof (fun v j => y₁ (dof v (lo j))) (nodes e f) j
  simp only [fw] at t
  rw [sum_congr rfl fun (e : Fin G.n_hyEdges) _ => flux_form (hE e) one_ne_zero (c e) (c e)] at t
  simp only [hw0, zero_dotProduct, zero_mul, sub_zero, mul_zero, add_zero, sum_neg_distrib, neg_eq_zero] at t
  have t' := (sum_eq_zero_iff_of_nonneg fun (e : Fin G.n_hyEdges) _ => bilin_nonneg (hE e) ht.le (p e) 0 (lower (faceValues nodes y₁ e))).mp t e (mem_univ e)
  have hm : moments (form (E₁ e) nB) (lower (faceValues nodes y₁ e)) = 0 := funext fun f => (trace_moments (hE e) (bilin_trace_zero (hE e) ht t') f).trans (mulVec_zero _)
  have hp := (c e).primal
  rw [hm, bilin_q_zero (hE e) ht.le t', hw0] at hp
  have hp' : source (E₁ e) time = 0 := by
    rw [← hp]
    simp
  exact congrFun hp' i

end

namespace Example

open Diffusion.Example DiffusionUniform.Example EllipticProgram.Example BilaplacianParab.Example

/-- The two parallelograms of C61 with load `s e`, the prescribed value `g` and the prescribed Laplacian `h`. -/
noncomputable def loaded (s : Nat → ℚ) (g h : ℚ) (e : Nat) : Edge 2 1 ℚ :=
  { (SteadyEdges 0 e).stat with vol_phifunc := fun _ _ => s e, bdr_phifunc := fun _ _ _ => g, bdr_phifunc_laplace := fun _ _ _ => h }

theorem loaded_laws (s : Nat → ℚ) (g h : ℚ) (e : Nat) : FormLaws (form (loaded s g h e) 1) := SteadyEdges_laws 0 e

theorem loaded_rigid (s : Nat → ℚ) (g h : ℚ) (e : Nat) : Rigid (form (loaded s g h e) 1) := SteadyEdges_rigid 0 e

theorem loaded_same (s s' : Nat → ℚ) (g g' h h' : ℚ) (e : Nat) : SameOperator (loaded s g h e) (loaded s' g' h' e) 1 0 := ⟨rfl, rfl, fun _ => Iff.rfl, fun _ => Iff.rfl⟩

/-- The hypotheses of C113 can be met: for all loads there are discrete solutions, which satisfy the reciprocity, and the work of a load is positive. -/
theorem C113_example (s s' : Nat → ℚ) : ∃ y u w y' u' w',
    SolvesLoad .debug (cramerSolve _ _ ℚ) 1 0 G3 G2nodes (· = ⟨0, by decide⟩) (fun _ _ => 3) (fun _ _ => 4) (loaded s 0 0) y u w ∧
    SolvesLoad .debug (cramerSolve _ _ ℚ) 1 0 G3 G2nodes (· = ⟨0, by decide⟩) (fun _ _ => 3) (fun _ _ => 4) (loaded s' 0 0) y' u' w' ∧
    work (loaded s 0 0) 0 u' = work (loaded s' 0 0) 0 u ∧ (s 0 ≠ 0 → 0 < work (loaded s 0 0) 0 u) := by
  have hD := DiffusionParab.Example.Edges_dirichlet 3
  have hex := fun s => C113_exists (nB := 1) .debug (cramerSolve _ _ ℚ) (C44_example _ _ ℚ) 1 one_pos 0 G3 G2nodes G3_wf (· = ⟨0, by decide⟩) (fun _ _ => 3) (fun _ _ => 4) (loaded s 0 0)
    (loaded_laws s 0 0) hD hD (loaded_rigid s 0 0) G2_anchored
  obtain ⟨⟨y, u, w⟩, h1, _⟩ := hex s
  obtain ⟨⟨y', u', w'⟩, h2, _⟩ := hex s'
  refine ⟨y, u, w, y', u', w', h1, h2, ?_, fun hs => ?_⟩
  · exact C113_reciprocity (nB := 1) .debug (cramerSolve _ _ ℚ) (C44_example _ _ ℚ) 1 one_pos 0 G3 G2nodes G3_wf _ _ _ (loaded s 0 0) (loaded s' 0 0) (loaded_laws s 0 0)
      (loaded_same _ _ _ _ _ _) h1 h2 hD hD (fun e => SteadyEdges_symm 0 e 0) (fun _ => ⟨fun _ _ _ => rfl, fun _ _ _ => rfl⟩) (fun _ => ⟨fun _ _ _ => rfl, fun _ _ _ => rfl⟩)
  · have := C113_work (nB := 1) .debug (cramerSolve _ _ ℚ) (C44_example _ _ ℚ) 1 one_pos 0 G3 G2nodes G3_wf _ _ _ (loaded s 0 0) (loaded_laws s 0 0) h1 hD hD (fun _ => ⟨fun _ _ _ => rfl, fun _ _ _ => rfl⟩)
    refine lt_of_le_of_ne (this.2.1 fun e => quad_nonneg (SteadyEdges_pos 0 e 0)) fun h0 => hs ?_
    exact (this.2.2 (fun e => SteadyEdges_pos 0 e 0) h0.symm).2 ⟨0, by decide⟩ 0

/-- Superposition with prescribed values which are not zero. -/
theorem C113_superposition_example (s s' : Nat → ℚ) : ∃ y u w y' u' w',
    SolvesLoad .debug (cramerSolve _ _ ℚ) 1 0 G3 G2nodes (· = ⟨0, by decide⟩) (fun _ _ => 3) (fun _ _ => 4) (loaded s 1 2) y u w ∧
    SolvesLoad .debug (cramerSolve _ _ ℚ) 1 0 G3 G2nodes (· = ⟨0, by decide⟩) (fun _ _ => 3) (fun _ _ => 4) (loaded s' 5 7) y' u' w' ∧
    SolvesLoad .debug (cramerSolve _ _ ℚ) 1 0 G3 G2nodes (· = ⟨0, by decide⟩) (fun _ _ => 3) (fun _ _ => 4) (loaded (2 * s + 3 * s') 17 25) ((2 : ℚ) • y + (3 : ℚ) • y') ((2 : ℚ) • u + (3 : ℚ) • u') ((2 : ℚ) • w + (3 : ℚ) • w') := by
  have hD := DiffusionParab.Example.Edges_dirichlet 3
  have hex := fun s g h => C113_exists (nB := 1) .debug (cramerSolve _ _ ℚ) (C44_example _ _ ℚ) 1 one_pos 0 G3 G2nodes G3_wf (· = ⟨0, by decide⟩) (fun _ _ => 3) (fun _ _ => 4) (loaded s g h)
    (loaded_laws s g h) hD hD (loaded_rigid s g h) G2_anchored
  obtain ⟨⟨y, u, w⟩, h1, _⟩ := hex s 1 2
  obtain ⟨⟨y', u', w'⟩, h2, _⟩ := hex s' 5 7
  refine ⟨y, u, w, y', u', w', h1, h2, ?_⟩
  exact C113_superposition (nB := 1) .debug (cramerSolve _ _ ℚ) (C44_example _ _ ℚ) 1 one_pos 0 G3 G2nodes G3_wf _ _ _ (loaded s 1 2) (loaded s' 5 7) (loaded_laws s 1 2)
    (loaded_same _ _ _ _ _ _) h1 h2 _ (loaded_same _ _ _ _ _ _) 2 3 fun e => ⟨fun _ => rfl, fun _ _ _ => by norm_num [loaded], fun _ _ _ => by norm_num [loaded]⟩

end Example

end HyperHDG.Bilaplacian

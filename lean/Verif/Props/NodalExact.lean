import Verif.Proofs.NodalExact

/-!
# Property C100: on networks the values at the nodes are exact

A network is a hypergraph of edges (dimension one); its nodes are points, so their areas are one and each has one degree of freedom.
-/

namespace HyperHDG.Estimate

open Finset Spec Matrix HyGraph Diffusion EllipticProgram Polynomial Exact

variable {p : Nat} {P : Fin (p + 1) → ℝ[X]}

/-- The inverse diffusion coefficient is a polynomial of degree less than `p` (e.g. a constant, if `p` is at least one). -/
def PolynomialCoefficient (p : Nat) (B : Data 0) : Prop := ∃ r : ℝ[X], r.natDegree < p ∧ ∀ z, B.a z = r.eval (z 0)

theorem shape_point (j : Fin ((p + 1) ^ 0)) (y : Fin 0 → ℝ) : shape P j y = 1 := by
  unfold shape
  exact Finset.prod_of_isEmpty _

theorem polyFun_point (v : Fin ((p + 1) ^ 0) → ℝ) (j : Fin ((p + 1) ^ 0)) (y : Fin 0 → ℝ) : polyFun P v y = v j := by
  unfold polyFun
  simp only [shape_point, mul_one]
  exact (Fintype.sum_subsingleton (ι := Fin 1) v j)

section
variable (hP : OrthonormalPolys p P) {B : Data 0} (hB : B.Admissible) (harea : ∀ f, B.A.area f = 1) {time : ℝ} {E : Edge (0 + 1) ((p + 1) ^ (0 + 1)) ℝ} (hE : ExactIntegrals P B time E)

include hP hB harea hE in
/-- The difference of exact and numerical fluxes at the ends of an edge. -/
theorem end_fluxes (ha : PolynomialCoefficient p B) : ∃ c : ℝ, 0 < c ∧ ∀ (tau : ℝ) (G : Fin (2 * (0 + 1)) → Fin ((p + 1) ^ (0 + 1)) → ℝ) (q' : Fin (0 + 1) → Fin ((p + 1) ^ (0 + 1)) → ℝ) (u' : Fin ((p + 1) ^ (0 + 1)) → ℝ)
    (_ : IsSolution (form E ((p + 1) ^ 0) time) tau 0 1 G (source E time) q' u') (T : Fin (2 * (0 + 1)) → (Fin 0 → ℝ) → ℝ)
    (_ : ∀ f i, G f i = B.A.area f * cubeInt fun y => T f y * shape P i (facePoint f y))
    (q : Fin (0 + 1) → (Fin (0 + 1) → ℝ) → ℝ) (u : (Fin (0 + 1) → ℝ) → ℝ) (_ : SolvesClassically B q u) (y : Fin 0 → ℝ) (f : Fin (2 * (0 + 1))),
    B.A.normal f 0 * q 0 (facePoint f y) - (B.A.normal f 0 * polyFun P (q' 0) (facePoint f y) + tau * (polyFun P u' (facePoint f y) - T f y)) =
      c * ((u (facePoint f.rev y) - T f.rev y) - (u (facePoint f y) - T f y)) := by
  obtain ⟨r, hr, har⟩ := ha
  obtain ⟨R, rfl, hR⟩ := antiderivative r hr
  have hsum : ∀ g : Fin (2 * (0 + 1)) → ℝ, ∑ f, g f = g 0 + g 1 := fun g => Fin.sum_univ_two g
  have hn0 : B.A.normal 0 0 = -B.A.cof 0 0 := by
    have p0 := hB.affine.piola 0 0
    rw [harea, mul_one, show axis (0 : Fin (2 * (0 + 1))) = 0 from Subsingleton.elim (α := Fin 1) _ _] at p0
    rw [p0]
    simp [Spec.normal]
  have hn1 : B.A.normal 1 0 = B.A.cof 0 0 := by
    have p1 := hB.affine.piola 1 0
    rw [harea, mul_one, show axis (1 : Fin (2 * (0 + 1))) = 0 from Subsingleton.elim (α := Fin 1) _ _] at p1
    rw [p1]
    simp [Spec.normal]
  have hcof : B.A.cof 0 0 ≠ 0 := by
    have h1 := (isUnit_iff_isUnit_det _).mp hB.affine.cof_inv
    have h2 : B.A.cof.det = B.A.cof 0 0 := det_fin_one _
    rw [h2] at h1
    exact h1.ne_zero
  have hface : ∀ (f : Fin (2 * (0 + 1))) (y : Fin 0 → ℝ), facePoint f y 0 = f.1 := fun f y => facePoint_zero one_pos f y
  -- the increase of the antiderivative
  have hpos : 0 < R.eval 1 - R.eval 0 := by
    have h1 : StrictMono fun x => R.eval x := strictMono_of_deriv_pos fun x => by
      rw [R.deriv]
      have := hB.pos fun _ => x
      rwa [har] at this
    exact sub_pos.mpr (h1 one_pos)
  have hvol := hB.affine.vol_pos
  let A : ℝ := R.eval 1 - R.eval 0
  refine ⟨B.A.cof 0 0 ^ 2 / (B.A.vol * A), div_pos (by positivity) (mul_pos hvol hpos), fun tau G q' u' h T hT q u hs y f => ?_⟩
  have hqc : Continuous (q 0) := let ⟨_, _, _, _, _, hq, _⟩ := hs; hq 0
  have hTc : ∀ f, Continuous (T f) := fun f => by
    have h1 : T f = fun _ => T f y := funext fun y' => by rw [show y' = y from funext fun k => k.elim0]
    rw [h1]
    exact continuous_const
  have hmean : B.A.vol * cubeInt (fun z => B.a z * (q 0 z - polyFun P (q' 0) z)) = -(B.A.cof 0 0 * ((u (facePoint 1 y) - T 1 y) - (u (facePoint 0 y) - T 0 y))) := by
    have h3 := mean_flux hP hB hE h hTc hT 0
    have h4 := mean_exact hP hB hE hs 0
    have i1 : ∀ f : Fin (2 * (0 + 1)), cubeInt (fun y => u (facePoint f y)) = u (facePoint f y) := fun f => int_point _ y
    have i2 : ∀ f : Fin (2 * (0 + 1)), cubeInt (T f) = T f y := fun f => int_point _ y
    simp only [hsum, harea, one_mul, i1, i2, hn0, hn1] at h3 h4
    have h5 : cubeInt (fun z => B.a z * (q 0 z - polyFun P (q' 0) z)) = cubeInt (fun z => B.a z * q 0 z) - cubeInt fun z => B.a z * polyFun P (q' 0) z := by
      rw [← cubeInt_sub (hB.cont.fun_mul hqc) (hB.cont.fun_mul (polyFun_cont _))]
      simp only [mul_sub]
    rw [h5]
    linear_combination h4 - h3
  -- the polynomials with values zero and one at the ends and derivatives proportional to the coefficient
  have htest : ∀ s t : ℝ, ∑ f, (s * R.eval (facePoint f y 0) + t) * (B.A.normal f 0 * q 0 (facePoint f y) - (B.A.normal f 0 * polyFun P (q' 0) (facePoint f y) + tau * (polyFun P u' (facePoint f y) - T f y))) =
      B.A.cof 0 0 * (s * cubeInt fun z => B.a z * (q 0 z - polyFun P (q' 0) z)) := fun s t => by
    have hd : (C s * R + C t).natDegree ≤ p := (natDegree_add_le _ _).trans (max_le ((natDegree_C_mul_le _ _).trans hR) ((natDegree_C t).le.trans (Nat.zero_le _)))
    obtain ⟨c, hc⟩ := poly_mem hP (isPoly_line (C s * R + C t) hd)
    have h1 := flux_difference hP hB harea hE h hT hs hc (partial_line _) ((C s * R + C t).derivative.continuous.comp (continuous_apply 0)) y
    simp only [eval_add, eval_mul, eval_C] at h1
    rw [h1]
    refine congrArg _ ((cubeInt_congr fun z _ => ?_).trans (cubeInt_mul _ _))
    rw [har]
    simp
    ring
  have hA : A ≠ 0 := hpos.ne'
  have hI : cubeInt (fun z => B.a z * (q 0 z - polyFun P (q' 0) z)) = -(B.A.cof 0 0 * ((u (facePoint 1 y) - T 1 y) - (u (facePoint 0 y) - T 0 y))) / B.A.vol := by
    rw [← hmean, mul_div_cancel_left₀ _ hvol.ne']
  have hf : f = 0 ∨ f = 1 := by
    rcases (show f.1 = 0 ∨ f.1 = 1 by have := f.2; omega) with h | h
    · exact .inl (Fin.ext h)
    · exact .inr (Fin.ext h)
  have v0 : ((0 : Fin (2 * (0 + 1))).1 : ℝ) = 0 := Nat.cast_zero
  have v1 : ((1 : Fin (2 * (0 + 1))).1 : ℝ) = 1 := Nat.cast_one
  have hA' : R.eval 1 = A + R.eval 0 := by simp only [A]; ring
  rcases hf with rfl | rfl
  · have h1 := htest (-1 / A) (R.eval 1 / A)
    rw [hsum, hface, hface, hI, v0, v1] at h1
    rw [show (0 : Fin (2 * (0 + 1))).rev = 1 from rfl]
    have e1 : -1 / A * R.eval 1 + R.eval 1 / A = 0 := by ring
    have e0 : -1 / A * R.eval 0 + R.eval 1 / A = 1 := by rw [hA']; field_simp; ring
    rw [e1, e0, zero_mul, add_zero, one_mul] at h1
    rw [h1]
    field_simp
  · have h1 := htest (1 / A) (-R.eval 0 / A)
    rw [hsum, hface, hface, hI, v0, v1] at h1
    rw [show (1 : Fin (2 * (0 + 1))).rev = 0 from rfl]
    have e1 : 1 / A * R.eval 0 + -R.eval 0 / A = 0 := by ring
    have e0 : 1 / A * R.eval 1 + -R.eval 0 / A = 1 := by rw [hA']; field_simp; ring
    rw [e1, e0, zero_mul, zero_add, one_mul] at h1
    rw [h1]
    field_simp
    ring

include hP harea hE in
/-- The numerical flux at an end of an edge. -/
theorem faceFlux_point (tau : ℝ) (lambda : Fin (2 * (0 + 1)) → Fin ((p + 1) ^ 0) → ℝ) (q' : Fin (0 + 1) → Fin ((p + 1) ^ (0 + 1)) → ℝ) (u' : Fin ((p + 1) ^ (0 + 1)) → ℝ) (f : Fin (2 * (0 + 1))) (j : Fin ((p + 1) ^ 0)) (y : Fin 0 → ℝ) :
    faceFlux (form E ((p + 1) ^ 0) time) tau lambda q' u' f j = B.A.normal f 0 * polyFun P (q' 0) (facePoint f y) + tau * (polyFun P u' (facePoint f y) - lambda f j) := by
  have hn : (form E ((p + 1) ^ 0) time).normal = B.A.normal := by rw [hE.form]; rfl
  have ha : (form E ((p + 1) ^ 0) time).area = B.A.area := by rw [hE.form]; rfl
  have hone : ∀ g : Fin (0 + 1) → Fin ((p + 1) ^ (0 + 1)) → ℝ, ∑ k, g k = g 0 := fun g => Fin.sum_univ_one g
  unfold faceFlux
  rw [Pi.sub_apply, Pi.smul_apply, smul_eq_mul, hn, ha, psiT_apply hP hE, int_point _ y, shape_point, harea, hone, polyFun_add, polyFun_smul, polyFun_smul]
  ring

end

/-- The sum over the nodes of the fluxes of differences is the sum of the squared differences along the edges. -/
theorem energy_zero {nE nN : Nat} (nodes : Fin nE → Fin (2 * (0 + 1)) → Fin nN) (D : Fin nN → Prop) (c : Fin nE → ℝ) (hc : ∀ e, 0 < c e) (err : Fin nN → ℝ) (hD : ∀ v, D v → err v = 0)
    (h : ∀ v, ¬ D v → ∑ e, ∑ f, (if nodes e f = v then c e * (err (nodes e f.rev) - err (nodes e f)) else 0) = 0) (e : Fin nE) : err (nodes e 0) = err (nodes e 1) := by
  have hsum : ∀ g : Fin (2 * (0 + 1)) → ℝ, ∑ f, g f = g 0 + g 1 := fun g => Fin.sum_univ_two g
  have h1 : ∑ v, err v * ∑ e, ∑ f, (if nodes e f = v then c e * (err (nodes e f.rev) - err (nodes e f)) else 0) = 0 := sum_eq_zero fun v _ => by
    by_cases hv : D v
    · rw [hD v hv, zero_mul]
    · rw [h v hv, mul_zero]
  have h2 : ∑ v, err v * ∑ e, ∑ f, (if nodes e f = v then c e * (err (nodes e f.rev) - err (nodes e f)) else 0) = -∑ e, c e * (err (nodes e 0) - err (nodes e 1)) ^ 2 := by
    simp only [mul_sum]
    rw [sum_comm, ← sum_neg_distrib]
    refine sum_congr rfl fun e _ => ?_
    rw [sum_comm]
    simp only [mul_ite, mul_zero, sum_ite_eq, mem_univ, if_true]
    rw [hsum, show (0 : Fin (2 * (0 + 1))).rev = 1 from rfl, show (1 : Fin (2 * (0 + 1))).rev = 0 from rfl]
    ring
  rw [h2, neg_eq_zero, sum_eq_zero_iff_of_nonneg fun e _ => mul_nonneg (hc e).le (sq_nonneg _)] at h1
  have h3 := (mul_eq_zero.mp (h1 e (mem_univ e))).resolve_left (hc e).ne'
  exact sub_eq_zero.mp (pow_eq_zero_iff two_ne_zero |>.mp h3)

section
variable (hP : OrthonormalPolys p P) (m : Mode) (gesv : Gesv (((0 + 1) + 1) * (p + 1) ^ (0 + 1)) 1 ℝ) (hg : GesvSpec gesv) (tau : ℝ) (ht : 0 < tau)
    (B : Nat → Data 0) (hB : ∀ e, (B e).Admissible) (harea : ∀ e f, (B e).A.area f = 1) (ha : ∀ e, PolynomialCoefficient p (B e)) (time : ℝ) (E : Nat → Edge (0 + 1) ((p + 1) ^ (0 + 1)) ℝ)
    (hE : ∀ e, ExactIntegrals P (B e) time (E e))
    (G : HyGraph (0 + 1) ((p + 1) ^ 0)) (nodes : Fin G.n_hyEdges → Fin (2 * (0 + 1)) → Fin G.n_hyNodes) (hwf : G.WF nodes)
    (D : Fin G.n_hyNodes → Prop) (hD : ∀ (e : Fin G.n_hyEdges) (f : Fin (2 * (0 + 1))), (E e).node_descriptor f ∈ (E e).dirichlet_nodes ↔ D (nodes e f)) (hcon : Anchored nodes D)
    (q : Fin G.n_hyEdges → Fin (0 + 1) → (Fin (0 + 1) → ℝ) → ℝ) (u : Fin G.n_hyEdges → (Fin (0 + 1) → ℝ) → ℝ) (w : Fin G.n_hyNodes → (Fin 0 → ℝ) → ℝ)
    (h : IsClassicalSolution (fun e : Fin G.n_hyEdges => B e) nodes D q u w)

include hP hg ht hB harea ha hE hwf hD hcon h in
theorem nodal_core : ∃ x : Fin (G.n_hyNodes * (p + 1) ^ 0) → ℝ,
    (∀ old0 new0 y, (VanishesAt D y ∧ (Elliptic.mk' G).apply m (localResidual m gesv tau E time) old0 new0 (List.ofFn y) = .ok (List.replicate (G.n_hyNodes * (p + 1) ^ 0) 0)) ↔ y = x) ∧
    (∀ v, ¬ D v → ∀ j y, x (dof v j) = w v y) ∧
    ∀ (e : Fin G.n_hyEdges) out y, residual_flux m gesv tau (faceValues nodes x e) out (E e) time = .ok (offDirichlet (E e) fun f _ => (B e).A.normal f 0 * q e 0 (facePoint f y)) := by
  classical
  obtain ⟨x, q', u', h1, h2, h3⟩ := discrete_solution hP m gesv hg tau ht B hB time E hE G nodes hwf D hD hcon
  have hx0 := ((h1 0 0 x).mpr rfl).1
  let T : Fin G.n_hyEdges → Fin (2 * (0 + 1)) → (Fin 0 → ℝ) → ℝ := fun e f => if D (nodes e f) then fun y => u e (facePoint f y) else polyFun P (faceValues nodes x e f)
  have hTD : ∀ e f, D (nodes e f) → T e f = fun y => u e (facePoint f y) := fun e f hf => if_pos hf
  have hTN : ∀ e f, ¬ D (nodes e f) → T e f = polyFun P (faceValues nodes x e f) := fun e f hf => if_neg hf
  have hc := fun e : Fin G.n_hyEdges => end_fluxes hP (hB e) (harea e) (hE e) (ha e)
  choose c hc0 hc using hc
  have hpt : ∀ y y' : Fin 0 → ℝ, y' = y := fun y y' => funext fun k => k.elim0
  let j0 : Fin ((p + 1) ^ 0) := ⟨0, by simp⟩
  let y0 : Fin 0 → ℝ := fun k => k.elim0
  let err : Fin G.n_hyNodes → ℝ := fun v => if D v then 0 else w v y0 - x (dof v j0)
  have herr : ∀ e f, u e (facePoint f y0) - T e f y0 = err (nodes e f) := fun e f => by
    by_cases hf : D (nodes e f)
    · simp only [err]
      rw [hTD e f hf, if_pos hf, sub_self]
    · simp only [err]
      rw [hTN e f hf, if_neg hf, h.continuous e f hf y0 (fun k => k.elim0), polyFun_point _ j0]
      rfl
  have hdiff : ∀ (e : Fin G.n_hyEdges) f, (B e).A.normal f 0 * q e 0 (facePoint f y0) - ((B e).A.normal f 0 * polyFun P (q' e 0) (facePoint f y0) + tau * (polyFun P (u' e) (facePoint f y0) - T e f y0)) =
      c e * (err (nodes e f.rev) - err (nodes e f)) := fun e f => by
    rw [hc e tau _ (q' e) (u' e) (h2 e) (T e) (face_moments hP (B := fun e : Fin G.n_hyEdges => B e) (E := fun e : Fin G.n_hyEdges => E e) (fun e => hE e) hD h hx0 hTD hTN e) (q e) (u e) (h.equation e) y0 f, herr, herr]
  have hT0 : ∀ e f, ¬ D (nodes e f) → T e f y0 = faceValues nodes x e f j0 := fun e f hf => by rw [hTN e f hf, polyFun_point _ j0]
  have hone : ∀ g : Fin (0 + 1) → ℝ, ∑ k, g k = g 0 := fun g => Fin.sum_univ_one g
  have hbal : ∀ v, ¬ D v → ∑ e, ∑ f, (if nodes e f = v then c e * (err (nodes e f.rev) - err (nodes e f)) else 0) = 0 := fun v hv => by
    have h4 := h.balance v hv y0 fun k => k.elim0
    have h5 := h3 v hv j0
    refine Eq.trans ?_ ((congrArg₂ (· - ·) h4 h5).trans (sub_zero 0))
    rw [← sum_sub_distrib]
    refine sum_congr rfl fun e _ => ?_
    rw [← sum_sub_distrib]
    refine sum_congr rfl fun f _ => ?_
    by_cases hf : nodes e f = v
    · rw [if_pos hf, if_pos hf, if_pos hf, ← hdiff, harea, one_mul, hone, faceFlux_point hP (harea e) (hE e) tau _ _ _ f j0 y0, hT0 e f (hf ▸ hv)]
    · rw [if_neg hf, if_neg hf, if_neg hf, sub_zero]
  have heq := energy_zero nodes D c hc0 err (fun v hv => if_pos hv) hbal
  have hzero : ∀ v, err v = 0 := fun v => by
    have h4 := anchored_bound nodes D hcon err (fun _ => 0) (fun _ => le_rfl) (fun v hv => if_pos hv) (fun e f g => by
      have hf : ∀ f : Fin (2 * (0 + 1)), f = 0 ∨ f = 1 := fun f => by
        rcases (show f.1 = 0 ∨ f.1 = 1 by have := f.2; omega) with h | h
        · exact .inl (Fin.ext h)
        · exact .inr (Fin.ext h)
      rcases hf f with rfl | rfl <;> rcases hf g with rfl | rfl <;> simp [heq e]) v
    rw [sum_const_zero] at h4
    exact abs_nonpos_iff.mp h4
  refine ⟨x, h1, fun v hv j y => ?_, fun e out y => ?_⟩
  · have h4 := hzero v
    simp only [err] at h4
    rw [if_neg hv, sub_eq_zero] at h4
    rw [hpt y0 y, h4]
    exact congrArg x (congrArg (dof v) (Subsingleton.elim (α := Fin 1) _ _))
  · have hS := (C21_solvable m gesv hg tau (E e) time (exact_laws hP (hB e) (hE e)).1 ht (0 : LocDofs (0 + 1) ((p + 1) ^ 0) ℝ) 0).1
    obtain ⟨q'', u'', h4, h5⟩ := (C21_residual m gesv hg tau (E e) time (faceValues nodes x e) out).1 hS
    obtain ⟨rfl, rfl⟩ := solution_unique hS h4 (h2 e)
    rw [h5]
    refine congrArg _ (funext fun f => funext fun j => ?_)
    unfold offDirichlet
    by_cases hf : IsDirichlet (E e) f
    · rw [if_pos hf, if_pos hf]
    · have hf' : ¬ D (nodes e f) := fun h' => hf ((hD e f).mpr h')
      have h6 := hdiff e f
      rw [hzero, hzero, sub_zero, mul_zero, sub_eq_zero, hT0 e f hf'] at h6
      rw [if_neg hf, if_neg hf, faceFlux_point hP (harea e) (hE e) tau _ _ _ f j y0, hpt y0 y, show j = j0 from Subsingleton.elim (α := Fin 1) _ _]
      exact h6.symm

include hP hg ht hB harea ha hE hwf hD hcon h in
/-- **C100** (values at the nodes).  On a network of edges where each node is connected to a Dirichlet node, with an inverse diffusion coefficient which is on each edge a polynomial of degree less than `p` (e.g. a constant),
with any right-hand side and any positive `tau`: the only vector with residual zero consists of the values of the exact solution at the nodes. -/
theorem C100_nodes (old0 new0 : LocDofs (0 + 1) ((p + 1) ^ 0) ℝ) (x : Fin (G.n_hyNodes * (p + 1) ^ 0) → ℝ) :
    (VanishesAt D x ∧ (Elliptic.mk' G).apply m (localResidual m gesv tau E time) old0 new0 (List.ofFn x) = .ok (List.replicate (G.n_hyNodes * (p + 1) ^ 0) 0)) ↔
      VanishesAt D x ∧ ∀ v, ¬ D v → ∀ j y, x (dof v j) = w v y := by
  obtain ⟨x', h1, h2, _⟩ := nodal_core hP m gesv hg tau ht B hB harea ha time E hE G nodes hwf D hD hcon q u w h
  have h0 := ((h1 old0 new0 x').mpr rfl).1
  constructor
  · intro hx
    obtain rfl := (h1 old0 new0 x).mp hx
    exact ⟨h0, h2⟩
  · intro hx
    refine (h1 old0 new0 x).mpr (funext fun k => ?_)
    obtain ⟨v, j, rfl⟩ := dof_surj k
    by_cases hv : D v
    · rw [hx.1 v hv, h0 v hv]
    · rw [hx.2 v hv j fun k => k.elim0, h2 v hv j fun k => k.elim0]

include hP hg ht hB harea ha hE hwf hD hcon h in
/-- **C100** (fluxes).  For the solution of the discrete problem, the local solver returns for each edge the fluxes of the exact solution at the ends of the edge (zero at Dirichlet nodes, as always). -/
theorem C100_fluxes (old0 new0 : LocDofs (0 + 1) ((p + 1) ^ 0) ℝ) (x : Fin (G.n_hyNodes * (p + 1) ^ 0) → ℝ) (hx0 : VanishesAt D x)
    (hx : (Elliptic.mk' G).apply m (localResidual m gesv tau E time) old0 new0 (List.ofFn x) = .ok (List.replicate (G.n_hyNodes * (p + 1) ^ 0) 0)) (e : Fin G.n_hyEdges) (out : LocDofs (0 + 1) ((p + 1) ^ 0) ℝ)
    (y : Fin 0 → ℝ) :
    residual_flux m gesv tau (faceValues nodes x e) out (E e) time = .ok (offDirichlet (E e) fun f _ => (B e).A.normal f 0 * q e 0 (facePoint f y)) := by
  obtain ⟨x', h1, _, h3⟩ := nodal_core hP m gesv hg tau ht B hB harea ha time E hE G nodes hwf D hD hcon q u w h
  obtain rfl := (h1 old0 new0 x).mp ⟨hx0, hx⟩
  exact h3 e out y

end

open Exact.Example

/-- **C100** (line).  A diffusion problem on the unit interval, divided into `n` edges, whose inverse diffusion coefficient is a polynomial of degree less than `p`: the solution of the discrete problem consists of the values of
the exact solution at the points `v / n`, for every `n`, `p` and `tau`. -/
theorem C100_line (hP : OrthonormalPolys p P) (L : Line) (r : ℝ[X]) (hr : r.natDegree < p) (ha : ∀ s, L.a s = r.eval s) (hf : Continuous L.f) (n : Nat) (hn : 0 < n) (hU : n + 1 < U32) (m : Mode)
    (gesv : Gesv (((0 + 1) + 1) * (p + 1) ^ (0 + 1)) 1 ℝ) (hg : GesvSpec gesv) (tau : ℝ) (ht : 0 < tau) (old0 new0 : LocDofs (0 + 1) ((p + 1) ^ 0) ℝ) (x : Fin ((path p n).n_hyNodes * (p + 1) ^ 0) → ℝ) :
    (VanishesAt (Ends p n) x ∧ (Elliptic.mk' (path p n)).apply m (localResidual m gesv tau (L.edges P n) 0) old0 new0 (List.ofFn x) = .ok (List.replicate ((path p n).n_hyNodes * (p + 1) ^ 0) 0)) ↔
      VanishesAt (Ends p n) x ∧ ∀ v, ¬ Ends p n v → ∀ j, x (dof v j) = L.u (v.1 / n) := by
  rw [C100_nodes hP m gesv hg tau ht (L.data n) (data_admissible L hn) (fun e f => rfl) (fun e => ⟨r.comp (C (1 / n : ℝ) * X + C (e / n : ℝ)), ?_, fun z => ?_⟩) 0 (L.edges P n) (line_integrals P L n) (path p n) (pathNodes p n)
    (path_wf p n hU) (Ends p n) (line_types L n) (path_anchored p n) (fun e _ z => L.q ((e.1 + z 0) / n)) (fun e z => L.u ((e.1 + z 0) / n)) (fun v _ => L.u (v.1 / n)) (line_solution L hn p hf) old0 new0 x]
  · exact and_congr_right fun _ => forall_congr' fun v => imp_congr_right fun _ => forall_congr' fun j => ⟨fun h => h fun k => k.elim0, fun h _ => h⟩
  · refine lt_of_le_of_lt natDegree_comp_le (lt_of_le_of_lt ?_ hr)
    exact (Nat.mul_le_mul_left _ (natDegree_linear_le (a := (1 / n : ℝ)) (b := (e / n : ℝ)))).trans (Nat.mul_one _).le
  · show L.a ((e + z 0) / n) = _
    rw [ha, eval_comp]
    congr 1
    simp
    ring

/-- Diffusion with coefficient one and right-hand side `exp`. -/
noncomputable def expLine : Line where
  a := fun _ => 1
  f := Real.exp
  q := Real.exp
  u := fun s => -Real.exp s
  cont := continuous_const
  pos := fun _ => one_pos
  flux := fun s => (Real.hasDerivAt_exp s).fun_neg.congr_deriv (by rw [one_mul])
  balance := Real.hasDerivAt_exp

/-- **C100** (example).  The solution of the discrete problem with right-hand side `exp`, for every degree at least one. -/
theorem C100_example (hP : OrthonormalPolys p P) (hp : 1 ≤ p) (n : Nat) (hn : 0 < n) (hU : n + 1 < U32) (m : Mode) (gesv : Gesv (((0 + 1) + 1) * (p + 1) ^ (0 + 1)) 1 ℝ) (hg : GesvSpec gesv) (tau : ℝ) (ht : 0 < tau)
    (old0 new0 : LocDofs (0 + 1) ((p + 1) ^ 0) ℝ) (x : Fin ((path p n).n_hyNodes * (p + 1) ^ 0) → ℝ) :
    (VanishesAt (Ends p n) x ∧ (Elliptic.mk' (path p n)).apply m (localResidual m gesv tau (expLine.edges P n) 0) old0 new0 (List.ofFn x) = .ok (List.replicate ((path p n).n_hyNodes * (p + 1) ^ 0) 0)) ↔
      VanishesAt (Ends p n) x ∧ ∀ v, ¬ Ends p n v → ∀ j, x (dof v j) = -Real.exp (v.1 / n) :=
  C100_line hP expLine 1 (by rw [natDegree_one]; exact hp) (fun s => (eval_one).symm) Real.continuous_exp n hn hU m gesv hg tau ht old0 new0 x

/-- Diffusion with coefficient one and the solution `s^2`. -/
noncomputable def squareLine : Line where
  a := fun _ => 1
  f := fun _ => -2
  q := fun s => -(2 * s)
  u := fun s => s ^ 2
  cont := continuous_const
  pos := fun _ => one_pos
  flux := fun s => by simpa using hasDerivAt_pow 2 s
  balance := fun s => ((hasDerivAt_id s).const_mul 2).fun_neg.congr_deriv (by rw [mul_one])

/-- **C100** (degree zero).  For degree zero the values at the nodes are not exact, even for a constant coefficient: on the path with two edges the vector of the values of the exact solution `s^2` has a residual which is not zero. -/
theorem C100_degree_zero {P : Fin (0 + 1) → ℝ[X]} (hP : OrthonormalPolys 0 P) (m : Mode) (gesv : Gesv (((0 + 1) + 1) * (0 + 1) ^ (0 + 1)) 1 ℝ) (hg : GesvSpec gesv) (tau : ℝ) (ht : 0 < tau)
    (old0 new0 : LocDofs (0 + 1) ((0 + 1) ^ 0) ℝ) (x : Fin ((path 0 2).n_hyNodes * (0 + 1) ^ 0) → ℝ) (hx0 : VanishesAt (Ends 0 2) x) (hx : ∀ v, ¬ Ends 0 2 v → ∀ j, x (dof v j) = squareLine.u (v.1 / 2)) :
    (Elliptic.mk' (path 0 2)).apply m (localResidual m gesv tau (squareLine.edges P 2) 0) old0 new0 (List.ofFn x) ≠ .ok (List.replicate ((path 0 2).n_hyNodes * (0 + 1) ^ 0) 0) := by
  classical
  intro hzero
  have hn : (0 : Nat) < 2 := two_pos
  obtain ⟨x', q', u', h1, h2, h3⟩ := discrete_solution hP m gesv hg tau ht (squareLine.data 2) (data_admissible squareLine hn) 0 (squareLine.edges P 2) (line_integrals P squareLine 2) (path 0 2) (pathNodes 0 2)
    (path_wf 0 2 (by decide)) (Ends 0 2) (line_types squareLine 2) (path_anchored 0 2)
  obtain rfl := (h1 old0 new0 x).mp ⟨hx0, hzero⟩
  have hs := line_solution squareLine hn 0 continuous_const
  let y0 : Fin 0 → ℝ := fun k => k.elim0
  let j0 : Fin ((0 + 1) ^ 0) := ⟨0, by simp⟩
  have hmid : ¬ Ends 0 2 ⟨1, by decide⟩ := fun h => by rcases h with h | h <;> cases h
  let T : Fin (path 0 2).n_hyEdges → Fin (2 * (0 + 1)) → (Fin 0 → ℝ) → ℝ := fun e f _ => ((e.1 + f.1) / 2 : ℝ) ^ 2
  have hu : ∀ (e : Fin (path 0 2).n_hyEdges) f y, squareLine.u ((e.1 + facePoint f y 0) / (2 : Nat)) = T e f y := fun e f y => by
    rw [facePoint_zero one_pos]
    simp [squareLine, T]
  have hTD : ∀ e f, Ends 0 2 (pathNodes 0 2 e f) → T e f = fun y => squareLine.u ((e.1 + facePoint f y 0) / (2 : Nat)) := fun e f _ => funext fun y => (hu e f y).symm
  have hTN : ∀ e f, ¬ Ends 0 2 (pathNodes 0 2 e f) → T e f = polyFun P (faceValues (pathNodes 0 2) x e f) := fun e f hf => funext fun y => by
    rw [polyFun_point _ j0]
    show _ = x (dof (pathNodes 0 2 e f) j0)
    rw [hx _ hf]
    simp [squareLine, T, pathNodes]
  have hmom := face_moments hP (B := fun e : Fin (path 0 2).n_hyEdges => squareLine.data 2 e) (E := fun e : Fin (path 0 2).n_hyEdges => squareLine.edges P 2 e) (fun e => line_integrals P squareLine 2 e) (line_types squareLine 2) hs hx0 hTD hTN
  have hconst : ∀ (v : Fin ((0 + 1) ^ (0 + 1)) → ℝ) z z', polyFun P v z = polyFun P v z' := fun v z z' => by
    unfold polyFun shape
    refine sum_congr rfl fun i _ => congrArg _ (prod_congr rfl fun k _ => ?_)
    rw [eq_C_of_natDegree_le_zero (hP.degree (finFunctionFinEquiv.symm i k)), eval_C, eval_C]
  have hsum : ∀ g : Fin (2 * (0 + 1)) → ℝ, ∑ f, g f = g 0 + g 1 := fun g => Fin.sum_univ_two g
  -- the mean values of the flux and of the primal unknown on an edge
  let z0 : Fin (0 + 1) → ℝ := fun _ => 0
  have hflux : ∀ e : Fin (path 0 2).n_hyEdges, polyFun P (q' e 0) z0 = -(2 * (T e 1 y0 - T e 0 y0)) := fun e => by
    have h4 := mean_flux hP (data_admissible squareLine hn e) (line_integrals P squareLine 2 e) (h2 e) (T := T e) (fun f => continuous_const) (hmom e) 0
    have i2 : ∀ f : Fin (2 * (0 + 1)), cubeInt (T e f) = T e f y0 := fun f => int_point _ y0
    have i3 : cubeInt (fun z => (squareLine.data 2 e).a z * polyFun P (q' e 0) z) = polyFun P (q' e 0) z0 := by
      refine Eq.trans (cubeInt_congr fun z _ => ?_) (cubeInt_const _)
      show 1 * _ = _
      rw [one_mul, hconst _ z z0]
    rw [i3, hsum, i2, i2] at h4
    have h5 : (1 / (2 : Nat) : ℝ) * polyFun P (q' e 0) z0 + (-1 * (1 * T e 0 y0) + 1 * (1 * T e 1 y0)) = 0 := h4
    push_cast at h5
    linarith
  have hprim : ∀ e : Fin (path 0 2).n_hyEdges, tau * (2 * polyFun P (u' e) z0 - (T e 0 y0 + T e 1 y0)) = -1 := fun e => by
    obtain ⟨c, hc⟩ := poly_mem hP (isPoly_const (n := 0 + 1) 0 1)
    have h4 := flux_difference hP (data_admissible squareLine hn e) (fun f => rfl) (line_integrals P squareLine 2 e) (h2 e) (T := T e) (hmom e) (hs.equation e) hc (dg := fun _ => 0) (fun z => hasDerivAt_const _ _) continuous_const y0
    simp only [zero_mul, one_mul] at h4
    rw [cubeInt_const, mul_zero, hsum, facePoint_zero one_pos, facePoint_zero one_pos, hconst (q' e 0) (facePoint 0 y0) z0, hconst (q' e 0) (facePoint 1 y0) z0, hconst (u' e) (facePoint 0 y0) z0, hconst (u' e) (facePoint 1 y0) z0] at h4
    have h5 : (-1 * (-(2 * ((e.1 + (0 : Nat) : ℝ) / (2 : Nat)))) - (-1 * polyFun P (q' e 0) z0 + tau * (polyFun P (u' e) z0 - T e 0 y0))) +
      (1 * (-(2 * ((e.1 + (1 : Nat) : ℝ) / (2 : Nat)))) - (1 * polyFun P (q' e 0) z0 + tau * (polyFun P (u' e) z0 - T e 1 y0))) = 0 := h4
    push_cast at h5
    linarith
  -- the balance at the node in the middle
  have hbal := h3 ⟨1, by decide⟩ hmid j0
  have hs2 : ∀ g : Fin (path 0 2).n_hyEdges → ℝ, ∑ e, g e = g ⟨0, two_pos⟩ + g ⟨1, one_lt_two⟩ := fun g => Fin.sum_univ_two g
  have hif : ∀ (e : Fin (path 0 2).n_hyEdges) (f : Fin (2 * (0 + 1))), (if pathNodes 0 2 e f = ⟨1, by decide⟩ then faceFlux (form (squareLine.edges P 2 e) ((0 + 1) ^ 0) 0) tau (faceValues (pathNodes 0 2) x e) (q' e) (u' e) f j0 else 0) =
      if e.1 + f.1 = 1 then (squareLine.data 2 e).A.normal f 0 * polyFun P (q' e 0) z0 + tau * (polyFun P (u' e) z0 - T e f y0) else 0 := fun e f => by
    by_cases hf : e.1 + f.1 = 1
    · have hf' : pathNodes 0 2 e f = ⟨1, by decide⟩ := Fin.ext hf
      rw [if_pos hf, if_pos hf', faceFlux_point hP (B := squareLine.data 2 e) (fun f => rfl) (line_integrals P squareLine 2 e) tau _ _ _ f j0 y0, hconst (q' e 0) (facePoint f y0) z0, hconst (u' e) (facePoint f y0) z0,
        hTN e f (hf' ▸ hmid), polyFun_point _ j0]
    · rw [if_neg hf, if_neg fun h => hf (congrArg Fin.val h)]
  simp only [hif] at hbal
  rw [hs2, hsum, hsum] at hbal
  have a0 := hflux ⟨0, two_pos⟩
  have a1 := hflux ⟨1, one_lt_two⟩
  have b0 := hprim ⟨0, two_pos⟩
  have b1 := hprim ⟨1, one_lt_two⟩
  have t : ∀ (e : Nat) (he : e < 2) (f : Fin (2 * (0 + 1))), T ⟨e, he⟩ f y0 = ((e + f.1) / 2 : ℝ) ^ 2 := fun e he f => rfl
  have hbal' : (1 * polyFun P (q' ⟨0, two_pos⟩ 0) z0 + tau * (polyFun P (u' ⟨0, two_pos⟩) z0 - T ⟨0, two_pos⟩ 1 y0)) + (-1 * polyFun P (q' ⟨1, one_lt_two⟩ 0) z0 + tau * (polyFun P (u' ⟨1, one_lt_two⟩) z0 - T ⟨1, one_lt_two⟩ 0 y0)) = 0 := by
    refine Eq.trans ?_ hbal
    simp [squareLine, Line.data]
  simp only [t] at hbal' a0 a1 b0 b1
  have c0 : ((0 : Fin (2 * (0 + 1))).1 : ℝ) = 0 := Nat.cast_zero
  have c1 : ((1 : Fin (2 * (0 + 1))).1 : ℝ) = 1 := Nat.cast_one
  rw [c0, c1, Nat.cast_zero] at hbal'
  rw [c0, c1, Nat.cast_zero] at a0 b0
  rw [c0, c1, Nat.cast_one] at a1 b1
  refine ht.ne' ?_
  linear_combination 4 * hbal' - 4 * a0 + 4 * a1 - 2 * b0 - 2 * b1

end HyperHDG.Estimate

import Verif.Props.NewtonProgram
import Verif.Proofs.NewtonLocal
import Mathlib.Analysis.Calculus.FDeriv.Mul

/-!
# Property C91: Newton's method near a simple eigenpair
-/

namespace HyperHDG.NewtonProgram

open EigenvalueProgram (pyGet pySet npMultiply npSubtract)
open ParabolicProgram (LinearSolver)
open _root_.Topology Filter

variable {n : Nat}

/-- The updates whose residual is at most 0.01 times the square of that before. -/
def AccurateUpdate (update : Update) : Prop :=
  ∀ A b x, 0 < norm b → update (norm b) A b = .ok (.ok x) → ∃ w, A x = .ok w ∧ norm (List.zipWith (fun a b => a - b) w b) ≤ 1 / 100 * norm b ^ 2

theorem norm_nonneg' (v : List ℝ) : 0 ≤ norm v := Real.sqrt_nonneg _

theorem accurate_of {s : ℝ → LinearSolver ℝ} (h : AccurateSolver s) {tol : ℝ} {A : List ℝ → Res (List ℝ)} {b x : List ℝ} (hb : 0 < norm b) (ht : tol ≤ 1 / 100 * norm b) (hs : s tol A b = .ok (x, 0)) :
    ∃ w, A x = .ok w ∧ norm (List.zipWith (fun a b => a - b) w b) ≤ 1 / 100 * norm b ^ 2 := by
  obtain ⟨w, h1, h2⟩ := h tol A b x hb (by linarith) hs
  exact ⟨w, h1, h2.trans (by nlinarith)⟩

theorem accurate_diffusion {gmres : ℝ → LinearSolver ℝ} (h : AccurateSolver gmres) : AccurateUpdate (diffusion_update gmres) := by
  intro A b x h0b hx
  unfold diffusion_update at hx
  obtain ⟨t, h1, hx⟩ := Res.bind_eq_ok.mp hx
  split at hx
  · rename_i h0
    rw [← Except.ok.inj (Res.ok.inj hx)]
    exact accurate_of h h0b (le_refl _) (h1.trans (congrArg Res.ok (Prod.ext rfl h0)))
  · exact (nomatch (Res.ok.inj hx))

theorem accurate_bilaplacian {bicgstab gmres : ℝ → LinearSolver ℝ} (hb : AccurateSolver bicgstab) (h : AccurateSolver gmres) : AccurateUpdate (bilaplacian_update bicgstab gmres) := by
  intro A b x h0b hx
  unfold bilaplacian_update at hx
  obtain ⟨t, h1, hx⟩ := Res.bind_eq_ok.mp hx
  split at hx
  · rename_i h0
    rw [← Except.ok.inj (Res.ok.inj hx)]
    exact accurate_of hb h0b (min_le_right _ _) (h1.trans (congrArg Res.ok (Prod.ext rfl h0)))
  · obtain ⟨t, h1, hx⟩ := Res.bind_eq_ok.mp hx
    split at hx
    · rename_i h0
      rw [← Except.ok.inj (Res.ok.inj hx)]
      exact accurate_of h h0b (min_le_right _ _) (h1.trans (congrArg Res.ok (Prod.ext rfl h0)))
    · exact (nomatch (Res.ok.inj hx))

/-- The updates for the residual zero. -/
def ZeroUpdate (update : Update) : Prop := ∀ A k, update 0 A (List.replicate k 0) = .ok (.ok (List.replicate k 0))

theorem zero_diffusion {gmres : ℝ → LinearSolver ℝ} (h : ZeroSolver gmres) : ZeroUpdate (diffusion_update gmres) := by
  intro A k
  unfold diffusion_update
  rw [h]
  rfl

theorem zero_bilaplacian {bicgstab gmres : ℝ → LinearSolver ℝ} (h : ZeroSolver bicgstab) : ZeroUpdate (bilaplacian_update bicgstab gmres) := by
  intro A k
  unfold bilaplacian_update
  rw [h]
  rfl

/-- The residual as a function. -/
def full (R : (Fin n → ℝ) × ℝ → Fin n → ℝ) (q : (Fin n → ℝ) × ℝ) : (Fin n → ℝ) × ℝ := (R q, (∑ k, q.1 k ^ 2) - 1)

theorem hasFDerivAt_sq (q : (Fin n → ℝ) × ℝ) :
    HasFDerivAt (fun q : (Fin n → ℝ) × ℝ => (∑ k, q.1 k ^ 2) - 1) (∑ k, (2 * q.1 k) • ((ContinuousLinearMap.proj k).comp (ContinuousLinearMap.fst ℝ (Fin n → ℝ) ℝ))) q := by
  refine HasFDerivAt.sub_const _ (HasFDerivAt.fun_sum fun k _ => ?_)
  have h := ((ContinuousLinearMap.proj (R := ℝ) (φ := fun _ : Fin n => ℝ) k).comp (ContinuousLinearMap.fst ℝ (Fin n → ℝ) ℝ)).hasFDerivAt (x := q)
  have h2 := h.mul h
  refine (h2.congr_fderiv ?_).congr_of_eventuallyEq (Eventually.of_forall fun r => sq _)
  rw [two_mul, add_smul]
  rfl

theorem contDiff_sq : ContDiff ℝ 1 (fun q : (Fin n → ℝ) × ℝ => (∑ k, q.1 k ^ 2) - 1) := by
  refine ContDiff.sub (ContDiff.sum fun k _ => ContDiff.pow ?_ 2) contDiff_const
  exact ((ContinuousLinearMap.proj (R := ℝ) (φ := fun _ : Fin n => ℝ) k).comp (ContinuousLinearMap.fst ℝ (Fin n → ℝ) ℝ)).contDiff

theorem contDiffAt_full {R : (Fin n → ℝ) × ℝ → Fin n → ℝ} {p : (Fin n → ℝ) × ℝ} (h : ContDiffAt ℝ 1 R p) : ContDiffAt ℝ 1 (full R) p := h.prodMk contDiff_sq.contDiffAt

theorem fderiv_full {R : (Fin n → ℝ) × ℝ → Fin n → ℝ} {p : (Fin n → ℝ) × ℝ} (h : DifferentiableAt ℝ R p) (u : (Fin n → ℝ) × ℝ) :
    fderiv ℝ (full R) p u = (fderiv ℝ R p u, 2 * ∑ k, p.1 k * u.1 k) := by
  have h1 : HasFDerivAt (full R) _ p := h.hasFDerivAt.prodMk (hasFDerivAt_sq p)
  rw [h1.fderiv]
  refine Prod.ext rfl ?_
  simp [Finset.mul_sum, mul_assoc]

theorem norm_le (y : Fin n → ℝ) (a : ℝ) : ‖(y, a)‖ ≤ norm (joined y a) := by
  rw [norm_joined, Prod.norm_def]
  have h0 : 0 ≤ ∑ k, y k ^ 2 := Finset.sum_nonneg fun k _ => sq_nonneg _
  refine max_le ?_ ?_
  · rw [pi_norm_le_iff_of_nonneg (Real.sqrt_nonneg _)]
    intro k
    refine Real.le_sqrt_of_sq_le ?_
    rw [Real.norm_eq_abs, sq_abs]
    have := Finset.single_le_sum (f := fun k => y k ^ 2) (fun k _ => sq_nonneg _) (Finset.mem_univ k)
    have h2 := sq_nonneg a
    linarith
  · refine Real.le_sqrt_of_sq_le ?_
    rw [Real.norm_eq_abs, sq_abs]
    linarith

theorem le_norm (y : Fin n → ℝ) (a : ℝ) : norm (joined y a) ≤ √(n + 1) * ‖(y, a)‖ := by
  rw [norm_joined]
  refine Real.sqrt_le_left (by positivity) |>.mpr ?_
  rw [mul_pow, Real.sq_sqrt (by positivity), add_mul, one_mul]
  have h1 : ∀ k, y k ^ 2 ≤ ‖(y, a)‖ ^ 2 := fun k => by
    rw [← sq_abs (y k)]
    exact pow_le_pow_left₀ (abs_nonneg _) ((norm_le_pi_norm y k).trans (norm_fst_le (y, a))) 2
  have h2 : a ^ 2 ≤ ‖(y, a)‖ ^ 2 := by
    rw [← sq_abs a]
    exact pow_le_pow_left₀ (abs_nonneg _) (norm_snd_le (y, a)) 2
  have h3 := Finset.sum_le_sum fun k (_ : k ∈ Finset.univ) => h1 k
  simp only [Finset.sum_const, Finset.card_univ, Fintype.card_fin, nsmul_eq_mul] at h3
  linarith

theorem sub_joined (y z : Fin n → ℝ) (a b : ℝ) : List.zipWith (fun a b => a - b) (joined y a) (joined z b) = joined (y - z) (a - b) := by
  unfold joined
  rw [List.zipWith_append (by simp)]
  congr 1
  refine List.ext_getElem (by simp) fun i h1 h2 => ?_
  simp

theorem flux_unique {W : Wrapper} {x y z : Fin n → ℝ} {eig : ℝ} (hy : HasFlux W x eig y) (hz : HasFlux W x eig z) : y = z := by
  obtain ⟨l1, e1⟩ := hy
  obtain ⟨l2, e2⟩ := hz
  exact (joined_inj (Res.ok.inj (e1.symm.trans e2))).1

theorem joined_zero : joined (0 : Fin n → ℝ) 0 = List.replicate (n + 1) 0 := by
  rw [List.replicate_succ']
  unfold joined
  congr 1
  exact List.ofFn_const n (0 : ℝ)

theorem zero_of_norm {y : Fin n → ℝ} {a : ℝ} (h : norm (joined y a) = 0) : joined y a = List.replicate (n + 1) 0 := by
  have h1 := norm_le y a
  rw [h] at h1
  have h2 : (y, a) = 0 := norm_le_zero_iff.mp h1
  have h3 : y = 0 := congrArg Prod.fst h2
  have h4 : a = 0 := congrArg Prod.snd h2
  rw [h3, h4, joined_zero]

/-- **C91** (near an eigenpair).  Let `p` be a simple eigenpair.  From each point close enough to it, if the solution of the linear system succeeds, the step of Newton's method succeeds with the full
update; the step is as short as required and it reduces the defect by the factor required. -/
theorem C91_local (W : Wrapper) (hL : Lengths W) (update : Update) (hK : KrylovUpdate update) (hA : AccurateUpdate update) (hU : ZeroUpdate update) (Z : Fin n → Prop)
    (hF : ∀ (x : Fin n → ℝ) eig y, HasFlux W x eig y → ∀ k, Z k → y k = 0) (hJ : ∀ x_val eig_val (x : Fin n → ℝ) eig y, HasJacobian W x_val eig_val x eig y → ∀ k, Z k → y k = 0)
    (R : (Fin n → ℝ) × ℝ → Fin n → ℝ) (p : (Fin n → ℝ) × ℝ) (hs : SmoothAt W R p) (hp : SimplePair W Z p) {η ε : ℝ} (hη : 0 < η) (hε : 0 < ε) :
    ∀ᶠ q in 𝓝 p, ∀ y u, HasFlux W q.1 q.2 y → update (defect q.1 y) (jacobian W (joined q.1 q.2)) (joined y ((∑ k, q.1 k ^ 2) - 1)) = .ok (.ok u) →
      ∃ (q' : (Fin n → ℝ) × ℝ) (y' : Fin n → ℝ), HasFlux W q'.1 q'.2 y' ∧
        newton_step W update (joined q.1 q.2) (joined y ((∑ k, q.1 k ^ 2) - 1)) (defect q.1 y) = .ok (.ok (joined q'.1 q'.2, joined y' ((∑ k, q'.1 k ^ 2) - 1), defect q'.1 y')) ∧
        u = joined (q.1 - q'.1) (q.2 - q'.2) ∧ dist q' q ≤ ε ∧ defect q'.1 y' ≤ η * defect q.1 y := by
  let V : Submodule ℝ ((Fin n → ℝ) × ℝ) :=
    { carrier := {u | ∀ k, Z k → u.1 k = 0}
      add_mem' := fun {a b} ha hb k hk => by simp [ha k hk, hb k hk]
      zero_mem' := fun k _ => rfl
      smul_mem' := fun c a ha k hk => by simp [ha k hk] }
  have hdiff : DifferentiableAt ℝ R p := hs.smooth.differentiableAt (by norm_num)
  have hzero : R p = 0 := flux_unique hs.flux.self_of_nhds hp.zero
  obtain ⟨c, hc, hcV⟩ := NewtonLocal.bounded_below (fderiv ℝ (full R) p) V (fun u hu h => by
    rw [fderiv_full hdiff] at h
    have h1 := hs.jacobian.self_of_nhds u
    rw [show fderiv ℝ R p u = 0 from congrArg Prod.fst h] at h1
    refine hp.simple u hu h1 ?_
    have := congrArg Prod.snd h
    simpa using this)
  -- closer than required, in order that the point reached is in the neighbourhood
  have hnear : ∃ ρ > 0, ∀ q, dist q p < ρ → HasFlux W q.1 q.2 (R q) := Metric.eventually_nhds_iff.mp hs.flux
  obtain ⟨ρ, hρ, hball⟩ := hnear
  have hfac : 0 < min η (1 / 2) / √(n + 1) := by positivity
  have hstep := NewtonLocal.step (full R) p (contDiffAt_full hs.smooth) (by
    unfold full
    rw [hzero, hp.norm, sub_self]
    rfl) V hc hcV (1 / 100 * (n + 1)) hfac (lt_min hε (half_pos hρ))
  have hdiff' : ∀ᶠ q in 𝓝 p, DifferentiableAt ℝ R q :=
    (hs.smooth.eventually (by norm_num)).mono fun q hq => hq.differentiableAt (by norm_num)
  filter_upwards [hs.flux, hs.jacobian, hstep, hdiff', Metric.ball_mem_nhds p (half_pos hρ)] with q hq1 hq2 hq3 hq4 hq5 y u hy hu
  have hyR := flux_unique hy hq1
  subst hyR
  obtain ⟨dx, deig, rfl, hdx⟩ := krylov_zero W hL Z hJ (hF _ _ _ hy) (hK _ _ _ _ hu)
  have hnorm : norm (joined (R q) ((∑ k, q.1 k ^ 2) - 1)) = defect q.1 (R q) := norm_joined _ _
  have hu' := hu
  rw [← hnorm] at hu'
  have hw3 : jacobian W (joined q.1 q.2) (joined dx deig) = .ok (joined (fderiv ℝ R q (dx, deig)) (2 * ∑ k, q.1 k * dx k)) := by
    unfold jacobian
    rw [C91_jacobian W (hq2 (dx, deig))]
    rfl
  have hw2 : norm (List.zipWith (fun a b => a - b) (joined (fderiv ℝ R q (dx, deig)) (2 * ∑ k, q.1 k * dx k)) (joined (R q) ((∑ k, q.1 k ^ 2) - 1))) ≤
      1 / 100 * norm (joined (R q) ((∑ k, q.1 k ^ 2) - 1)) ^ 2 := by
    rcases (norm_nonneg' (joined (R q) ((∑ k, q.1 k ^ 2) - 1))).eq_or_lt with h0 | h0
    · have h1 := zero_of_norm h0.symm
      rw [← h0, h1, hU] at hu'
      have h2 : joined dx deig = List.replicate (n + 1) 0 := (Except.ok.inj (Res.ok.inj hu')).symm
      rw [← joined_zero] at h2
      obtain ⟨rfl, rfl⟩ := joined_inj h2
      have h3 : fderiv ℝ R q (0, 0) = 0 := map_zero _
      rw [h1, h3, ← joined_zero, sub_joined]
      have h4 : norm (joined ((0 : Fin n → ℝ) - 0) ((2 * ∑ k, q.1 k * (0 : Fin n → ℝ) k) - 0)) = 0 := by
        rw [norm_joined]
        simp
      rw [h4]
      positivity
    · obtain ⟨w, hw1, hw2⟩ := hA _ _ _ h0 hu'
      rw [hw3] at hw1
      rw [Res.ok.inj hw1]
      exact hw2
  rw [sub_joined] at hw2
  have hfull : fderiv ℝ (full R) q (dx, deig) - full R q = (fderiv ℝ R q (dx, deig) - R q, (2 * ∑ k, q.1 k * dx k) - ((∑ k, q.1 k ^ 2) - 1)) := by
    rw [fderiv_full hq4]
    rfl
  have hfn : norm (joined (R q) ((∑ k, q.1 k ^ 2) - 1)) ≤ √(n + 1) * ‖full R q‖ := le_norm _ _
  obtain ⟨h1, h2⟩ := hq3 (dx, deig) hdx (by
    rw [hfull]
    refine (norm_le _ _).trans (hw2.trans ?_)
    have h3 := pow_le_pow_left₀ (norm_nonneg' _) hfn 2
    rw [mul_pow, Real.sq_sqrt (by positivity)] at h3
    linarith)
  have hpt : dist (q - (dx, deig)) q ≤ min ε (ρ / 2) := by
    rw [dist_eq_norm]
    have e : q - (dx, deig) - q = -(dx, deig) := by abel
    rw [e, norm_neg]
    exact h2
  have hflux := hball (q - (dx, deig)) (by
    refine lt_of_le_of_lt (dist_triangle _ q _) ?_
    have h3 := hpt.trans (min_le_right _ _)
    have h4 := Metric.mem_ball.mp hq5
    linarith)
  obtain ⟨r1, r2⟩ := C91_residual W hflux
  have hsmall : defect (q - (dx, deig)).1 (R (q - (dx, deig))) ≤ min η (1 / 2) * defect q.1 (R q) := by
    rw [← r2, ← hnorm]
    refine (le_norm _ _).trans ?_
    have h3 := mul_le_mul_of_nonneg_left h1 (Real.sqrt_nonneg ((n : ℝ) + 1))
    have h4 : √((n : ℝ) + 1) * (min η (1 / 2) / √((n : ℝ) + 1) * ‖full R q‖) = min η (1 / 2) * ‖full R q‖ := by
      have : √((n : ℝ) + 1) ≠ 0 := by positivity
      field_simp
    rw [h4] at h3
    refine h3.trans (mul_le_mul_of_nonneg_left (norm_le _ _) (by positivity))
  have hd0 : 0 ≤ defect q.1 (R q) := Real.sqrt_nonneg _
  refine ⟨q - (dx, deig), R (q - (dx, deig)), hflux, ?_, ?_, hpt.trans (min_le_left _ _), hsmall.trans (mul_le_mul_of_nonneg_right (min_le_left _ _) hd0)⟩
  · unfold newton_step
    rw [hu, Res.ok_bind]
    have hsub : npSubtract (joined q.1 q.2) (joined dx deig) = .ok (joined (q - (dx, deig)).1 (q - (dx, deig)).2) := by
      unfold npSubtract
      rw [if_pos (by rw [joined_length, joined_length]), sub_joined]
      rfl
    simp only
    rw [hsub, Res.ok_bind, r1, Res.ok_bind]
    unfold line_search
    rw [r2, if_neg]
    · rfl
    · have h5 := hsmall.trans (mul_le_mul_of_nonneg_right (min_le_right _ _) hd0)
      rw [not_lt]
      refine h5.trans (mul_le_mul_of_nonneg_right ?_ hd0)
      norm_num [alpha, gamma]
  · simp

/-- **C91** (the program near an eigenpair).  From each point close enough to a simple eigenpair the program returns a pair close to it, as close as required, if the solution of the linear system
in the first step succeeds. -/
theorem C91_local_returns (W : Wrapper) (hL : Lengths W) (hn : W.size_of_system = n) (update : Update) (hK : KrylovUpdate update) (hA : AccurateUpdate update) (hU : ZeroUpdate update) (Z : Fin n → Prop)
    (hF : ∀ (x : Fin n → ℝ) eig y, HasFlux W x eig y → ∀ k, Z k → y k = 0) (hJ : ∀ x_val eig_val (x : Fin n → ℝ) eig y, HasJacobian W x_val eig_val x eig y → ∀ k, Z k → y k = 0)
    (R : (Fin n → ℝ) × ℝ → Fin n → ℝ) (p : (Fin n → ℝ) × ℝ) (hs : SmoothAt W R p) (hp : SimplePair W Z p) {ε : ℝ} (hε : 0 < ε) (steps : Nat) :
    ∀ᶠ q in 𝓝 p, ∀ y u, HasFlux W q.1 q.2 y → update (defect q.1 y) (jacobian W (joined q.1 q.2)) (joined y ((∑ k, q.1 k ^ 2) - 1)) = .ok (.ok u) →
      ∃ q' : (Fin n → ℝ) × ℝ, newton W update (steps + 1) (joined q.1 q.2) = .ok (.ok (q'.2, joined q'.1 q'.2)) ∧ dist q' p ≤ ε := by
  have hzero : R p = 0 := flux_unique hs.flux.self_of_nhds hp.zero
  have hd : ∀ᶠ q in 𝓝 p, defect q.1 (R q) < 1 / 1000000000 := by
    have h1 : Tendsto (fun q => √(n + 1) * ‖full R q‖) (𝓝 p) (𝓝 (√(n + 1) * ‖full R p‖)) := ((contDiffAt_full hs.smooth).continuousAt.norm.const_mul _)
    have h2 : full R p = 0 := by
      unfold full
      rw [hzero, hp.norm, sub_self]
      rfl
    rw [h2, norm_zero, mul_zero] at h1
    refine (h1.eventually_lt_const (by norm_num : (0 : ℝ) < 1 / 1000000000)).mono fun q hq => ?_
    have e : defect q.1 (R q) = norm (joined (R q) ((∑ k, q.1 k ^ 2) - 1)) := (norm_joined _ _).symm
    rw [e]
    exact lt_of_le_of_lt (le_norm _ _) hq
  filter_upwards [C91_local W hL update hK hA hU Z hF hJ R p hs hp one_pos (half_pos hε), hd, hs.flux, Metric.ball_mem_nhds p (half_pos hε)] with q h1 h2 h3 h4 y u hy hu
  have hyR := flux_unique hy h3
  subst hyR
  obtain ⟨q', y', k1, k2, -, k3, k4⟩ := h1 (R q) u h3 hu
  obtain ⟨r1, r2⟩ := C91_residual W h3
  have hlt : defect q'.1 y' < norm_exact := by
    rw [one_mul] at k4
    exact lt_of_le_of_lt k4 h2
  refine ⟨q', ?_, ?_⟩
  · unfold newton
    rw [r1, Res.ok_bind]
    show (newton_loop W _ (steps + 1) (joined q.1 q.2) (joined (R q) _) (norm (joined (R q) _)) >>= _) = _
    rw [r2]
    unfold newton_loop
    rw [k2, Res.ok_bind]
    simp only
    rw [if_pos hlt]
    simp only [Res.pure_eq, Res.ok_bind]
    rw [if_neg (not_le.mpr hlt)]
    have h6 : pyGet (joined q'.1 q'.2) (W.size_of_system : Nat) = .ok q'.2 := by
      have := pyGet_at (List.ofFn q'.1) q'.2
      rw [List.length_ofFn] at this
      rw [hn]
      exact this
    rw [h6]
    rfl
  · have h7 := dist_triangle q' q p
    have h8 := (Metric.mem_ball.mp h4).le
    linarith

/-- **C91** (exact eigenpairs).  Started with an exact eigenpair of norm one, the program returns it. -/
theorem C91_fixed (W : Wrapper) (hn : W.size_of_system = n) (update : Update) (hU : ZeroUpdate update) {x : Fin n → ℝ} {eig : ℝ} (hx : ∑ k, x k ^ 2 = 1) (hf : HasFlux W x eig 0) (steps : Nat) :
    newton W update steps (joined x eig) = .ok (.ok (eig, joined x eig)) := by
  obtain ⟨r1, r2⟩ := C91_residual W hf
  have hd : defect x (0 : Fin n → ℝ) = 0 := by
    unfold defect
    simp [hx]
  have hz : joined (0 : Fin n → ℝ) ((∑ k, x k ^ 2) - 1) = List.replicate (n + 1) 0 := by
    rw [hx, sub_self, List.replicate_succ']
    unfold joined
    congr 1
    exact List.ofFn_const n (0 : ℝ)
  have h0 : defect x (0 : Fin n → ℝ) < norm_exact := by
    rw [hd]
    norm_num [norm_exact]
  have hget : pyGet (joined x eig) (W.size_of_system : Nat) = .ok eig := by
    have := pyGet_at (List.ofFn x) eig
    rw [List.length_ofFn] at this
    rw [hn]
    exact this
  unfold newton
  rw [r1, Res.ok_bind]
  rw [r2]
  have hloop : newton_loop W update steps (joined x eig) (joined (0 : Fin n → ℝ) ((∑ k, x k ^ 2) - 1)) (defect x 0) = .ok (.ok (joined x eig, defect x 0)) := by
    match steps with
    | 0 => rfl
    | steps + 1 =>
      have hstep : newton_step W update (joined x eig) (joined (0 : Fin n → ℝ) ((∑ k, x k ^ 2) - 1)) (defect x 0) = .ok (.ok (joined x eig, joined (0 : Fin n → ℝ) ((∑ k, x k ^ 2) - 1), defect x 0)) := by
        unfold newton_step
        have hu := hU (jacobian W (joined x eig)) (n + 1)
        rw [← hz, ← hd] at hu
        rw [hu, Res.ok_bind]
        have hsub : npSubtract (joined x eig) (joined (0 : Fin n → ℝ) ((∑ k, x k ^ 2) - 1)) = .ok (joined x eig) := by
          unfold npSubtract
          rw [if_pos (by rw [joined_length, joined_length]), sub_joined, hx, sub_self, sub_zero, sub_zero]
        simp only
        rw [hsub, Res.ok_bind, r1, Res.ok_bind]
        unfold line_search
        rw [r2, hd, mul_zero, if_neg (lt_irrefl _)]
        rfl
      unfold newton_loop
      rw [hstep, Res.ok_bind]
      simp only
      rw [if_pos h0]
      rfl
  rw [hloop, Res.ok_bind]
  simp only
  rw [if_neg (not_le.mpr h0), hget]
  rfl

end HyperHDG.NewtonProgram

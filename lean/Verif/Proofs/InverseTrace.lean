import Verif.Proofs.Legendre
import Verif.Proofs.DiffusionIPCube

/-!
# A sharp constant for the discrete trace inequality on cubes

For orthonormal polynomials of degree at most `p` on the unit interval the squares of the values at an end sum up to `(p + 1)²`.  Hence the squared norm of the trace of a polynomial on a face of the unit cube
is at most `(p + 1)²` times its squared norm, and the assumptions of the interior penalty method hold with the constant `2 kappa (p + 1)² / h` on cubes with side `h`.
-/

namespace HyperHDG.Spec

open Polynomial MeasureTheory Finset

variable {p : Nat} {P : Fin (p + 1) → ℝ[X]}

/-- The integral of `x ^ m` times `P i`. -/
noncomputable def mono (P : Fin (p + 1) → ℝ[X]) (m : Nat) (i : Fin (p + 1)) : ℝ := ∫ x in (0 : ℝ)..1, (P i).eval x * (X ^ m : ℝ[X]).eval x

theorem mono_coeff (hP : OrthonormalPolys p P) {m : Nat} (hm : m ≤ p) (k : Nat) : ∑ i, mono P m i * (P i).coeff k = if k = m then 1 else 0 := by
  obtain ⟨c, hc⟩ := ortho_span hP (X ^ m) (by rw [natDegree_X_pow]; exact hm)
  have h1 : ∀ i, mono P m i = c i := by
    intro i
    have h2 := int_sum P c (P i)
    rw [← hc] at h2
    simp only [hP.ortho, mul_ite, mul_one, mul_zero, Finset.sum_ite_eq', Finset.mem_univ, if_true] at h2
    rw [← h2]
    exact intervalIntegral.integral_congr fun x _ => mul_comm _ _
  have h3 := congrArg (fun q => q.coeff k) hc
  simp only [coeff_X_pow, finsetSum_coeff, coeff_C_mul] at h3
  simp only [h1]
  exact h3.symm

theorem int_mono (P : Fin (p + 1) → ℝ[X]) (i : Fin (p + 1)) (q : ℝ[X]) (hq : q.natDegree < p + 1) :
    ∫ x in (0 : ℝ)..1, (P i).eval x * q.eval x = ∑ m ∈ range (p + 1), q.coeff m * mono P m i := by
  have h : ∀ x : ℝ, (P i).eval x * q.eval x = ∑ m ∈ range (p + 1), q.coeff m * ((P i).eval x * (X ^ m : ℝ[X]).eval x) := by
    intro x
    rw [eval_eq_sum_range' hq, Finset.mul_sum]
    refine Finset.sum_congr rfl fun m _ => ?_
    simp; ring
  simp only [h]
  rw [intervalIntegral.integral_finsetSum]
  · exact Finset.sum_congr rfl fun m _ => intervalIntegral.integral_const_mul _ _
  · intro m _
    exact (continuous_const.mul ((P i).continuous.mul (X ^ m : ℝ[X]).continuous)).intervalIntegrable _ _

/-- The trace of differentiation vanishes. -/
theorem trace_deriv (hP : OrthonormalPolys p P) : ∑ i, ∫ x in (0 : ℝ)..1, (P i).eval x * (P i).derivative.eval x = 0 := by
  have h : ∀ i, ∫ x in (0 : ℝ)..1, (P i).eval x * (P i).derivative.eval x = ∑ m ∈ range (p + 1), (m + 1 : ℝ) * (mono P m i * (P i).coeff (m + 1)) := by
    intro i
    rw [int_mono P i _ (lt_of_le_of_lt (natDegree_derivative_le _) (by have := hP.degree i; omega))]
    refine Finset.sum_congr rfl fun m _ => ?_
    rw [coeff_derivative]; ring
  simp only [h]
  rw [Finset.sum_comm]
  refine Finset.sum_eq_zero fun m hm => ?_
  rw [← Finset.mul_sum, mono_coeff hP (by simpa [Nat.lt_succ_iff] using hm), if_neg (by omega), mul_zero]

/-- The trace of `u ↦ x u'` is `0 + 1 + ... + p`. -/
theorem trace_euler (hP : OrthonormalPolys p P) : ∑ i, ∫ x in (0 : ℝ)..1, (P i).eval x * (X * (P i).derivative).eval x = ((p + 1) ^ 2 - (p + 1)) / 2 := by
  have hdeg : ∀ i, (X * (P i).derivative).natDegree < p + 1 := by
    intro i
    have h1 := hP.degree i
    rcases Nat.eq_zero_or_pos (P i).natDegree with h0 | h0
    · rw [derivative_eq_zero.mpr h0, mul_zero, natDegree_zero]; omega
    · have h2 := natDegree_mul_le (p := (X : ℝ[X])) (q := (P i).derivative)
      rw [natDegree_X] at h2
      have h3 := natDegree_derivative_lt h0.ne'
      omega
  have h : ∀ i, ∫ x in (0 : ℝ)..1, (P i).eval x * (X * (P i).derivative).eval x = ∑ m ∈ range (p + 1), (m : ℝ) * (mono P m i * (P i).coeff m) := by
    intro i
    rw [int_mono P i _ (hdeg i)]
    refine Finset.sum_congr rfl fun m _ => ?_
    cases m with
    | zero => simp
    | succ m => rw [coeff_X_mul, coeff_derivative]; push_cast; ring
  simp only [h]
  rw [Finset.sum_comm]
  have h2 : ∀ m ∈ range (p + 1), ∑ i, (m : ℝ) * (mono P m i * (P i).coeff m) = m := by
    intro m hm
    rw [← Finset.mul_sum, mono_coeff hP (by simpa [Nat.lt_succ_iff] using hm), if_pos rfl, mul_one]
  rw [Finset.sum_congr rfl h2]
  have h3 : (∑ m ∈ range (p + 1), (m : ℝ)) * 2 = (p + 1) * p := by
    have := Finset.sum_range_id_mul_two (p + 1)
    have h4 := congrArg (Nat.cast (R := ℝ)) this
    push_cast at h4
    simpa using h4
  linear_combination h3 / 2

/-- The squares of the values at the right end sum up to `(p + 1)²`. -/
theorem sum_right (hP : OrthonormalPolys p P) : ∑ i, (P i).eval 1 ^ 2 = (p + 1 : ℝ) ^ 2 := by
  have h : ∀ i, (P i).eval 1 ^ 2 = 2 * (∫ x in (0 : ℝ)..1, (P i).eval x * (X * (P i).derivative).eval x) + 1 := by
    intro i
    have h1 := int_by_parts (P i) (X * P i)
    have h2 := hP.ortho i i
    rw [if_pos rfl] at h2
    have e1 : ∫ x in (0 : ℝ)..1, (P i).derivative.eval x * (X * P i).eval x = ∫ x in (0 : ℝ)..1, (P i).eval x * (X * (P i).derivative).eval x :=
      intervalIntegral.integral_congr fun x _ => by simp; ring
    have e2 : ∫ x in (0 : ℝ)..1, (X * P i).derivative.eval x * (P i).eval x =
        (∫ x in (0 : ℝ)..1, (P i).eval x * (P i).eval x) + ∫ x in (0 : ℝ)..1, (P i).eval x * (X * (P i).derivative).eval x := by
      rw [← intervalIntegral.integral_add (((P i).continuous.fun_mul (P i).continuous).intervalIntegrable _ _)
        (((P i).continuous.fun_mul (X * (P i).derivative).continuous).intervalIntegrable _ _)]
      exact intervalIntegral.integral_congr fun x _ => by simp; ring
    rw [e1, e2, h2] at h1
    simp only [eval_mul, eval_X] at h1 ⊢
    linear_combination -h1
  simp only [h]
  rw [Finset.sum_add_distrib, ← Finset.mul_sum, trace_euler hP]
  simp
  ring

/-- The squares of the values at the left end sum up to `(p + 1)²`. -/
theorem sum_left (hP : OrthonormalPolys p P) : ∑ i, (P i).eval 0 ^ 2 = (p + 1 : ℝ) ^ 2 := by
  have h : ∀ i, (P i).eval 1 ^ 2 - (P i).eval 0 ^ 2 = 2 * ∫ x in (0 : ℝ)..1, (P i).eval x * (P i).derivative.eval x := by
    intro i
    have h1 := int_by_parts (P i) (P i)
    have e1 : ∫ x in (0 : ℝ)..1, (P i).derivative.eval x * (P i).eval x = ∫ x in (0 : ℝ)..1, (P i).eval x * (P i).derivative.eval x :=
      intervalIntegral.integral_congr fun x _ => mul_comm _ _
    rw [e1] at h1
    linear_combination -h1
  have h2 : ∑ i, ((P i).eval 1 ^ 2 - (P i).eval 0 ^ 2) = 0 := by
    simp only [h]
    rw [← Finset.mul_sum, trace_deriv hP, mul_zero]
  rw [Finset.sum_sub_distrib, sum_right hP] at h2
  linear_combination -h2

/-- The trace inequality on a face of the unit cube. -/
theorem trace_le (hP : OrthonormalPolys p P) {d : Nat} (f : Fin (2 * (d + 1))) (c : Fin ((p + 1) ^ (d + 1)) → ℝ) :
    ∑ j : Fin ((p + 1) ^ d), (∑ k : Fin ((p + 1) ^ (d + 1)), (tensorIntegrator (p + 1) (d + 1) (exactBasis P)).bdr_phipsi k j f * c k) ^ 2 ≤ (p + 1 : ℝ) ^ 2 * ∑ k, c k ^ 2 := by
  classical
  let a : Fin (d + 1) := axis f
  let v : Fin (p + 1) → ℝ := fun b => if f.1 % 2 = 0 then (P b).eval 0 else (P b).eval 1
  have hv : ∑ b, v b ^ 2 = (p + 1 : ℝ) ^ 2 := by
    by_cases hf : f.1 % 2 = 0
    · simp only [v, hf, if_true]; exact sum_left hP
    · simp only [v, hf, if_false]; exact sum_right hP
  have h1 : ∀ r : Fin d → Fin (p + 1), ∑ k : Fin ((p + 1) ^ (d + 1)), (tensorIntegrator (p + 1) (d + 1) (exactBasis P)).bdr_phipsi k (ofDigs r) f * c k =
      ∑ b : Fin (p + 1), v b * c (ofDigs (a.insertNth (α := fun _ => Fin (p + 1)) b r)) := by
    intro r
    rw [sum_insert_axis a]
    have haf : (f : Nat) / 2 = a.1 := rfl
    refine Finset.sum_congr rfl fun b _ => ?_
    rw [Finset.sum_eq_single r]
    · simp only [tensorIntegrator, haf]
      have h1 : SameFace (p + 1) (d + 1) a (ofDigs (a.insertNth (α := fun _ => Fin (p + 1)) b r)) (ofDigs r) := by
        rw [sameFace_iff, digs_ofDigs, digs_ofDigs]
        simp
      rw [if_pos h1, ← digs_val, digs_ofDigs]
      have hb : b.1 < p + 1 := b.2
      simp only [Fin.insertNth_apply_same, exactBasis, hb, dif_pos, Fin.eta, v]
    · intro r' _ hr'
      simp only [tensorIntegrator, haf]
      rw [if_neg, zero_mul]
      intro h2
      rw [sameFace_iff, digs_ofDigs, digs_ofDigs] at h2
      apply hr'
      simpa using h2.symm
    · simp
  have h2 : ∑ j : Fin ((p + 1) ^ d), (∑ k : Fin ((p + 1) ^ (d + 1)), (tensorIntegrator (p + 1) (d + 1) (exactBasis P)).bdr_phipsi k j f * c k) ^ 2 =
      ∑ r : Fin d → Fin (p + 1), (∑ b : Fin (p + 1), v b * c (ofDigs (a.insertNth (α := fun _ => Fin (p + 1)) b r))) ^ 2 := by
    rw [← Equiv.sum_comp finFunctionFinEquiv]
    exact Finset.sum_congr rfl fun r _ => by rw [← h1 r]
  rw [h2, sum_insert_axis a, Finset.sum_comm, Finset.mul_sum]
  refine Finset.sum_le_sum fun r _ => ?_
  rw [← hv]
  exact Finset.sum_mul_sq_le_sq_mul_sq _ _ _

/-- A sum over all faces is a sum over axes and both ends. -/
theorem sum_faces {d : Nat} (g : Fin d → ℝ) : ∑ f : Fin (2 * d), g (axis f) = 2 * ∑ a, g a := by
  rw [← Equiv.sum_comp ((finProdFinEquiv (m := d) (n := 2)).trans (finCongr (Nat.mul_comm d 2))), Fintype.sum_prod_type, Finset.mul_sum]
  refine Finset.sum_congr rfl fun a _ => ?_
  have h : ∀ b : Fin 2, axis ((finProdFinEquiv (m := d) (n := 2)).trans (finCongr (Nat.mul_comm d 2)) (a, b)) = a := by
    intro b
    apply Fin.ext
    simp only [axis, Equiv.trans_apply, finProdFinEquiv_apply_val, finCongr_apply, Fin.val_cast]
    omega
  simp only [h, Fin.sum_univ_two]
  ring

namespace IP

open Matrix

theorem cube_laws_sharp (hP : OrthonormalPolys p P) {d : Nat} {kappa : ℝ} (hk : 0 < kappa) :
    Laws (cubeForm (tensorIntegrator (p + 1) (d + 1) (exactBasis P)) (d + 1) ((p + 1) ^ (d + 1)) ((p + 1) ^ d) kappa) (2 * kappa * (p + 1) ^ 2) where
  __ := cube_laws _ (tensor_lawful _ (exact_lawful hP)) hk
  trace_ineq u w := by
    set I := tensorIntegrator (p + 1) (d + 1) (exactBasis P)
    rw [cube_stiff]
    have h1 : ∑ f, w f ⬝ᵥ (cubeForm I (d + 1) ((p + 1) ^ (d + 1)) ((p + 1) ^ d) kappa).conormPsi f *ᵥ u =
        kappa * ∑ q : Fin (2 * (d + 1)) × Fin ((p + 1) ^ d), w q.1 q.2 * (normal q.1 * ∑ k : Fin ((p + 1) ^ (d + 1)), I.bdr_phipsi k q.2 q.1 * derivOf I u (axis q.1) k) := by
      rw [Fintype.sum_prod_type, Finset.mul_sum]
      refine Finset.sum_congr rfl fun f _ => ?_
      simp only [dotProduct, cube_conormPsi]
      rw [Finset.mul_sum]
      exact Finset.sum_congr rfl fun j _ => by ring
    have h2 : ∑ q : Fin (2 * (d + 1)) × Fin ((p + 1) ^ d), (normal q.1 * ∑ k : Fin ((p + 1) ^ (d + 1)), I.bdr_phipsi k q.2 q.1 * derivOf I u (axis q.1) k) ^ 2 ≤
        2 * (p + 1 : ℝ) ^ 2 * ∑ a : Fin (d + 1), ∑ k, derivOf I u a k ^ 2 := by
      rw [Fintype.sum_prod_type]
      refine (Finset.sum_le_sum (g := fun f => (p + 1 : ℝ) ^ 2 * ∑ k, derivOf I u (axis f) k ^ 2) fun f _ => ?_).trans (le_of_eq ?_)
      · refine le_trans (le_of_eq ?_) (trace_le hP f (derivOf I u (axis f)))
        refine Finset.sum_congr rfl fun j _ => ?_
        rw [mul_pow, normal_sq, one_mul]
      · rw [sum_faces (fun a => (p + 1 : ℝ) ^ 2 * ∑ k, derivOf I u a k ^ 2), ← Finset.mul_sum]
        ring
    have h3 := Finset.sum_mul_sq_le_sq_mul_sq Finset.univ (fun q : Fin (2 * (d + 1)) × Fin ((p + 1) ^ d) => w q.1 q.2)
      (fun q => normal q.1 * ∑ k : Fin ((p + 1) ^ (d + 1)), I.bdr_phipsi k q.2 q.1 * derivOf I u (axis q.1) k)
    have h4 : ∑ q : Fin (2 * (d + 1)) × Fin ((p + 1) ^ d), w q.1 q.2 ^ 2 = ∑ f, (cubeForm I (d + 1) ((p + 1) ^ (d + 1)) ((p + 1) ^ d) kappa).area f * (w f ⬝ᵥ w f) := by
      rw [Fintype.sum_prod_type]
      refine Finset.sum_congr rfl fun f _ => ?_
      simp [cubeForm, dotProduct, sq]
    rw [h4] at h3
    have h5 : 0 ≤ ∑ f, (cubeForm I (d + 1) ((p + 1) ^ (d + 1)) ((p + 1) ^ d) kappa).area f * (w f ⬝ᵥ w f) := by
      rw [← h4]; exact Finset.sum_nonneg fun _ _ => sq_nonneg _
    rw [h1, mul_pow]
    refine (mul_le_mul_of_nonneg_left (h3.trans (mul_le_mul_of_nonneg_left h2 h5)) (sq_nonneg kappa)).trans (le_of_eq (by ring))

/-- Scaling to a cube with side `h`. -/
theorem scaled_laws {dim nS nB : Nat} {F : Form dim nS nB ℝ} {C h : ℝ} (hF : Laws F C) (hh : 0 < h) : Laws (F.scaled h) (C / h) where
  area_pos f := mul_pos (div_pos (pow_pos hh _) hh) (hF.area_pos f)
  trace f := by
    simp only [Form.scaled, Matrix.transpose_smul, Matrix.smul_mul, Matrix.mul_smul, ← hF.trace f, smul_smul]
    ring_nf
  trace_conorm f := by
    simp only [Form.scaled, Matrix.smul_mul, Matrix.mul_smul, ← hF.trace_conorm f, smul_smul]
    ring_nf
  energy_nonneg u := by
    simp only [Form.scaled, Matrix.smul_mulVec, dotProduct_smul, smul_eq_mul]
    exact mul_nonneg (div_nonneg (pow_nonneg hh.le _) (sq_nonneg h)) (hF.energy_nonneg u)
  trace_ineq u w := by
    simp only [Form.scaled, Matrix.smul_mulVec, dotProduct_smul, smul_eq_mul, ← Finset.mul_sum, mul_assoc]
    have h1 := mul_le_mul_of_nonneg_left (hF.trace_ineq u w) (sq_nonneg (h ^ dim / h ^ 2))
    rw [mul_pow]
    refine h1.trans (le_of_eq ?_)
    field_simp
  unisolvent u h1 h2 := by
    simp only [Form.scaled, Matrix.smul_mulVec, dotProduct_smul, smul_eq_mul, Matrix.transpose_smul] at h1 h2
    refine hF.unisolvent u ((mul_eq_zero.mp h1).resolve_left (by positivity)) fun f => ?_
    exact (smul_eq_zero.mp (h2 f)).resolve_left (by positivity)

theorem scaled_rigid {dim nS nB : Nat} {F : Form dim nS nB ℝ} {h : ℝ} (hF : Rigid F) (hh : 0 < h) : Rigid (F.scaled h) := by
  intro u f h1 h2
  simp only [Form.scaled, Matrix.smul_mulVec, dotProduct_smul, smul_eq_mul, Matrix.transpose_smul] at h1 h2
  exact hF u f ((mul_eq_zero.mp h1).resolve_left (by positivity)) ((smul_eq_zero.mp h2).resolve_left (by positivity))

end IP

end HyperHDG.Spec

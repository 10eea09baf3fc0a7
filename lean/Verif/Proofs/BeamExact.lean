import Verif.Spec.BeamExact
import Verif.Proofs.Legendre
import Verif.Proofs.Beam
import Verif.Props.Timoshenko

/-!
# Beams with exact integrals
-/

namespace HyperHDG.Timoshenko

open Finset Spec Matrix Polynomial MeasureTheory intervalIntegral

variable {p : Nat} {P : Fin (p + 1) → ℝ[X]}

/-- The polynomial with given coefficients. -/
noncomputable def combo (P : Fin (p + 1) → ℝ[X]) (c : Fin (p + 1) → ℝ) : ℝ[X] := ∑ i, C (c i) * P i

theorem combo_eval (c : Fin (p + 1) → ℝ) (x : ℝ) : (combo P c).eval x = ∑ i, (P i).eval x * c i := by
  unfold combo
  rw [Polynomial.eval_finsetSum]
  exact sum_congr rfl fun i _ => by rw [eval_mul, eval_C, mul_comm]

theorem combo_lin (a b : ℝ) (c d : Fin (p + 1) → ℝ) (x : ℝ) : (combo P (a • c + b • d)).eval x = a * (combo P c).eval x + b * (combo P d).eval x := by
  simp only [combo_eval, mul_sum, ← sum_add_distrib, Pi.add_apply, Pi.smul_apply, smul_eq_mul]
  exact sum_congr rfl fun i _ => by ring

theorem combo_int (c : Fin (p + 1) → ℝ) (g : ℝ[X]) : ∫ s in (0 : ℝ)..1, g.eval s * (combo P c).eval s = ∑ i, (∫ s in (0 : ℝ)..1, g.eval s * (P i).eval s) * c i := by
  have h := int_sum P c g
  rw [show (∫ s in (0 : ℝ)..1, g.eval s * (combo P c).eval s) = ∫ s in (0 : ℝ)..1, (∑ i, C (c i) * P i).eval s * g.eval s from integral_congr fun s _ => mul_comm _ _, h]
  refine sum_congr rfl fun i _ => ?_
  rw [mul_comm, integral_congr fun s _ => mul_comm ((P i).eval s) (g.eval s)]

theorem combo_degree (hP : OrthonormalPolys p P) (c : Fin (p + 1) → ℝ) : (combo P c).natDegree ≤ p :=
  Polynomial.natDegree_sum_le_of_forall_le _ _ fun i _ => (Polynomial.natDegree_C_mul_le _ _).trans (hP.degree i)

/-- The coefficients of a polynomial. -/
noncomputable def coeffs (P : Fin (p + 1) → ℝ[X]) (r : ℝ[X]) (i : Fin (p + 1)) : ℝ := ∫ s in (0 : ℝ)..1, (P i).eval s * r.eval s

theorem coeffs_combo (hP : OrthonormalPolys p P) (c : Fin (p + 1) → ℝ) : coeffs P (combo P c) = c := by
  funext i
  unfold coeffs
  rw [combo_int]
  simp [hP.ortho]

theorem combo_coeffs (hP : OrthonormalPolys p P) {r : ℝ[X]} (hr : r.natDegree ≤ p) : combo P (coeffs P r) = r := by
  obtain ⟨c, hc⟩ := ortho_span hP r hr
  have : r = combo P c := hc
  rw [this, coeffs_combo hP]

theorem two_cases (f : Fin (2 * 1)) : f = 0 ∨ f = 1 := by
  rcases (show f.1 = 0 ∨ f.1 = 1 by have := f.2; omega) with h | h
  · exact .inl (Fin.ext h)
  · exact .inr (Fin.ext h)

theorem cast_zero : ((0 : Fin (2 * 1)).1 : ℝ) = 0 := Nat.cast_zero
theorem cast_one : ((1 : Fin (2 * 1)).1 : ℝ) = 1 := Nat.cast_one
theorem sign_zero : endSign 0 = -1 := if_pos rfl
theorem sign_one : endSign 1 = 1 := if_neg one_ne_zero

theorem self_pos {n : Nat} {v : Fin n → ℝ} (hv : v ≠ 0) : 0 < v ⬝ᵥ v :=
  lt_of_le_of_ne (sum_nonneg fun _ _ => mul_self_nonneg _) fun h => hv (funext fun i => mul_self_eq_zero.mp ((sum_eq_zero_iff_of_nonneg fun i _ => mul_self_nonneg (v i)).mp h.symm i (mem_univ i)))

theorem coeffs_add (r t : ℝ[X]) : coeffs P (r + t) = coeffs P r + coeffs P t := funext fun i => by
  simp only [coeffs, Pi.add_apply, eval_add, mul_add]
  exact integral_add (((P i) * r).continuous.intervalIntegrable _ _ |> fun h => by simpa only [eval_mul] using h) (((P i) * t).continuous.intervalIntegrable _ _ |> fun h => by simpa only [eval_mul] using h)

theorem coeffs_smul (a : ℝ) (r : ℝ[X]) : coeffs P (C a * r) = a • coeffs P r := funext fun i => by
  simp only [coeffs, Pi.smul_apply, smul_eq_mul, eval_mul, eval_C]
  rw [← intervalIntegral.integral_const_mul]
  exact integral_congr fun s _ => by ring

theorem coeffs_neg (r : ℝ[X]) : coeffs P (-r) = -coeffs P r := by
  have := coeffs_smul (P := P) (-1) r
  rwa [map_neg, C_1, neg_one_mul, neg_one_smul] at this

theorem coeffs_zero : coeffs P 0 = 0 := funext fun i => by simp [coeffs]

theorem coeffs_deriv (r : ℝ[X]) (i : Fin (p + 1)) : coeffs P r.derivative i = (P i).eval 1 * r.eval 1 - (P i).eval 0 * r.eval 0 - ∫ s in (0 : ℝ)..1, (P i).derivative.eval s * r.eval s := by
  have h := int_by_parts (P i) r
  have h2 : coeffs P r.derivative i = ∫ s in (0 : ℝ)..1, r.derivative.eval s * (P i).eval s := integral_congr fun s _ => mul_comm _ _
  rw [h2]
  linarith

/-! ## Beams without loads -/

/-- The equations of a beam without loads, for polynomials. -/
structure PolyBeam (l : ℝ) (c : Fin 6 → ℝ) (q u : Fin 6 → ℝ[X]) : Prop where
  strain : ∀ d, (u d).derivative = C l * (![0, -u 5, u 4, 0, 0, 0] d + C (-(c d)⁻¹) * q d)
  balance : ∀ d, (q d).derivative = C l * (![0, 0, 0, 0, -q 2, q 1] : Fin 6 → ℝ[X]) d

theorem axial_exists {l c : ℝ} (hl : 0 < l) (hc : 0 < c) (a b : ℝ) : ∃ q u : ℝ[X], q.natDegree ≤ 3 ∧ u.natDegree ≤ 3 ∧ q.derivative = 0 ∧ u.derivative = C l * (C (-c⁻¹) * q) ∧ u.eval 0 = a ∧ u.eval 1 = b := by
  refine ⟨C (-(c / l) * (b - a)), C a + C (b - a) * X, ?_, ?_, derivative_C, ?_, by simp, by simp⟩
  · rw [natDegree_C]; omega
  · compute_degree; omega
  · rw [← C_mul, ← C_mul]
    simp only [derivative_add, derivative_C, derivative_mul, derivative_X, zero_mul, zero_add, mul_one]
    congr 1
    field_simp

theorem bending_exists {l ca cb ε : ℝ} (hl : 0 < l) (ha : 0 < ca) (hb : 0 < cb) (hε : ε * ε = 1) (a0 a1 b0 b1 : ℝ) : ∃ qa qb ua ub : ℝ[X],
    (qa.natDegree ≤ 3 ∧ qb.natDegree ≤ 3 ∧ ua.natDegree ≤ 3 ∧ ub.natDegree ≤ 3) ∧ qa.derivative = 0 ∧ qb.derivative = C l * (C ε * qa) ∧ ub.derivative = C l * (C (-cb⁻¹) * qb) ∧
    ua.derivative = C l * (-(C ε * ub) + C (-ca⁻¹) * qa) ∧ ua.eval 0 = a0 ∧ ua.eval 1 = a1 ∧ ub.eval 0 = b0 ∧ ub.eval 1 = b1 := by
  let m := -(b1 - b0) * cb / l
  let A := -(a1 - a0 + ε * l * b0 - ε * l ^ 2 * m / (2 * cb)) / (l / ca + l ^ 3 / (12 * cb))
  let M := m - ε * l * A / 2
  have hden : l / ca + l ^ 3 / (12 * cb) ≠ 0 := (by positivity : 0 < l / ca + l ^ 3 / (12 * cb)).ne'
  have hA : A * (l / ca + l ^ 3 / (12 * cb)) = -(a1 - a0 + ε * l * b0 - ε * l ^ 2 * m / (2 * cb)) := div_mul_cancel₀ _ hden
  have hm : m * l = -(b1 - b0) * cb := div_mul_cancel₀ _ hl.ne'
  have hm' : l * cb⁻¹ * m = -(b1 - b0) := by
    have : l * cb⁻¹ * m = cb⁻¹ * (m * l) := by ring
    rw [this, hm]
    field_simp
  refine ⟨C A, C M + C (ε * l * A) * X, C a0 - C (l * A / ca) * X - C (ε * l) * (C b0 * X - C (l * cb⁻¹) * (C (M / 2) * X ^ 2 + C (ε * l * A / 6) * X ^ 3)),
    C b0 - C (l * cb⁻¹) * (C M * X + C (ε * l * A / 2) * X ^ 2), ⟨?_, ?_, ?_, ?_⟩, derivative_C, ?_, ?_, ?_, by simp, ?_, by simp, ?_⟩
  · rw [natDegree_C]; omega
  · compute_degree; omega
  · compute_degree
  · compute_degree; omega
  · simp only [derivative_add, derivative_C, derivative_mul, derivative_X, zero_mul, zero_add, mul_one, ← C_mul]
    congr 1
    ring
  · apply Polynomial.funext
    intro x
    simp
    ring
  · apply Polynomial.funext
    intro x
    simp
    ring
  · simp
    have h1 : ε * l * (l * cb⁻¹ * (M / 2 + ε * l * A / 6)) = ε * l ^ 2 * m / (2 * cb) - ε * ε * l ^ 3 * A / (12 * cb) := by
      simp only [M]
      field_simp
      ring
    rw [hε] at h1
    have h2 : A * (l / ca + l ^ 3 / (12 * cb)) = l * A / ca + 1 * l ^ 3 * A / (12 * cb) := by ring
    linear_combination h1 - hA + h2
  · simp
    have : M + ε * l * A / 2 = m := by simp only [M]; ring
    rw [this, hm']
    ring

/-- A beam without loads has a solution for all displacements and rotations of the ends, of degree at most three. -/
theorem polyBeam_exists {l : ℝ} (hl : 0 < l) {c : Fin 6 → ℝ} (hc : ∀ d, 0 < c d) (mu : Fin (2 * 1) → Fin 6 → ℝ) : ∃ q u : Fin 6 → ℝ[X], (∀ d, (q d).natDegree ≤ 3 ∧ (u d).natDegree ≤ 3) ∧ PolyBeam l c q u ∧
    ∀ (f : Fin (2 * 1)) d, (u d).eval (f.1 : ℝ) = mu f d := by
  obtain ⟨q0, u0, d0, e0, a0, b0, g0, h0⟩ := axial_exists hl (hc 0) (mu 0 0) (mu 1 0)
  obtain ⟨q3, u3, d3, e3, a3, b3, g3, h3⟩ := axial_exists hl (hc 3) (mu 0 3) (mu 1 3)
  obtain ⟨q1, q5, u1, u5, ⟨k1, k2, k3, k4⟩, k5, k6, k7, k8, k9, k10, k11, k12⟩ := bending_exists hl (hc 1) (hc 5) (one_mul (1 : ℝ)) (mu 0 1) (mu 1 1) (mu 0 5) (mu 1 5)
  obtain ⟨q2, q4, u2, u4, ⟨m1, m2, m3, m4⟩, m5, m6, m7, m8, m9, m10, m11, m12⟩ := bending_exists hl (hc 2) (hc 4) (by norm_num : (-1 : ℝ) * -1 = 1) (mu 0 2) (mu 1 2) (mu 0 4) (mu 1 4)
  rw [C_1, one_mul] at k6 k8
  rw [map_neg, C_1, neg_one_mul] at m6
  rw [map_neg, C_1, neg_one_mul, neg_neg] at m8
  refine ⟨![q0, q1, q2, q3, q4, q5], ![u0, u1, u2, u3, u4, u5], fun d => ?_, ⟨fun d => ?_, fun d => ?_⟩, fun f d => ?_⟩
  · fin_cases d
    exacts [⟨d0, e0⟩, ⟨k1, k3⟩, ⟨m1, m3⟩, ⟨d3, e3⟩, ⟨m2, m4⟩, ⟨k2, k4⟩]
  · fin_cases d
    exacts [by simpa using b0, k8, m8, by simpa using b3, by simpa using m7, by simpa using k7]
  · fin_cases d
    exacts [by simpa using a0, by simpa using k5, by simpa using m5, by simpa using a3, m6, k6]
  · have v0 : ((0 : Fin (2 * 1)).1 : ℝ) = 0 := Nat.cast_zero
    have v1 : ((1 : Fin (2 * 1)).1 : ℝ) = 1 := Nat.cast_one
    rcases two_cases f with rfl | rfl
    · rw [v0]
      fin_cases d
      exacts [g0, k9, m9, g3, m11, k11]
    · rw [v1]
      fin_cases d
      exacts [h0, k10, m10, h3, m12, k12]

section
variable (hP : OrthonormalPolys p P) {B : Beam} {E : Edge (p + 1) ℝ} (hE : BeamIntegrals P B E)

include hE

include hP in
theorem mass_mulVec (v : Fin (p + 1) → ℝ) : (form E).mass *ᵥ v = B.length • v := by
  funext i
  simp [form, mulVec, dotProduct, hE.phiphi, hP.ortho]

theorem grad_mulVec (v : Fin (p + 1) → ℝ) (i : Fin (p + 1)) : ((form E).grad 0 *ᵥ v) i = ∫ s in (0 : ℝ)..1, (P i).derivative.eval s * (combo P v).eval s := by
  rw [combo_int]
  simp only [form, mulVec, dotProduct, of_apply, hE.nablaphiphi]

theorem grad_transpose (v : Fin (p + 1) → ℝ) (i : Fin (p + 1)) : (((form E).grad 0)ᵀ *ᵥ v) i = ∫ s in (0 : ℝ)..1, (P i).eval s * (combo P v).derivative.eval s := by
  have h1 : (combo P v).derivative = combo (fun i => (P i).derivative) v := by simp [combo]
  rw [h1, combo_int]
  simp only [form, mulVec, dotProduct, transpose_apply, of_apply, hE.nablaphiphi]
  exact sum_congr rfl fun j _ => by rw [integral_congr fun s _ => mul_comm ((P j).derivative.eval s) ((P i).eval s)]

theorem bdr_mulVec (f : Fin (2 * 1)) (v : Fin (p + 1) → ℝ) (i : Fin (p + 1)) : ((form E).bdr f *ᵥ v) i = (P i).eval (f.1 : ℝ) * (combo P v).eval (f.1 : ℝ) := by
  rw [combo_eval, mul_sum]
  simp only [form, mulVec, dotProduct, of_apply, hE.bdr_phiphi, mul_assoc]

theorem psi_mulVec (f : Fin (2 * 1)) (x : Fin 1 → ℝ) (i : Fin (p + 1)) : ((form E).psi f *ᵥ x) i = (P i).eval (f.1 : ℝ) * x 0 := by
  simp only [form, mulVec, dotProduct, of_apply, Fin.sum_univ_one, Fin.val_zero, hE.bdr_phipsi]

theorem psi_transpose (f : Fin (2 * 1)) (v : Fin (p + 1) → ℝ) : ((form E).psi f)ᵀ *ᵥ v = fun _ => (combo P v).eval (f.1 : ℝ) := by
  funext j
  obtain rfl : j = 0 := Subsingleton.elim _ _
  rw [combo_eval]
  simp only [form, mulVec, dotProduct, transpose_apply, of_apply, Fin.val_zero, hE.bdr_phipsi]

include hP in
theorem const_eq {v : Fin (p + 1) → ℝ} (h : IsConst (form E) v) (f : Fin (2 * 1)) (h0 : ((form E).psi f)ᵀ *ᵥ v = 0) : v = 0 := by
  have h1 : coeffs P (combo P v).derivative = 0 := funext fun i => by
    rw [coeffs, ← grad_transpose hE, h 0]
  have h2 : (combo P v).derivative = 0 := by
    rw [← combo_coeffs hP ((natDegree_derivative_le _).trans ((Nat.sub_le _ _).trans (combo_degree hP v))), h1]
    simp [combo]
  have h3 : (combo P v).eval (f.1 : ℝ) = 0 := by
    rw [psi_transpose hE] at h0
    exact congrFun h0 0
  have h4 : combo P v = 0 := by
    have hconst := Polynomial.derivative_eq_zero.mp h2
    rw [Polynomial.eq_C_of_natDegree_eq_zero hconst] at h3 ⊢
    rw [eval_C] at h3
    rw [h3, C_0]
  rw [← coeffs_combo hP v, h4]
  funext i
  simp [coeffs]

include hP in
theorem beam_rigid : Rigid (form E) := fun _ f h h0 => const_eq hP hE h f h0

variable (hB : B.Admissible)

include hP hB in
theorem beam_laws : FormLaws (form E) where
  mass_symm := by
    ext i j
    simp only [form, transpose_apply, of_apply, hE.phiphi, hP.ortho, eq_comm]
  mass_pos v hv := by
    rw [mass_mulVec hP hE, dotProduct_smul, smul_eq_mul]
    exact mul_pos hB.length_pos (self_pos hv)
  mass0_symm := by
    ext i j
    simp only [form, transpose_apply, of_apply, hE.phiphi, hP.ortho, eq_comm]
  mass0_pos v hv := by
    show 0 < v ⬝ᵥ (form E).mass *ᵥ v
    rw [mass_mulVec hP hE, dotProduct_smul, smul_eq_mul]
    exact mul_pos hB.length_pos (self_pos hv)
  by_parts d := by
    obtain rfl : d = 0 := Subsingleton.elim _ _
    ext i j
    have h := int_by_parts (P i) (P j)
    simp only [sum_two, form, Matrix.add_apply, Matrix.smul_apply, transpose_apply, of_apply, hE.nablaphiphi, hE.bdr_phiphi, hE.normal, smul_eq_mul]
    have e0 : endSign 0 = -1 := if_pos rfl
    have e1 : endSign 1 = 1 := if_neg one_ne_zero
    have v0 : ((0 : Fin (2 * 1)).1 : ℝ) = 0 := Nat.cast_zero
    have v1 : ((1 : Fin (2 * 1)).1 : ℝ) = 1 := Nat.cast_one
    rw [e0, e1, v0, v1, h]
    ring
  area_pos _ := one_pos
  trace f := by
    ext i j
    simp only [form, Matrix.smul_apply, Matrix.mul_apply, transpose_apply, of_apply, Fin.sum_univ_one, Fin.val_zero, hE.bdr_phiphi, hE.bdr_phipsi, one_smul]
  unisolvent u hu h := const_eq hP hE hu 0 (h 0)

include hP in
/-- The polynomials which solve the equations of a beam without loads solve the local problem. -/
theorem poly_isBeam (hp : 3 ≤ p) {q u : Fin 6 → ℝ[X]} (hdeg : ∀ d, (q d).natDegree ≤ 3 ∧ (u d).natDegree ≤ 3) (h : PolyBeam B.length B.stiffness q u) (tau : ℝ) :
    IsBeam (form E) B.stiffness tau (beamMoments (form E) fun f d => (u d).eval (f.1 : ℝ)) 0 (fun d => coeffs P (q d)) fun d => coeffs P (u d) := by
  have hq := fun d => combo_coeffs hP ((hdeg d).1.trans hp)
  have hu := fun d => combo_coeffs hP ((hdeg d).2.trans hp)
  have hmom : ∀ f d i, beamMoments (form E) (fun f d => (u d).eval (f.1 : ℝ)) f d i = (P i).eval (f.1 : ℝ) * (u d).eval (f.1 : ℝ) := fun f d i => psi_mulVec hE f (fun _ => (u d).eval (f.1 : ℝ)) i
  have hn : ∀ f, (form E).normal f 0 = endSign f := hE.normal
  have hsh : ∀ d, shear (fun d => coeffs P (u d)) d = coeffs P ((![0, -u 5, u 4, 0, 0, 0] : Fin 6 → ℝ[X]) d) := fun d => by
    fin_cases d <;> simp [shear, coeffs_zero, coeffs_neg]
  have hle : ∀ d, lever (fun d => coeffs P (q d)) d = coeffs P ((![0, 0, 0, 0, -q 2, q 1] : Fin 6 → ℝ[X]) d) := fun d => by
    fin_cases d <;> simp [lever, coeffs_zero, coeffs_neg]
  constructor
  · intro d
    funext i
    rw [hsh, mass_mulVec hP hE, mass_mulVec hP hE]
    have h1 := congrArg (fun r => coeffs P r i) (h.strain d)
    simp only [coeffs_smul, coeffs_add, coeffs_deriv, Pi.smul_apply, Pi.add_apply, smul_eq_mul] at h1
    simp only [sum_two, Pi.add_apply, Pi.sub_apply, Pi.smul_apply, smul_eq_mul, hn, hmom, grad_mulVec hE, hu, cast_zero, cast_one, sign_zero, sign_one]
    linarith
  · intro d
    funext i
    rw [hle, mass_mulVec hP hE]
    have h1 := congrArg (fun r => coeffs P r i) (h.balance d)
    simp only [coeffs_smul, coeffs_deriv, Pi.smul_apply, smul_eq_mul] at h1
    simp only [sum_two, Pi.add_apply, Pi.sub_apply, Pi.neg_apply, Pi.smul_apply, Pi.zero_apply, mulVec_add, mulVec_smul, smul_eq_mul, hn, hmom, grad_mulVec hE, bdr_mulVec hE, hq, hu, cast_zero, cast_one, sign_zero, sign_one]
    linarith

theorem flux_apply (tau : ℝ) (lambda : Fin (2 * 1) → Fin 6 → ℝ) (q u : Fin 6 → Fin (p + 1) → ℝ) (f : Fin (2 * 1)) (d : Fin 6) : beamFlux (form E) tau lambda q u f d =
    endSign f * (combo P (q d)).eval (f.1 : ℝ) + tau * ((combo P (u d)).eval (f.1 : ℝ) - lambda f d) := by
  have h1 : (form E).normal f 0 = endSign f := hE.normal f
  have h2 : (form E).area f = 1 := rfl
  simp only [beamFlux, faceFlux, Fin.sum_univ_one, psi_transpose hE, Pi.sub_apply, Pi.smul_apply, smul_eq_mul, h1, h2, combo_lin]
  ring

omit hE in
theorem load_cont (hB : B.Admissible) (d : Fin 6) : Continuous fun s => inFrame B.frame (B.load s) d := by
  have hl : ∀ k, Continuous fun s => B.load s k := fun k => (continuous_apply k).comp hB.load_cont
  fin_cases d <;> simp only [inFrame, both, linPart, angPart, mulVec, dotProduct, Fin.sum_univ_three] <;> simp <;> fun_prop

omit hE in
/-- Integration by parts for two beams. -/
theorem solves_parts (hB : B.Admissible) {Q U : ℝ → Fin 6 → ℝ} (h : B.Solves Q U) {q u : Fin 6 → ℝ[X]} (h' : PolyBeam B.length B.stiffness q u) :
    ∑ d, (Q 1 d * (u d).eval 1 - (q d).eval 1 * U 1 d) - ∑ d, (Q 0 d * (u d).eval 0 - (q d).eval 0 * U 0 d) = B.length * ∫ s in (0 : ℝ)..1, ∑ d, inFrame B.frame (B.load s) d * (u d).eval s := by
  have hload := load_cont hB
  have hcont : Continuous fun s => ∑ d, inFrame B.frame (B.load s) d * (u d).eval s := continuous_finsetSum _ fun d _ => (hload d).mul (u d).continuous
  rw [← intervalIntegral.integral_const_mul]
  refine (integral_eq_sub_of_hasDerivAt_of_le (f := fun s => ∑ d, (Q s d * (u d).eval s - (q d).eval s * U s d)) zero_le_one ?_ ?_ ((hcont.const_mul _).intervalIntegrable _ _)).symm
  · exact continuousOn_finsetSum _ fun d _ => ((h.cont_Q d).mul (u d).continuousOn).sub ((q d).continuousOn.mul (h.cont_U d))
  · intro s hs
    have h1 := HasDerivAt.fun_sum (u := univ) fun (d : Fin 6) _ => ((h.balance d s hs).mul ((u d).hasDerivAt s)).sub (((q d).hasDerivAt s).mul (h.strain d s hs))
    refine h1.congr_deriv ?_
    simp only [h'.strain, h'.balance, eval_mul, eval_C, eval_add, Finset.mul_sum]
    simp only [sum_six]
    simp [both, linPart, angPart, cross_apply]
    ring

include hP in
/-- **The forces and moments at the ends of a beam are exact.** -/
theorem flux_exact (hB : B.Admissible) (hp : 3 ≤ p) {tau : ℝ} {Q U : ℝ → Fin 6 → ℝ} (h : B.Solves Q U) {q u : Fin 6 → Fin (p + 1) → ℝ}
    (hd : IsBeam (form E) B.stiffness tau (beamMoments (form E) fun f d => U f.1 d) (source E) q u) (f : Fin (2 * 1)) (d : Fin 6) :
    beamFlux (form E) tau (fun f d => U f.1 d) q u f d = endSign f * Q f.1 d := by
  have hF := beam_laws hP hE hB
  have key : ∀ mu : Fin (2 * 1) → Fin 6 → ℝ, beamPairing mu (fun f d => beamFlux (form E) tau (fun f d => U f.1 d) q u f d - endSign f * Q f.1 d) = 0 := by
    intro mu
    obtain ⟨q', u', hdeg, h', hend⟩ := polyBeam_exists hB.length_pos hB.stiffness_pos mu
    have h1 := poly_isBeam hP hE hp hdeg h' tau
    have hmu : (fun (f : Fin (2 * 1)) d => (u' d).eval (f.1 : ℝ)) = mu := funext fun f => funext fun d => hend f d
    rw [hmu] at h1
    have h2 := beam_flux_form hF hd h1
    have h3 := beam_flux_form hF h1 hd
    rw [energy_symm hF hB.stiffness_pos] at h3
    have h4 := solves_parts hB h h'
    have h5 : ∑ d, coeffs P (u' d) ⬝ᵥ source E d = B.length * ∫ s in (0 : ℝ)..1, ∑ d, inFrame B.frame (B.load s) d * (u' d).eval s := by
      rw [intervalIntegral.integral_finsetSum fun d _ => ((load_cont hB d).fun_mul (u' d).continuous).intervalIntegrable _ _, mul_sum]
      refine sum_congr rfl fun d _ => ?_
      have h6 : ∀ s, inFrame B.frame (B.load s) d * (u' d).eval s = ∑ i, coeffs P (u' d) i * (inFrame B.frame (B.load s) d * (P i).eval s) := fun s => by
        conv_lhs => rw [← combo_coeffs hP ((hdeg d).2.trans hp), combo_eval, mul_sum]
        exact sum_congr rfl fun i _ => by ring
      simp only [h6]
      rw [intervalIntegral.integral_finsetSum fun i _ => (((load_cont hB d).fun_mul (P i).continuous).const_mul _).intervalIntegrable _ _, mul_sum]
      simp only [dotProduct, hE.source, intervalIntegral.integral_const_mul]
      exact sum_congr rfl fun i _ => by ring
    have h7 : ∀ d, combo P (coeffs P (q' d)) = q' d := fun d => combo_coeffs hP ((hdeg d).1.trans hp)
    have h8 : ∀ d, combo P (coeffs P (u' d)) = u' d := fun d => combo_coeffs hP ((hdeg d).2.trans hp)
    have h9 : ∀ f d, beamFlux (form E) tau mu (fun d => coeffs P (q' d)) (fun d => coeffs P (u' d)) f d = endSign f * (q' d).eval (f.1 : ℝ) := fun f d => by
      rw [flux_apply hE, h7, h8, hend, sub_self, mul_zero, add_zero]
    have h10 : beamPairing (fun f d => U f.1 d) (beamFlux (form E) tau mu (fun d => coeffs P (q' d)) fun d => coeffs P (u' d)) = ∑ d, (q' d).eval 1 * U 1 d - ∑ d, (q' d).eval 0 * U 0 d := by
      simp only [beamPairing, dotProduct, h9, sum_two, cast_zero, cast_one, sign_zero, sign_one]
      rw [sub_eq_add_neg, add_comm, ← sum_neg_distrib]
      exact congrArg₂ (· + ·) (sum_congr rfl fun d _ => by ring) (sum_congr rfl fun d _ => by ring)
    have h11 : beamPairing mu (fun f d => endSign f * Q f.1 d) = ∑ d, Q 1 d * (u' d).eval 1 - ∑ d, Q 0 d * (u' d).eval 0 := by
      simp only [beamPairing, dotProduct, sum_two, ← hend, cast_zero, cast_one, sign_zero, sign_one]
      rw [sub_eq_add_neg, add_comm, ← sum_neg_distrib]
      exact congrArg₂ (· + ·) (sum_congr rfl fun d _ => by ring) (sum_congr rfl fun d _ => by ring)
    have h12 : beamPairing mu (fun f d => beamFlux (form E) tau (fun f d => U f.1 d) q u f d - endSign f * Q f.1 d) =
        beamPairing mu (beamFlux (form E) tau (fun f d => U f.1 d) q u) - beamPairing mu (fun f d => endSign f * Q f.1 d) := by
      simp only [beamPairing, dotProduct, mul_sub, sum_sub_distrib]
    have h13 : ∑ d, u d ⬝ᵥ (0 : Fin 6 → Fin (p + 1) → ℝ) d = 0 := sum_eq_zero fun d _ => dotProduct_zero _
    rw [h13, h10] at h3
    simp only [sum_sub_distrib] at h4
    rw [h12, h2, h11, h5]
    linarith
  have h1 := key fun f d => beamFlux (form E) tau (fun f d => U f.1 d) q u f d - endSign f * Q f.1 d
  have h2 := (sum_eq_zero_iff_of_nonneg fun f _ => sum_nonneg fun d _ => mul_self_nonneg _).mp h1 f (mem_univ f)
  have h3 := (sum_eq_zero_iff_of_nonneg fun d _ => mul_self_nonneg _).mp h2 d (mem_univ d)
  exact sub_eq_zero.mp (mul_self_eq_zero.mp h3)

end

end HyperHDG.Timoshenko

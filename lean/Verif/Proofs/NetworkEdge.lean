import Verif.Proofs.NetworkEstimate
import Verif.Props.ErrorRate

/-!
# The error on an edge of a network
-/

namespace HyperHDG.Estimate

open Finset Spec Matrix HyGraph Diffusion EllipticProgram Polynomial Exact

variable {p : Nat} {P : Fin (p + 1) → ℝ[X]}

theorem int_point (g : (Fin 0 → ℝ) → ℝ) (y : Fin 0 → ℝ) : cubeInt g = g y := by
  have h : g = fun _ => g y := funext fun y' => by rw [show y' = y from funext fun k => k.elim0]
  rw [h]
  exact cubeInt_const _

theorem proj_point (hP : OrthonormalPolys p P) (g : (Fin 0 → ℝ) → ℝ) (y : Fin 0 → ℝ) : polyFun P (proj P g) y = g y := by
  have h : g = fun _ => g y := funext fun y' => by rw [show y' = y from funext fun k => k.elim0]
  obtain ⟨C, hC, hst⟩ := proj_stable hP 0
  have h1 := hst g 0 (by rw [h]; exact continuous_const) ⟨fun _ => g y, isPoly_const p _, fun x _ => by rw [show x = y from funext fun k => k.elim0, sub_self, abs_zero]⟩ y fun k => k.elim0
  rw [mul_zero] at h1
  exact sub_eq_zero.mp (abs_nonpos_iff.mp h1)

/-- The unit interval. -/
noncomputable def unitData : Data 0 where
  A := ⟨1, 1, fun _ => 1, fun f _ => Spec.normal f⟩
  a := fun _ => 1
  f := fun _ => 0
  g := fun _ => 0
  w := fun _ => 0

theorem unit_admissible : unitData.Admissible where
  affine := ⟨one_pos, isUnit_one, fun _ => one_pos, fun f k => by
    have h1 : axis f = k := Subsingleton.elim (α := Fin 1) _ _
    simp only [unitData, h1, Matrix.one_apply_eq, mul_one]⟩
  cont := continuous_const
  pos := fun _ => one_pos

/-- The error of the primal unknown on an edge. -/
theorem edge_error (hP : OrthonormalPolys p P) : ∃ C : ℝ, 0 ≤ C ∧ ∀ (B : Data 0) (_ : B.Admissible) (_ : ∀ f, B.A.area f = 1) (_ : ∀ f, ∑ k, B.A.normal f k ^ 2 = 1) (time : ℝ) (E : Edge (0 + 1) ((p + 1) ^ (0 + 1)) ℝ)
    (_ : ExactIntegrals P B time E) (tau : ℝ) (q : Fin (0 + 1) → (Fin (0 + 1) → ℝ) → ℝ) (u : (Fin (0 + 1) → ℝ) → ℝ) (_ : SolvesClassically B q u)
    (G : Fin (2 * (0 + 1)) → Fin ((p + 1) ^ (0 + 1)) → ℝ) (s : Fin ((p + 1) ^ (0 + 1)) → ℝ) (q' : Fin (0 + 1) → Fin ((p + 1) ^ (0 + 1)) → ℝ) (u' : Fin ((p + 1) ^ (0 + 1)) → ℝ)
    (_ : IsSolution (form E ((p + 1) ^ 0) time) tau 0 1 G s q' u') (T : Fin (2 * (0 + 1)) → (Fin 0 → ℝ) → ℝ) (_ : ∀ f i, G f i = B.A.area f * cubeInt fun y => T f y * shape P i (facePoint f y))
    (amax : ℝ) (_ : ∀ z ∈ cube (0 + 1), B.a z ≤ amax) (y : Fin 0 → ℝ),
    (proj P u - u') ⬝ᵥ (proj P u - u') ≤ C * (B.A.vol ^ 2 * amax * cubeInt (fun z => B.a z * (q 0 z - polyFun P (q' 0) z) ^ 2) + (u (facePoint 0 y) - T 0 y) ^ 2 + (u (facePoint 1 y) - T 1 y) ^ 2 +
      (polyFun P (proj P u - u') (facePoint 0 y) - (u (facePoint 0 y) - T 0 y)) ^ 2) := by
  have hE0 := edgeOf_exact P unitData (fun _ => 0) [] 0
  have hF0 := (exact_laws hP unit_admissible hE0).1
  have hn0 : (form (edgeOf P unitData (fun _ => 0) []) ((p + 1) ^ 0) 0).normal 1 0 ≠ 0 := by
    rw [hE0.form]
    show Spec.normal (1 : Fin (2 * (0 + 1))) ≠ (0 : ℝ)
    simp [Spec.normal]
  obtain ⟨C1, hC1, hstab⟩ := edge_stable hF0 hn0
  have hb : ∀ i : Fin ((p + 1) ^ (0 + 1)), ∃ M : ℝ, ∀ x ∈ cube (0 + 1), |shape P i x| ≤ M := fun i =>
    let ⟨M, hM⟩ := (isCompact_univ_pi fun _ : Fin (0 + 1) => isCompact_Icc (a := (0 : ℝ)) (b := 1)).exists_bound_of_continuousOn (shape_cont (P := P) i).continuousOn
    ⟨M, fun x hx => hM x hx⟩
  choose M hM using hb
  refine ⟨C1 * (3 * ∑ i, M i ^ 2 + 2), mul_nonneg hC1 (by positivity), fun B hB harea hN time E hE tau q u hs G s q' u' h T hT amax ha y => ?_⟩
  have hq : Continuous (q 0) := let ⟨_, _, _, _, _, hq, _⟩ := hs; hq 0
  have hTc : ∀ f, Continuous (T f) := fun f => by
    have h1 : T f = fun _ => T f y := funext fun y' => by rw [show y' = y from funext fun k => k.elim0]
    rw [h1]
    exact continuous_const
  have hnorm : ∀ f, B.A.normal f 0 ^ 2 = 1 := fun f => by
    rw [← hN f]
    exact (Fin.sum_univ_one fun k => B.A.normal f k ^ 2).symm
  have hcof : B.A.cof 0 0 ^ 2 = 1 := by
    have h1 := hB.affine.piola 0 0
    rw [harea, mul_one, show axis (0 : Fin (2 * (0 + 1))) = 0 from Subsingleton.elim (α := Fin 1) _ _] at h1
    have h2 := hnorm 0
    rw [h1, mul_pow] at h2
    have h3 : (Spec.normal (0 : Fin (2 * (0 + 1))) : ℝ) ^ 2 = 1 := by simp [Spec.normal]
    rwa [h3, one_mul] at h2
  let Q : ℝ := cubeInt fun z => B.a z * (q 0 z - polyFun P (q' 0) z) ^ 2
  let l : Fin (2 * (0 + 1)) → ℝ := fun f => u (facePoint f y) - T f y
  have hface : ∀ f : Fin (2 * (0 + 1)), facePoint f y ∈ cube (0 + 1) := fun f k _ => by
    unfold facePoint
    refine Fin.succAboveCases (axis f) ?_ (fun l => l.elim0) k
    rw [Fin.insertNth_apply_same]
    split <;> simp
  have hMi : ∀ i, ∀ z ∈ cube (0 + 1), shape P i z ^ 2 ≤ M i ^ 2 := fun i z hz => by
    rw [← sq_abs]
    exact pow_le_pow_left₀ (abs_nonneg _) (hM i z hz) 2
  have hgrad : ∀ i, (((form E ((p + 1) ^ 0) time).grad 0 *ᵥ (proj P u - u')) i) ^ 2 ≤ M i ^ 2 * (3 * (B.A.vol ^ 2 * amax * Q + l 0 ^ 2 + l 1 ^ 2)) := fun i => by
    have h1 := grad_error hP hB hE hs h hTc hT 0 i
    have hsum : ∀ g : Fin (2 * (0 + 1)) → ℝ, ∑ f, g f = g 0 + g 1 := fun g => Fin.sum_univ_two g
    have h2 : ∀ f : Fin (2 * (0 + 1)), cubeInt (fun y => (u (facePoint f y) - T f y) * shape P i (facePoint f y)) = l f * shape P i (facePoint f y) := fun f => int_point _ y
    simp only [hsum, harea, one_mul, h2] at h1
    rw [h1]
    have c1 : Continuous fun z => B.a z * (q 0 z - polyFun P (q' 0) z) * shape P i z := (hB.cont.mul (hq.sub (polyFun_cont _))).mul (shape_cont i)
    have h3 : cubeInt (fun z => B.a z * (q 0 z - polyFun P (q' 0) z) * shape P i z) ^ 2 ≤ M i ^ 2 * amax * Q := by
      refine (mean_sq c1).trans ?_
      rw [← cubeInt_mul]
      refine cubeInt_mono (c1.pow 2) (continuous_const.mul (hB.cont.mul ((hq.sub (polyFun_cont _)).pow 2))) fun z hz => ?_
      have h5 := mul_le_mul (hMi i z hz) (ha z hz) (hB.pos z).le (sq_nonneg _)
      have h6 := mul_le_mul_of_nonneg_right h5 (mul_nonneg (hB.pos z).le (sq_nonneg (q 0 z - polyFun P (q' 0) z)))
      show (B.a z * (q 0 z - polyFun P (q' 0) z) * shape P i z) ^ 2 ≤ _
      linarith
    have h4 : ∀ f : Fin (2 * (0 + 1)), (B.A.normal f 0 * (l f * shape P i (facePoint f y))) ^ 2 ≤ M i ^ 2 * l f ^ 2 := fun f => by
      rw [mul_pow, hnorm, one_mul, mul_pow]
      have h5 := mul_le_mul_of_nonneg_left (hMi i _ (hface f)) (sq_nonneg (l f))
      linarith
    have h5 : (B.A.vol * cubeInt fun z => B.a z * (q 0 z - polyFun P (q' 0) z) * shape P i z) ^ 2 ≤ M i ^ 2 * (B.A.vol ^ 2 * amax * Q) := by
      rw [mul_pow]
      have := mul_le_mul_of_nonneg_left h3 (sq_nonneg B.A.vol)
      linarith
    have h6 : ∀ a b c : ℝ, (a + (b + c)) ^ 2 ≤ 3 * (a ^ 2 + b ^ 2 + c ^ 2) := fun a b c => by
      have := sq_nonneg (a - b); have := sq_nonneg (a - c); have := sq_nonneg (b - c)
      linarith
    have h7 := h6 (B.A.vol * cubeInt fun z => B.a z * (q 0 z - polyFun P (q' 0) z) * shape P i z) (B.A.normal 0 0 * (l 0 * shape P i (facePoint 0 y))) (B.A.normal 1 0 * (l 1 * shape P i (facePoint 1 y)))
    have h8 := h4 0
    have h9 := h4 1
    linarith
  have hgrad0 : ∀ w i, (((form E ((p + 1) ^ 0) time).grad 0 *ᵥ w) i) ^ 2 = (((form (edgeOf P unitData (fun _ => 0) []) ((p + 1) ^ 0) 0).grad 0 *ᵥ w) i) ^ 2 := fun w i => by
    have h1 : ((form E ((p + 1) ^ 0) time).grad 0 *ᵥ w) i = B.A.cof 0 0 * ((form (edgeOf P unitData (fun _ => 0) []) ((p + 1) ^ 0) 0).grad 0 *ᵥ w) i := by
      rw [hE.form, hE0.form]
      have hs1 : ∀ g : Fin (0 + 1) → ℝ, ∑ a, g a = g 0 := fun g => Fin.sum_univ_one g
      simp only [affineForm, mulVec, dotProduct, of_apply, mul_sum, hs1, unitData, Matrix.one_apply_eq, one_mul, mul_assoc]
    rw [h1, mul_pow, hcof, one_mul]
  have hpsi : (((form (edgeOf P unitData (fun _ => 0) []) ((p + 1) ^ 0) 0).psi 0)ᵀ *ᵥ (proj P u - u')) ⬝ᵥ (((form (edgeOf P unitData (fun _ => 0) []) ((p + 1) ^ 0) 0).psi 0)ᵀ *ᵥ (proj P u - u')) ≤
      polyFun P (proj P u - u') (facePoint 0 y) ^ 2 := by
    have h1 : ((form (edgeOf P unitData (fun _ => 0) []) ((p + 1) ^ 0) 0).psi 0)ᵀ *ᵥ (proj P u - u') = proj P fun y => polyFun P (proj P u - u') (facePoint 0 y) := funext fun j => by
      rw [psiT_apply hP hE0]
      show (1 : ℝ) * _ = _
      rw [one_mul]
      rfl
    rw [h1]
    refine (proj_le hP ((polyFun_cont _).comp (face_cont 0))).trans (le_of_eq ?_)
    exact int_point _ y
  have h1 := hstab (proj P u - u')
  have h2 : ((form (edgeOf P unitData (fun _ => 0) []) ((p + 1) ^ 0) 0).grad 0 *ᵥ (proj P u - u')) ⬝ᵥ ((form (edgeOf P unitData (fun _ => 0) []) ((p + 1) ^ 0) 0).grad 0 *ᵥ (proj P u - u')) ≤
      (∑ i, M i ^ 2) * (3 * (B.A.vol ^ 2 * amax * Q + l 0 ^ 2 + l 1 ^ 2)) := by
    rw [sum_mul]
    refine sum_le_sum fun i _ => ?_
    rw [← sq, ← hgrad0]
    exact hgrad i
  refine h1.trans ?_
  rw [mul_assoc]
  refine mul_le_mul_of_nonneg_left ?_ hC1
  have h3 : polyFun P (proj P u - u') (facePoint 0 y) ^ 2 ≤ 2 * l 0 ^ 2 + 2 * (polyFun P (proj P u - u') (facePoint 0 y) - l 0) ^ 2 := by
    have := sq_nonneg (polyFun P (proj P u - u') (facePoint 0 y) - 2 * l 0)
    linarith
  have hQ : 0 ≤ Q := cubeInt_nonneg (hB.cont.mul ((hq.sub (polyFun_cont _)).pow 2)) fun z _ => mul_nonneg (hB.pos z).le (sq_nonneg _)
  have ham : 0 ≤ amax := (hB.pos _).le.trans (ha _ (hface 0))
  have h4 : 0 ≤ ∑ i, M i ^ 2 := sum_nonneg fun i _ => sq_nonneg _
  have h5 : 0 ≤ B.A.vol ^ 2 * amax * Q := by positivity
  have h6 := mul_nonneg h4 (sq_nonneg (polyFun P (proj P u - u') (facePoint 0 y) - l 0))
  have h7 := sq_nonneg (l 1)
  have h8 := sq_nonneg (l 0)
  show _ ≤ (3 * ∑ i, M i ^ 2 + 2) * (B.A.vol ^ 2 * amax * Q + l 0 ^ 2 + l 1 ^ 2 + (polyFun P (proj P u - u') (facePoint 0 y) - l 0) ^ 2)
  linarith

end HyperHDG.Estimate

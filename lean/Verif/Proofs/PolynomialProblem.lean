import Verif.Spec.PolynomialProblem
import Verif.Proofs.Polynomials
import Verif.Proofs.AffineForm
import Verif.Proofs.Rigid
import Verif.Proofs.Exact

/-!
# Polynomial solutions are exact solutions in the sense of coefficients
-/

namespace HyperHDG.Diffusion

open Spec HyGraph MeasureTheory Polynomial Finset Matrix

variable {p d : Nat} {P : Fin (p + 1) → ℝ[X]}

theorem cubeInt_congr {n : Nat} {f g : (Fin n → ℝ) → ℝ} (h : ∀ x ∈ cube n, f x = g x) : cubeInt f = cubeInt g :=
  setIntegral_congr_fun (MeasurableSet.univ_pi fun _ => measurableSet_Icc) h

theorem cubeInt_mul {n : Nat} (c : ℝ) (f : (Fin n → ℝ) → ℝ) : cubeInt (fun x => c * f x) = c * cubeInt f := integral_const_mul _ _

theorem cubeInt_sum {n : Nat} {ι : Type} (s : Finset ι) {f : ι → (Fin n → ℝ) → ℝ} (h : ∀ i, Continuous (f i)) : cubeInt (fun x => ∑ i ∈ s, f i x) = ∑ i ∈ s, cubeInt (f i) :=
  integral_finsetSum _ fun i _ => cube_integrable (h i)

/-- The weighted mass matrix applied to coefficients. -/
theorem mass_apply {n : Nat} {a : (Fin n → ℝ) → ℝ} (ha : Continuous a) (c : Fin ((p + 1) ^ n) → ℝ) (i : Fin ((p + 1) ^ n)) :
    ∑ j, cubeInt (fun x => a x * (shape P i x * shape P j x)) * c j = cubeInt fun x => a x * polyFun P c x * shape P i x := by
  have h1 : ∀ x, a x * polyFun P c x * shape P i x = ∑ j, c j * (a x * (shape P i x * shape P j x)) := fun x => by
    unfold polyFun
    rw [mul_sum, sum_mul]
    exact sum_congr rfl fun j _ => by ring
  simp only [h1]
  rw [cubeInt_sum univ (f := fun j x => c j * (a x * (shape P i x * shape P j x))) fun j => continuous_const.mul (ha.mul ((shape_cont i).mul (shape_cont j)))]
  exact sum_congr rfl fun j _ => by rw [cubeInt_mul, mul_comm]

theorem mass_pos (hP : OrthonormalPolys p P) {n : Nat} {a : (Fin n → ℝ) → ℝ} (ha : Continuous a) (hpos : ∀ x, 0 < a x) (v : Fin ((p + 1) ^ n) → ℝ) (hv : v ≠ 0) :
    0 < ∑ i, v i * ∑ j, cubeInt (fun x => a x * (shape P i x * shape P j x)) * v j := by
  have h1 : ∑ i, v i * ∑ j, cubeInt (fun x => a x * (shape P i x * shape P j x)) * v j = cubeInt fun x => a x * (polyFun P v x * polyFun P v x) := by
    have h2 : ∀ x, a x * (polyFun P v x * polyFun P v x) = ∑ i, v i * (a x * polyFun P v x * shape P i x) := fun x => by
      have : polyFun P v x = ∑ i, v i * shape P i x := rfl
      rw [← mul_assoc]
      conv_lhs => rhs; rw [this]
      rw [mul_sum]
      exact sum_congr rfl fun i _ => by ring
    simp only [mass_apply ha, h2]
    rw [cubeInt_sum univ (f := fun i x => v i * (a x * polyFun P v x * shape P i x)) fun i => continuous_const.mul ((ha.mul (polyFun_cont v)).mul (shape_cont i))]
    exact sum_congr rfl fun i _ => (cubeInt_mul _ _).symm
  obtain ⟨x0, _, hx0⟩ := (isCompact_univ_pi fun _ : Fin n => isCompact_Icc (a := (0 : ℝ)) (b := 1)).exists_isMinOn ⟨0, fun _ _ => ⟨le_rfl, zero_le_one⟩⟩ ha.continuousOn
  have h3 : cubeInt (fun x => polyFun P v x * polyFun P v x) = ∑ i, v i * v i := by
    have h4 : ∀ x, polyFun P v x * polyFun P v x = ∑ i, v i * (polyFun P v x * shape P i x) := fun x => by
      have : polyFun P v x = ∑ i, v i * shape P i x := rfl
      conv_lhs => rhs; rw [this]
      rw [mul_sum]
      exact sum_congr rfl fun i _ => by ring
    simp only [h4]
    rw [cubeInt_sum univ (f := fun i x => v i * (polyFun P v x * shape P i x)) fun i => continuous_const.mul ((polyFun_cont v).mul (shape_cont i))]
    exact sum_congr rfl fun i _ => by rw [cubeInt_mul, int_polyFun hP]
  have h5 : 0 < ∑ i, v i * v i := by
    obtain ⟨i, hi⟩ := Function.ne_iff.mp hv
    exact sum_pos' (fun i _ => mul_self_nonneg _) ⟨i, mem_univ i, mul_self_pos.mpr hi⟩
  rw [h1]
  refine lt_of_lt_of_le (mul_pos (hpos x0) h5) ?_
  rw [← h3, ← cubeInt_mul]
  refine setIntegral_mono_on (cube_integrable (continuous_const.mul ((polyFun_cont v).mul (polyFun_cont v)))) (cube_integrable (ha.mul ((polyFun_cont v).mul (polyFun_cont v))))
    (MeasurableSet.univ_pi fun _ => measurableSet_Icc) fun x hx => ?_
  exact mul_le_mul_of_nonneg_right (hx0 hx) (mul_self_nonneg _)

section
variable (hP : OrthonormalPolys p P) {B : Data d} (hB : B.Admissible) {time : ℝ} {E : Edge (d + 1) ((p + 1) ^ (d + 1)) ℝ} (hE : ExactIntegrals P B time E)

include hP hB hE

theorem exact_laws : FormLaws (form E ((p + 1) ^ d) time) ∧ Rigid (form E ((p + 1) ^ d) time) := by
  rw [hE.form]
  refine ⟨affine_laws _ (tensor_lawful (d := d) (exactBasis P) (exact_lawful hP)) B.A hB.affine _ ?_ fun v hv => ?_,
    affine_rigid _ (tensor_rigid (d := d) (exactBasis P) (exact_lawful hP)) B.A hB.affine _⟩
  · ext i j
    simp only [transpose_apply, of_apply]
    congr 2
    funext x
    ring
  · refine lt_of_lt_of_eq (mul_pos hB.affine.vol_pos (mass_pos hP hB.cont hB.pos v hv)) ?_
    simp only [dotProduct, mulVec, of_apply, mul_sum]
    exact sum_congr rfl fun i _ => sum_congr rfl fun j _ => by ring

/-- Functions which solve the equations have coefficients which solve the tested equations. -/
theorem exact_equation {q : Fin (d + 1) → Fin ((p + 1) ^ (d + 1)) → ℝ} {u : Fin ((p + 1) ^ (d + 1)) → ℝ} (h : Solves B (fun k => polyFun P (q k)) (polyFun P u)) :
    SolvesEquation (form E ((p + 1) ^ d) time) 0 1 (source E time) q u := by
  obtain ⟨du, dq, h1, h2, h3⟩ := h
  let T := tensorIntegrator (p + 1) (d + 1) (exactBasis P)
  let der : Fin (d + 1) → (Fin ((p + 1) ^ (d + 1)) → ℝ) → Fin ((p + 1) ^ (d + 1)) → ℝ := fun l c j => ∑ i : Fin ((p + 1) ^ (d + 1)), T.vol_Dphiphi i j l * c i
  have hdu : ∀ l, du l = polyFun P (der l u) := fun l => partial_unique (h1 l) (polyFun_partial hP u l)
  have hdq : ∀ k l, dq k l = polyFun P (der l (q k)) := fun k l => partial_unique (h2 k l) (polyFun_partial hP (q k) l)
  have hgrad : ∀ k c, (fun j : Fin ((p + 1) ^ (d + 1)) => ∑ i : Fin ((p + 1) ^ (d + 1)), (∑ l : Fin (d + 1), B.A.cof l k * T.vol_Dphiphi i j l) * c i) = ∑ l, B.A.cof l k • der l c := fun k c => by
    funext j
    rw [Finset.sum_apply]
    simp only [Pi.smul_apply, smul_eq_mul, der, sum_mul, mul_sum]
    rw [sum_comm]
    exact sum_congr rfl fun l _ => sum_congr rfl fun i _ => by ring
  constructor
  · intro k
    rw [hE.form]
    funext i
    simp only [affineForm, Pi.add_apply, mulVec, dotProduct, of_apply, transpose_apply, Pi.zero_apply]
    rw [congrFun (hgrad k u) i]
    simp only [mul_assoc, ← mul_sum]
    rw [mass_apply hB.cont, ← int_polyFun hP (∑ l, B.A.cof l k • der l u) i, ← cubeInt_mul]
    rw [show cubeInt (fun x => B.A.vol * (B.a x * polyFun P (q k) x * shape P i x)) = cubeInt (fun x => -1 * (polyFun P (∑ l, B.A.cof l k • der l u) x * shape P i x)) from ?_,
      cubeInt_mul, neg_one_mul, neg_add_cancel]
    refine cubeInt_congr fun x hx => ?_
    have h4 := (h3 x hx).1 k
    rw [polyFun_sum]
    simp only [polyFun_smul]
    simp only [hdu] at h4
    linear_combination shape P i x * h4
  · rw [zero_smul, zero_add, one_smul, hE.form]
    funext i
    simp only [affineForm, source, hE.source]
    rw [Finset.sum_apply]
    simp only [mulVec, dotProduct, of_apply, transpose_apply]
    rw [sum_congr rfl fun k _ => congrFun (hgrad k (q k)) i]
    rw [← Finset.sum_apply i univ (fun k => ∑ l, B.A.cof l k • der l (q k)), ← int_polyFun hP (∑ k, ∑ l, B.A.cof l k • der l (q k)) i, ← cubeInt_mul]
    refine cubeInt_congr fun x hx => ?_
    have h4 := (h3 x hx).2
    simp only [polyFun_sum, polyFun_smul]
    simp only [hdq] at h4
    linear_combination shape P i x * h4

omit hP hB in
theorem psi_apply (f : Fin (2 * (d + 1))) (c : Fin ((p + 1) ^ (d + 1)) → ℝ) :
    ((form E ((p + 1) ^ d) time).psi f)ᵀ *ᵥ c = B.A.area f • traceOf (tensorIntegrator (p + 1) (d + 1) (exactBasis P)) ((p + 1) ^ d) c f := by
  rw [hE.form]
  funext j
  simp only [affineForm, mulVec, dotProduct, transpose_apply, of_apply, Pi.smul_apply, smul_eq_mul, traceOf, mul_sum]
  exact sum_congr rfl fun i _ => by ring

omit hB in
/-- Coefficients of the values on a face. -/
theorem exact_trace {u : Fin ((p + 1) ^ (d + 1)) → ℝ} {f : Fin (2 * (d + 1))} {lambda : Fin ((p + 1) ^ d) → ℝ} (h : ∀ y ∈ cube d, polyFun P u (facePoint f y) = polyFun P lambda y) :
    IsTrace (form E ((p + 1) ^ d) time) u f lambda := by
  have h1 : lambda = traceOf (tensorIntegrator (p + 1) (d + 1) (exactBasis P)) ((p + 1) ^ d) u f := by
    funext j
    rw [← int_polyFun hP lambda j, ← int_polyFun hP (traceOf (tensorIntegrator (p + 1) (d + 1) (exactBasis P)) ((p + 1) ^ d) u f) j]
    refine cubeInt_congr fun y hy => ?_
    rw [← h y hy, polyFun_face]
  unfold IsTrace
  rw [psi_apply hE, ← h1, hE.form]
  rfl

omit hB in
theorem exact_dirichlet {u : Fin ((p + 1) ^ (d + 1)) → ℝ} {f : Fin (2 * (d + 1))} (h : ∀ y ∈ cube d, polyFun P u (facePoint f y) = B.g (facePoint f y)) (i : Fin ((p + 1) ^ (d + 1))) :
    E.bdr_phifunc time i f = ((form E ((p + 1) ^ d) time).bdr f *ᵥ u) i := by
  rw [hE.dirichlet, hE.form]
  simp only [affineForm, mulVec, dotProduct, of_apply, mul_assoc, ← mul_sum]
  rw [← int_face hP]
  congr 1
  exact cubeInt_congr fun y hy => by rw [h y hy]

end

/-- A polynomial solution has coefficients which form an exact solution. -/
theorem exact_of_polynomial (hP : OrthonormalPolys p P) {nE nN : Nat} (B : Fin nE → Data d) (hB : ∀ e, (B e).Admissible) (time : ℝ) (E : Nat → Edge (d + 1) ((p + 1) ^ (d + 1)) ℝ)
    (hE : ∀ e : Fin nE, ExactIntegrals P (B e) time (E e)) (nodes : Fin nE → Fin (2 * (d + 1)) → Fin nN) (D : Fin nN → Prop)
    {q : Fin nE → Fin (d + 1) → (Fin (d + 1) → ℝ) → ℝ} {u : Fin nE → (Fin (d + 1) → ℝ) → ℝ} {w : Fin nN → (Fin d → ℝ) → ℝ} (h : IsPolynomialSolution p B nodes D q u w) :
    ∃ (cq : Fin nE → Fin (d + 1) → Fin ((p + 1) ^ (d + 1)) → ℝ) (cu : Fin nE → Fin ((p + 1) ^ (d + 1)) → ℝ) (x : Fin (nN * (p + 1) ^ d) → ℝ),
      IsExact E time nodes D cq cu x ∧ (∀ e k, q e k = polyFun P (cq e k)) ∧ (∀ e, u e = polyFun P (cu e)) ∧
      ∀ e f, ¬ D (nodes e f) → ∀ y ∈ cube d, w (nodes e f) y = polyFun P (faceValues nodes x e f) y := by
  classical
  have h1 : ∀ e k, ∃ c, q e k = polyFun P c := fun e k => (poly_mem hP (h.poly_q e k)).imp fun _ hc => funext hc
  have h2 : ∀ e, ∃ c, u e = polyFun P c := fun e => (poly_mem hP (h.poly_u e)).imp fun _ hc => funext hc
  choose cq hq using h1
  choose cu hu using h2
  let T := tensorIntegrator (p + 1) (d + 1) (exactBasis P)
  -- the values at the nodes
  have h3 : ∀ v : Fin nN, ∃ c : Fin ((p + 1) ^ d) → ℝ, (D v → c = 0) ∧ (¬ D v → ∀ e f, nodes e f = v → ∀ y ∈ cube d, w v y = polyFun P c y) := by
    intro v
    by_cases hv : D v
    · exact ⟨0, fun _ => rfl, fun h => absurd hv h⟩
    · by_cases hef : ∃ e f, nodes e f = v
      · obtain ⟨e, f, rfl⟩ := hef
        refine ⟨traceOf T ((p + 1) ^ d) (cu e) f, fun h => absurd h hv, fun _ e' f' _ y hy => ?_⟩
        rw [← polyFun_face, ← h.continuous e f hv y hy, hu]
      · exact ⟨0, fun h => absurd h hv, fun _ e f h => absurd ⟨e, f, h⟩ hef⟩
  choose c hc0 hc using h3
  have h4 : ∀ k : Fin (nN * (p + 1) ^ d), ∃ r, ∀ v j, dof v j = k → r = c v j := fun k => by
    obtain ⟨v, j, hk⟩ := dof_surj k
    refine ⟨c v j, fun v' j' hk' => ?_⟩
    obtain ⟨rfl, rfl⟩ := HyGraph.dof_inj (hk.trans hk'.symm)
    rfl
  choose x hx' using h4
  have hx : ∀ v j, x (dof v j) = c v j := fun v j => hx' _ v j rfl
  have hval : ∀ e f, faceValues nodes x e f = c (nodes e f) := fun e f => funext fun j => hx _ j
  refine ⟨cq, cu, x, ⟨fun e => ?_, fun e f hf => ?_, fun e f hf i => ?_, fun v hv j => ?_, fun v hv j => by rw [hx, hc0 v hv]; rfl⟩, hq, hu, fun e f hf y hy => ?_⟩
  · refine exact_equation hP (hB e) (hE e) ?_
    have := h.equation e
    rw [hu, funext (hq e)] at this
    exact this
  · refine exact_trace hP (hE e) fun y hy => ?_
    rw [hval, ← hc _ hf e f rfl y hy, ← h.continuous e f hf y hy, hu]
  · refine exact_dirichlet hP (hE e) (fun y hy => ?_) i
    rw [← h.dirichlet e f hf y hy, hu]
  · have h5 : ∀ (e : Fin nE) f, normalFlux (form (E e) ((p + 1) ^ d) time) (cq e) f j =
        cubeInt fun y => ((B e).A.area f * ∑ k, (B e).A.normal f k * q e k (facePoint f y)) * shape P j y := by
      intro e f
      have h6 : normalFlux (form (E e) ((p + 1) ^ d) time) (cq e) f = (B e).A.area f • traceOf T ((p + 1) ^ d) (∑ k, (B e).A.normal f k • cq e k) f := by
        unfold normalFlux
        rw [psi_apply (hE e), (hE e).form]
        rfl
      rw [h6, Pi.smul_apply, smul_eq_mul, ← int_polyFun hP (traceOf T ((p + 1) ^ d) (∑ k, (B e).A.normal f k • cq e k) f) j, ← cubeInt_mul]
      refine cubeInt_congr fun y _ => ?_
      rw [← polyFun_face, polyFun_sum]
      simp only [polyFun_smul, hq]
      ring
    have hqc : ∀ e k, Continuous (q e k) := fun e k => by rw [hq]; exact polyFun_cont _
    have hfc : ∀ f : Fin (2 * (d + 1)), Continuous fun y : Fin d → ℝ => facePoint f y := fun f => by
      refine continuous_pi fun k => ?_
      unfold facePoint
      refine Fin.succAboveCases (axis f) ?_ (fun l => ?_) k
      · simp only [Fin.insertNth_apply_same]; exact continuous_const
      · simp only [Fin.insertNth_apply_succAbove]; exact continuous_apply l
    have h7 : ∀ (e : Fin nE) f, (if nodes e f = v then normalFlux (form (E e) ((p + 1) ^ d) time) (cq e) f j else 0) =
        cubeInt fun y => (if nodes e f = v then (B e).A.area f * ∑ k, (B e).A.normal f k * q e k (facePoint f y) else 0) * shape P j y := by
      intro e f
      split
      · exact h5 e f
      · simp [cubeInt]
    have hcont : ∀ e f, Continuous fun y => (if nodes e f = v then (B e).A.area f * ∑ k, (B e).A.normal f k * q e k (facePoint f y) else 0) * shape P j y := by
      intro e f
      split
      · exact (continuous_const.mul (continuous_finsetSum _ fun k _ => continuous_const.mul ((hqc e k).comp (hfc f)))).mul (shape_cont j)
      · exact continuous_const.mul (shape_cont j)
    simp only [h7]
    rw [sum_congr rfl fun e _ => (cubeInt_sum univ (hcont e)).symm, ← cubeInt_sum univ fun e => continuous_finsetSum univ fun f _ => hcont e f]
    rw [cubeInt_congr (g := fun _ => 0) fun y hy => ?_]
    · simp [cubeInt]
    · simp only [← sum_mul]
      rw [h.balance v hv y hy, zero_mul]
  · rw [hval]
    exact hc _ hf e f rfl y hy

end HyperHDG.Diffusion

import Verif.Spec.ErrorEstimate
import Verif.Proofs.CubeParts
import Verif.Proofs.Apriori

/-!
# The defects of the projections of a classical solution
-/

namespace HyperHDG.Diffusion

open Spec HyGraph MeasureTheory Polynomial Finset Matrix

variable {p d n : Nat} {P : Fin (p + 1) → ℝ[X]}

/-- The coefficients of the projection. -/
noncomputable def proj (P : Fin (p + 1) → ℝ[X]) (g : (Fin n → ℝ) → ℝ) : Fin ((p + 1) ^ n) → ℝ := fun i => cubeInt fun x => g x * shape P i x

theorem cubeInt_add {f g : (Fin n → ℝ) → ℝ} (hf : Continuous f) (hg : Continuous g) : cubeInt (fun x => f x + g x) = cubeInt f + cubeInt g :=
  integral_add (cube_integrable hf) (cube_integrable hg)

theorem cubeInt_sub {f g : (Fin n → ℝ) → ℝ} (hf : Continuous f) (hg : Continuous g) : cubeInt (fun x => f x - g x) = cubeInt f - cubeInt g :=
  integral_sub (cube_integrable hf) (cube_integrable hg)

theorem cubeInt_mono {f g : (Fin n → ℝ) → ℝ} (hf : Continuous f) (hg : Continuous g) (h : ∀ x ∈ cube n, f x ≤ g x) : cubeInt f ≤ cubeInt g :=
  setIntegral_mono_on (cube_integrable hf) (cube_integrable hg) (MeasurableSet.univ_pi fun _ => measurableSet_Icc) h

theorem cubeInt_const (c : ℝ) : cubeInt (fun _ : Fin n → ℝ => c) = c := by
  have h1 := cubeInt_prod (d := n) fun _ _ => 1
  have h2 := cubeInt_mul (n := n) c fun _ => 1
  simp only [prod_const_one, intervalIntegral.integral_const, sub_zero, smul_eq_mul, mul_one] at h1 h2
  rw [h2, h1, mul_one]

theorem cubeInt_nonneg {f : (Fin n → ℝ) → ℝ} (hf : Continuous f) (h : ∀ x ∈ cube n, 0 ≤ f x) : 0 ≤ cubeInt f :=
  (cubeInt_const (n := n) 0).symm.le.trans (cubeInt_mono continuous_const hf h)

/-- Testing by a function of the space. -/
theorem int_test {g : (Fin n → ℝ) → ℝ} (hg : Continuous g) (c : Fin ((p + 1) ^ n) → ℝ) : cubeInt (fun x => g x * polyFun P c x) = ∑ i, c i * cubeInt fun x => g x * shape P i x := by
  have h1 : ∀ x, g x * polyFun P c x = ∑ i, c i * (g x * shape P i x) := fun x => by
    unfold polyFun
    rw [mul_sum]
    exact sum_congr rfl fun i _ => by ring
  simp only [h1]
  rw [cubeInt_sum univ (f := fun i x => c i * (g x * shape P i x)) fun i => continuous_const.mul (hg.mul (shape_cont i))]
  exact sum_congr rfl fun i _ => cubeInt_mul _ _

theorem dot_polyFun (hP : OrthonormalPolys p P) (v w : Fin ((p + 1) ^ n) → ℝ) : v ⬝ᵥ w = cubeInt fun x => polyFun P w x * polyFun P v x := by
  rw [int_test (polyFun_cont w)]
  exact sum_congr rfl fun i _ => by rw [int_polyFun hP]

/-- The projection onto the polynomials is stable. -/
theorem proj_stable (hP : OrthonormalPolys p P) (n : Nat) : ∃ C : ℝ, 0 ≤ C ∧ ∀ (g : (Fin n → ℝ) → ℝ) (eps : ℝ), Continuous g → ApproxBy p eps g →
    ∀ x ∈ cube n, |polyFun P (proj P g) x - g x| ≤ C * eps := by
  have hb : ∀ i : Fin ((p + 1) ^ n), ∃ M : ℝ, ∀ x ∈ cube n, |shape P i x| ≤ M := fun i =>
    let ⟨M, hM⟩ := (isCompact_univ_pi fun _ : Fin n => isCompact_Icc (a := (0 : ℝ)) (b := 1)).exists_bound_of_continuousOn (shape_cont (P := P) i).continuousOn
    ⟨M, fun x hx => hM x hx⟩
  choose M hM using hb
  have h0 : (fun _ => 0 : Fin n → ℝ) ∈ cube n := fun _ _ => ⟨le_rfl, zero_le_one⟩
  have hM0 : ∀ i, 0 ≤ M i := fun i => (abs_nonneg _).trans (hM i _ h0)
  refine ⟨1 + ∑ i, M i * M i, add_nonneg zero_le_one (sum_nonneg fun i _ => mul_self_nonneg _), fun g eps hg ⟨r, hr, hgr⟩ x hx => ?_⟩
  obtain ⟨c, hc⟩ := poly_mem hP hr
  have hr' : r = polyFun P c := funext hc
  subst hr'
  have heps : 0 ≤ eps := (abs_nonneg _).trans (hgr _ h0)
  have h1 : ∀ i, |proj P g i - c i| ≤ eps * M i := fun i => by
    have hcont : Continuous fun x => (g x - polyFun P c x) * shape P i x := (hg.sub (polyFun_cont c)).mul (shape_cont i)
    have h2 : proj P g i - c i = cubeInt fun x => (g x - polyFun P c x) * shape P i x := by
      simp only [sub_mul]
      rw [cubeInt_sub (hg.fun_mul (shape_cont i)) ((polyFun_cont c).fun_mul (shape_cont i)), int_polyFun hP]
      rfl
    have h3 : ∀ x ∈ cube n, |(g x - polyFun P c x) * shape P i x| ≤ eps * M i := fun x hx => by
      rw [abs_mul]
      exact mul_le_mul (hgr x hx) (hM i x hx) (abs_nonneg _) heps
    rw [h2, abs_le]
    constructor
    · rw [← cubeInt_const (n := n) (-(eps * M i))]
      exact cubeInt_mono continuous_const hcont fun x hx => (abs_le.mp (h3 x hx)).1
    · rw [← cubeInt_const (n := n) (eps * M i)]
      exact cubeInt_mono hcont continuous_const fun x hx => (abs_le.mp (h3 x hx)).2
  have h4 : polyFun P (proj P g) x - g x = -(g x - polyFun P c x) + ∑ i, (proj P g i - c i) * shape P i x := by
    have : ∑ i, (proj P g i - c i) * shape P i x = polyFun P (proj P g) x - polyFun P c x := by
      unfold polyFun
      rw [← sum_sub_distrib]
      exact sum_congr rfl fun i _ => sub_mul _ _ _
    rw [this]
    ring
  rw [h4]
  refine (abs_add_le _ _).trans ?_
  rw [abs_neg, add_mul, one_mul, sum_mul]
  refine add_le_add (hgr x hx) ((abs_sum_le_sum_abs _ _).trans (sum_le_sum fun i _ => ?_))
  rw [abs_mul]
  calc _ ≤ eps * M i * M i := mul_le_mul (h1 i) (hM i x hx) (abs_nonneg _) (mul_nonneg heps (hM0 i))
    _ = _ := by ring

theorem polyFun_sub (u v : Fin ((p + 1) ^ n) → ℝ) (x : Fin n → ℝ) : polyFun P (u - v) x = polyFun P u x - polyFun P v x := by
  unfold polyFun
  rw [← sum_sub_distrib]
  exact sum_congr rfl fun i _ => sub_mul _ _ _

/-- The projection of a function is not larger than the function. -/
theorem proj_le (hP : OrthonormalPolys p P) {g : (Fin n → ℝ) → ℝ} (hg : Continuous g) : proj P g ⬝ᵥ proj P g ≤ cubeInt fun y => g y ^ 2 := by
  have h1 := dot_polyFun hP (proj P g) (proj P g)
  have h2 := int_test (P := P) hg (proj P g)
  have h3 : cubeInt (fun x => 2 * (g x * polyFun P (proj P g) x)) ≤ cubeInt fun x => g x ^ 2 + polyFun P (proj P g) x * polyFun P (proj P g) x :=
    cubeInt_mono (continuous_const.mul (hg.mul (polyFun_cont _))) ((hg.pow 2).add ((polyFun_cont _).mul (polyFun_cont _))) fun x _ => by
      have := sq_nonneg (g x - polyFun P (proj P g) x)
      linarith
  rw [cubeInt_mul, cubeInt_add (hg.fun_pow 2) ((polyFun_cont _).fun_mul (polyFun_cont _)), ← h1, h2] at h3
  have h4 : (∑ i, proj P g i * cubeInt fun x => g x * shape P i x) = proj P g ⬝ᵥ proj P g := rfl
  rw [h4] at h3
  linarith

theorem dot_mass_test {B : Data d} (hB : B.Admissible) {g : (Fin (d + 1) → ℝ) → ℝ} (hg : Continuous g) (c v : Fin ((p + 1) ^ (d + 1)) → ℝ) :
    (v ⬝ᵥ fun i => B.A.vol * cubeInt fun z => B.a z * (polyFun P c z - g z) * shape P i z) = B.A.vol * cubeInt fun z => B.a z * (polyFun P c z - g z) * polyFun P v z := by
  rw [int_test (hB.cont.fun_mul ((polyFun_cont c).fun_sub hg)), mul_sum]
  exact sum_congr rfl fun i _ => by ring

section
variable (hP : OrthonormalPolys p P) {B : Data d} (hB : B.Admissible) {time : ℝ} {E : Edge (d + 1) ((p + 1) ^ (d + 1)) ℝ} (hE : ExactIntegrals P B time E)

include hE

/-- The moments of a projection. -/
theorem psi_proj {g : (Fin d → ℝ) → ℝ} (hg : Continuous g) (f : Fin (2 * (d + 1))) (i : Fin ((p + 1) ^ (d + 1))) :
    ((form E ((p + 1) ^ d) time).psi f *ᵥ proj P g) i = B.A.area f * cubeInt fun y => g y * shape P i (facePoint f y) := by
  have h1 : ∀ y, g y * shape P i (facePoint f y) = ∑ j : Fin ((p + 1) ^ d), (tensorIntegrator (p + 1) (d + 1) (exactBasis P)).bdr_phipsi i j f * (g y * shape P j y) := fun y => by
    rw [shape_face, mul_sum]
    exact sum_congr rfl fun j _ => by ring
  simp only [h1]
  rw [cubeInt_sum univ (f := fun (j : Fin ((p + 1) ^ d)) y => (tensorIntegrator (p + 1) (d + 1) (exactBasis P)).bdr_phipsi i j f * (g y * shape P j y))
    fun j => continuous_const.mul (hg.mul (shape_cont j)), hE.form, mul_sum]
  simp only [affineForm, mulVec, dotProduct, of_apply]
  exact sum_congr rfl fun j _ => by rw [cubeInt_mul, mul_assoc]; rfl

include hP

theorem psiT_apply (f : Fin (2 * (d + 1))) (c : Fin ((p + 1) ^ (d + 1)) → ℝ) (j : Fin ((p + 1) ^ d)) :
    (((form E ((p + 1) ^ d) time).psi f)ᵀ *ᵥ c) j = B.A.area f * cubeInt fun y => polyFun P c (facePoint f y) * shape P j y := by
  rw [psi_apply hE, Pi.smul_apply, smul_eq_mul]
  simp only [polyFun_face]
  rw [int_polyFun hP]

theorem bdr_apply (f : Fin (2 * (d + 1))) (c : Fin ((p + 1) ^ (d + 1)) → ℝ) (i : Fin ((p + 1) ^ (d + 1))) :
    ((form E ((p + 1) ^ d) time).bdr f *ᵥ c) i = B.A.area f * cubeInt fun y => polyFun P c (facePoint f y) * shape P i (facePoint f y) := by
  rw [int_face hP, hE.form, mul_sum]
  simp only [affineForm, mulVec, dotProduct, of_apply, mul_assoc]

include hB

theorem grad_proj (k : Fin (d + 1)) (i : Fin ((p + 1) ^ (d + 1))) {g : (Fin (d + 1) → ℝ) → ℝ} {dg : Fin (d + 1) → (Fin (d + 1) → ℝ) → ℝ}
    (hp : ∀ l, IsPartial l g (dg l)) (hd : ∀ l, Continuous (dg l)) (hg : Continuous g) :
    ((form E ((p + 1) ^ d) time).grad k *ᵥ proj P g) i = (∑ f, B.A.normal f k * (B.A.area f * cubeInt fun y => g (facePoint f y) * shape P i (facePoint f y))) -
      cubeInt fun x => (∑ l, B.A.cof l k * dg l x) * shape P i x := by
  have h1 : ((form E ((p + 1) ^ d) time).grad k *ᵥ proj P g) i = ∑ l : Fin (d + 1), B.A.cof l k *
      ∑ j : Fin ((p + 1) ^ (d + 1)), (tensorIntegrator (p + 1) (d + 1) (exactBasis P)).vol_Dphiphi i j l * cubeInt fun x => g x * shape P j x := by
    rw [hE.form]
    simp only [affineForm, mulVec, dotProduct, of_apply, proj, sum_mul, mul_sum]
    rw [sum_comm]
    exact sum_congr rfl fun l _ => sum_congr rfl fun j _ => by ring
  have h2 : cubeInt (fun x => (∑ l, B.A.cof l k * dg l x) * shape P i x) = ∑ l, B.A.cof l k * cubeInt fun x => dg l x * shape P i x := by
    simp only [sum_mul, mul_assoc]
    rw [cubeInt_sum univ (f := fun l x => B.A.cof l k * (dg l x * shape P i x)) fun l => continuous_const.mul ((hd l).mul (shape_cont i))]
    exact sum_congr rfl fun l _ => cubeInt_mul _ _
  have h3 : ∀ f : Fin (2 * (d + 1)), B.A.normal f k * (B.A.area f * cubeInt fun y => g (facePoint f y) * shape P i (facePoint f y)) =
      ∑ l, B.A.cof l k * if axis f = l then Spec.normal f * cubeInt (fun y => g (facePoint f y) * shape P i (facePoint f y)) else 0 := fun f => by
    rw [sum_eq_single (axis f)]
    · rw [if_pos rfl, ← mul_assoc, hB.affine.piola]
      ring
    · intro l _ hl
      rw [if_neg hl.symm, mul_zero]
    · simp
  rw [h1, h2, sum_congr rfl fun f _ => h3 f, sum_comm, ← sum_sub_distrib]
  refine sum_congr rfl fun l _ => ?_
  rw [← mul_sum, ← parts_shape hP i l (hp l) hg (hd l)]
  ring

omit hP in
theorem mass_dot (c : Fin ((p + 1) ^ (d + 1)) → ℝ) : c ⬝ᵥ (form E ((p + 1) ^ d) time).mass *ᵥ c = B.A.vol * cubeInt fun z => B.a z * polyFun P c z ^ 2 := by
  have hm : ∀ i, ((form E ((p + 1) ^ d) time).mass *ᵥ c) i = B.A.vol * cubeInt fun x => B.a x * polyFun P c x * shape P i x := fun i => by
    rw [hE.form]
    simp only [affineForm, mulVec, dotProduct, of_apply, mul_assoc, ← mul_sum]
    rw [mass_apply hB.cont]
    simp only [mul_assoc]
  have h1 : ∀ z, B.a z * polyFun P c z ^ 2 = B.a z * polyFun P c z * polyFun P c z := fun z => by ring
  simp only [h1]
  rw [int_test (hB.cont.fun_mul (polyFun_cont c)), mul_sum]
  simp only [dotProduct, hm]
  exact sum_congr rfl fun i _ => by ring

end

/-- The defect of the projection on a face. -/
noncomputable def faceDefect (P : Fin (p + 1) → ℝ[X]) (B : Data d) (tau : ℝ) (q : Fin (d + 1) → (Fin (d + 1) → ℝ) → ℝ) (u : (Fin (d + 1) → ℝ) → ℝ) (f : Fin (2 * (d + 1))) (y : Fin d → ℝ) : ℝ :=
  (∑ k, B.A.normal f k * (polyFun P (proj P (q k)) (facePoint f y) - q k (facePoint f y))) + tau * (polyFun P (proj P u) (facePoint f y) - u (facePoint f y))

theorem faceDefect_cont {B : Data d} {tau : ℝ} {q : Fin (d + 1) → (Fin (d + 1) → ℝ) → ℝ} {u : (Fin (d + 1) → ℝ) → ℝ} (hq : ∀ k, Continuous (q k)) (hu : Continuous u) (f : Fin (2 * (d + 1))) :
    Continuous (faceDefect P B tau q u f) :=
  (continuous_finsetSum _ fun k _ => continuous_const.mul (((polyFun_cont _).comp (face_cont f)).sub ((hq k).comp (face_cont f)))).add
    (continuous_const.mul (((polyFun_cont _).comp (face_cont f)).sub (hu.comp (face_cont f))))

section
variable (hP : OrthonormalPolys p P) {B : Data d} (hB : B.Admissible) {time : ℝ} {E : Edge (d + 1) ((p + 1) ^ (d + 1)) ℝ} (hE : ExactIntegrals P B time E) (tau : ℝ)
  {q : Fin (d + 1) → (Fin (d + 1) → ℝ) → ℝ} {u : (Fin (d + 1) → ℝ) → ℝ} (h : SolvesClassically B q u)

include hP hB hE h

theorem defect_flux {G : Fin (2 * (d + 1)) → Fin ((p + 1) ^ (d + 1)) → ℝ} (hG : ∀ f i, G f i = B.A.area f * cubeInt fun y => u (facePoint f y) * shape P i (facePoint f y)) (k : Fin (d + 1)) :
    (form E ((p + 1) ^ d) time).mass *ᵥ proj P (q k) - (form E ((p + 1) ^ d) time).grad k *ᵥ proj P u + ∑ f, (form E ((p + 1) ^ d) time).normal f k • G f =
      fun i => B.A.vol * cubeInt fun x => B.a x * (polyFun P (proj P (q k)) x - q k x) * shape P i x := by
  obtain ⟨du, dq, h1, h2, hu, hq, h3⟩ := h
  funext i
  rw [Pi.add_apply, Pi.sub_apply, grad_proj hP hB hE k i (fun l => (h1 l).1) (fun l => (h1 l).2) hu, Finset.sum_apply]
  have hm : ((form E ((p + 1) ^ d) time).mass *ᵥ proj P (q k)) i = B.A.vol * cubeInt fun x => B.a x * polyFun P (proj P (q k)) x * shape P i x := by
    rw [hE.form]
    simp only [affineForm, mulVec, dotProduct, of_apply, mul_assoc, ← mul_sum]
    rw [mass_apply hB.cont]
    simp only [mul_assoc]
  have hn : (form E ((p + 1) ^ d) time).normal = B.A.normal := by rw [hE.form]; rfl
  simp only [hm, hn, Pi.smul_apply, smul_eq_mul, hG]
  have h4 : cubeInt (fun x => (∑ l, B.A.cof l k * du l x) * shape P i x) = cubeInt fun x => -(B.A.vol * (B.a x * q k x * shape P i x)) :=
    cubeInt_congr fun x hx => by linear_combination shape P i x * (h3 x hx).1 k
  have h5 : cubeInt (fun x => -(B.A.vol * (B.a x * q k x * shape P i x))) = -(B.A.vol * cubeInt fun x => B.a x * q k x * shape P i x) := by
    rw [← cubeInt_mul, ← neg_one_mul, ← cubeInt_mul]
    simp only [neg_one_mul]
  have h6 : cubeInt (fun x => B.a x * (polyFun P (proj P (q k)) x - q k x) * shape P i x) =
      cubeInt (fun x => B.a x * polyFun P (proj P (q k)) x * shape P i x) - cubeInt fun x => B.a x * q k x * shape P i x := by
    rw [← cubeInt_sub ((hB.cont.fun_mul (polyFun_cont _)).fun_mul (shape_cont i)) ((hB.cont.fun_mul (hq k)).fun_mul (shape_cont i))]
    exact cubeInt_congr fun x _ => by ring
  rw [h4, h5, h6]
  ring

theorem defect_primal {G : Fin (2 * (d + 1)) → Fin ((p + 1) ^ (d + 1)) → ℝ} (hG : ∀ f i, G f i = B.A.area f * cubeInt fun y => u (facePoint f y) * shape P i (facePoint f y)) :
    -(∑ k, (form E ((p + 1) ^ d) time).grad k *ᵥ proj P (q k)) + ∑ f, ((form E ((p + 1) ^ d) time).bdr f *ᵥ (∑ k, (form E ((p + 1) ^ d) time).normal f k • proj P (q k) + tau • proj P u) - tau • G f) =
      source E time + ∑ f, (form E ((p + 1) ^ d) time).psi f *ᵥ proj P (faceDefect P B tau q u f) := by
  obtain ⟨du, dq, h1, h2, hu, hq, h3⟩ := h
  funext i
  have hn : (form E ((p + 1) ^ d) time).normal = B.A.normal := by rw [hE.form]; rfl
  have hu' : ∀ f : Fin (2 * (d + 1)), Continuous fun y : Fin d → ℝ => u (facePoint f y) := fun f => hu.comp (face_cont f)
  have hq' : ∀ (f : Fin (2 * (d + 1))) k, Continuous fun y : Fin d → ℝ => q k (facePoint f y) := fun f k => (hq k).comp (face_cont f)
  have hs' : ∀ f : Fin (2 * (d + 1)), Continuous fun y : Fin d → ℝ => shape P i (facePoint f y) := fun f => (shape_cont i).comp (face_cont f)
  have hpf : ∀ (f : Fin (2 * (d + 1))) c, Continuous fun y : Fin d → ℝ => polyFun P c (facePoint f y) := fun f c => (polyFun_cont c).comp (face_cont f)
  simp only [Pi.add_apply, Pi.neg_apply, Finset.sum_apply, Pi.sub_apply, Pi.smul_apply, smul_eq_mul, hG, hn, bdr_apply hP hE, psi_proj hE (faceDefect_cont hq hu _), source, hE.source,
    fun k => grad_proj hP hB hE k i (fun l => (h2 k l).1) (fun l => (h2 k l).2) (hq k)]
  have h4 : ∑ k, cubeInt (fun x => (∑ l, B.A.cof l k * dq k l x) * shape P i x) = B.A.vol * cubeInt fun x => B.f x * shape P i x := by
    rw [← cubeInt_sum univ (f := fun k x => (∑ l, B.A.cof l k * dq k l x) * shape P i x) fun k => (continuous_finsetSum _ fun l _ => continuous_const.mul (h2 k l).2).mul (shape_cont i), ← cubeInt_mul]
    refine cubeInt_congr fun x hx => ?_
    rw [← sum_mul, (h3 x hx).2, mul_assoc]
  have h5 : ∀ f : Fin (2 * (d + 1)), cubeInt (fun y => faceDefect P B tau q u f y * shape P i (facePoint f y)) =
      cubeInt (fun y => polyFun P (∑ k, B.A.normal f k • proj P (q k) + tau • proj P u) (facePoint f y) * shape P i (facePoint f y)) -
        (∑ k, B.A.normal f k * cubeInt fun y => q k (facePoint f y) * shape P i (facePoint f y)) - tau * cubeInt fun y => u (facePoint f y) * shape P i (facePoint f y) := fun f => by
    have h6 : (∑ k, B.A.normal f k * cubeInt fun y => q k (facePoint f y) * shape P i (facePoint f y)) = cubeInt fun y => ∑ k, B.A.normal f k * (q k (facePoint f y) * shape P i (facePoint f y)) := by
      rw [cubeInt_sum univ (f := fun k y => B.A.normal f k * (q k (facePoint f y) * shape P i (facePoint f y))) fun k => continuous_const.mul ((hq' f k).mul (hs' f))]
      exact sum_congr rfl fun k _ => (cubeInt_mul _ _).symm
    rw [h6, ← cubeInt_mul, ← cubeInt_sub ((hpf f _).fun_mul (hs' f)) (continuous_finsetSum _ fun k _ => continuous_const.fun_mul ((hq' f k).fun_mul (hs' f))),
      ← cubeInt_sub (((hpf f _).fun_mul (hs' f)).fun_sub (continuous_finsetSum _ fun k _ => continuous_const.fun_mul ((hq' f k).fun_mul (hs' f)))) (continuous_const.fun_mul ((hu' f).fun_mul (hs' f)))]
    refine cubeInt_congr fun y _ => ?_
    rw [polyFun_add, polyFun_sum, polyFun_smul]
    simp only [polyFun_smul, faceDefect, mul_sub, sum_sub_distrib, add_mul, sub_mul, sum_mul, mul_assoc]
    ring
  simp only [h5, sum_sub_distrib, h4, mul_sub, mul_sum]
  rw [sum_comm (s := univ (α := Fin (d + 1)))]
  have h7 : ∀ f k, B.A.normal f k * (B.A.area f * cubeInt fun y => q k (facePoint f y) * shape P i (facePoint f y)) =
      B.A.area f * (B.A.normal f k * cubeInt fun y => q k (facePoint f y) * shape P i (facePoint f y)) := fun f k => by ring
  have h8 : ∀ f, tau * (B.A.area f * cubeInt fun y => u (facePoint f y) * shape P i (facePoint f y)) = B.A.area f * (tau * cubeInt fun y => u (facePoint f y) * shape P i (facePoint f y)) := fun f => by ring
  simp only [h7, h8]
  ring

omit hB in
/-- The flux of the projection on a face. -/
theorem defect_faceFlux {lambda : Fin (2 * (d + 1)) → Fin ((p + 1) ^ d) → ℝ} {f : Fin (2 * (d + 1))} (hl : lambda f = proj P fun y => u (facePoint f y)) (j : Fin ((p + 1) ^ d)) :
    (faceFlux (form E ((p + 1) ^ d) time) tau lambda (fun k => proj P (q k)) (proj P u) f - (form E ((p + 1) ^ d) time).area f • proj P (faceDefect P B tau q u f)) j =
      cubeInt fun y => B.A.area f * (∑ k, B.A.normal f k * q k (facePoint f y)) * shape P j y := by
  obtain ⟨du, dq, h1, h2, hu, hq, h3⟩ := h
  have hn : (form E ((p + 1) ^ d) time).normal = B.A.normal := by rw [hE.form]; rfl
  have ha : (form E ((p + 1) ^ d) time).area = B.A.area := by rw [hE.form]; rfl
  have hu' : Continuous fun y : Fin d → ℝ => u (facePoint f y) := hu.comp (face_cont f)
  have hq' : ∀ k, Continuous fun y : Fin d → ℝ => q k (facePoint f y) := fun k => (hq k).comp (face_cont f)
  have hpf : ∀ c, Continuous fun y : Fin d → ℝ => polyFun P c (facePoint f y) := fun c => (polyFun_cont c).comp (face_cont f)
  have hqs := continuous_finsetSum univ fun k (_ : k ∈ univ) => continuous_const (y := B.A.normal f k) |>.mul (hq' k)
  rw [Pi.sub_apply, Pi.smul_apply, smul_eq_mul, ha]
  unfold faceFlux
  rw [Pi.sub_apply, Pi.smul_apply, smul_eq_mul, hn, ha, psiT_apply hP hE, hl]
  simp only [proj, mul_assoc]
  rw [cubeInt_mul, mul_left_comm tau, ← mul_sub, ← mul_sub]
  congr 1
  rw [← cubeInt_mul, ← cubeInt_sub ((hpf _).fun_mul (shape_cont j)) (continuous_const.fun_mul (hu'.fun_mul (shape_cont j))),
    ← cubeInt_sub (((hpf _).fun_mul (shape_cont j)).fun_sub (continuous_const.fun_mul (hu'.fun_mul (shape_cont j)))) ((faceDefect_cont hq hu f).fun_mul (shape_cont j))]
  refine cubeInt_congr fun y _ => ?_
  rw [polyFun_add, polyFun_sum, polyFun_smul]
  simp only [polyFun_smul, faceDefect, mul_sub, sum_sub_distrib]
  unfold proj
  ring

end

end HyperHDG.Diffusion

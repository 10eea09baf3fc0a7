import Verif.Proofs.LDG
import Verif.Proofs.DiffusionParab

/-!
# Proof support: energy estimate of the theta scheme
-/

namespace HyperHDG.DiffusionParab

open Finset Spec Matrix Diffusion

variable {K : Type} {dim nS nB : Nat}

section
variable [CommRing K]

/-- The rate without source and Dirichlet data. -/
def homRate (F : Form dim nS nB K) (tau : K) (x : State dim nS nB K) : Fin nS → K :=
  ∑ d, F.grad d *ᵥ x.q d - ∑ f, (F.bdr f *ᵥ (∑ d, F.normal f d • x.q d + tau • x.u) - tau • moments F x.lambda f)

/-- The first equation without Dirichlet data. -/
def HomDual (F : Form dim nS nB K) (x : State dim nS nB K) : Prop :=
  ∀ d, F.mass *ᵥ x.q d - F.grad d *ᵥ x.u + ∑ f, F.normal f d • moments F x.lambda f = 0

/-- Linear combination of states. -/
def comb (a b : K) (x y : State dim nS nB K) : State dim nS nB K := ⟨a • x.q + b • y.q, a • x.u + b • y.u, a • x.lambda + b • y.lambda⟩

theorem homRate_comb (F : Form dim nS nB K) (tau a b : K) (x y : State dim nS nB K) : homRate F tau (comb a b x y) = a • homRate F tau x + b • homRate F tau y := by
  simp only [homRate, comb, Pi.add_apply, Pi.smul_apply, mulVec_add, mulVec_smul, mulVec_sum, moments_lin, smul_add, smul_sub, Finset.smul_sum, Finset.sum_add_distrib,
    Finset.sum_sub_distrib, smul_comm a, smul_comm b]
  abel

theorem homDual_comb (F : Form dim nS nB K) (a b : K) (x y : State dim nS nB K) (hx : HomDual F x) (hy : HomDual F y) : HomDual F (comb a b x y) := by
  intro d
  have h1 := congrArg (fun v => a • v) (hx d)
  have h2 := congrArg (fun v => b • v) (hy d)
  have h3 := congrArg₂ (· + ·) h1 h2
  simp only [smul_zero, add_zero] at h3
  rw [← h3]
  simp only [comb, Pi.add_apply, Pi.smul_apply, mulVec_add, mulVec_smul, moments_lin, smul_add, smul_sub, Finset.smul_sum, Finset.sum_add_distrib, smul_comm a, smul_comm b]
  abel

theorem flux_comb (E : Edge dim nS K) (tau time a b : K) (x y : State dim nS nB K) :
    flux E tau time (comb a b x y) = a • flux E tau time x + b • flux E tau time y := flux_lin a b

theorem solution_of_dual (F : Form dim nS nB K) (tau : K) (x : State dim nS nB K) (h : HomDual F x) :
    IsSolution F tau 0 1 (moments F x.lambda) (-homRate F tau x) x.q x.u := by
  refine ⟨h, ?_⟩
  rw [zero_smul, zero_add, one_smul, homRate]
  abel

theorem rate_sub (E : Edge dim nS K) (tau time : K) (x y : State dim nS nB K) :
    rate E tau time x - rate E tau time y = homRate (form E.toEdge nB time) tau (comb 1 (-1) x y) := by
  rw [homRate_comb]
  simp only [rate, homRate, trace, Pi.add_apply, smul_add, Finset.sum_sub_distrib, Finset.sum_add_distrib, one_smul, neg_smul]
  abel

theorem dual_sub (E : Edge dim nS K) (time : K) (x y : State dim nS nB K) (hx : DualEquation E time x) (hy : DualEquation E time y) :
    HomDual (form E.toEdge nB time) (comb 1 (-1) x y) := by
  intro d
  have h := congrArg₂ (· - ·) (hx d) (hy d)
  simp only [sub_zero] at h
  rw [← h]
  have hm : moments (form E.toEdge nB time) (comb 1 (-1) x y).lambda = moments (form E.toEdge nB time) x.lambda - moments (form E.toEdge nB time) y.lambda := by
    rw [comb, moments_lin, one_smul, neg_smul, one_smul, sub_eq_add_neg]
  rw [hm]
  simp only [comb, trace, Pi.add_apply, Pi.sub_apply, Pi.smul_apply, mulVec_add, mulVec_smul, smul_add, smul_sub, Finset.sum_add_distrib, Finset.sum_sub_distrib]
  simp only [one_smul, neg_smul]
  abel

end

section
variable [Field K] [LinearOrder K] [IsStrictOrderedRing K]

theorem theta_identity {M : Matrix (Fin nS) (Fin nS) K} (hM : Mᵀ = M) (theta : K) (v w : Fin nS → K) :
    (theta • v + (1 - theta) • w) ⬝ᵥ M *ᵥ (v - w) = (theta - 1 / 2) * ((v - w) ⬝ᵥ M *ᵥ (v - w)) + 1 / 2 * (v ⬝ᵥ M *ᵥ v - w ⬝ᵥ M *ᵥ w) := by
  have h := symm_dot hM v w
  simp only [mulVec_sub, dotProduct_sub, sub_dotProduct, add_dotProduct, smul_dotProduct, smul_eq_mul, h]
  ring

theorem energy_step {ι : Type} [Fintype ι] (F : ι → Form dim nS nB K) (hF : ∀ i, FormLaws (F i)) (tau dt theta : K) (ht : 0 ≤ tau) (hdt : 0 ≤ dt) (hth : 1 / 2 ≤ theta)
    (un uo : ι → Fin nS → K) (z : ι → State dim nS nB K) (hzu : ∀ i, (z i).u = theta • un i + (1 - theta) • uo i) (hdual : ∀ i, HomDual (F i) (z i))
    (hprimal : ∀ i, (F i).mass0 *ᵥ (un i - uo i) = dt • homRate (F i) tau (z i))
    (hflux : ∑ i, ∑ f, (z i).lambda f ⬝ᵥ faceFlux (F i) tau (z i).lambda (z i).q (z i).u f = 0) :
    ∑ i, un i ⬝ᵥ (F i).mass0 *ᵥ un i ≤ ∑ i, uo i ⬝ᵥ (F i).mass0 *ᵥ uo i := by
  have h1 : ∀ i, ∑ f, (z i).lambda f ⬝ᵥ faceFlux (F i) tau (z i).lambda (z i).q (z i).u f =
      -bilin (F i) tau (z i).q (z i).u (z i).lambda (z i).q (z i).u (z i).lambda - (z i).u ⬝ᵥ homRate (F i) tau (z i) := by
    intro i
    have hs := solution_of_dual (F i) tau (z i) (hdual i)
    rw [flux_form (hF i) one_ne_zero hs hs, inv_one, one_mul, zero_mul, sub_zero, dotProduct_neg]
    ring
  have h2 : ∑ i, (z i).u ⬝ᵥ homRate (F i) tau (z i) ≤ 0 := by
    simp only [h1, Finset.sum_sub_distrib, Finset.sum_neg_distrib] at hflux
    have : 0 ≤ ∑ i, bilin (F i) tau (z i).q (z i).u (z i).lambda (z i).q (z i).u (z i).lambda := Finset.sum_nonneg fun i _ => bilin_nonneg (hF i) ht _ _ _
    linarith
  have h3 : ∀ i, dt * ((z i).u ⬝ᵥ homRate (F i) tau (z i)) = (theta - 1 / 2) * ((un i - uo i) ⬝ᵥ (F i).mass0 *ᵥ (un i - uo i)) +
      1 / 2 * (un i ⬝ᵥ (F i).mass0 *ᵥ un i - uo i ⬝ᵥ (F i).mass0 *ᵥ uo i) := by
    intro i
    rw [← theta_identity (hF i).mass0_symm, hprimal i, ← hzu i, dotProduct_smul, smul_eq_mul]
  have h4 : ∑ i, dt * ((z i).u ⬝ᵥ homRate (F i) tau (z i)) ≤ 0 := by
    rw [← Finset.mul_sum]
    exact mul_nonpos_of_nonneg_of_nonpos hdt h2
  simp only [h3, Finset.sum_add_distrib, ← Finset.mul_sum, Finset.sum_sub_distrib] at h4
  have h5 : 0 ≤ (theta - 1 / 2) * ∑ i, (un i - uo i) ⬝ᵥ (F i).mass0 *ᵥ (un i - uo i) :=
    mul_nonneg (by linarith) (Finset.sum_nonneg fun i _ => quad_nonneg (hF i).mass0_pos _)
  linarith

theorem const_test (F : Form dim nS nB K) (hF : FormLaws F) (c : Fin nS → K) (mu : Fin (2 * dim) → Fin nB → K) (hc : IsConst F c) (hmu : ∀ f, IsTrace F c f (mu f))
    (tau : K) (x : State dim nS nB K) : c ⬝ᵥ homRate F tau x = -∑ f, mu f ⬝ᵥ faceFlux F tau x.lambda x.q x.u f := by
  have h1 : ∀ (d : Fin dim) (v : Fin nS → K), c ⬝ᵥ F.grad d *ᵥ v = 0 := by
    intro d v
    rw [dotProduct_mulVec, ← mulVec_transpose, hc d, zero_dotProduct]
  have h2 : ∀ f (v : Fin nS → K), c ⬝ᵥ F.bdr f *ᵥ v = mu f ⬝ᵥ (F.psi f)ᵀ *ᵥ v := by
    intro f v
    have := bdr_dot hF f c v
    rw [← (hmu f : F.area f • mu f = _), smul_dotProduct, smul_eq_mul] at this
    exact mul_left_cancel₀ (hF.area_pos f).ne' this
  have h3 : ∀ f, c ⬝ᵥ moments F x.lambda f = F.area f * (mu f ⬝ᵥ x.lambda f) := by
    intro f
    rw [moments, dotProduct_mulVec, ← mulVec_transpose, ← (hmu f : F.area f • mu f = _), smul_dotProduct, smul_eq_mul]
  simp only [homRate, dotProduct_sub, dotProduct_sum, h1, Finset.sum_const_zero, zero_sub, h2, dotProduct_smul, h3, faceFlux, smul_eq_mul]
  congr 1
  exact Finset.sum_congr rfl fun f _ => by ring

end

end HyperHDG.DiffusionParab

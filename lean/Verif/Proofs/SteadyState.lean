import Verif.Proofs.ParabolicEnergy
import Verif.Proofs.EllipticProgram
import Verif.Proofs.Rigid
import Verif.Props.DiffusionParab
import Mathlib.LinearAlgebra.QuadraticForm.Basic

/-!
# Proof support: decay of the theta scheme
-/

namespace HyperHDG.DiffusionParab

open Finset Spec Matrix Diffusion HyGraph

variable {K : Type} {dim nS nB : Nat}

section
variable [Field K] [LinearOrder K] [IsStrictOrderedRing K]

/-- On a space of finite dimension every bilinear form is bounded by a positive definite one. -/
theorem quad_dominated {W : Type} [AddCommGroup W] [Module K W] [FiniteDimensional K W] (B1 B2 : LinearMap.BilinForm K W) (hsym : B1.IsSymm)
    (hpos : ∀ w, w ≠ 0 → 0 < B1 w w) : ∃ C, 0 < C ∧ ∀ w, B2 w w ≤ C * B1 w w := by
  have : Invertible (2 : K) := invertibleOfNonzero two_ne_zero
  obtain ⟨v, hv⟩ := LinearMap.BilinForm.exists_orthogonal_basis hsym
  have hd : ∀ i, 0 < B1 (v i) (v i) := fun i => hpos _ (v.ne_zero i)
  have hB1 : ∀ w, B1 w w = ∑ i, v.repr w i ^ 2 * B1 (v i) (v i) := by
    intro w
    conv_lhs => rw [← v.sum_repr w]
    simp only [map_sum, LinearMap.sum_apply, map_smul, LinearMap.smul_apply, smul_eq_mul]
    refine sum_congr rfl fun i _ => ?_
    rw [sum_eq_single i]
    · ring
    · intro j _ hj
      rw [show B1 (v j) (v i) = 0 from hv hj, mul_zero]
    · exact fun h => absurd (mem_univ i) h
  have hB2 : ∀ w, B2 w w = ∑ i, ∑ j, v.repr w j * (v.repr w i * B2 (v j) (v i)) := by
    intro w
    conv_lhs => rw [← v.sum_repr w]
    simp only [map_sum, LinearMap.sum_apply, map_smul, LinearMap.smul_apply, smul_eq_mul]
    refine sum_congr rfl fun i _ => ?_
    rw [mul_sum]
    refine sum_congr rfl fun j _ => ?_
    ring
  have hle : ∀ w i, v.repr w i ^ 2 ≤ B1 w w / B1 (v i) (v i) := by
    intro w i
    rw [le_div_iff₀ (hd i), hB1 w]
    exact single_le_sum (f := fun i => v.repr w i ^ 2 * B1 (v i) (v i)) (fun j _ => mul_nonneg (sq_nonneg _) (hd j).le) (mem_univ i)
  refine ⟨∑ i, ∑ j, |B2 (v j) (v i)| * (1 / B1 (v i) (v i) + 1 / B1 (v j) (v j)) + 1, ?_, fun w => ?_⟩
  · refine add_pos_of_nonneg_of_pos (sum_nonneg fun i _ => sum_nonneg fun j _ => mul_nonneg (abs_nonneg _) ?_) one_pos
    exact add_nonneg (div_nonneg zero_le_one (hd i).le) (div_nonneg zero_le_one (hd j).le)
  · have h0 : 0 ≤ B1 w w := by
      rw [hB1]
      exact sum_nonneg fun i _ => mul_nonneg (sq_nonneg _) (hd i).le
    have h1 : B2 w w ≤ ∑ i, ∑ j, |B2 (v j) (v i)| * (1 / B1 (v i) (v i) + 1 / B1 (v j) (v j)) * B1 w w := by
      rw [hB2]
      refine sum_le_sum fun i _ => sum_le_sum fun j _ => ?_
      have e1 : v.repr w j * v.repr w i * B2 (v j) (v i) ≤ |v.repr w j * v.repr w i| * |B2 (v j) (v i)| := by
        rw [← abs_mul]
        exact le_abs_self _
      have e2 : |v.repr w j * v.repr w i| ≤ v.repr w i ^ 2 + v.repr w j ^ 2 := by
        rw [abs_le]
        constructor <;> nlinarith [sq_nonneg (v.repr w i - v.repr w j), sq_nonneg (v.repr w i + v.repr w j), sq_nonneg (v.repr w i), sq_nonneg (v.repr w j)]
      have e3 : v.repr w i ^ 2 + v.repr w j ^ 2 ≤ (1 / B1 (v i) (v i) + 1 / B1 (v j) (v j)) * B1 w w := by
        rw [add_mul, one_div_mul_eq_div, one_div_mul_eq_div]
        exact add_le_add (hle w i) (hle w j)
      calc v.repr w j * (v.repr w i * B2 (v j) (v i)) = v.repr w j * v.repr w i * B2 (v j) (v i) := by ring
        _ ≤ |v.repr w j * v.repr w i| * |B2 (v j) (v i)| := e1
        _ ≤ (1 / B1 (v i) (v i) + 1 / B1 (v j) (v j)) * B1 w w * |B2 (v j) (v i)| := mul_le_mul_of_nonneg_right (e2.trans e3) (abs_nonneg _)
        _ = _ := by ring
    rw [add_mul, one_mul]
    simp only [sum_mul]
    linarith

/-- All unknowns. -/
abbrev Unknowns (E N dim nS : Nat) (K : Type) : Type := (Fin E → Fin dim → Fin nS → K) × (Fin E → Fin nS → K) × (Fin N → K)

/-- The energy. -/
def energyForm {E N : Nat} (F : Fin E → Form dim nS nB K) (tau : K) (nodes : Fin E → Fin (2 * dim) → Fin N) : LinearMap.BilinForm K (Unknowns E (N * nB) dim nS K) :=
  LinearMap.mk₂ K (fun v w => ∑ e, bilin (F e) tau (v.1 e) (v.2.1 e) (faceValues nodes v.2.2 e) (w.1 e) (w.2.1 e) (faceValues nodes w.2.2 e))
    (fun v v' w => by
      rw [← sum_add_distrib]
      refine sum_congr rfl fun e _ => ?_
      have h : faceValues nodes (v + v').2.2 e = faceValues nodes v.2.2 e + faceValues nodes v'.2.2 e := rfl
      rw [h]
      simp only [bilin, Prod.fst_add, Prod.snd_add, Pi.add_apply, add_dotProduct, dotProduct_add, mulVec_add, sum_add_distrib, sum_sub_distrib, mul_add]
      ring)
    (fun c v w => by
      rw [smul_eq_mul, mul_sum]
      refine sum_congr rfl fun e _ => ?_
      have h : faceValues nodes (c • v).2.2 e = c • faceValues nodes v.2.2 e := rfl
      rw [h]
      simp only [bilin, Prod.smul_fst, Prod.smul_snd, Pi.smul_apply, smul_dotProduct, dotProduct_smul, mulVec_smul, smul_eq_mul, ← mul_sum]
      simp only [mul_add, mul_sum]
      congr 1
      refine sum_congr rfl fun f _ => ?_
      ring)
    (fun v w w' => by
      rw [← sum_add_distrib]
      refine sum_congr rfl fun e _ => ?_
      have h : faceValues nodes (w + w').2.2 e = faceValues nodes w.2.2 e + faceValues nodes w'.2.2 e := rfl
      rw [h]
      simp only [bilin, Prod.fst_add, Prod.snd_add, Pi.add_apply, add_dotProduct, dotProduct_add, mulVec_add, sum_add_distrib, sum_sub_distrib, mul_add]
      ring)
    (fun c v w => by
      rw [smul_eq_mul, mul_sum]
      refine sum_congr rfl fun e _ => ?_
      have h : faceValues nodes (c • w).2.2 e = c • faceValues nodes w.2.2 e := rfl
      rw [h]
      simp only [bilin, Prod.smul_fst, Prod.smul_snd, Pi.smul_apply, smul_dotProduct, dotProduct_smul, mulVec_smul, smul_eq_mul, ← mul_sum]
      simp only [mul_add, mul_sum]
      congr 1
      refine sum_congr rfl fun f _ => ?_
      ring)

omit [LinearOrder K] [IsStrictOrderedRing K] in
theorem energyForm_apply {E N : Nat} (F : Fin E → Form dim nS nB K) (tau : K) (nodes : Fin E → Fin (2 * dim) → Fin N) (v w : Unknowns E (N * nB) dim nS K) :
    energyForm F tau nodes v w = ∑ e, bilin (F e) tau (v.1 e) (v.2.1 e) (faceValues nodes v.2.2 e) (w.1 e) (w.2.1 e) (faceValues nodes w.2.2 e) := rfl

/-- The square of the L2 norm and of the trace. -/
def normForm {E N : Nat} (F : Fin E → Form dim nS nB K) : LinearMap.BilinForm K (Unknowns E (N * nB) dim nS K) :=
  LinearMap.mk₂ K (fun v w => ∑ e, v.2.1 e ⬝ᵥ (F e).mass0 *ᵥ w.2.1 e + v.2.2 ⬝ᵥ w.2.2)
    (fun v v' w => by
      simp only [Prod.fst_add, Prod.snd_add, Pi.add_apply, add_dotProduct, sum_add_distrib]
      ring)
    (fun c v w => by
      simp only [Prod.smul_fst, Prod.smul_snd, Pi.smul_apply, smul_dotProduct, smul_eq_mul, ← mul_sum]
      ring)
    (fun v w w' => by
      simp only [Prod.fst_add, Prod.snd_add, Pi.add_apply, dotProduct_add, mulVec_add, sum_add_distrib]
      ring)
    (fun c v w => by
      simp only [Prod.smul_fst, Prod.smul_snd, Pi.smul_apply, dotProduct_smul, mulVec_smul, smul_eq_mul, ← mul_sum]
      ring)

/-- Unknowns solving the first equation without Dirichlet data. -/
def homSpace {E N : Nat} (F : Fin E → Form dim nS nB K) (nodes : Fin E → Fin (2 * dim) → Fin N) (D : Fin N → Prop) : Submodule K (Unknowns E (N * nB) dim nS K) where
  carrier := {v | (∀ e, HomDual (F e) ⟨v.1 e, v.2.1 e, faceValues nodes v.2.2 e⟩) ∧ VanishesAt D v.2.2}
  zero_mem' := by
    refine ⟨fun e d => ?_, fun v _ j => rfl⟩
    have h : moments (F e) (faceValues nodes (0 : Fin (N * nB) → K) e) = 0 := by
      funext f
      have : faceValues nodes (0 : Fin (N * nB) → K) e f = 0 := rfl
      rw [moments, this, mulVec_zero]
      rfl
    show (F e).mass *ᵥ (0 : Fin nS → K) - (F e).grad d *ᵥ (0 : Fin nS → K) + ∑ f, (F e).normal f d • moments (F e) (faceValues nodes (0 : Fin (N * nB) → K) e) f = 0
    simp [h]
  add_mem' := by
    intro v w hv hw
    refine ⟨fun e => ?_, fun a ha j => ?_⟩
    · have := homDual_comb (F e) 1 1 _ _ (hv.1 e) (hw.1 e)
      simp only [comb, one_smul] at this
      exact this
    · show v.2.2 _ + w.2.2 _ = 0
      rw [hv.2 a ha j, hw.2 a ha j, add_zero]
  smul_mem' := by
    intro c v hv
    refine ⟨fun e => ?_, fun a ha j => ?_⟩
    · have := homDual_comb (F e) c 0 _ _ (hv.1 e) (hv.1 e)
      simp only [comb, zero_smul, add_zero] at this
      exact this
    · show c * v.2.2 _ = 0
      rw [hv.2 a ha j, mul_zero]

theorem energy_definite {E N : Nat} (F : Fin E → Form dim nS nB K) (hF : ∀ e, FormLaws (F e)) (hR : ∀ e, Rigid (F e)) {tau : K} (ht : 0 < tau)
    (nodes : Fin E → Fin (2 * dim) → Fin N) (D : Fin N → Prop) (hcon : Anchored nodes D) (v : Unknowns E (N * nB) dim nS K) (hv : v ∈ homSpace F nodes D)
    (h : energyForm F tau nodes v v = 0) : v = 0 := by
  have h0 : ∑ e, bilin (F e) tau (v.1 e) (v.2.1 e) (faceValues nodes v.2.2 e) (v.1 e) (v.2.1 e) (faceValues nodes v.2.2 e) = 0 := h
  have h1 := (sum_eq_zero_iff_of_nonneg fun e _ => bilin_nonneg (hF e) ht.le _ _ _).mp h0
  have hq : ∀ e, v.1 e = 0 := fun e => bilin_q_zero (hF e) ht.le (h1 e (mem_univ e))
  have htr : ∀ e f, IsTrace (F e) (v.2.1 e) f (faceValues nodes v.2.2 e f) := fun e => bilin_trace_zero (hF e) ht (h1 e (mem_univ e))
  have hc : ∀ e, IsConst (F e) (v.2.1 e) := fun e => by
    have hs := solution_of_dual (F e) tau _ (hv.1 e)
    simp only [hq e] at hs
    exact const_of (hF e) hs (htr e)
  have key : ∀ w, ∀ j, v.2.2 (dof w j) = 0 := by
    refine hcon.all (fun w => ∀ j, v.2.2 (dof w j) = 0) hv.2 fun e f g hf => ?_
    have k1 := htr e f
    have k2 : faceValues nodes v.2.2 e f = 0 := funext hf
    unfold IsTrace at k1
    rw [k2, smul_zero] at k1
    have k3 := hR e _ f (hc e) k1.symm
    have k4 := htr e g
    unfold IsTrace at k4
    rw [k3, mulVec_zero] at k4
    exact congrFun ((smul_eq_zero.mp k4).resolve_left ((hF e).area_pos g).ne')
  have hx : v.2.2 = 0 := by
    funext k
    obtain ⟨w, j, rfl⟩ := dof_surj k
    exact key w j
  have hu : ∀ e, v.2.1 e = 0 := fun e => by
    refine (hF e).unisolvent _ (hc e) fun f => ?_
    have k1 := htr e f
    have k2 : faceValues nodes v.2.2 e f = 0 := funext fun j => key _ j
    unfold IsTrace at k1
    rw [k2, smul_zero] at k1
    exact k1.symm
  exact Prod.ext (funext hq) (Prod.ext (funext hu) hx)

/-- The energy dominates the L2 norm and the traces. -/
theorem energy_coercive {E N : Nat} (F : Fin E → Form dim nS nB K) (hF : ∀ e, FormLaws (F e)) (hR : ∀ e, Rigid (F e)) {tau : K} (ht : 0 < tau)
    (nodes : Fin E → Fin (2 * dim) → Fin N) (D : Fin N → Prop) (hcon : Anchored nodes D) :
    ∃ C, 0 < C ∧ ∀ (z : Fin E → State dim nS nB K) (Z : Fin (N * nB) → K), (∀ e, HomDual (F e) (z e)) → (∀ e, (z e).lambda = faceValues nodes Z e) → VanishesAt D Z →
      ∑ e, (z e).u ⬝ᵥ (F e).mass0 *ᵥ (z e).u + ∑ k, Z k ^ 2 ≤ C * ∑ e, bilin (F e) tau (z e).q (z e).u (z e).lambda (z e).q (z e).u (z e).lambda := by
  let W := homSpace F nodes D
  obtain ⟨C, hC, h⟩ := quad_dominated ((energyForm F tau nodes).domRestrict₁₂ W W) ((normForm F).domRestrict₁₂ W W)
    ⟨fun v w => by
      show energyForm F tau nodes v.1 w.1 = energyForm F tau nodes w.1 v.1
      rw [energyForm_apply, energyForm_apply]
      exact sum_congr rfl fun e _ => bilin_symm (hF e)⟩
    (fun w hw => by
      refine lt_of_le_of_ne ?_ fun h0 => hw (Subtype.ext (energy_definite F hF hR ht nodes D hcon w.1 w.2 h0.symm))
      show 0 ≤ energyForm F tau nodes w.1 w.1
      rw [energyForm_apply]
      exact sum_nonneg fun e _ => bilin_nonneg (hF e) ht.le _ _ _)
  refine ⟨C, hC, fun z Z h1 h2 h3 => ?_⟩
  have hmem : ((fun e => (z e).q, fun e => (z e).u, Z) : Unknowns E (N * nB) dim nS K) ∈ W := ⟨fun e => by
    rw [← h2 e]
    exact h1 e, h3⟩
  have := h ⟨_, hmem⟩
  have e1 : ∑ e, bilin (F e) tau (z e).q (z e).u (z e).lambda (z e).q (z e).u (z e).lambda =
      ∑ e, bilin (F e) tau (z e).q (z e).u (faceValues nodes Z e) (z e).q (z e).u (faceValues nodes Z e) := sum_congr rfl fun e _ => by rw [h2 e]
  rw [e1]
  refine le_trans (le_of_eq ?_) this
  show _ = ∑ e, (z e).u ⬝ᵥ (F e).mass0 *ᵥ (z e).u + Z ⬝ᵥ Z
  simp only [dotProduct, sq]

/-- Decay in a step of the theta scheme. -/
theorem energy_decay {ι : Type} [Fintype ι] (F : ι → Form dim nS nB K) (hF : ∀ i, FormLaws (F i)) (tau dt theta : K) (hdt : 0 < dt)
    (un uo : ι → Fin nS → K) (z : ι → State dim nS nB K) (hzu : ∀ i, (z i).u = theta • un i + (1 - theta) • uo i) (hdual : ∀ i, HomDual (F i) (z i))
    (hprimal : ∀ i, (F i).mass0 *ᵥ (un i - uo i) = dt • homRate (F i) tau (z i))
    (hflux : ∑ i, ∑ f, (z i).lambda f ⬝ᵥ faceFlux (F i) tau (z i).lambda (z i).q (z i).u f = 0) {C T : K} (hC : 0 < C) (hT : 0 ≤ T)
    (hco : ∑ i, (z i).u ⬝ᵥ (F i).mass0 *ᵥ (z i).u + T ≤ C * ∑ i, bilin (F i) tau (z i).q (z i).u (z i).lambda (z i).q (z i).u (z i).lambda)
    {kappa : K} (hk0 : 0 ≤ kappa) (hk1 : kappa * C ≤ dt) (hk2 : kappa * (2 * (1 - theta) ^ 2) ≤ 2 * theta - 1) :
    (1 + kappa) * ∑ i, un i ⬝ᵥ (F i).mass0 *ᵥ un i ≤ ∑ i, uo i ⬝ᵥ (F i).mass0 *ᵥ uo i ∧
      (theta = 1 → 2 * dt * T ≤ C * ∑ i, uo i ⬝ᵥ (F i).mass0 *ᵥ uo i) := by
  have h1 : ∀ i, ∑ f, (z i).lambda f ⬝ᵥ faceFlux (F i) tau (z i).lambda (z i).q (z i).u f =
      -bilin (F i) tau (z i).q (z i).u (z i).lambda (z i).q (z i).u (z i).lambda - (z i).u ⬝ᵥ homRate (F i) tau (z i) := by
    intro i
    have hs := solution_of_dual (F i) tau (z i) (hdual i)
    rw [flux_form (hF i) one_ne_zero hs hs, inv_one, one_mul, zero_mul, sub_zero, dotProduct_neg]
    ring
  have h2 : ∑ i, (z i).u ⬝ᵥ homRate (F i) tau (z i) = -∑ i, bilin (F i) tau (z i).q (z i).u (z i).lambda (z i).q (z i).u (z i).lambda := by
    simp only [h1, Finset.sum_sub_distrib, Finset.sum_neg_distrib] at hflux
    linarith
  have h3 : ∀ i, dt * ((z i).u ⬝ᵥ homRate (F i) tau (z i)) = (theta - 1 / 2) * ((un i - uo i) ⬝ᵥ (F i).mass0 *ᵥ (un i - uo i)) +
      1 / 2 * (un i ⬝ᵥ (F i).mass0 *ᵥ un i - uo i ⬝ᵥ (F i).mass0 *ᵥ uo i) := by
    intro i
    rw [← theta_identity (hF i).mass0_symm, hprimal i, ← hzu i, dotProduct_smul, smul_eq_mul]
  have h4 := congrArg (fun y => dt * y) h2
  simp only [mul_sum, h3] at h4
  simp only [Finset.sum_add_distrib, ← Finset.mul_sum, Finset.sum_sub_distrib] at h4
  have h5 : ∑ i, un i ⬝ᵥ (F i).mass0 *ᵥ un i ≤ 2 * ∑ i, (z i).u ⬝ᵥ (F i).mass0 *ᵥ (z i).u +
      2 * (1 - theta) ^ 2 * ∑ i, (un i - uo i) ⬝ᵥ (F i).mass0 *ᵥ (un i - uo i) := by
    rw [mul_sum, mul_sum, ← sum_add_distrib]
    refine sum_le_sum fun i _ => ?_
    have e1 : un i = (z i).u + (1 - theta) • (un i - uo i) := by
      rw [hzu i]
      module
    have e2 := quad_nonneg (hF i).mass0_pos ((z i).u - (1 - theta) • (un i - uo i))
    have e3 := symm_dot (hF i).mass0_symm (z i).u (un i - uo i)
    have e4 : un i ⬝ᵥ (F i).mass0 *ᵥ un i = ((z i).u + (1 - theta) • (un i - uo i)) ⬝ᵥ (F i).mass0 *ᵥ ((z i).u + (1 - theta) • (un i - uo i)) := by rw [← e1]
    rw [e4]
    generalize un i - uo i = y at e2 e3 ⊢
    simp only [mulVec_sub, mulVec_add, mulVec_smul, dotProduct_sub, dotProduct_add, sub_dotProduct, add_dotProduct, smul_dotProduct, dotProduct_smul, smul_eq_mul, ← e3] at e2 ⊢
    linarith
  have h6 : 0 ≤ ∑ i, (un i - uo i) ⬝ᵥ (F i).mass0 *ᵥ (un i - uo i) := sum_nonneg fun i _ => quad_nonneg (hF i).mass0_pos _
  have h7 : 0 ≤ ∑ i, (z i).u ⬝ᵥ (F i).mass0 *ᵥ (z i).u := sum_nonneg fun i _ => quad_nonneg (hF i).mass0_pos _
  have h8 : 0 ≤ ∑ i, un i ⬝ᵥ (F i).mass0 *ᵥ un i := sum_nonneg fun i _ => quad_nonneg (hF i).mass0_pos _
  generalize ∑ i, un i ⬝ᵥ (F i).mass0 *ᵥ un i = A at *
  generalize ∑ i, uo i ⬝ᵥ (F i).mass0 *ᵥ uo i = B at *
  generalize ∑ i, (z i).u ⬝ᵥ (F i).mass0 *ᵥ (z i).u = U at *
  generalize ∑ i, (un i - uo i) ⬝ᵥ (F i).mass0 *ᵥ (un i - uo i) = Y at *
  generalize ∑ i, bilin (F i) tau (z i).q (z i).u (z i).lambda (z i).q (z i).u (z i).lambda = Q at *
  have h9 : A + (2 * theta - 1) * Y + 2 * dt * Q = B := by linear_combination 2 * h4
  have hQ : 0 ≤ Q := by
    by_contra hneg
    have := mul_neg_of_pos_of_neg hC (not_le.mp hneg)
    linarith
  refine ⟨?_, fun hth => ?_⟩
  · have e1 : kappa * A ≤ kappa * (2 * U + 2 * (1 - theta) ^ 2 * Y) := mul_le_mul_of_nonneg_left h5 hk0
    have e2 : kappa * U ≤ kappa * (C * Q) := mul_le_mul_of_nonneg_left (by linarith) hk0
    have e3 : kappa * C * Q ≤ dt * Q := mul_le_mul_of_nonneg_right hk1 hQ
    have e4 : kappa * (2 * (1 - theta) ^ 2) * Y ≤ (2 * theta - 1) * Y := mul_le_mul_of_nonneg_right hk2 h6
    nlinarith
  · subst hth
    have e1 : 2 * dt * Q ≤ B := by linarith
    have e2 : dt * T ≤ dt * (C * Q) := mul_le_mul_of_nonneg_left (by linarith) hdt.le
    have e3 : C * (2 * dt * Q) ≤ C * B := mul_le_mul_of_nonneg_left e1 hC.le
    linarith

end

end HyperHDG.DiffusionParab

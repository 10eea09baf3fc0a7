import Verif.Proofs.SteadyState
import Verif.Spec.Mixed
import Mathlib.LinearAlgebra.Matrix.BilinearForm

/-!
# Proof support: decay of the time steps of the biharmonic problem
-/

namespace HyperHDG.BilaplacianParab

open Finset Spec Matrix LDG HyGraph

variable {K : Type} {dim nS nB : Nat} [Field K] [LinearOrder K] [IsStrictOrderedRing K]

/-- The product of two vectors for a symmetric matrix without negative values. -/
theorem young {n : Nat} {M : Matrix (Fin n) (Fin n) K} (hs : Mᵀ = M) (hM : ∀ v, 0 ≤ v ⬝ᵥ M *ᵥ v) (t : K) (u w : Fin n → K) :
    2 * t * (u ⬝ᵥ M *ᵥ w) ≤ u ⬝ᵥ M *ᵥ u + t ^ 2 * (w ⬝ᵥ M *ᵥ w) := by
  have h := hM (u - t • w)
  have h1 : w ⬝ᵥ M *ᵥ u = u ⬝ᵥ M *ᵥ w := symm_dot hs w u
  rw [mulVec_sub, mulVec_smul, dotProduct_sub, sub_dotProduct, sub_dotProduct, smul_dotProduct, dotProduct_smul, dotProduct_smul, smul_dotProduct, h1] at h
  simp only [smul_eq_mul] at h
  linarith

/-- One bound for all hyperedges. -/
theorem dominated {nE : Nat} (M B : Fin nE → Matrix (Fin nS) (Fin nS) K) (hMs : ∀ e, (M e)ᵀ = M e) (hM : ∀ e v, v ≠ 0 → 0 < v ⬝ᵥ M e *ᵥ v) :
    ∃ b, 0 < b ∧ ∀ e v, v ⬝ᵥ B e *ᵥ v ≤ b * (v ⬝ᵥ M e *ᵥ v) := by
  have h : ∀ e, ∃ b, 0 < b ∧ ∀ v, v ⬝ᵥ B e *ᵥ v ≤ b * (v ⬝ᵥ M e *ᵥ v) := fun e => by
    obtain ⟨C, hC, h⟩ := DiffusionParab.quad_dominated (Matrix.toBilin' (M e)) (Matrix.toBilin' (B e)) ⟨fun v w => by
      simp only [Matrix.toBilin'_apply']
      exact symm_dot (hMs e) v w⟩ (fun w hw => by
      rw [Matrix.toBilin'_apply']
      exact hM e w hw)
    simp only [Matrix.toBilin'_apply'] at h
    exact ⟨C, hC, h⟩
  choose b hb hle using h
  refine ⟨∑ e, b e + 1, add_pos_of_nonneg_of_pos (sum_nonneg fun e _ => (hb e).le) one_pos, fun e v => (hle e v).trans (mul_le_mul_of_nonneg_right ?_ (quad_nonneg (hM e) v))⟩
  have := single_le_sum (f := b) (fun e _ => (hb e).le) (mem_univ e)
  linarith

/-- A time step of the homogeneous problem reduces the norm by a factor. -/
theorem decay_step {nE N : Nat} (F : Fin nE → Form dim nS nB K) (B : Fin nE → Matrix (Fin nS) (Fin nS) K) (hF : ∀ e, FormLaws (F e)) (hR : ∀ e, Rigid (F e)) (hBs : ∀ e, (B e)ᵀ = B e)
    (hB : ∀ e v, 0 ≤ v ⬝ᵥ B e *ᵥ v) {tau sigma : K} (ht : 0 < tau) (hs : 0 < sigma) (nodes : Fin nE → Fin (2 * dim) → Fin N) (D : Fin N → Prop) (hcon : Anchored nodes D) :
    ∃ kappa C, 0 < kappa ∧ 0 < C ∧ ∀ (d u w : Fin nE → Fin nS → K) (q p : Fin nE → Fin dim → Fin nS → K) (x z : Fin (N * nB) → K), VanishesAt D x → VanishesAt D z →
      (∀ e, IsMixedSolution (F e) (B e) (F e).mass0 tau sigma (moments (F e) (faceValues nodes x e)) (moments (F e) (faceValues nodes z e)) 0 ((F e).mass0 *ᵥ d e) (q e) (u e) (p e) (w e)) →
      (∀ y, VanishesAt D y → ∑ e, ∑ f, faceValues nodes y e f ⬝ᵥ faceFlux (F e) tau (faceValues nodes x e) (q e) (u e) f = 0) →
      (∀ y, VanishesAt D y → ∑ e, ∑ f, faceValues nodes y e f ⬝ᵥ faceFlux (F e) tau (faceValues nodes z e) (p e) (w e) f = 0) →
      (1 + kappa) * ∑ e, u e ⬝ᵥ (F e).mass0 *ᵥ u e ≤ ∑ e, d e ⬝ᵥ (F e).mass0 *ᵥ d e ∧ ∑ k, x k ^ 2 + ∑ k, z k ^ 2 ≤ C * ∑ e, d e ⬝ᵥ (F e).mass0 *ᵥ d e := by
  obtain ⟨c, hc, hco⟩ := DiffusionParab.energy_coercive F hF hR ht nodes D hcon
  obtain ⟨b, hb, hdom⟩ := dominated (fun e => (F e).mass0) B (fun e => (hF e).mass0_symm) (fun e => (hF e).mass0_pos)
  refine ⟨2 * sigma / (c ^ 2 * b), c ^ 2 * b / (4 * sigma) + (c / sigma) ^ 2 / 2, by positivity, by positivity, fun d u w q p x z hx hz h hbu hbw => ?_⟩
  have hM : ∀ e v, 0 ≤ v ⬝ᵥ (F e).mass0 *ᵥ v := fun e v => quad_nonneg (hF e).mass0_pos v
  -- the four tests
  have t1 : ∑ e, bilin (F e) tau (q e) (u e) (faceValues nodes x e) (q e) (u e) (faceValues nodes x e) = ∑ e, u e ⬝ᵥ B e *ᵥ w e := by
    have k := hbu x hx
    rw [sum_congr rfl fun e _ => flux_form (hF e) one_ne_zero (h e).first (h e).first] at k
    simp only [inv_one, one_mul, zero_mul, sub_zero, zero_add, sum_add_distrib, sum_neg_distrib] at k
    linarith
  have t2 : ∑ e, bilin (F e) tau (p e) (w e) (faceValues nodes z e) (p e) (w e) (faceValues nodes z e) = sigma⁻¹ * ∑ e, w e ⬝ᵥ (F e).mass0 *ᵥ (d e - u e) := by
    have k := hbw z hz
    rw [sum_congr rfl fun e _ => flux_form (hF e) hs.ne' (h e).second (h e).second] at k
    simp only [zero_mul, sub_zero, sum_add_distrib, sum_neg_distrib, ← mulVec_sub, ← mul_sum] at k
    linarith
  have t3 : ∑ e, bilin (F e) tau (q e) (u e) (faceValues nodes x e) (p e) (w e) (faceValues nodes z e) = ∑ e, w e ⬝ᵥ B e *ᵥ w e := by
    have k := hbu z hz
    rw [sum_congr rfl fun e _ => flux_form (hF e) one_ne_zero (h e).first (h e).second] at k
    simp only [inv_one, one_mul, zero_mul, sub_zero, zero_add, sum_add_distrib, sum_neg_distrib] at k
    linarith
  have t4 : ∑ e, bilin (F e) tau (q e) (u e) (faceValues nodes x e) (p e) (w e) (faceValues nodes z e) = sigma⁻¹ * ∑ e, u e ⬝ᵥ (F e).mass0 *ᵥ (d e - u e) := by
    have k := hbw x hx
    rw [sum_congr rfl fun e _ => flux_form (hF e) hs.ne' (h e).second (h e).first] at k
    simp only [zero_mul, sub_zero, sum_add_distrib, sum_neg_distrib, ← mulVec_sub, ← mul_sum] at k
    rw [sum_congr rfl fun e _ => bilin_symm (hF e)]
    linarith
  -- coercivity
  have c1 := hco (fun e => ⟨q e, u e, faceValues nodes x e⟩) x (fun e => (h e).first.flux) (fun _ => rfl) hx
  have c2 := hco (fun e => ⟨p e, w e, faceValues nodes z e⟩) z (fun e => (h e).second.flux) (fun _ => rfl) hz
  dsimp only at c1 c2
  rw [t1] at c1
  rw [t2] at c2
  rw [t4] at t3
  -- the inequalities
  have y1 : ∀ t : K, 2 * t * ∑ e, u e ⬝ᵥ B e *ᵥ w e ≤ b * ∑ e, u e ⬝ᵥ (F e).mass0 *ᵥ u e + t ^ 2 * ∑ e, w e ⬝ᵥ B e *ᵥ w e := fun t => by
    simp only [mul_sum, ← sum_add_distrib]
    refine sum_le_sum fun e _ => (young (hBs e) (hB e) t (u e) (w e)).trans ?_
    have := hdom e (u e)
    linarith
  have y2 : ∀ t : K, 2 * t * ∑ e, w e ⬝ᵥ (F e).mass0 *ᵥ (d e - u e) ≤ ∑ e, w e ⬝ᵥ (F e).mass0 *ᵥ w e + t ^ 2 * ∑ e, (d e - u e) ⬝ᵥ (F e).mass0 *ᵥ (d e - u e) := fun t => by
    simp only [mul_sum, ← sum_add_distrib]
    exact sum_le_sum fun e _ => young (hF e).mass0_symm (hM e) t (w e) (d e - u e)
  have e1 : ∑ e, (d e - u e) ⬝ᵥ (F e).mass0 *ᵥ (d e - u e) = ∑ e, d e ⬝ᵥ (F e).mass0 *ᵥ d e - ∑ e, u e ⬝ᵥ (F e).mass0 *ᵥ u e - 2 * ∑ e, u e ⬝ᵥ (F e).mass0 *ᵥ (d e - u e) := by
    rw [mul_sum, ← sum_sub_distrib, ← sum_sub_distrib]
    refine sum_congr rfl fun e _ => ?_
    have k : d e ⬝ᵥ (F e).mass0 *ᵥ u e = u e ⬝ᵥ (F e).mass0 *ᵥ d e := symm_dot (hF e).mass0_symm _ _
    simp only [mulVec_sub, dotProduct_sub, sub_dotProduct, k]
    ring
  have p1 : 0 ≤ ∑ e, (d e - u e) ⬝ᵥ (F e).mass0 *ᵥ (d e - u e) := sum_nonneg fun e _ => hM e _
  have p2 : 0 ≤ ∑ e, w e ⬝ᵥ B e *ᵥ w e := sum_nonneg fun e _ => hB e _
  have p3 : 0 ≤ ∑ e, u e ⬝ᵥ (F e).mass0 *ᵥ u e := sum_nonneg fun e _ => hM e _
  have p4 : 0 ≤ ∑ e, w e ⬝ᵥ (F e).mass0 *ᵥ w e := sum_nonneg fun e _ => hM e _
  have p5 : 0 ≤ ∑ k, x k ^ 2 := sum_nonneg fun k _ => sq_nonneg _
  have p6 : 0 ≤ ∑ k, z k ^ 2 := sum_nonneg fun k _ => sq_nonneg _
  rw [e1] at p1 y2
  generalize ∑ e, u e ⬝ᵥ (F e).mass0 *ᵥ u e = U at *
  generalize ∑ e, d e ⬝ᵥ (F e).mass0 *ᵥ d e = V at *
  generalize ∑ e, w e ⬝ᵥ B e *ᵥ w e = W at *
  generalize ∑ e, w e ⬝ᵥ (F e).mass0 *ᵥ w e = Q at *
  generalize ∑ e, u e ⬝ᵥ B e *ᵥ w e = A at *
  generalize ∑ e, u e ⬝ᵥ (F e).mass0 *ᵥ (d e - u e) = T at *
  generalize ∑ e, w e ⬝ᵥ (F e).mass0 *ᵥ (d e - u e) = P at *
  generalize ∑ k, x k ^ 2 = X at *
  generalize ∑ k, z k ^ 2 = Z at *
  have hT : T = sigma * W := by
    rw [← t3, mul_inv_cancel_left₀ hs.ne']
  subst hT
  have s1 : U + 2 * sigma * W ≤ V := by linarith
  -- the energy of `u`
  have s2 : U + 2 * X ≤ c ^ 2 * b * W := by
    have k := y1 (c * b)
    have k1 : 2 * c * A ≤ U + c ^ 2 * b * W := by
      have : b * (2 * c * A) ≤ b * (U + c ^ 2 * b * W) := by nlinarith
      exact le_of_mul_le_mul_left this hb
    linarith
  have s3 : Q + 2 * Z ≤ (c / sigma) ^ 2 * (V - U - 2 * (sigma * W)) := by
    have k := y2 (c / sigma)
    have k1 : c * (sigma⁻¹ * P) = c / sigma * P := by ring
    rw [k1] at c2
    linarith
  have hsW : 0 ≤ sigma * W := mul_nonneg hs.le p2
  have hUV : U ≤ V := by linarith
  have hWV : W ≤ V / (2 * sigma) := by
    rw [le_div_iff₀ (by linarith)]
    linarith
  have hcb : 0 < c ^ 2 * b := by positivity
  constructor
  · have k1 : 2 * sigma / (c ^ 2 * b) * U ≤ 2 * sigma * W := by
      rw [div_mul_eq_mul_div, div_le_iff₀ hcb]
      have : U ≤ c ^ 2 * b * W := by linarith
      nlinarith
    linarith
  · have k1 : c ^ 2 * b * W ≤ c ^ 2 * b * (V / (2 * sigma)) := mul_le_mul_of_nonneg_left hWV hcb.le
    have k2 : (c / sigma) ^ 2 * (V - U - 2 * (sigma * W)) ≤ (c / sigma) ^ 2 * V := mul_le_mul_of_nonneg_left (by linarith) (sq_nonneg _)
    have k3 : (c ^ 2 * b / (4 * sigma) + (c / sigma) ^ 2 / 2) * V = (c ^ 2 * b * (V / (2 * sigma)) + (c / sigma) ^ 2 * V) / 2 := by
      field_simp
      ring
    rw [k3]
    linarith

end HyperHDG.BilaplacianParab

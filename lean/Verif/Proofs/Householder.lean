import Verif.Spec.FileGeometry
import Verif.Proofs.DenseLA
import Mathlib.Algebra.Order.Field.Basic
import Mathlib.Algebra.BigOperators.Field
import Mathlib.Algebra.Order.BigOperators.Group.Finset
import Mathlib.Analysis.Real.Sqrt
import Mathlib.Tactic.FieldSimp
import Mathlib.Tactic.Linarith
import Mathlib.Tactic.LinearCombination

/-! Existence of Householder QR decompositions over ordered fields with square roots: the laws assumed about `dgeqr2` can be met. -/

namespace HyperHDG.Householder

open Matrix

variable {r c : Nat} {K : Type} [Field K] [LinearOrder K] [IsStrictOrderedRing K]

def reflector (v : Fin r → K) (tau : K) : Matrix (Fin r) (Fin r) K := 1 - tau • vecMulVec v v

def IsReflection (v : Fin r → K) (tau : K) (j : Fin r) : Prop :=
  (∀ k, k < j → v k = 0) ∧ v j = 1 ∧ (tau = 0 ∨ tau * ∑ k, v k * v k = 2)

omit [LinearOrder K] [IsStrictOrderedRing K] in
theorem reflector_sq (v : Fin r → K) (tau : K) (h : tau = 0 ∨ tau * ∑ k, v k * v k = 2) : reflector v tau * reflector v tau = 1 := by
  have h1 : vecMulVec v v * vecMulVec v v = (∑ k, v k * v k) • vecMulVec v v := by
    ext i j
    simp only [Matrix.mul_apply, vecMulVec_apply, Matrix.smul_apply, smul_eq_mul, Finset.sum_mul]
    refine Finset.sum_congr rfl (fun k _ => by ring)
  unfold reflector
  rw [sub_mul, mul_sub, mul_sub, one_mul, one_mul, mul_one, smul_mul_smul_comm, h1, smul_smul]
  rcases h with h | h
  · simp [h]
  · have : tau * tau * ∑ k, v k * v k = tau * 2 := by rw [mul_assoc, h]
    rw [this, mul_two, add_smul]
    abel

omit [LinearOrder K] [IsStrictOrderedRing K] in
theorem reflector_mul (v : Fin r → K) (tau : K) (W : Matrix (Fin r) (Fin c) K) (i : Fin r) (j : Fin c) :
    (reflector v tau * W) i j = W i j - tau * v i * ∑ k, v k * W k j := by
  unfold reflector
  rw [Matrix.sub_mul, Matrix.one_mul, Matrix.sub_apply, Matrix.smul_mul, Matrix.smul_apply, Matrix.mul_apply, smul_eq_mul]
  simp only [vecMulVec_apply, mul_assoc, Finset.mul_sum]

variable (hsq : ∀ x : K, 0 ≤ x → ∃ y, y * y = x)
include hsq

theorem exists_reflection (x : Fin r → K) (j : Fin r) :
    ∃ v tau, IsReflection v tau j ∧ ∀ k, j < k → x k - tau * v k * ∑ l, v l * x l = 0 := by
  have hS : 0 ≤ ∑ k, if j < k then x k * x k else 0 := Finset.sum_nonneg (fun k _ => by
    split
    · exact mul_self_nonneg _
    · exact le_rfl)
  generalize hSd : (∑ k, if j < k then x k * x k else 0) = S at hS
  rcases hS.eq_or_lt with hS | hS
  · refine ⟨Pi.single j 1, 0, ⟨fun k hk => Pi.single_eq_of_ne hk.ne _, Pi.single_eq_same _ _, Or.inl rfl⟩, fun k hk => ?_⟩
    rw [← hS] at hSd
    have := (Finset.sum_eq_zero_iff_of_nonneg (fun k _ => by
      split
      · exact mul_self_nonneg _
      · exact le_rfl)).mp hSd k (Finset.mem_univ _)
    rw [if_pos hk, mul_self_eq_zero] at this
    rw [this, zero_mul, zero_mul, sub_zero]
  · obtain ⟨b, hb⟩ := hsq (x j * x j + S) (add_nonneg (mul_self_nonneg _) hS.le)
    have hb0 : b ≠ 0 := fun h => by
      rw [h, mul_zero] at hb
      have := mul_self_nonneg (x j)
      linarith
    have hab : x j - b ≠ 0 := fun h => by
      have : x j = b := sub_eq_zero.mp h
      rw [← this] at hb
      linarith
    have hba : b - x j ≠ 0 := fun h => hab (by linear_combination -h)
    -- sums with the vector
    have hsum : ∀ g : Fin r → K, ∑ k, (if k < j then 0 else if k = j then 1 else x k / (x j - b)) * g k =
        g j + (∑ k, if j < k then x k * g k else 0) / (x j - b) := fun g => by
      rw [Finset.sum_div, ← Finset.sum_erase_add _ _ (Finset.mem_univ j), ← Finset.sum_erase_add (a := j) _ _ (Finset.mem_univ j), add_comm (∑ _ ∈ _, _)]
      simp only [lt_irrefl, if_false, if_true, one_mul, zero_div, add_zero]
      congr 1
      refine Finset.sum_congr rfl (fun k hk => ?_)
      have hk' : k ≠ j := (Finset.mem_erase.mp hk).1
      rcases lt_or_gt_of_ne hk' with h | h
      · rw [if_pos h, if_neg h.not_gt, zero_mul, zero_div]
      · rw [if_neg h.not_gt, if_neg hk', if_pos h]
        ring
    refine ⟨fun k => if k < j then 0 else if k = j then 1 else x k / (x j - b), (b - x j) / b, ⟨fun k hk => if_pos hk, ?_, Or.inr ?_⟩, fun k hk => ?_⟩
    · simp
    · rw [hsum]
      have h1 : (∑ k, if j < k then x k * (if k < j then 0 else if k = j then 1 else x k / (x j - b)) else 0) = S / (x j - b) := by
        rw [← hSd, Finset.sum_div]
        refine Finset.sum_congr rfl (fun k _ => ?_)
        by_cases h : j < k
        · rw [if_pos h, if_pos h, if_neg h.not_gt, if_neg h.ne']; ring
        · rw [if_neg h, if_neg h, zero_div]
      simp only [h1, lt_irrefl, if_false, if_true]
      have : S = b * b - x j * x j := by linear_combination -hb
      rw [this]
      field_simp
      ring
    · rw [hsum, hSd]
      simp only [if_neg hk.not_gt, if_neg hk.ne']
      have : S = b * b - x j * x j := by linear_combination -hb
      rw [this]
      field_simp
      ring

/-- After `j` steps. -/
theorem steps (hrc : c ≤ r) (a : Matrix (Fin r) (Fin c) K) : ∀ j, j ≤ c → ∃ (v : Nat → Fin r → K) (tau : Nat → K) (W : Matrix (Fin r) (Fin c) K),
    (∀ i (hi : i < j) (hr : i < r), IsReflection (v i) (tau i) ⟨i, hr⟩) ∧
    (∀ (k : Fin r) (l : Fin c), l.1 < j → l.1 < k.1 → W k l = 0) ∧
    ((List.range j).map (fun i => reflector (v i) (tau i))).prod * W = a
  | 0, _ => ⟨fun _ _ => 0, fun _ => 0, a, fun _ h => absurd h (Nat.not_lt_zero _), fun _ _ h => absurd h (Nat.not_lt_zero _), by simp⟩
  | j + 1, hj => by
      obtain ⟨v, tau, W, h1, h2, h3⟩ := steps hrc a j (by omega)
      obtain ⟨u, t, u1, u2⟩ := exists_reflection hsq (fun k => W k ⟨j, by omega⟩) ⟨j, by omega⟩
      refine ⟨Function.update v j u, Function.update tau j t, reflector u t * W, fun i hi hr => ?_, fun k l hl hkl => ?_, ?_⟩
      · by_cases hij : i = j
        · subst hij
          rw [Function.update_self, Function.update_self]; exact u1
        · rw [Function.update_of_ne hij, Function.update_of_ne hij]
          exact h1 i (by omega) hr
      · rw [reflector_mul]
        by_cases hlj : l.1 = j
        · have hl' : l = ⟨j, by omega⟩ := Fin.ext hlj
          rw [hl']
          exact u2 k (by rw [Fin.lt_def]; show j < k.1; omega)
        · have hz : ∑ i, u i * W i l = 0 := Finset.sum_eq_zero (fun i _ => by
            by_cases hi : i.1 < j
            · rw [u1.1 i hi, zero_mul]
            · rw [h2 i l (by omega) (by omega), mul_zero])
          rw [hz, mul_zero, sub_zero, h2 k l (by omega) hkl]
      · rw [List.range_succ, List.map_append, List.prod_append, List.map_singleton, List.prod_singleton, Function.update_self, Function.update_self]
        have : (List.range j).map (fun i => reflector (Function.update v j u i) (Function.update tau j t i)) =
            (List.range j).map (fun i => reflector (v i) (tau i)) := List.map_congr_left (fun i hi => by
          have : i ≠ j := by rw [List.mem_range] at hi; omega
          rw [Function.update_of_ne this, Function.update_of_ne this])
        rw [this, Matrix.mul_assoc, ← Matrix.mul_assoc (reflector u t), reflector_sq u t u1.2.2, Matrix.one_mul, h3]

theorem exists_qr (hrc : c ≤ r) (a : Matrix (Fin r) (Fin c) K) : ∃ f tau, IsHouseholderQR a f tau := by
  obtain ⟨v, tau, W, h1, h2, h3⟩ := steps hsq hrc a c le_rfl
  have hmin : min r c = c := Nat.min_eq_right hrc
  have hv : ∀ i : Fin (min r c), hhVec (.of fun k l => if k.1 ≤ l.1 then W k l else v l.1 k) i = v i.1 := fun i => by
    have hi : i.1 < c := by have := i.2; omega
    have hr := h1 i.1 hi (by omega)
    funext k
    unfold hhVec
    by_cases hk : k.1 < i.1
    · rw [if_pos hk, hr.1 k hk]
    · rw [if_neg hk]
      by_cases hk' : k.1 = i.1
      · rw [if_pos hk', show k = ⟨i.1, by omega⟩ from Fin.ext hk', hr.2.1]
      · rw [if_neg hk', Matrix.of_apply, if_neg (by simp; omega)]
        rfl
  refine ⟨.of fun k l => if k.1 ≤ l.1 then W k l else v l.1 k, fun i => tau i.1, ⟨fun i => ?_, ?_⟩⟩
  · rw [hv]
    exact (h1 i.1 (by have := i.2; omega) (by omega)).2.2
  · have hR : hhR (.of fun k l => if k.1 ≤ l.1 then W k l else v l.1 k) = W := by
      ext k l
      unfold hhR
      rw [Matrix.of_apply, Matrix.of_apply]
      by_cases h : k.1 ≤ l.1
      · rw [if_pos h, if_pos h]
      · rw [if_neg h, h2 k l l.2 (by omega)]
    have hQ : List.ofFn (hhReflector (.of fun k l => if k.1 ≤ l.1 then W k l else v l.1 k) (fun i => tau i.1)) =
        (List.range c).map (fun i => reflector (v i) (tau i)) := by
      refine List.ext_getElem (by simp [hmin]) (fun i hi hi' => ?_)
      rw [List.getElem_ofFn, List.getElem_map, List.getElem_range]
      unfold hhReflector reflector
      rw [hv]
    rw [hR]
    unfold hhQ
    rw [hQ, h3]

/-- The law assumed about LAPACK can be met. -/
theorem exists_geqr2 : ∃ geqr2 : Geqr2All K, Geqr2Spec geqr2 := by
  have h : ∀ (r c : Nat) (A : SmallMat r c K), ∃ p : SmallMat r c K × (Fin (min r c) → K), c ≤ r → IsHouseholderQR (toMat A) (toMat p.1) p.2 := fun r c A => by
    by_cases hrc : c ≤ r
    · obtain ⟨f, tau, h⟩ := exists_qr hsq hrc (toMat A)
      refine ⟨(ofMat f, tau), fun _ => ?_⟩
      rw [toMat_ofMat]; exact h
    · exact ⟨(A, fun _ => 0), fun h => absurd h hrc⟩
  choose p hp using h
  refine ⟨fun r c A => .ok (p r c A), fun r c A a hA hrc => ⟨(p r c A).1, toMat (p r c A).1, (p r c A).2, rfl, represents_iff.mpr rfl, ?_⟩⟩
  rw [represents_iff] at hA
  rw [← hA]
  exact hp r c A hrc

omit hsq in
theorem exists_geqr2_real : ∃ geqr2 : Geqr2All ℝ, Geqr2Spec geqr2 :=
  exists_geqr2 (fun x hx => ⟨√x, Real.mul_self_sqrt hx⟩)

end HyperHDG.Householder

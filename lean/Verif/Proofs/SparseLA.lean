import Mathlib.Algebra.BigOperators.Fin
import Mathlib.Algebra.BigOperators.Ring.Finset
import Mathlib.Algebra.Field.Basic
import Mathlib.Algebra.Order.BigOperators.Ring.Finset
import Mathlib.LinearAlgebra.Dimension.Finite
import Mathlib.LinearAlgebra.Dimension.Constructions
import Mathlib.LinearAlgebra.FiniteDimensional.Basic
import Mathlib.Data.Matrix.Mul
import Mathlib.Tactic.Ring
import Mathlib.Tactic.FieldSimp
import Mathlib.Tactic.LinearCombination
import Verif.Model.SparseLA
import Verif.Proofs.Loops

namespace HyperHDG.SparseLA

open Finset

variable {K : Type}

theorem inner_product_ofFn [CommRing K] {N : Nat} (m : Mode) (a b : Fin N → K) :
    inner_product m (List.ofFn a) (List.ofFn b) = .ok (∑ i, a i * b i) := by
  unfold inner_product
  rw [hyAssert_of (by simp)]
  simp only [Res.ok_bind]
  obtain ⟨t, h1, h2⟩ := forUp_inv (List.ofFn a).length (fun i product => do
    let l ← vget (List.ofFn a) i
    let r ← vget (List.ofFn b) i
    return product + l * r) 0
    (fun c p => p = ∑ i : Fin N, if i.1 < c then a i * b i else 0) (by simp)
    (fun c hc p hp => by
      have hc' : c < N := by simpa using hc
      rw [vget_of_lt (by simpa using hc'), vget_of_lt (by simpa using hc')]
      refine ⟨_, rfl, ?_⟩
      simp only [hp, List.getElem_ofFn]
      rw [← Finset.sum_erase_add _ _ (Finset.mem_univ (⟨c, hc'⟩ : Fin N)),
        ← Finset.sum_erase_add (Finset.univ) (fun i : Fin N => if i.1 < c + 1 then a i * b i else 0)
          (Finset.mem_univ (⟨c, hc'⟩ : Fin N))]
      simp only [Nat.lt_irrefl, if_false, add_zero, Nat.lt_succ_self, if_true]
      congr 1
      apply Finset.sum_congr rfl
      intro i hi
      have hne : i.1 ≠ c := fun h => (Finset.mem_erase.mp hi).1 (Fin.ext h)
      by_cases h : i.1 < c
      · rw [if_pos h, if_pos (by omega)]
      · rw [if_neg h, if_neg (by omega)])
  rw [h1, h2]
  congr 1
  apply Finset.sum_congr rfl
  intro i _
  rw [if_pos (by simp)]

theorem linear_combination_ofFn [CommRing K] {N : Nat} (m : Mode) (a b : K) (u v : Fin N → K) :
    linear_combination m a (List.ofFn u) b (List.ofFn v) = .ok (List.ofFn (fun i => a * u i + b * v i)) := by
  unfold linear_combination
  rw [hyAssert_of (by simp)]
  simp only [Res.ok_bind]
  obtain ⟨t, h1, h2, h3⟩ := forUp_write (α := K) N 0 (fun i lin_comb => do
    let l ← vget (List.ofFn u) i
    let r ← vget (List.ofFn v) i
    vset lin_comb i (a * l + b * r)) (List.replicate N 0)
    (fun i _ => if h : i < N then a * u ⟨i, h⟩ + b * v ⟨i, h⟩ else 0)
    (fun i hi t ht => by
      rw [vget_of_lt (by simpa using hi), vget_of_lt (by simpa using hi)]
      simp only [Res.ok_bind]
      rw [vset_of_lt (by simp at ht; omega)]
      simp [hi])
    (fun i hi t _ _ => rfl) (by simp)
  simp only [List.length_ofFn]
  rw [h1]
  congr 1
  apply List.ext_getElem?
  intro k
  rw [h3]
  by_cases hk : k < N
  · simp [hk]
  · simp [hk]

/-- Effect of the storing version, for arbitrary (also equal) positions. -/
theorem linear_combination_into_eq [CommRing K] {N : Nat} (m : Mode) (a b : K) (l r res : Nat) (st : List (List K))
    (u v w : Fin N → K) (hl : st[l]? = some (List.ofFn u)) (hr : st[r]? = some (List.ofFn v))
    (hres : st[res]? = some (List.ofFn w)) :
    linear_combination_into m a l b r res st = .ok (st.set res (List.ofFn (fun i => a * u i + b * v i))) := by
  unfold linear_combination_into
  rw [vget_ok_iff.mpr hl, vget_ok_iff.mpr hr, vget_ok_iff.mpr hres]
  simp only [Res.ok_bind]
  rw [hyAssert_of (by simp)]
  simp only [Res.ok_bind, List.length_ofFn]
  have hresl : res < st.length := (List.getElem?_eq_some_iff.mp hres).1
  obtain ⟨t, h1, h2⟩ := forUp_inv N (fun i st => do
    let lv ← vget st l
    let l ← vget lv i
    let rv ← vget st r
    let r ← vget rv i
    let resv ← vget st res
    let res' ← vset resv i (a * l + b * r)
    vset st res res') st
    (fun c s => s = st.set res (List.ofFn (fun i => if i.1 < c then a * u i + b * v i else w i)))
    (by
      obtain ⟨h, e⟩ := List.getElem?_eq_some_iff.mp hres
      apply List.ext_getElem?
      intro k
      rw [List.getElem?_set]
      by_cases hk : res = k
      · subst hk; simp [h, e]
      · simp [hk])
    (fun c hc s hs => by
      -- reading position `p` with original content `q` at entry `c`
      have read : ∀ (p : Nat) (q : Fin N → K), st[p]? = some (List.ofFn q) →
          ∃ q' : Fin N → K, s[p]? = some (List.ofFn q') ∧ q' ⟨c, hc⟩ = q ⟨c, hc⟩ := by
        intro p q hq
        by_cases hp : res = p
        · subst hp
          rw [hres] at hq
          refine ⟨fun i => if i.1 < c then a * u i + b * v i else w i, ?_, ?_⟩
          · rw [hs]; simp [hresl]
          · have : w = q := List.ofFn_injective (Option.some.inj hq)
            simp [this]
        · exact ⟨q, by rw [hs, List.getElem?_set_ne hp]; exact hq, rfl⟩
      obtain ⟨u', e1, e2⟩ := read l u hl
      obtain ⟨v', e3, e4⟩ := read r v hr
      have e5 : s[res]? = some (List.ofFn (fun i => if i.1 < c then a * u i + b * v i else w i)) := by
        rw [hs]; simp [hresl]
      rw [vget_ok_iff.mpr e1, vget_ok_iff.mpr e3, vget_ok_iff.mpr e5]
      simp only [Res.ok_bind]
      rw [vget_of_lt (by simpa using hc)]
      simp only [Res.ok_bind]
      rw [vget_of_lt (by simpa using hc)]
      simp only [Res.ok_bind, List.getElem_ofFn, e2, e4]
      rw [vset_of_lt (by simpa using hc)]
      simp only [Res.ok_bind]
      rw [vset_of_lt (by rw [hs]; simpa using hresl)]
      refine ⟨_, rfl, ?_⟩
      rw [hs, List.set_set]
      congr 1
      apply List.ext_getElem
      · simp
      · intro k h1 h2
        simp only [List.getElem_set, List.getElem_ofFn]
        by_cases h : c = k
        · subst h; simp
        · rw [if_neg h]
          by_cases h' : k < c
          · rw [if_pos h', if_pos (by omega)]
          · rw [if_neg h', if_neg (by omega)])
  rw [h1, h2]
  simp

/-! ### The recurrences of the conjugate gradient method in exact arithmetic -/

section CG

set_option linter.unusedSectionVars false

variable [Field K] [LinearOrder K] [IsStrictOrderedRing K] {N : Nat}

/-- The Euclidean inner product. -/
def dot (u v : Fin N → K) : K := ∑ i, u i * v i

theorem dot_comm (u v : Fin N → K) : dot u v = dot v u := by
  unfold dot; exact Finset.sum_congr rfl (fun i _ => mul_comm _ _)

theorem dot_add_left (u v w : Fin N → K) : dot (u + v) w = dot u w + dot v w := by
  unfold dot; simp [add_mul, Finset.sum_add_distrib]

theorem dot_add_right (u v w : Fin N → K) : dot u (v + w) = dot u v + dot u w := by
  unfold dot; simp [mul_add, Finset.sum_add_distrib]

theorem dot_smul_left (c : K) (u v : Fin N → K) : dot (c • u) v = c * dot u v := by
  unfold dot; simp [Finset.mul_sum, mul_assoc]

theorem dot_smul_right (c : K) (u v : Fin N → K) : dot u (c • v) = c * dot u v := by
  rw [dot_comm, dot_smul_left, dot_comm]

theorem dot_sub_left (u v w : Fin N → K) : dot (u - v) w = dot u w - dot v w := by
  unfold dot; simp [sub_mul, Finset.sum_sub_distrib]

theorem dot_sub_right (u v w : Fin N → K) : dot u (v - w) = dot u v - dot u w := by
  rw [dot_comm, dot_sub_left, dot_comm v, dot_comm w]

theorem dot_zero_left (v : Fin N → K) : dot 0 v = 0 := by simp [dot]

theorem dot_self_nonneg (u : Fin N → K) : 0 ≤ dot u u := by
  unfold dot; exact Finset.sum_nonneg (fun i _ => mul_self_nonneg _)

theorem dot_self_eq_zero (u : Fin N → K) : dot u u = 0 ↔ u = 0 := by
  unfold dot
  rw [Finset.sum_eq_zero_iff_of_nonneg (fun i _ => mul_self_nonneg _)]
  constructor
  · intro h; funext i; exact mul_self_eq_zero.mp (h i (Finset.mem_univ i))
  · intro h i _; rw [h]; simp

/-- `N + 1` non-zero pairwise orthogonal vectors do not exist. -/
theorem orthogonal_le (k : Nat) (r : Nat → Fin N → K) (hne : ∀ i < k, r i ≠ 0)
    (horth : ∀ i < k, ∀ j < k, i ≠ j → dot (r i) (r j) = 0) : k ≤ N := by
  have hli : LinearIndependent K (fun i : Fin k => r i) := by
    rw [Fintype.linearIndependent_iff]
    intro g hg i
    have h0 : dot (∑ j, g j • r j) (r i) = 0 := by rw [hg]; exact dot_zero_left _
    have h1 : dot (∑ j, g j • r j) (r i) = ∑ j, g j * dot (r j) (r i) := by
      have : ∀ s : Finset (Fin k), dot (∑ j ∈ s, g j • r j) (r i) = ∑ j ∈ s, g j * dot (r j) (r i) := by
        intro s
        induction s using Finset.induction_on with
        | empty => simp [dot_zero_left]
        | insert a s ha ih => rw [Finset.sum_insert ha, Finset.sum_insert ha, dot_add_left, ih, dot_smul_left]
      exact this _
    rw [h1, Finset.sum_eq_single i] at h0
    · have : dot (r i) (r i) ≠ 0 := fun h => hne i i.2 ((dot_self_eq_zero _).mp h)
      exact (mul_eq_zero.mp h0).resolve_right this
    · intro j _ hji
      rw [horth j j.2 i i.2 (fun h => hji (Fin.ext h)), mul_zero]
    · simp
  have := hli.fintype_card_le_finrank
  simpa using this

/-- One step of the recurrence. -/
structure CGRec (A : (Fin N → K) →ₗ[K] (Fin N → K)) (r d : Nat → Fin N → K) : Prop where
  init : d 0 = r 0
  r_succ : ∀ k, r (k + 1) = r k - (dot (r k) (r k) / dot (d k) (A (d k))) • A (d k)
  d_succ : ∀ k, d (k + 1) = r (k + 1) + (dot (r (k + 1)) (r (k + 1)) / dot (r k) (r k)) • d k

theorem cg_orthogonal (A : (Fin N → K) →ₗ[K] (Fin N → K)) (r d : Nat → Fin N → K)
    (hrec : CGRec A r d) (hsym : ∀ i j, dot (d i) (A (d j)) = dot (d j) (A (d i)))
    (hdef : ∀ i, d i ≠ 0 → dot (d i) (A (d i)) ≠ 0) :
    ∀ k, (∀ i ≤ k, r i ≠ 0) →
      (∀ j ≤ k, dot (r j) (d j) = dot (r j) (r j)) ∧
      (∀ j ≤ k, ∀ i < j, dot (r j) (d i) = 0 ∧ dot (r j) (r i) = 0 ∧ dot (d j) (A (d i)) = 0) := by
  intro k
  induction k with
  | zero =>
    intro _
    refine ⟨fun j hj => ?_, fun j hj i hi => by omega⟩
    have : j = 0 := by omega
    subst this
    rw [hrec.init]
  | succ k ih =>
    intro hne
    obtain ⟨P1, P2⟩ := ih (fun i hi => hne i (by omega))
    have hrr : ∀ i ≤ k + 1, dot (r i) (r i) ≠ 0 := fun i hi h => hne i hi ((dot_self_eq_zero _).mp h)
    have hd : ∀ i ≤ k, d i ≠ 0 := by
      intro i hi h
      have := P1 i hi
      rw [h, dot_comm, dot_zero_left] at this
      exact hrr i (by omega) this.symm
    have hdA : ∀ i ≤ k, dot (d i) (A (d i)) ≠ 0 := fun i hi => hdef _ (hd i hi)
    -- new residual against old directions
    have S1 : ∀ i ≤ k, dot (r (k + 1)) (d i) = 0 := by
      intro i hi
      rw [hrec.r_succ, dot_sub_left, dot_smul_left, dot_comm (A (d k))]
      by_cases h : i = k
      · subst h
        rw [P1 i hi, div_mul_cancel₀ _ (hdA i hi), sub_self]
      · have q := P2 k (le_refl k) i (by omega)
        rw [q.1, hsym i k, q.2.2]; ring
    -- new residual against old residuals
    have S2 : ∀ i ≤ k, dot (r (k + 1)) (r i) = 0 := by
      intro i hi
      cases i with
      | zero => rw [← hrec.init]; exact S1 0 hi
      | succ i =>
        have e : r (i + 1) = d (i + 1) - (dot (r (i + 1)) (r (i + 1)) / dot (r i) (r i)) • d i := by
          rw [hrec.d_succ]; simp
        have : dot (r (k + 1)) (r (i + 1)) =
            dot (r (k + 1)) (d (i + 1) - (dot (r (i + 1)) (r (i + 1)) / dot (r i) (r i)) • d i) :=
          congrArg (dot (r (k + 1))) e
        rw [this, dot_sub_right, dot_smul_right, S1 _ hi, S1 i (by omega)]; ring
    -- conjugacy
    have S3 : ∀ i ≤ k, dot (d (k + 1)) (A (d i)) = 0 := by
      intro i hi
      rw [hrec.d_succ k, dot_add_left, dot_smul_left]
      have hA : dot (r (k + 1)) (A (d i)) * (dot (r i) (r i) / dot (d i) (A (d i))) =
          dot (r (k + 1)) (r i) - dot (r (k + 1)) (r (i + 1)) := by
        have : dot (r (k + 1)) (r (i + 1)) =
            dot (r (k + 1)) (r i - (dot (r i) (r i) / dot (d i) (A (d i))) • A (d i)) :=
          congrArg (dot (r (k + 1))) (hrec.r_succ i)
        rw [this, dot_sub_right, dot_smul_right]; ring
      have hq : dot (r i) (r i) / dot (d i) (A (d i)) ≠ 0 := div_ne_zero (hrr i (by omega)) (hdA i hi)
      by_cases h : i = k
      · subst h
        rw [S2 i hi, zero_sub] at hA
        have h1 := hrr i (by omega)
        have h2 := hdA i hi
        field_simp at hA ⊢
        linear_combination hA
      · have q := P2 k (le_refl k) i (by omega)
        rw [q.2.2, mul_zero, add_zero]
        rw [S2 i hi, S2 (i + 1) (by omega), sub_zero] at hA
        exact (mul_eq_zero.mp hA).resolve_right hq
    refine ⟨fun j hj => ?_, fun j hj i hi => ?_⟩
    · by_cases h : j = k + 1
      · subst h
        conv_lhs => rw [hrec.d_succ k]
        rw [dot_add_right, dot_smul_right, S1 k (le_refl k)]; ring
      · exact P1 j (by omega)
    · by_cases h : j = k + 1
      · subst h
        exact ⟨S1 i (by omega), S2 i (by omega), S3 i (by omega)⟩
      · exact P2 j (by omega) i hi

/-- Some residual among the first `N + 1` vanishes. -/
theorem cg_terminates (A : (Fin N → K) →ₗ[K] (Fin N → K)) (r d : Nat → Fin N → K)
    (hrec : CGRec A r d) (hsym : ∀ i j, dot (d i) (A (d j)) = dot (d j) (A (d i)))
    (hdef : ∀ i, d i ≠ 0 → dot (d i) (A (d i)) ≠ 0) : ∃ i ≤ N, r i = 0 := by
  by_contra hcon
  have hne : ∀ i ≤ N, r i ≠ 0 := fun i hi h => hcon ⟨i, hi, h⟩
  have hP := (cg_orthogonal A r d hrec hsym hdef N hne).2
  have := orthogonal_le (N + 1) r (fun i hi => hne i (by omega)) (fun i hi j hj hij => by
    rcases Nat.lt_or_gt_of_ne hij with h | h
    · rw [dot_comm]; exact (hP j (by omega) i h).2.1
    · exact (hP i (by omega) j h).2.1)
  omega

/-- One iteration on vectors of length `N`, for an arbitrary division. -/
theorem cgStep_eq {σ : Type} (m : Mode) (div : K → K → K) (ttf : σ → List K → Res (List K × σ))
    (A : (Fin N → K) → (Fin N → K)) (x r d : Fin N → K) (z : List K) (rs : K) (p p' : σ)
    (h : ttf p (List.ofFn d) = .ok (List.ofFn (A d), p')) :
    ∃ alpha beta : K, ∃ x' r' d' : Fin N → K,
      alpha = div rs (dot d (A d)) ∧ beta = div (dot r' r') rs ∧
      x' = x + alpha • d ∧ r' = r - alpha • A d ∧ d' = r' + beta • d ∧
      cgStep m div ttf ⟨[List.ofFn x, List.ofFn r, List.ofFn d, z], rs, p⟩ =
        .ok ⟨[List.ofFn x', List.ofFn r', List.ofFn d', List.ofFn (A d)], dot r' r', p'⟩ := by
  refine ⟨_, _, _, _, _, rfl, rfl, rfl, rfl, rfl, ?_⟩
  unfold cgStep
  simp only [vget, List.getElem?_cons_succ, List.getElem?_cons_zero, Res.ok_bind]
  rw [h]
  simp only [Res.ok_bind]
  rw [vset_of_lt (by simp)]
  simp only [Res.ok_bind, inner_product_ofFn, List.set_cons_succ, List.set_cons_zero]
  rw [linear_combination_into_eq m 1 _ 0 2 0 _ x d x rfl rfl rfl]
  simp only [Res.ok_bind, List.set_cons_zero]
  rw [linear_combination_into_eq m 1 _ 1 3 1 _ r (A d) r rfl rfl rfl]
  simp only [Res.ok_bind, List.set_cons_succ, List.set_cons_zero, List.getElem?_cons_succ, List.getElem?_cons_zero,
    inner_product_ofFn]
  rw [linear_combination_into_eq m 1 _ 1 2 2 _ _ d d rfl rfl rfl]
  simp only [Res.ok_bind, List.set_cons_succ, List.set_cons_zero, Res.pure_eq]
  have e1 : ∀ al : K, (fun i => 1 * x i + al * d i) = x + al • d := fun al => by
    funext i; simp
  have e2 : ∀ al : K, (fun i => 1 * r i + -al * A d i) = r - al • A d := fun al => by
    funext i; simp [sub_eq_add_neg]
  have e3 : ∀ (be : K) (q : Fin N → K), (fun i => 1 * q i + be * d i) = q + be • d := fun be q => by
    funext i; simp
  have e4 : ∀ q : Fin N → K, ∑ i, q i * q i = dot q q := fun q => rfl
  have e5 : ∑ i, d i * A d i = dot d (A d) := rfl
  have e6 : ∀ al : K, (∑ i, (1 * r i + -al * A d i) * (1 * r i + -al * A d i)) =
      dot (r - al • A d) (r - al • A d) := fun al => by
    rw [← e2]; rfl
  rw [e1, e2, e5, e6, e3, e2]

end CG

end HyperHDG.SparseLA

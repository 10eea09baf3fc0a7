import Mathlib.LinearAlgebra.Matrix.Notation
import Verif.Props.UnitCube

/-!
# Normals of the geometry `UnitCube` (C34)

Faces are numbered as in the topology: face `2j` is the lower and `2j+1` the upper face in direction `j` of the reference cube.
-/

set_option linter.unusedSectionVars false

namespace HyperHDG

open Geometry Geometry.UnitCube Geometry.UnitCube.HyEdge

variable {T : Tpcc} {d s n : Nat} {K : Type} [Field K] [LinearOrder K] [IsStrictOrderedRing K]

/-- `x` is a point of face `f` of the reference cube. -/
def onFace (f : Fin (2 * (d + 1))) (x : Fin (d + 1) → K) : Prop :=
  inReference x ∧ x ⟨f / 2, by omega⟩ = ((f % 2 : Nat) : K)

theorem unit_dot (a : Fin s) (c : K) (w : Fin s → K) : (∑ i, arrSet (fun _ => (0 : K)) a c i * w i) = c * w a := by
  rw [Finset.sum_eq_single a]
  · unfold arrSet; rw [if_pos rfl]
  · intro b _ hb; unfold arrSet; rw [if_neg hb, zero_mul]
  · intro hj; exact absurd (Finset.mem_univ _) hj

/-- The local normals have length 1, normals of opposite faces are opposite, and each points out of the reference cube and is orthogonal
to its face. -/
theorem C34_local (m : Mode) (e : HyEdge d s K) (f : Fin (2 * (d + 1))) : ∃ v, local_normal m e f = .ok v ∧
    (∑ j, v j * v j) = 1 ∧
    (∀ x x', onFace f x → inReference x' → (∑ j, v j * (x' j - x j)) ≤ 0) ∧
    (∀ x x', onFace f x → onFace f x' → (∑ j, v j * (x' j - x j)) = 0) ∧
    (∀ f' : Fin (2 * (d + 1)), f' / 2 = f.1 / 2 → f' ≠ f → local_normal m e f' = .ok (fun j => - v j)) := by
  have hlt : f.1 / 2 < d + 1 := by omega
  have heq : ∀ f' : Fin (2 * (d + 1)), (hf : f' / 2 = f.1 / 2) →
      local_normal m e f' = .ok (arrSet (fun _ => 0) ⟨f / 2, hlt⟩ (if f'.1 % 2 ≠ 0 then 1 else -1)) := by
    intro f' hf
    unfold local_normal
    rw [hyAssert_of f'.2, Res.ok_bind, hf]
    exact vecSet_lt m _ hlt _
  refine ⟨_, heq f rfl, ?_, ?_, ?_, ?_⟩
  · rw [unit_dot]
    unfold arrSet
    rw [if_pos rfl]
    split <;> ring
  · intro x x' hx hx'
    rw [unit_dot, hx.2]
    have := hx' ⟨f / 2, hlt⟩
    rcases Nat.mod_two_eq_zero_or_one f.1 with h0 | h0
    · rw [h0]; simp only [ne_eq, not_true_eq_false, if_false]; push_cast; linarith
    · rw [h0]; simp only [ne_eq, one_ne_zero, not_false_eq_true, if_true]; push_cast; linarith
  · intro x x' hx hx'
    rw [unit_dot, hx.2, hx'.2, sub_self, mul_zero]
  · intro f' hf hne
    rw [heq f' hf]
    congr 1
    funext j
    unfold arrSet
    by_cases hj : j = ⟨f / 2, hlt⟩
    · rw [if_pos hj, if_pos hj]
      have : f'.1 % 2 ≠ f.1 % 2 := fun h => hne (Fin.ext (by omega))
      rcases Nat.mod_two_eq_zero_or_one f.1 with h0 | h0 <;> rcases Nat.mod_two_eq_zero_or_one f'.1 with h1 | h1 <;> simp [h0, h1] <;> omega
    · rw [if_neg hj, if_neg hj, neg_zero]

variable (hT : T.Lawful) (h : d + 1 ≤ s) (N : Fin s → Nat) (hN : ∀ i, 0 < N i) (hn : 0 < n)
  (hU : n ^ (d + 1) < U32) (m : Mode) (index : Nat)
  (hidx : index < T.size (⟨.both, N, h⟩ : Complex s (d + 1)) * n ^ (d + 1))
  (e : HyEdge d s K) (he : make m T ((UnitCube.mk' h N).set_refinement n) index = .ok e)

/-- Difference of two physical points. -/
theorem map_diff (m : Mode) (e : HyEdge d s K) (a : Fin (d + 1) → Fin s) (ha : ∀ j, e.dim_indices j = a j) {x x' : Fin (d + 1) → K}
    (hx : inReference x) (hx' : inReference x') {y y' : Fin s → K} (hy : mapPoint m e x = .ok y) (hy' : mapPoint m e x' = .ok y') (i : Fin s) :
    y' i - y i = ∑ j, if a j = i then (x' j - x j) * e.char_length j else 0 := by
  rw [mapPoint_spec m e a ha x (Or.inr hx)] at hy
  rw [mapPoint_spec m e a ha x' (Or.inr hx')] at hy'
  injection hy with hy
  injection hy' with hy'
  subst hy hy'
  simp only [add_sub_add_left_eq_sub, ← Finset.sum_sub_distrib]
  apply Finset.sum_congr rfl
  intro j _
  split
  · ring
  · simp

theorem sum_single_if (a : Fin (d + 1) → Fin s) (ha : Function.Injective a) (f : Fin (d + 1) → K) (j : Fin (d + 1)) :
    (∑ l, if a l = a j then f l else 0) = f j := by
  rw [Finset.sum_eq_single j]
  · rw [if_pos rfl]
  · intro l _ hl
    rw [if_neg (fun he => hl (ha he))]
  · intro hj; exact absurd (Finset.mem_univ _) hj

include hT hN hn hU hidx he in
/-- The inner normals have length 1, those of opposite faces are opposite, and each points out of the hyperedge in physical space and is orthogonal to
its face. -/
theorem C34_inner (f : Fin (2 * (d + 1))) : ∃ v, inner_normal m e f = .ok v ∧
    (∑ i, v i * v i) = 1 ∧
    (∀ x x' y y', onFace f x → inReference x' → mapPoint m e x = .ok y → mapPoint m e x' = .ok y' → (∑ i, v i * (y' i - y i)) ≤ 0) ∧
    (∀ x x' y y', onFace f x → onFace f x' → mapPoint m e x = .ok y → mapPoint m e x' = .ok y' → (∑ i, v i * (y' i - y i)) = 0) ∧
    (∀ f' : Fin (2 * (d + 1)), f' / 2 = f.1 / 2 → f' ≠ f → inner_normal m e f' = .ok (fun i => - v i)) := by
  obtain ⟨a, l, ha, hl, h3⟩ : ∃ (a : Fin (d + 1) → Fin s) (l : Fin (d + 1) → K), Function.Injective a ∧ (∀ j, 0 < l j) ∧
      (∀ j, e.dim_indices j = a j) ∧ e.char_length = l := by
    rw [make_spec hT m h hN hn hU hidx] at he
    injection he with he
    subst he
    have hb := hT.elem_belongs (coarseElems h N) _ ((index_lt_iff (d := d) hn).1 hidx)
    refine ⟨_, _, along_inj hb.canon, fun j => ?_, fun j => rfl, rfl⟩
    have hn' : (0 : K) < n := by exact_mod_cast hn
    have hN' : (0 : K) < N ((T.elem (coarseElems h N) (index / n ^ (d + 1))).along j) := by exact_mod_cast hN _
    exact div_pos (one_div_pos.2 hN') hn'
  obtain ⟨h3, rfl⟩ := h3
  have hlt : f.1 / 2 < d + 1 := by omega
  have heq : ∀ f' : Fin (2 * (d + 1)), (hf : f' / 2 = f.1 / 2) →
      inner_normal m e f' = .ok (arrSet (fun _ => 0) (a ⟨f / 2, hlt⟩) (if f'.1 % 2 ≠ 0 then 1 else -1)) := by
    intro f' hf
    unfold inner_normal
    rw [hyAssert_of f'.2, Res.ok_bind, hf, vecGet_lt m _ hlt, Res.ok_bind, h3]
    exact vecSet_fin m _ _ _
  refine ⟨_, heq f rfl, ?_, ?_, ?_, ?_⟩
  · rw [unit_dot]
    unfold arrSet
    rw [if_pos rfl]
    split <;> ring
  · intro x x' y y' hx hx' hy hy'
    rw [unit_dot, map_diff m e a h3 hx.1 hx' hy hy', sum_single_if a ha (fun j => (x' j - x j) * e.char_length j), hx.2]
    have := hx' ⟨f / 2, hlt⟩
    have hc := hl ⟨f / 2, hlt⟩
    rcases Nat.mod_two_eq_zero_or_one f.1 with h0 | h0
    · rw [h0]; simp only [ne_eq, not_true_eq_false, if_false]; push_cast
      have := mul_nonneg this.1 hc.le
      linarith
    · rw [h0]; simp only [ne_eq, one_ne_zero, not_false_eq_true, if_true]; push_cast
      have := mul_nonneg (sub_nonneg.2 this.2) hc.le
      linarith
  · intro x x' y y' hx hx' hy hy'
    rw [unit_dot, map_diff m e a h3 hx.1 hx'.1 hy hy', sum_single_if a ha (fun j => (x' j - x j) * e.char_length j), hx.2, hx'.2, sub_self, zero_mul,
      mul_zero]
  · intro f' hf hne
    rw [heq f' hf]
    congr 1
    funext j
    unfold arrSet
    by_cases hj : j = a ⟨f / 2, hlt⟩
    · rw [if_pos hj, if_pos hj]
      have : f'.1 % 2 ≠ f.1 % 2 := fun h => hne (Fin.ext (by omega))
      rcases Nat.mod_two_eq_zero_or_one f.1 with h0 | h0 <;> rcases Nat.mod_two_eq_zero_or_one f'.1 with h1 | h1 <;> simp [h0, h1] <;> omega
    · rw [if_neg hj, if_neg hj, neg_zero]

include hT hn hU hidx he in
theorem dims_spec (hN : ∀ i, 0 < N i) : ∃ a : Fin (d + 1) → Fin s, Function.Injective a ∧ (∀ j, e.dim_indices j = a j) ∧
    ∃ b : Fin (s - (d + 1)) → Fin s, Function.Injective b ∧ (∀ i j, a j ≠ b i) ∧
      ∀ (i : Fin (s - (d + 1))) (q : Nat), q ∉ List.ofFn (fun j => (a j : Nat)) →
        Nat.count (fun x => x ∉ List.ofFn (fun j => (a j : Nat))) q = i → q = b i := by
  rw [make_spec hT m h hN hn hU hidx] at he
  injection he with he
  subst he
  have hb := hT.elem_belongs (coarseElems h N) _ ((index_lt_iff (d := d) hn).1 hidx)
  refine ⟨_, along_inj hb.canon, fun j => rfl, ?_⟩
  exact free_dirs _ (along_inj hb.canon)

include hT hN hn hU hidx he in
/-- The `s - (d+1)` outer normals are orthonormal and orthogonal to the hyperedge. -/
theorem C34_outer : ∃ v : Fin (s - (d + 1)) → Fin s → K, (∀ k : Fin _, outer_normal m e k = .ok (v k)) ∧
    (∀ k k', (∑ i, v k i * v k' i) = if k = k' then 1 else 0) ∧
    ∀ k x x' y y', inReference x → inReference x' → mapPoint m e x = .ok y → mapPoint m e x' = .ok y' →
      (∑ i, v k i * (y' i - y i)) = 0 := by
  obtain ⟨a, ha, h3, b, hb1, hb2, hb3⟩ := dims_spec hT h N hn hU m index hidx e he hN
  refine ⟨_, fun k => outer_normal_spec m e a h3 hb3 k, fun k k' => ?_, ?_⟩
  · rw [unit_dot]
    unfold arrSet
    by_cases hk : k = k'
    · subst hk; simp
    · rw [if_neg hk, if_neg (fun h => hk (hb1 h)), mul_zero]
  · intro k x x' y y' hx hx' hy hy'
    rw [unit_dot, map_diff m e a h3 hx hx' hy hy', Finset.sum_eq_zero, mul_zero]
    intro j _
    rw [if_neg (hb2 k j)]

include hT hN hn hU hidx he in
/-- `mat_q` is orthogonal, its first columns times the diagonal of `mat_r` are the `span_vec`s, and its other columns are the outer normals. -/
theorem C34_frame : ∃ Q : Fin s → Fin s → K, mat_q m e = .ok Q ∧ (Matrix.of Q).transpose * Matrix.of Q = 1 ∧
    (∀ j : Fin (d + 1), span_vec m e j = .ok (fun i => ∑ l, Q i (Fin.castLE h l) * mat_r e l j)) ∧
    ∀ k : Fin (s - (d + 1)), outer_normal m e k = .ok (fun i => Q i ⟨d + 1 + k, by omega⟩) := by
  obtain ⟨a, ha, h3, b, hb1, hb2, hb3⟩ := dims_spec hT h N hn hU m index hidx e he hN
  obtain ⟨Q, hQ, hQ1, hQ2⟩ := mat_q_spec h m e a h3 hb3
  refine ⟨Q, hQ, ?_, fun j => ?_, fun k => ?_⟩
  · have hcol : ∀ j : Fin s, ∃ c : Fin s, (∀ i, Q i j = if i = c then 1 else 0) ∧
        ((∃ l, j = Fin.castLE h l ∧ c = a l) ∨ (∃ k, j.1 = d + 1 + k.1 ∧ c = b k)) := by
      intro j
      by_cases hj : j.1 < d + 1
      · exact ⟨a ⟨j, hj⟩, fun i => hQ1 ⟨j, hj⟩ i, Or.inl ⟨_, rfl, rfl⟩⟩
      · have hj' : j.1 - (d + 1) < s - (d + 1) := by omega
        refine ⟨b ⟨j - (d + 1), hj'⟩, fun i => ?_, Or.inr ⟨_, by simp only; omega, rfl⟩⟩
        rw [← hQ2 ⟨j - (d + 1), hj'⟩ i]
        congr 1
        apply Fin.ext
        simp only
        omega
    ext j j'
    rw [Matrix.mul_apply, Matrix.one_apply]
    simp only [Matrix.transpose_apply, Matrix.of_apply]
    obtain ⟨c, hc, hcj⟩ := hcol j
    obtain ⟨c', hc', hcj'⟩ := hcol j'
    simp only [hc, hc', ite_mul, one_mul, zero_mul, Finset.sum_ite_eq', Finset.mem_univ, if_true]
    refine if_congr ?_ rfl rfl
    constructor
    · intro hcc
      rcases hcj with ⟨l, hl, hl'⟩ | ⟨k, hk, hk'⟩ <;> rcases hcj' with ⟨l2, hl2, hl2'⟩ | ⟨k2, hk2, hk2'⟩
      · rw [hl, hl2, ha (hl'.symm.trans (hcc.trans hl2'))]
      · exact absurd (hl'.symm.trans (hcc.trans hk2')) (hb2 _ _)
      · exact absurd (hl2'.symm.trans (hcc.symm.trans hk')) (hb2 _ _)
      · have := hb1 (hk'.symm.trans (hcc.trans hk2'))
        apply Fin.ext
        rw [hk, hk2, this]
    · intro hjj
      subst hjj
      have := hc c
      rw [if_pos rfl, hc' c] at this
      by_contra hcc
      rw [if_neg hcc] at this
      exact zero_ne_one this
  · unfold span_vec
    rw [hyAssert_of j.2, Res.ok_bind, vecGet_fin, Res.ok_bind, vecGet_fin, Res.ok_bind, h3, vecSet_fin]
    congr 1
    funext i
    simp only [hQ1, mat_r, mul_ite, mul_zero, Finset.sum_ite_eq', Finset.mem_univ, if_true, ite_mul, one_mul, zero_mul]
    rfl
  · rw [outer_normal_spec m e a h3 hb3 k]
    congr 1
    funext i
    rw [hQ2]
    rfl

end HyperHDG

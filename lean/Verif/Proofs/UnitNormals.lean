import Mathlib.Order.Interval.Finset.Nat
import Mathlib.Data.Nat.Count
import Verif.Proofs.UnitCubeEdge

/-! Helper lemmas: normals of `Geometry::UnitCube::hyEdge`. -/

set_option linter.unusedSectionVars false

namespace HyperHDG

open Geometry Geometry.UnitCube Geometry.UnitCube.HyEdge

variable {T : Tpcc} {d s n k : Nat} {K : Type} {α : Type} [Field K] [LinearOrder K] [IsStrictOrderedRing K]

theorem filter_ge_succ (dims : List Nat) (h : Nat) (hm : h ∈ dims) :
    (dims.filter (fun x => h + 1 ≤ x)).length < (dims.filter (fun x => h ≤ x)).length := by
  induction dims with
  | nil => simp at hm
  | cons y ys ih =>
    have hle : (ys.filter (fun x => h + 1 ≤ x)).length ≤ (ys.filter (fun x => h ≤ x)).length := by
      apply List.Sublist.length_le
      apply List.monotone_filter_right
      intro x hx
      simp only [decide_eq_true_eq] at *
      omega
    by_cases hy : y = h
    · subst hy
      rw [List.filter_cons_of_neg (by simp), List.filter_cons_of_pos (by simp), List.length_cons]
      omega
    · have hm' : h ∈ ys := by
        rcases List.mem_cons.1 hm with h1 | h1
        · exact absurd h1.symm hy
        · exact h1
      have := ih hm'
      by_cases hlt : h + 1 ≤ y
      · rw [List.filter_cons_of_pos (by simpa using hlt), List.filter_cons_of_pos (by simp; omega), List.length_cons, List.length_cons]
        omega
      · rw [List.filter_cons_of_neg (by simpa using hlt), List.filter_cons_of_neg (by simp; omega)]
        exact this

theorem filter_ge_mono (dims : List Nat) (h : Nat) :
    (dims.filter (fun x => h + 1 ≤ x)).length ≤ (dims.filter (fun x => h ≤ x)).length := by
  apply List.Sublist.length_le
  apply List.monotone_filter_right
  intro x hx
  simp only [decide_eq_true_eq] at *
  omega

/-- `skipFound` finds the next free number. -/
theorem skipFound_spec (dims : List Nat) : ∀ (fuel h : Nat), (dims.filter (fun x => h ≤ x)).length ≤ fuel →
    ∃ q, skipFound dims fuel h = .ok q ∧ q ∉ dims ∧ Nat.count (fun x => x ∉ dims) q = Nat.count (fun x => x ∉ dims) h
  | 0, h, hf => by
    have hm : h ∉ dims := by
      intro hm
      have : h ∈ dims.filter (fun x => h ≤ x) := List.mem_filter.2 ⟨hm, by simp⟩
      have := List.length_pos_of_mem this
      omega
    refine ⟨h, ?_, hm, rfl⟩
    unfold skipFound
    rw [if_neg hm]
  | fuel + 1, h, hf => by
    unfold skipFound
    by_cases hm : h ∈ dims
    · rw [if_pos hm]
      have := filter_ge_succ dims h hm
      obtain ⟨q, h1, h2, h3⟩ := skipFound_spec dims fuel (h + 1) (by omega)
      refine ⟨q, h1, h2, ?_⟩
      rw [h3, Nat.count_succ, if_neg (fun h' => h' hm), Nat.add_zero]
    · rw [if_neg hm]
      exact ⟨h, rfl, hm, rfl⟩

/-- `countFree` finds the number after the free number with a given position. -/
theorem countFree_spec (dims : List Nat) (index : Nat) : ∀ (fuel dim : Nat), Nat.count (fun x => x ∉ dims) dim ≤ index →
    (index + 1 - Nat.count (fun x => x ∉ dims) dim) + (dims.filter (fun x => dim ≤ x)).length ≤ fuel →
    ∃ q, countFree dims index fuel dim (Nat.count (fun x => x ∉ dims) dim) = .ok (q + 1) ∧ q ∉ dims ∧
      Nat.count (fun x => x ∉ dims) q = index
  | 0, dim, hc, hf => by omega
  | fuel + 1, dim, hc, hf => by
    unfold countFree
    rw [if_pos (by omega)]
    by_cases hm : dim ∈ dims
    · rw [if_pos hm]
      have h1 := filter_ge_succ dims dim hm
      have h2 : Nat.count (fun x => x ∉ dims) (dim + 1) = Nat.count (fun x => x ∉ dims) dim := by
        rw [Nat.count_succ, if_neg (fun h' => h' hm), Nat.add_zero]
      have := countFree_spec dims index fuel (dim + 1) (by omega) (by omega)
      rw [h2] at this
      exact this
    · rw [if_neg hm]
      have h1 := filter_ge_mono dims dim
      have h2 : Nat.count (fun x => x ∉ dims) (dim + 1) = Nat.count (fun x => x ∉ dims) dim + 1 := by
        rw [Nat.count_succ, if_pos hm]
      by_cases hlast : Nat.count (fun x => x ∉ dims) dim = index
      · refine ⟨dim, ?_, hm, hlast⟩
        cases fuel with
        | zero => rw [hlast]; unfold countFree; rw [if_neg (by omega)]
        | succ fuel => rw [hlast]; unfold countFree; rw [if_neg (by omega)]
      · have := countFree_spec dims index fuel (dim + 1) (by omega) (by omega)
        rw [h2] at this
        exact this

/-- Number of directions not along a cube. -/
theorem count_free (a : Fin k → Fin s) (ha : Function.Injective a) :
    Nat.count (fun x => x ∉ List.ofFn (fun j => (a j : Nat))) s = s - k := by
  classical
  rw [Nat.count_eq_card_filter_range]
  have h1 : (Finset.range s).filter (fun x => x ∉ List.ofFn (fun j => (a j : Nat)))
      = Finset.range s \ Finset.univ.image (fun j => (a j : Nat)) := by
    ext x
    simp [List.mem_ofFn, eq_comm]
  rw [h1, Finset.card_sdiff_of_subset, Finset.card_range, Finset.card_image_of_injective, Finset.card_univ, Fintype.card_fin]
  · exact fun i j hij => ha (Fin.ext hij)
  · intro x hx
    obtain ⟨j, _, rfl⟩ := Finset.mem_image.1 hx
    exact Finset.mem_range.2 (a j).2

theorem count_lt_bound {p : Nat → Prop} [DecidablePred p] {q : Nat} (h : Nat.count p q < Nat.count p s) : q < s := by
  by_contra hcon
  have := Nat.count_monotone p (show s ≤ q by omega)
  omega

/-- The free directions in ascending order. -/
theorem free_dirs (a : Fin k → Fin s) (ha : Function.Injective a) :
    ∃ b : Fin (s - k) → Fin s, Function.Injective b ∧ (∀ i j, a j ≠ b i) ∧
      ∀ (i : Fin (s - k)) (q : Nat), q ∉ List.ofFn (fun j => (a j : Nat)) →
        Nat.count (fun x => x ∉ List.ofFn (fun j => (a j : Nat))) q = i → q = b i := by
  have hex : ∀ i : Fin (s - k), ∃ q, q ∉ List.ofFn (fun j => (a j : Nat)) ∧
      Nat.count (fun x => x ∉ List.ofFn (fun j => (a j : Nat))) q = i.1 := by
    intro i
    obtain ⟨q, _, h2, h3⟩ := countFree_spec (List.ofFn (fun j => (a j : Nat))) i.1 _ 0 (by simp) (Nat.le_refl _)
    exact ⟨q, h2, h3⟩
  choose b hb1 hb2 using hex
  have hlt : ∀ i, b i < s := fun i => count_lt_bound (by rw [count_free a ha, hb2]; exact i.2)
  refine ⟨fun i => ⟨b i, hlt i⟩, ?_, ?_, ?_⟩
  · intro i i' h
    have := congrArg (fun x : Fin s => Nat.count (fun x => x ∉ List.ofFn (fun j => (a j : Nat))) x.1) h
    simp only [hb2] at this
    exact Fin.ext this
  · intro i j h
    apply hb1 i
    rw [List.mem_ofFn]
    exact ⟨j, congrArg Fin.val h⟩
  · intro i q hq hc
    show q = b i
    have hq' : (fun x => x ∉ List.ofFn (fun j => (a j : Nat))) q := hq
    have hb' : (fun x => x ∉ List.ofFn (fun j => (a j : Nat))) (b i) := hb1 i
    exact Nat.count_injective hq' hb' (by rw [hc, hb2])

theorem ofFn_filter_le (f : Fin k → Nat) (h : Nat) : ((List.ofFn f).filter (fun x => h ≤ x)).length ≤ k :=
  (List.length_filter_le _ _).trans (by rw [List.length_ofFn])

theorem outer_normal_spec (m : Mode) (e : HyEdge d s K) (a : Fin (d + 1) → Fin s) (ha : ∀ j, e.dim_indices j = a j)
    {b : Fin (s - (d + 1)) → Fin s}
    (hb : ∀ (i : Fin (s - (d + 1))) (q : Nat), q ∉ List.ofFn (fun j => (a j : Nat)) →
        Nat.count (fun x => x ∉ List.ofFn (fun j => (a j : Nat))) q = i → q = b i) (i : Fin (s - (d + 1))) :
    outer_normal m e i = .ok (arrSet (fun _ => 0) (b i) 1) := by
  unfold outer_normal
  rw [hyAssert_of i.2, Res.ok_bind]
  have hdi : e.dim_indices = fun j => (a j : Nat) := funext ha
  rw [hdi]
  obtain ⟨q, h1, h2, h3⟩ := countFree_spec (List.ofFn (fun j => (a j : Nat))) i.1 (i.1 + 1 + (d + 1)) 0 (by simp)
    (by have := ofFn_filter_le (fun j => (a j : Nat)) 0
        simp only [Nat.count_zero]
        exact Nat.add_le_add (Nat.sub_le _ _) this)
  rw [Nat.count_zero] at h1
  rw [h1, Res.ok_bind, Nat.add_sub_cancel, hb i q h2 h3, vecSet_fin]

theorem matSet_fin {r c : Nat} (m : Mode) (M : Fin r → Fin c → α) (i : Fin r) (j : Fin c) (x : α) :
    matSet m M i j x = .ok (fun i' j' => if i' = i ∧ j' = j then x else M i' j') := by
  unfold matSet
  rw [hyAssert_of i.2, Res.ok_bind, hyAssert_of j.2, Res.ok_bind, dif_pos ⟨i.2, j.2⟩]
  rfl

/-- The columns of `mat_q` are the unit vectors along the hyperedge, then the others. -/
theorem mat_q_spec (hds : d + 1 ≤ s) (m : Mode) (e : HyEdge d s K) (a : Fin (d + 1) → Fin s) (ha : ∀ j, e.dim_indices j = a j)
    {b : Fin (s - (d + 1)) → Fin s}
    (hb : ∀ (i : Fin (s - (d + 1))) (q : Nat), q ∉ List.ofFn (fun j => (a j : Nat)) →
        Nat.count (fun x => x ∉ List.ofFn (fun j => (a j : Nat))) q = i → q = b i) :
    ∃ Q, mat_q m e = .ok Q ∧ (∀ (j : Fin (d + 1)) i, Q i (Fin.castLE hds j) = if i = a j then 1 else 0) ∧
      ∀ (j : Fin (s - (d + 1))) i, Q i ⟨d + 1 + j, by omega⟩ = if i = b j then 1 else 0 := by
  obtain ⟨M, h1, h2⟩ := forFin_inv (d + 1) (fun index (mat : Fin s → Fin s → K) =>
      matSet m mat (e.dim_indices index) index 1) (fun _ _ => 0)
    (fun k M => ∀ i (j : Fin s), M i j = if ∃ j' : Fin (d + 1), j'.1 < k ∧ j'.1 = j.1 ∧ i = a j' then 1 else 0)
    (fun i j => by simp) (fun k M hM => by
      refine ⟨fun i' j' => if i' = a k ∧ j' = Fin.castLE hds k then 1 else M i' j', ?_, fun i j => ?_⟩
      · rw [ha]
        exact matSet_fin m M (a k) (Fin.castLE hds k) 1
      · show (if i = a k ∧ j = Fin.castLE hds k then 1 else M i j) = _
        by_cases hc : i = a k ∧ j = Fin.castLE hds k
        · rw [if_pos hc, if_pos]
          exact ⟨k, Nat.lt_succ_self _, by rw [hc.2]; rfl, hc.1⟩
        · rw [if_neg hc, hM i j]
          refine if_congr ⟨?_, ?_⟩ rfl rfl
          · rintro ⟨j', h1, h2⟩
            exact ⟨j', by omega, h2⟩
          · rintro ⟨j', h1, h2, h3⟩
            refine ⟨j', ?_, h2, h3⟩
            rcases Nat.lt_succ_iff_lt_or_eq.1 h1 with h | h
            · exact h
            · exfalso
              apply hc
              have : j' = k := Fin.ext h
              subst this
              exact ⟨h3, Fin.ext h2.symm⟩)
  have hdi : e.dim_indices = fun j => (a j : Nat) := funext ha
  have hM : ∀ i (j : Fin s), M i j = if ∃ j' : Fin (d + 1), j'.1 = j.1 ∧ i = a j' then 1 else 0 := by
    intro i j
    rw [h2 i j]
    refine if_congr ⟨?_, ?_⟩ rfl rfl
    · rintro ⟨j', _, h⟩; exact ⟨j', h⟩
    · rintro ⟨j', h⟩; exact ⟨j', j'.2, h⟩
  obtain ⟨⟨Q, hl⟩, g1, g2, g3⟩ := forUp_inv (s - (d + 1)) (fun i (st : (Fin s → Fin s → K) × Nat) => do
      let helper ← skipFound (List.ofFn e.dim_indices) (d + 1) st.2
      let mat ← matSet m st.1 helper (d + 1 + i) 1
      return (mat, helper + 1)) (M, 0)
    (fun k st => (Nat.count (fun x => x ∉ List.ofFn (fun j => (a j : Nat))) st.2 = k) ∧
      ∀ i (j : Fin s), st.1 i j = if (∃ j' : Fin (s - (d + 1)), j'.1 < k ∧ d + 1 + j'.1 = j.1 ∧ i = b j') then 1 else M i j)
    ⟨by simp, fun i j => by simp⟩ (fun k hk st ⟨i1, i2⟩ => by
      obtain ⟨q, e1, e2, e3⟩ := skipFound_spec (List.ofFn (fun j => (a j : Nat))) (d + 1) st.2 (ofFn_filter_le _ _)
      have hlt : d + 1 + k < s := by omega
      have hq := hb ⟨k, hk⟩ q e2 (by rw [e3, i1])
      refine ⟨((fun i' j' => if i' = b ⟨k, hk⟩ ∧ j' = ⟨d + 1 + k, hlt⟩ then 1 else st.1 i' j'), q + 1), ?_, ?_, fun i j => ?_⟩
      · rw [hdi, e1, Res.ok_bind, hq]
        have := matSet_fin m st.1 (b ⟨k, hk⟩) ⟨d + 1 + k, hlt⟩ (1 : K)
        rw [this]
        rfl
      · simp only [Nat.count_succ]
        rw [if_pos e2, e3, i1]
      · by_cases hc : i = b ⟨k, hk⟩ ∧ j = ⟨d + 1 + k, hlt⟩
        · simp only [if_pos hc]
          rw [if_pos]
          exact ⟨⟨k, hk⟩, Nat.lt_succ_self _, by rw [hc.2], hc.1⟩
        · simp only [if_neg hc]
          rw [i2 i j]
          refine if_congr ⟨?_, ?_⟩ rfl rfl
          · rintro ⟨j', h1, h2⟩
            exact ⟨j', by omega, h2⟩
          · rintro ⟨j', h1, h2, h3⟩
            refine ⟨j', ?_, h2, h3⟩
            rcases Nat.lt_succ_iff_lt_or_eq.1 h1 with h | h
            · exact h
            · exfalso
              apply hc
              have : j' = ⟨k, hk⟩ := Fin.ext h
              subst this
              exact ⟨h3, Fin.ext h2.symm⟩)
  refine ⟨Q, ?_, fun j i => ?_, fun j i => ?_⟩
  · unfold mat_q
    rw [h1, Res.ok_bind, g1]
    rfl
  · have := g3 i (Fin.castLE hds j)
    simp only at this
    rw [this, if_neg, hM]
    · refine if_congr ⟨?_, ?_⟩ rfl rfl
      · rintro ⟨j', h, h'⟩
        rw [h']
        congr 1
        exact Fin.ext h
      · intro h
        exact ⟨j, rfl, h⟩
    · rintro ⟨j', h1, h2, h3⟩
      have := j.2
      simp only [Fin.val_castLE] at h2
      omega
  · have := g3 i ⟨d + 1 + j, by omega⟩
    simp only at this
    rw [this]
    by_cases hi : i = b j
    · rw [if_pos hi, if_pos ⟨j, j.2, rfl, hi⟩]
    · rw [if_neg hi, if_neg, hM, if_neg]
      · rintro ⟨j', h, _⟩
        have := j'.2
        simp only at h
        omega
      · rintro ⟨j', _, h, h'⟩
        apply hi
        rw [h']
        congr 1
        apply Fin.ext
        omega

end HyperHDG

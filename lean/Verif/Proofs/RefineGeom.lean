import Mathlib.Order.Interval.Set.Basic
import Mathlib.Algebra.BigOperators.Group.Finset.Piecewise
import Mathlib.Tactic.FieldSimp
import Mathlib.Tactic.Positivity
import Verif.Proofs.Topology

/-! Helper lemmas: sub-cubes, their faces and their places in space are boxes. -/

namespace HyperHDG

variable {T : Tpcc} {d s n : Nat}

theorem Icc_inj {ι : Type} {lo hi lo' hi' : ι → ℚ} (h : lo ≤ hi) :
    Set.Icc lo hi = Set.Icc lo' hi' ↔ lo = lo' ∧ hi = hi' := by
  constructor
  · intro he
    have h1 : lo ∈ Set.Icc lo' hi' := he ▸ Set.left_mem_Icc.2 h
    have h2 : hi ∈ Set.Icc lo' hi' := he ▸ Set.right_mem_Icc.2 h
    have h' : lo' ≤ hi' := h1.1.trans h1.2
    have h3 : lo' ∈ Set.Icc lo hi := he ▸ Set.left_mem_Icc.2 h'
    have h4 : hi' ∈ Set.Icc lo hi := he ▸ Set.right_mem_Icc.2 h'
    exact ⟨le_antisymm h3.1 h1.1, le_antisymm h2.2 h4.2⟩
  · rintro ⟨rfl, rfl⟩; rfl

/-- Lower corner of a face, in units of `1/n`. -/
def faceLo (p : Fin (d + 1) → Nat) (f : Fin (2 * (d + 1))) (j : Fin (d + 1)) : Nat :=
  if j = Elem.facetDir f then p j + f % 2 else p j

/-- Upper corner of a face, in units of `1/n`. -/
def faceHi (p : Fin (d + 1) → Nat) (f : Fin (2 * (d + 1))) (j : Fin (d + 1)) : Nat :=
  if j = Elem.facetDir f then p j + f % 2 else p j + 1

theorem faceLo_le_faceHi (p : Fin (d + 1) → Nat) (f : Fin (2 * (d + 1))) (j : Fin (d + 1)) :
    faceLo p f j ≤ faceHi p f j := by
  unfold faceLo faceHi; split <;> omega

theorem subFace_eq_Icc (hn : 0 < n) (p : Fin (d + 1) → Nat) (f : Fin (2 * (d + 1))) :
    subFace n p f = Set.Icc (fun j => (faceLo p f j : ℚ) / n) (fun j => (faceHi p f j : ℚ) / n) := by
  have hn' : (0 : ℚ) < n := by exact_mod_cast hn
  ext x
  constructor
  · rintro ⟨h1, h2⟩
    have h2' : x (Elem.facetDir f) = ((p (Elem.facetDir f) + f % 2 : Nat) : ℚ) / n := h2
    constructor
    · intro j
      show (faceLo p f j : ℚ) / n ≤ x j
      unfold faceLo
      split
      · rename_i hj; subst hj; rw [h2']
      · exact (h1 j).1
    · intro j
      show x j ≤ (faceHi p f j : ℚ) / n
      unfold faceHi
      split
      · rename_i hj; subst hj; rw [h2']
      · push_cast; exact (h1 j).2
  · rintro ⟨h1, h2⟩
    have key : x (Elem.facetDir f) = ((p (Elem.facetDir f) + f % 2 : Nat) : ℚ) / n := by
      have a := h1 (Elem.facetDir f)
      have b := h2 (Elem.facetDir f)
      simp only [faceLo, faceHi, if_pos] at a b
      exact le_antisymm b a
    refine ⟨fun j => ?_, key⟩
    by_cases hj : j = Elem.facetDir f
    · subst hj
      rw [key]
      have : (f : Nat) % 2 ≤ 1 := by omega
      constructor
      · apply div_le_div_of_nonneg_right _ hn'.le
        push_cast
        have : (0 : ℚ) ≤ ((f : Nat) % 2 : Nat) := by positivity
        linarith
      · apply div_le_div_of_nonneg_right _ hn'.le
        have : (((f : Nat) % 2 : Nat) : ℚ) ≤ 1 := by exact_mod_cast this
        push_cast at this ⊢
        linarith
    · have a := h1 j
      have b := h2 j
      simp only [faceLo, faceHi, if_neg hj] at a b
      push_cast at b
      exact ⟨a, b⟩

theorem lo_le_hi (hn : 0 < n) (p : Fin (d + 1) → Nat) (f : Fin (2 * (d + 1))) :
    (fun j => (faceLo p f j : ℚ) / n) ≤ (fun j => (faceHi p f j : ℚ) / n) := by
  intro j
  have hn' : (0 : ℚ) < n := by exact_mod_cast hn
  apply div_le_div_of_nonneg_right _ hn'.le
  exact_mod_cast faceLo_le_faceHi p f j

theorem div_inj_nat (hn : 0 < n) {a b : Nat} : (a : ℚ) / n = (b : ℚ) / n ↔ a = b := by
  have hn' : (n : ℚ) ≠ 0 := by exact_mod_cast hn.ne'
  rw [div_left_inj' hn', Nat.cast_inj]

theorem faceCorners_iff (p p' : Fin (d + 1) → Nat) (f f' : Fin (2 * (d + 1))) :
    (faceLo p f = faceLo p' f' ∧ faceHi p f = faceHi p' f') ↔ SameFace p f p' f' := by
  constructor
  · rintro ⟨h1, h2⟩
    have hd : Elem.facetDir f = Elem.facetDir f' := by
      have a := congrFun h1 (Elem.facetDir f)
      have b := congrFun h2 (Elem.facetDir f)
      by_contra hne
      simp only [faceLo, faceHi, if_neg hne, if_pos] at a b
      omega
    refine ⟨hd, fun j hj => ?_, ?_⟩
    · have a := congrFun h1 j
      have hj' : j ≠ Elem.facetDir f' := hd ▸ hj
      simpa only [faceLo, if_neg hj, if_neg hj'] using a
    · have a := congrFun h1 (Elem.facetDir f)
      simp only [faceLo, if_pos, if_pos hd] at a
      rw [← hd]; exact a
  · rintro ⟨hd, h1, h2⟩
    constructor
    · funext j
      unfold faceLo
      by_cases hj : j = Elem.facetDir f
      · rw [if_pos hj, if_pos (hd ▸ hj)]
        subst hj
        rw [h2, hd]
      · rw [if_neg hj, if_neg (hd ▸ hj), h1 j hj]
    · funext j
      unfold faceHi
      by_cases hj : j = Elem.facetDir f
      · rw [if_pos hj, if_pos (hd ▸ hj)]
        subst hj
        rw [h2, hd]
      · rw [if_neg hj, if_neg (hd ▸ hj), h1 j hj]

/-- Two faces of sub-cubes coincide as sets exactly if they have the same direction and position. -/
theorem subFace_eq_iff (hn : 0 < n) (p p' : Fin (d + 1) → Nat) (f f' : Fin (2 * (d + 1))) :
    subFace n p f = subFace n p' f' ↔ SameFace p f p' f' := by
  rw [subFace_eq_Icc hn, subFace_eq_Icc hn, Icc_inj (lo_le_hi hn p f), ← faceCorners_iff]
  simp only [funext_iff, div_inj_nat hn]

/-- A face of a sub-cube lies on a face of the unit cube exactly if it has the same number and its coordinate is 0 or 1. -/
theorem subFace_subset_iff (hn : 0 < n) {p : Fin (d + 1) → Nat} (hp : ∀ j, p j < n) (f g : Fin (2 * (d + 1))) :
    subFace n p f ⊆ cubeFace g ↔ g = f ∧ (p (Elem.facetDir f) + f % 2 = 0 ∨ p (Elem.facetDir f) + f % 2 = n) := by
  have hn' : (0 : ℚ) < n := by exact_mod_cast hn
  rw [subFace_eq_Icc hn]
  constructor
  · intro h
    have h1 := (h (Set.left_mem_Icc.2 (lo_le_hi hn p f))).2
    have h2 := (h (Set.right_mem_Icc.2 (lo_le_hi hn p f))).2
    have h1' : (faceLo p f (Elem.facetDir g) : ℚ) / n = ((g % 2 : Nat) : ℚ) := h1
    have h2' : (faceHi p f (Elem.facetDir g) : ℚ) / n = ((g % 2 : Nat) : ℚ) := h2
    have hd : Elem.facetDir g = Elem.facetDir f := by
      by_contra hne
      have := h1'.trans h2'.symm
      rw [div_inj_nat hn] at this
      simp only [faceLo, faceHi, if_neg hne] at this
      omega
    rw [div_eq_iff hn'.ne'] at h1'
    have h3 : faceLo p f (Elem.facetDir g) = (g % 2) * n := by exact_mod_cast h1'
    rw [hd] at h3
    simp only [faceLo, if_pos] at h3
    have h4 := hp (Elem.facetDir f)
    have h5 : (g : Nat) % 2 = f % 2 := by
      rcases Nat.mod_two_eq_zero_or_one g with hg | hg <;> rw [hg] at h3 ⊢ <;> omega
    refine ⟨?_, ?_⟩
    · apply Fin.ext
      have := Fin.mk.inj_iff.1 hd
      omega
    · rcases Nat.mod_two_eq_zero_or_one g with hg | hg <;> rw [hg] at h3 <;> omega
  · rintro ⟨rfl, h⟩ x ⟨h1, h2⟩
    have h4 := hp (Elem.facetDir g)
    refine ⟨fun j => ?_, ?_⟩
    · have a : (faceLo p g j : ℚ) / n ≤ x j := h1 j
      have b : x j ≤ (faceHi p g j : ℚ) / n := h2 j
      have c : faceHi p g j ≤ n := by
        unfold faceHi
        split
        · rename_i hj; subst hj; omega
        · have := hp j; omega
      constructor
      · exact le_trans (by positivity) a
      · refine le_trans b ?_
        rw [div_le_one hn']
        exact_mod_cast c
    · have a : (faceLo p g (Elem.facetDir g) : ℚ) / n ≤ x (Elem.facetDir g) := h1 _
      have b : x (Elem.facetDir g) ≤ (faceHi p g (Elem.facetDir g) : ℚ) / n := h2 _
      simp only [faceLo, faceHi, if_pos] at a b
      have key := le_antisymm b a
      show x (Elem.facetDir g) = _
      rw [key, div_eq_iff hn'.ne']
      have : p (Elem.facetDir g) + g % 2 = (g % 2) * n := by
        rcases Nat.mod_two_eq_zero_or_one g with hg | hg <;> rw [hg] at h ⊢ <;> omega
      exact_mod_cast this

/-! ## Places in space -/

theorem place_along {k : Nat} {e : Elem s k} (h : Function.Injective e.along) (x : Fin k → ℚ) (j : Fin k) :
    e.place x (e.along j) = e.coord (e.along j) + x j := by
  unfold Elem.place
  congr 1
  rw [Finset.sum_eq_single j]
  · rw [if_pos rfl]
  · intro b _ hb
    rw [if_neg (fun h' => hb (h h'))]
  · intro h'; exact absurd (Finset.mem_univ _) h'

theorem place_out {k : Nat} {e : Elem s k} (x : Fin k → ℚ) (i : Fin s) (hi : ∀ j, e.along j ≠ i) :
    e.place x i = e.coord i := by
  unfold Elem.place
  rw [Finset.sum_eq_zero, add_zero]
  intro j _
  rw [if_neg (hi j)]

theorem place_image_Icc {k : Nat} {e : Elem s k} (h : Function.Injective e.along) (lo hi : Fin k → ℚ) :
    e.place '' Set.Icc lo hi = Set.Icc (e.place lo) (e.place hi) := by
  ext y
  constructor
  · rintro ⟨x, ⟨h1, h2⟩, rfl⟩
    constructor
    · intro i
      by_cases hi' : ∃ j, e.along j = i
      · obtain ⟨j, rfl⟩ := hi'
        rw [place_along h, place_along h]
        have := h1 j
        linarith
      · rw [place_out _ i (fun j hj => hi' ⟨j, hj⟩), place_out _ i (fun j hj => hi' ⟨j, hj⟩)]
    · intro i
      by_cases hi' : ∃ j, e.along j = i
      · obtain ⟨j, rfl⟩ := hi'
        rw [place_along h, place_along h]
        have := h2 j
        linarith
      · rw [place_out _ i (fun j hj => hi' ⟨j, hj⟩), place_out _ i (fun j hj => hi' ⟨j, hj⟩)]
  · rintro ⟨h1, h2⟩
    refine ⟨fun j => y (e.along j) - e.coord (e.along j), ⟨fun j => ?_, fun j => ?_⟩, ?_⟩
    · have := h1 (e.along j)
      rw [place_along h] at this
      linarith
    · have := h2 (e.along j)
      rw [place_along h] at this
      linarith
    · funext i
      by_cases hi' : ∃ j, e.along j = i
      · obtain ⟨j, rfl⟩ := hi'
        rw [place_along h]
        ring
      · rw [place_out _ i (fun j hj => hi' ⟨j, hj⟩)]
        have a := h1 i
        have b := h2 i
        rw [place_out _ i (fun j hj => hi' ⟨j, hj⟩)] at a b
        exact le_antisymm a b

theorem place_mono {k : Nat} {e : Elem s k} (h : Function.Injective e.along) {lo hi : Fin k → ℚ} (hl : lo ≤ hi) :
    e.place lo ≤ e.place hi := by
  have : e.place lo ∈ e.place '' Set.Icc lo hi := ⟨lo, Set.left_mem_Icc.2 hl, rfl⟩
  rw [place_image_Icc h] at this
  exact this.2

/-- The two corners determine placed faces. -/
theorem place_eq_iff (hn : 0 < n) {e e' : Elem s (d + 1)} (h : Function.Injective e.along) (h' : Function.Injective e'.along)
    (p p' : Fin (d + 1) → Nat) (f f' : Fin (2 * (d + 1))) :
    e.place '' subFace n p f = e'.place '' subFace n p' f' ↔
      (∀ i, e.place (fun j => (faceLo p f j : ℚ) / n) i = e'.place (fun j => (faceLo p' f' j : ℚ) / n) i) ∧
      (∀ i, e.place (fun j => (faceHi p f j : ℚ) / n) i = e'.place (fun j => (faceHi p' f' j : ℚ) / n) i) := by
  rw [subFace_eq_Icc hn, subFace_eq_Icc hn, place_image_Icc h, place_image_Icc h', Icc_inj (place_mono h (lo_le_hi hn p f))]
  simp only [funext_iff]

theorem div_scale (hn : 0 < n) {a b x y : Nat} :
    (a : ℚ) + (x : ℚ) / n = (b : ℚ) + (y : ℚ) / n ↔ n * a + x = n * b + y := by
  have hn' : (n : ℚ) ≠ 0 := by exact_mod_cast hn.ne'
  have h1 : ∀ a x : ℕ, (a : ℚ) + (x : ℚ) / n = ((n * a + x : ℕ) : ℚ) / n := by
    intro a x; push_cast; field_simp
  rw [h1, h1, div_inj_nat hn]

/-- Offset of a corner in direction `i`, in units of `1/n`. -/
noncomputable def offs (e : Elem s (d + 1)) (c : Fin (d + 1) → Nat) (i : Fin s) : Nat :=
  ∑ j, if e.along j = i then c j else 0

theorem offs_along {e : Elem s (d + 1)} (h : Function.Injective e.along) (c : Fin (d + 1) → Nat) (j : Fin (d + 1)) :
    offs e c (e.along j) = c j := by
  unfold offs
  rw [Finset.sum_eq_single j]
  · rw [if_pos rfl]
  · intro b _ hb
    rw [if_neg (fun h' => hb (h h'))]
  · intro h'; exact absurd (Finset.mem_univ _) h'

theorem offs_out {e : Elem s (d + 1)} (c : Fin (d + 1) → Nat) (i : Fin s) (hi : ∀ j, e.along j ≠ i) :
    offs e c i = 0 := by
  unfold offs
  rw [Finset.sum_eq_zero]
  intro j _
  rw [if_neg (hi j)]

theorem place_offs {e : Elem s (d + 1)} (h : Function.Injective e.along) (c : Fin (d + 1) → Nat) (i : Fin s) :
    e.place (fun j => (c j : ℚ) / n) i = (e.coord i : ℚ) + (offs e c i : ℚ) / n := by
  by_cases hi' : ∃ j, e.along j = i
  · obtain ⟨j, rfl⟩ := hi'
    rw [place_along h, offs_along h]
  · rw [place_out _ i (fun j hj => hi' ⟨j, hj⟩), offs_out _ i (fun j hj => hi' ⟨j, hj⟩)]
    simp

theorem place_eq_iff_nat (hn : 0 < n) {e e' : Elem s (d + 1)} (h : Function.Injective e.along) (h' : Function.Injective e'.along)
    (p p' : Fin (d + 1) → Nat) (f f' : Fin (2 * (d + 1))) :
    e.place '' subFace n p f = e'.place '' subFace n p' f' ↔
      (∀ i, n * e.coord i + offs e (faceLo p f) i = n * e'.coord i + offs e' (faceLo p' f') i) ∧
      (∀ i, n * e.coord i + offs e (faceHi p f) i = n * e'.coord i + offs e' (faceHi p' f') i) := by
  rw [place_eq_iff hn h h']
  simp only [place_offs h, place_offs h', div_scale hn]

theorem mul_add_cancel {a b x y N : Nat} (hx : x < N) (hy : y < N) (h : N * a + x = N * b + y) : a = b ∧ x = y := by
  have h1 : (N * a + x) / N = a := by
    rw [Nat.mul_add_div (by omega), Nat.div_eq_of_lt hx, Nat.add_zero]
  have h2 : (N * b + y) / N = b := by
    rw [Nat.mul_add_div (by omega), Nat.div_eq_of_lt hy, Nat.add_zero]
  have : a = b := by rw [← h1, h, h2]
  subst this
  omega

/-- The face's normal coordinate is 0 or `n`. -/
def OnCoarse (n : Nat) (p : Fin (d + 1) → Nat) (f : Fin (2 * (d + 1))) : Prop :=
  p (Elem.facetDir f) + f % 2 = 0 ∨ p (Elem.facetDir f) + f % 2 = n

theorem elem_ext {n k : Nat} {e e' : Elem n k} (h1 : e.along = e'.along) (h2 : e.coord = e'.coord) : e = e' := by
  cases e; cases e'; simp only at h1 h2; rw [h1, h2]

/-- Corners of a face in the directions along the coarse facet and in the other ones. -/
theorem corner_facet {e : Elem s (d + 1)} (h : Function.Injective e.along) (p : Fin (d + 1) → Nat) (f : Fin (2 * (d + 1)))
    (j : Fin d) :
    offs e (faceLo p f) ((e.facet f).along j) = p ((Elem.facetDir f).succAbove j) ∧
    offs e (faceHi p f) ((e.facet f).along j) = p ((Elem.facetDir f).succAbove j) + 1 := by
  have : (e.facet f).along j = e.along ((Elem.facetDir f).succAbove j) := rfl
  rw [this, offs_along h, offs_along h]
  simp only [faceLo, faceHi, if_neg (Fin.succAbove_ne _ _), and_self]

theorem corner_dir {e : Elem s (d + 1)} (h : Function.Injective e.along) (p : Fin (d + 1) → Nat) (f : Fin (2 * (d + 1))) :
    offs e (faceLo p f) (e.along (Elem.facetDir f)) = p (Elem.facetDir f) + f % 2 ∧
    offs e (faceHi p f) (e.along (Elem.facetDir f)) = p (Elem.facetDir f) + f % 2 := by
  rw [offs_along h, offs_along h]
  simp only [faceLo, faceHi, if_pos, and_self]

theorem along_cases {e : Elem s (d + 1)} (f : Fin (2 * (d + 1))) (i : Fin s) :
    (∃ j, (e.facet f).along j = i) ∨ i = e.along (Elem.facetDir f) ∨ (∀ j, e.along j ≠ i) := by
  by_cases hi : ∃ j, e.along j = i
  · obtain ⟨j, rfl⟩ := hi
    rcases Fin.eq_self_or_eq_succAbove (Elem.facetDir f) j with rfl | ⟨j', rfl⟩
    · exact Or.inr (Or.inl rfl)
    · exact Or.inl ⟨j', rfl⟩
  · exact Or.inr (Or.inr fun j hj => hi ⟨j, hj⟩)

/-- Outside the directions of the facet both corners agree. -/
theorem corner_flat {e : Elem s (d + 1)} (h : Function.Injective e.along) (p : Fin (d + 1) → Nat) (f : Fin (2 * (d + 1)))
    (i : Fin s) (hi : ∀ j, (e.facet f).along j ≠ i) : offs e (faceLo p f) i = offs e (faceHi p f) i := by
  rcases along_cases (e := e) f i with ⟨j, hj⟩ | rfl | ho
  · exact absurd hj (hi j)
  · rw [(corner_dir h p f).1, (corner_dir h p f).2]
  · rw [offs_out _ _ ho, offs_out _ _ ho]

theorem corner_coarse {e : Elem s (d + 1)} (h : Function.Injective e.along) {p : Fin (d + 1) → Nat} (hp : ∀ j, p j < n)
    (f : Fin (2 * (d + 1))) (hb : OnCoarse n p f) (i : Fin s) (hi : ∀ j, (e.facet f).along j ≠ i) :
    n * e.coord i + offs e (faceLo p f) i = n * (e.facet f).coord i := by
  rcases along_cases (e := e) f i with ⟨j, hj⟩ | rfl | ho
  · exact absurd hj (hi j)
  · rw [(corner_dir h p f).1, facet_coord_dir, Nat.mul_add n (e.coord _)]
    have := hp (Elem.facetDir f)
    unfold OnCoarse at hb
    rcases Nat.mod_two_eq_zero_or_one f with hf | hf <;> rw [hf] at hb ⊢ <;> omega
  · rw [offs_out _ _ ho, facet_coord_of_ne e f (fun h' => ho _ h'.symm)]
    rfl

theorem facet_coord_tang {e : Elem s (d + 1)} (h : Function.Injective e.along) (f : Fin (2 * (d + 1))) (j : Fin d) :
    (e.facet f).coord ((e.facet f).along j) = e.coord ((e.facet f).along j) := facet_coord_along h f j

/-- Two faces of refined hyperedges coincide in space exactly in these two cases. -/
theorem placed_faces_eq_iff (hT : T.Lawful) (hn : 0 < n) {e e' : Elem s (d + 1)}
    (h : StrictMono (fun j => (T.dirs s).idxOf (e.along j))) (h' : StrictMono (fun j => (T.dirs s).idxOf (e'.along j)))
    {p p' : Fin (d + 1) → Nat} (hp : ∀ j, p j < n) (hp' : ∀ j, p' j < n) (f f' : Fin (2 * (d + 1))) :
    e.place '' subFace n p f = e'.place '' subFace n p' f' ↔
      (OnCoarse n p f ∧ OnCoarse n p' f' ∧ e.facet f = e'.facet f' ∧
        ∀ j, p ((Elem.facetDir f).succAbove j) = p' ((Elem.facetDir f').succAbove j)) ∨
      (¬ OnCoarse n p f ∧ ¬ OnCoarse n p' f' ∧ e = e' ∧ SameFace p f p' f') := by
  have hi := along_inj h
  have hi' := along_inj h'
  rw [place_eq_iff_nat hn hi hi']
  constructor
  · rintro ⟨hL, hH⟩
    -- the directions along the facets agree
    have hrange : Set.range (e.facet f).along = Set.range (e'.facet f').along := by
      have aux : ∀ (e e' : Elem s (d + 1)) (p p' : Fin (d + 1) → Nat) (f f' : Fin (2 * (d + 1))), Function.Injective e.along →
          Function.Injective e'.along →
          (∀ i, n * e.coord i + offs e (faceLo p f) i = n * e'.coord i + offs e' (faceLo p' f') i) →
          (∀ i, n * e.coord i + offs e (faceHi p f) i = n * e'.coord i + offs e' (faceHi p' f') i) →
          Set.range (e.facet f).along ⊆ Set.range (e'.facet f').along := by
        rintro e e' p p' f f' hi hi' hL hH _ ⟨j, rfl⟩
        by_contra hne
        have h1 := hL ((e.facet f).along j)
        have h2 := hH ((e.facet f).along j)
        rw [(corner_facet hi p f j).1] at h1
        rw [(corner_facet hi p f j).2] at h2
        have h3 := corner_flat hi' p' f' ((e.facet f).along j) (fun l hl => hne ⟨l, hl⟩)
        omega
      exact Set.Subset.antisymm (aux e e' p p' f f' hi hi' hL hH)
        (aux e' e p' p f' f hi' hi (fun i => (hL i).symm) (fun i => (hH i).symm))
    have hal : (e.facet f).along = (e'.facet f').along :=
      canon_unique hT (facet_canon h f) (facet_canon h' f') hrange
    have htang : ∀ j, e.coord ((e.facet f).along j) = e'.coord ((e.facet f).along j) ∧
        p ((Elem.facetDir f).succAbove j) = p' ((Elem.facetDir f').succAbove j) := by
      intro j
      have h1 := hL ((e.facet f).along j)
      rw [(corner_facet hi p f j).1] at h1
      rw [hal, (corner_facet hi' p' f' j).1, ← hal] at h1
      exact mul_add_cancel (hp _) (hp' _) h1
    -- an interior face has exactly one coordinate which is no multiple of `n`
    have hint : ∀ (e : Elem s (d + 1)) (p : Fin (d + 1) → Nat) (f : Fin (2 * (d + 1))), Function.Injective e.along →
        (∀ j, p j < n) → ¬ OnCoarse n p f →
        0 < p (Elem.facetDir f) + f % 2 ∧ p (Elem.facetDir f) + f % 2 < n := by
      intro e p f hi hp hb
      unfold OnCoarse at hb
      have := hp (Elem.facetDir f)
      omega
    by_cases hb : OnCoarse n p f
    · by_cases hb' : OnCoarse n p' f'
      · refine Or.inl ⟨hb, hb', elem_ext hal ?_, fun j => (htang j).2⟩
        funext i
        by_cases hij : ∃ j, (e.facet f).along j = i
        · obtain ⟨j, rfl⟩ := hij
          rw [facet_coord_tang hi]
          conv_rhs => rw [hal, facet_coord_tang hi', ← hal]
          exact (htang j).1
        · have hij1 : ∀ j, (e.facet f).along j ≠ i := fun j hj => hij ⟨j, hj⟩
          have hij2 : ∀ j, (e'.facet f').along j ≠ i := by rw [← hal]; exact hij1
          have h1 := hL i
          rw [corner_coarse hi hp f hb i hij1, corner_coarse hi' hp' f' hb' i hij2] at h1
          exact Nat.eq_of_mul_eq_mul_left hn h1
      · exfalso
        have h0 := hint e' p' f' hi' hp' hb'
        have h1 := hL (e'.along (Elem.facetDir f'))
        rw [(corner_dir hi' p' f').1, corner_coarse hi hp f hb _ (by
          rw [hal]; intro j hj; exact Fin.succAbove_ne _ _ (hi' hj))] at h1
        have := mul_add_cancel (x := 0) hn h0.2 (by simpa using h1)
        omega
    · by_cases hb' : OnCoarse n p' f'
      · exfalso
        have h0 := hint e p f hi hp hb
        have h1 := hL (e.along (Elem.facetDir f))
        rw [(corner_dir hi p f).1, corner_coarse hi' hp' f' hb' _ (by
          rw [← hal]; intro j hj; exact Fin.succAbove_ne _ _ (hi hj))] at h1
        have := mul_add_cancel (y := 0) h0.2 hn (by simpa using h1)
        omega
      · refine Or.inr ⟨hb, hb', ?_⟩
        have h0 := hint e p f hi hp hb
        have h0' := hint e' p' f' hi' hp' hb'
        have hdir : e.along (Elem.facetDir f) = e'.along (Elem.facetDir f') := by
          have h1 := hL (e.along (Elem.facetDir f))
          rw [(corner_dir hi p f).1] at h1
          rcases along_cases (e := e') f' (e.along (Elem.facetDir f)) with ⟨j, hj⟩ | h2 | ho
          · rw [← hal] at hj
            exact absurd (hi hj) (Fin.succAbove_ne _ _)
          · exact h2
          · rw [offs_out _ _ ho] at h1
            have := mul_add_cancel h0.2 hn h1
            omega
        have hal2 : e.along = e'.along := by
          apply canon_unique hT h h'
          ext i
          constructor
          · rintro ⟨j, rfl⟩
            rcases Fin.eq_self_or_eq_succAbove (Elem.facetDir f) j with rfl | ⟨j', rfl⟩
            · rw [hdir]; exact ⟨_, rfl⟩
            · exact ⟨_, (congrFun hal j').symm⟩
          · rintro ⟨j, rfl⟩
            rcases Fin.eq_self_or_eq_succAbove (Elem.facetDir f') j with rfl | ⟨j', rfl⟩
            · rw [← hdir]; exact ⟨_, rfl⟩
            · exact ⟨_, congrFun hal j'⟩
        have hfd : Elem.facetDir f = Elem.facetDir f' := by
          rw [hal2] at hdir
          exact hi' hdir
        have hdc : e.coord (e.along (Elem.facetDir f)) = e'.coord (e.along (Elem.facetDir f)) ∧
            p (Elem.facetDir f) + f % 2 = p' (Elem.facetDir f') + f' % 2 := by
          have h1 := hL (e.along (Elem.facetDir f))
          rw [(corner_dir hi p f).1] at h1
          rw [hdir, (corner_dir hi' p' f').1] at h1
          rw [hdir]
          exact mul_add_cancel h0.2 h0'.2 h1
        refine ⟨elem_ext hal2 ?_, hfd, fun j hj => ?_, hdc.2⟩
        · funext i
          rcases along_cases (e := e) f i with ⟨j, rfl⟩ | rfl | ho
          · exact (htang j).1
          · exact hdc.1
          · have h1 := hL i
            rw [offs_out _ _ ho, offs_out _ _ (by rw [← hal2]; exact ho)] at h1
            exact Nat.eq_of_mul_eq_mul_left hn (by simpa using h1)
        · rcases Fin.eq_self_or_eq_succAbove (Elem.facetDir f) j with rfl | ⟨j', rfl⟩
          · exact absurd rfl hj
          · have := (htang j').2
            rw [← hfd] at this
            exact this
  · rintro (⟨hb, hb', hf, ht⟩ | ⟨hb, hb', he, hs⟩)
    · have hal : (e.facet f).along = (e'.facet f').along := by rw [hf]
      have hco : (e.facet f).coord = (e'.facet f').coord := by rw [hf]
      have key : ∀ i, (∀ j, (e.facet f).along j ≠ i) →
          n * e.coord i + offs e (faceLo p f) i = n * e'.coord i + offs e' (faceLo p' f') i := by
        intro i hij
        rw [corner_coarse hi hp f hb i hij, corner_coarse hi' hp' f' hb' i (by rw [← hal]; exact hij), hco]
      have key2 : ∀ j, e.coord ((e.facet f).along j) = e'.coord ((e'.facet f').along j) := by
        intro j
        rw [← facet_coord_tang hi, hco, hal, facet_coord_tang hi']
      constructor
      · intro i
        by_cases hij : ∃ j, (e.facet f).along j = i
        · obtain ⟨j, rfl⟩ := hij
          rw [(corner_facet hi p f j).1, key2 j]
          conv_rhs => rw [hal, (corner_facet hi' p' f' j).1]
          rw [ht j]
        · exact key i (fun j hj => hij ⟨j, hj⟩)
      · intro i
        by_cases hij : ∃ j, (e.facet f).along j = i
        · obtain ⟨j, rfl⟩ := hij
          rw [(corner_facet hi p f j).2, key2 j]
          conv_rhs => rw [hal, (corner_facet hi' p' f' j).2]
          rw [ht j]
        · have hij1 : ∀ j, (e.facet f).along j ≠ i := fun j hj => hij ⟨j, hj⟩
          rw [← corner_flat hi p f i hij1, ← corner_flat hi' p' f' i (by rw [← hal]; exact hij1)]
          exact key i hij1
    · subst he
      rw [← faceCorners_iff] at hs
      rw [hs.1, hs.2]
      exact ⟨fun _ => rfl, fun _ => rfl⟩

end HyperHDG

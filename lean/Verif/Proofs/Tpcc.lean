import Mathlib.Data.Fintype.EquivFin
import Mathlib.Data.Fintype.BigOperators
import Mathlib.Order.WellFounded
import Mathlib.Order.Fin.Basic
import Verif.Spec.Refinement
import Verif.Proofs.Hypercube
import Verif.Proofs.GlobalLoop
import Verif.Proofs.Loops

/-! Helper lemmas about lattice elements and about loops over the faces of a hyperedge. -/

namespace HyperHDG

/-- A loop over all positions of an array that stores `v i` at position `i`, looking only at the old entry there. -/
theorem arrLoop' {S : Nat} {K : Type} (body : Fin S → (Fin S → K) → Res (Fin S → K)) (v M : Fin S → K)
    (h : ∀ i a, a i = M i → body i a = .ok (arrSet a i (v i))) : forFin S body M = .ok v := by
  obtain ⟨N, h1, h2⟩ := forFin_inv S body M
    (fun i N => (∀ k : Fin S, k.1 < i → N k = v k) ∧ ∀ k : Fin S, i ≤ k.1 → N k = M k)
    ⟨fun k hk => absurd hk (Nat.not_lt_zero _), fun q _ => rfl⟩
    (fun i t ⟨ha, hb⟩ => by
      refine ⟨_, h i t (hb i (Nat.le_refl _)), ?_, ?_⟩
      · intro k hk
        by_cases hki : k = i
        · subst hki; simp only [arrSet, if_pos]
        · rw [arrSet, if_neg hki, ha k]
          have : k.1 ≠ i.1 := fun h' => hki (Fin.ext h')
          omega
      · intro k hk
        have : k ≠ i := fun h' => by subst h'; omega
        rw [arrSet, if_neg this, hb k (by omega)])
  rw [h1]
  congr 1
  funext k
  exact h2.1 k k.2

variable {T : Tpcc} {n k d : Nat}

theorem along_inj {e : Elem n k} (h : StrictMono (fun j => (T.dirs n).idxOf (e.along j))) :
    Function.Injective e.along := fun i j hij => h.injective (by simp only [hij])

/-- Two lists of directions in the library's order with the same members are equal. -/
theorem canon_unique (hT : T.Lawful) {a a' : Fin k → Fin n}
    (h : StrictMono (fun j => (T.dirs n).idxOf (a j))) (h' : StrictMono (fun j => (T.dirs n).idxOf (a' j)))
    (hr : Set.range a = Set.range a') : a = a' := by
  have h1 : Set.range (fun j => (T.dirs n).idxOf (a j)) = Set.range (fun j => (T.dirs n).idxOf (a' j)) := by
    have : ∀ b : Fin k → Fin n, Set.range (fun j => (T.dirs n).idxOf (b j)) = (T.dirs n).idxOf '' Set.range b := by
      intro b; rw [← Set.range_comp]; rfl
    rw [this, this, hr]
  have h2 := (StrictMono.range_inj h h').1 h1
  funext j
  have := congrFun h2 j
  exact (List.idxOf_inj (hT.dirs_mem n (a j))).1 this

theorem facet_canon {e : Elem n (k + 1)} (h : StrictMono (fun j => (T.dirs n).idxOf (e.along j)))
    (i : Fin (2 * (k + 1))) : StrictMono (fun j => (T.dirs n).idxOf ((e.facet i).along j)) := by
  intro a b hab
  exact h ((Fin.strictMono_succAbove _) hab)

theorem facet_coord_along {e : Elem n (k + 1)} (h : Function.Injective e.along) (i : Fin (2 * (k + 1))) (j : Fin k) :
    (e.facet i).coord ((e.facet i).along j) = e.coord (e.along ((Elem.facetDir i).succAbove j)) := by
  simp only [Elem.facet]
  rw [Function.update_of_ne]
  intro h'
  exact Fin.succAbove_ne _ _ (h h')

theorem facet_coord_dir (e : Elem n (k + 1)) (i : Fin (2 * (k + 1))) :
    (e.facet i).coord (e.along (Elem.facetDir i)) = e.coord (e.along (Elem.facetDir i)) + i % 2 := by
  simp only [Elem.facet, Function.update_self]

theorem facet_coord_of_ne (e : Elem n (k + 1)) (i : Fin (2 * (k + 1))) {l : Fin n} (h : l ≠ e.along (Elem.facetDir i)) :
    (e.facet i).coord l = e.coord l := by
  simp only [Elem.facet, Function.update_of_ne h]

theorem facet_belongs {dims : Fin n → Nat} {hk : k + 1 ≤ n} {hk' : k ≤ n} {e : Elem n (k + 1)} (h : Belongs T ⟨.both, dims, hk⟩ e)
    (i : Fin (2 * (k + 1))) : Belongs T ⟨.both, dims, hk'⟩ (e.facet i) := by
  have hinj := along_inj h.canon
  refine ⟨facet_canon h.canon i, fun j => ?_, fun l hl => ?_⟩
  · rw [facet_coord_along hinj]
    exact h.inside _
  · simp only
    by_cases hl' : l = e.along (Elem.facetDir i)
    · subst hl'
      rw [facet_coord_dir]
      have := h.inside (Elem.facetDir i)
      simp only at this
      omega
    · rw [facet_coord_of_ne e i hl']
      refine h.flat l (fun j hj => ?_)
      rcases Fin.eq_self_or_eq_succAbove (Elem.facetDir i) j with rfl | ⟨j', rfl⟩
      · exact hl' hj.symm
      · exact hl j' hj

/-! ## Elements of full dimension -/

theorem along_surj {e : Elem n n} (h : Function.Injective e.along) : Function.Surjective e.along :=
  Finite.surjective_of_injective h

theorem across_facet (hT : T.Lawful) {e : Elem (d + 1) (d + 1)}
    (h : StrictMono (fun j => (T.dirs (d + 1)).idxOf (e.along j))) (i : Fin (2 * (d + 1))) :
    (e.facet i).across T = [e.along (Elem.facetDir i)] := by
  have hinj := along_inj h
  have hsurj := along_surj hinj
  unfold Elem.across
  have : ∀ l : Fin (d + 1), decide (∀ j, (e.facet i).along j ≠ l) = (l == e.along (Elem.facetDir i)) := by
    intro l
    rw [Bool.eq_iff_iff]
    simp only [decide_eq_true_eq, beq_iff_eq]
    constructor
    · intro hl
      obtain ⟨j, rfl⟩ := hsurj l
      rcases Fin.eq_self_or_eq_succAbove (Elem.facetDir i) j with rfl | ⟨j', rfl⟩
      · rfl
      · exact absurd rfl (hl j')
    · rintro rfl j hj
      exact Fin.succAbove_ne _ _ (hinj hj)
  simp only [this]
  rw [List.filter_beq]
  rw [List.count_eq_one_of_mem (hT.dirs_nodup _) (hT.dirs_mem _ _)]
  rfl

theorem facet_exterior (hT : T.Lawful) (m : Mode) {e : Elem (d + 1) (d + 1)}
    (h : StrictMono (fun j => (T.dirs (d + 1)).idxOf (e.along j))) (i : Fin (2 * (d + 1))) :
    Wrapper.exterior_coordinate m T (e.facet i) 0 = .ok (e.coord (e.along (Elem.facetDir i)) + i % 2) := by
  unfold Wrapper.exterior_coordinate
  rw [hyAssert_of (by omega), across_facet hT h]
  simp only [Res.ok_bind, vget, List.getElem?_cons_zero, facet_coord_dir]
  rfl

theorem get_face_fin (m : Mode) (e : Elem n (k + 1)) (i : Fin (2 * (k + 1))) :
    Wrapper.get_face m e i = .ok (e.facet i) := by
  unfold Wrapper.get_face
  rw [hyAssert_of i.2]
  simp

theorem get_element_lt (m : Mode) (c : Complex n k) {i : Nat} (h : i < T.size c) :
    Wrapper.get_element m T c i = .ok (T.elem c i) := by
  unfold Wrapper.get_element
  rw [hyAssert_of h]
  simp [h]

theorem get_index_lt (hT : T.Lawful) (m : Mode) (c : Complex n k) {e : Elem n k} (h : Belongs T c e)
    (hs : T.size c ≤ U32) : Wrapper.get_index m T c e = .ok (T.index c e) := by
  unfold Wrapper.get_index
  have := hT.index_lt c e h
  rw [u32_of_lt (by omega)]
  simp [hyAssert_of this]

/-- The canonical directions of an element of full dimension. -/
theorem exists_full_canon (hT : T.Lawful) (n : Nat) :
    ∃ a : Fin n → Fin n, StrictMono (fun j => (T.dirs n).idxOf (a j)) := by
  have hlen : (T.dirs n).length = n := by
    have h1 : (T.dirs n).toFinset = Finset.univ := by
      ext i; simp [hT.dirs_mem n i]
    have h2 := List.toFinset_card_of_nodup (hT.dirs_nodup n)
    rw [h1, Finset.card_univ, Fintype.card_fin] at h2
    exact h2.symm
  refine ⟨fun j => (T.dirs n)[j.1]'(by omega), fun i j hij => ?_⟩
  simp only [List.Nodup.idxOf_getElem (hT.dirs_nodup n)]
  exact hij

/-- Grid of the sub-cubes of the unit cube. -/
abbrev refElem (d n : Nat) : Complex (d + 1) (d + 1) := ⟨.both, fun _ => n, Nat.le_refl _⟩

/-- Interior faces of these. -/
abbrev refFaces (d n : Nat) : Complex (d + 1) d := ⟨.none, fun _ => n, Nat.le_succ _⟩

theorem full_ext (hT : T.Lawful) {e e' : Elem n n} (h : StrictMono (fun j => (T.dirs n).idxOf (e.along j)))
    (h' : StrictMono (fun j => (T.dirs n).idxOf (e'.along j)))
    (hc : ∀ j, e.coord (e.along j) = e'.coord (e'.along j)) : e = e' := by
  have ha : e.along = e'.along := by
    apply canon_unique hT h h'
    rw [(along_surj (along_inj h)).range_eq, (along_surj (along_inj h')).range_eq]
  cases e; cases e'
  simp only at ha
  subst ha
  congr 1
  funext i
  obtain ⟨j, rfl⟩ := along_surj (along_inj h) i
  exact hc j

theorem exists_full (hT : T.Lawful) (c : Complex n n) (p : Fin n → Nat)
    (hp : ∀ (j : Fin n) (i : Fin n), p j < c.dims i) :
    ∃ e, Belongs T c e ∧ ∀ j, e.coord (e.along j) = p j := by
  obtain ⟨a, ha⟩ := exists_full_canon hT n
  have hinj : Function.Injective a := fun i j hij => ha.injective (by simp only [hij])
  have hsurj : Function.Surjective a := Finite.surjective_of_injective hinj
  refine ⟨⟨a, fun i => p (Function.surjInv hsurj i)⟩, ⟨ha, fun j => hp _ _, fun i hi => ?_⟩, fun j => ?_⟩
  · obtain ⟨j, rfl⟩ := hsurj i
    exact absurd rfl (hi j)
  · simp only
    congr 1
    exact hinj (Function.surjInv_eq hsurj _)

/-- The elements of full dimension are numbered by their positions. -/
noncomputable def posEquiv (hT : T.Lawful) (d n : Nat) :
    Fin (T.size (refElem d n)) ≃ (Fin (d + 1) → Fin n) :=
  Equiv.ofBijective
    (fun i j => ⟨(T.elem (refElem d n) i).coord ((T.elem (refElem d n) i).along j),
      (hT.elem_belongs (refElem d n) i i.2).inside j⟩) (by
    constructor
    · intro i i' h
      have he := full_ext hT (hT.elem_belongs (refElem d n) i i.2).canon
        (hT.elem_belongs (refElem d n) i' i'.2).canon (fun j => Fin.mk.inj_iff.1 (congrFun h j))
      apply Fin.ext
      rw [← hT.index_elem (refElem d n) i i.2, he, hT.index_elem (refElem d n) i' i'.2]
    · intro p
      obtain ⟨e, he, hp⟩ := exists_full hT (refElem d n) (fun j => (p j).1) (fun j i => (p j).2)
      refine ⟨⟨T.index _ e, hT.index_lt _ e he⟩, ?_⟩
      funext j
      apply Fin.ext
      simp only [hT.elem_index _ e he, hp])

theorem size_refElem (hT : T.Lawful) (d n : Nat) : T.size (refElem d n) = n ^ (d + 1) := by
  have := Fintype.card_congr (posEquiv hT d n)
  simpa using this

end HyperHDG

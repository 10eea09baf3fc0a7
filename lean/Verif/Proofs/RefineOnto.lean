import Mathlib.Data.Finset.Sort
import Mathlib.Data.Fintype.Prod
import Verif.Proofs.RefineGeom

/-! Helper lemmas: every face of a grid is a face of a cell; numbers of faces; numbering is onto. -/

namespace HyperHDG

open Topology

variable {T : Tpcc} {d s n k : Nat}

theorem dirs_length (hT : T.Lawful) (n : Nat) : (T.dirs n).length = n := by
  have h1 : (T.dirs n).toFinset = Finset.univ := by
    ext i; simp [hT.dirs_mem n i]
  have h2 := List.toFinset_card_of_nodup (hT.dirs_nodup n)
  rw [h1, Finset.card_univ, Fintype.card_fin] at h2
  exact h2.symm

/-- Every set of directions can be listed in the library's order. -/
theorem exists_canon (hT : T.Lawful) (D : Finset (Fin n)) (hD : D.card = k) :
    ∃ a : Fin k → Fin n, StrictMono (fun j => (T.dirs n).idxOf (a j)) ∧ Set.range a = ↑D := by
  classical
  let P : Finset Nat := D.image (fun i => (T.dirs n).idxOf i)
  have hP : P.card = k := by
    rw [Finset.card_image_of_injective, hD]
    intro i j hij
    exact (List.idxOf_inj (hT.dirs_mem n i)).1 hij
  have hmem : ∀ j, ∃ i, i ∈ D ∧ (T.dirs n).idxOf i = P.orderEmbOfFin hP j := by
    intro j
    have := P.orderEmbOfFin_mem hP j
    obtain ⟨i, hi, hij⟩ := Finset.mem_image.1 this
    exact ⟨i, hi, hij⟩
  choose a ha hidx using hmem
  refine ⟨a, ?_, ?_⟩
  · intro i j hij
    simp only [hidx]
    exact (P.orderEmbOfFin hP).strictMono hij
  · ext i
    constructor
    · rintro ⟨j, rfl⟩; exact ha j
    · intro hi
      have h1 : (T.dirs n).idxOf i ∈ Set.range (P.orderEmbOfFin hP) := by
        rw [Finset.range_orderEmbOfFin]
        exact Finset.mem_coe.2 (Finset.mem_image_of_mem _ hi)
      obtain ⟨j, hj⟩ := h1
      refine ⟨j, ?_⟩
      rw [← hidx] at hj
      exact (List.idxOf_inj (hT.dirs_mem n (a j))).1 hj

/-- A direction not yet in the list can be added. -/
theorem exists_insert (hT : T.Lawful) {b : Fin d → Fin s} (hb : StrictMono (fun j => (T.dirs s).idxOf (b j)))
    (i : Fin s) (hi : ∀ j, b j ≠ i) :
    ∃ (a : Fin (d + 1) → Fin s) (dir : Fin (d + 1)), StrictMono (fun j => (T.dirs s).idxOf (a j)) ∧
      a dir = i ∧ ∀ j, a (dir.succAbove j) = b j := by
  classical
  have hbi : Function.Injective b := fun x y hxy => hb.injective (by simp only [hxy])
  obtain ⟨a, ha, hr⟩ := exists_canon hT (insert i (Finset.univ.image b)) (k := d + 1) (by
    rw [Finset.card_insert_of_notMem, Finset.card_image_of_injective _ hbi, Finset.card_univ, Fintype.card_fin]
    simp only [Finset.mem_image, Finset.mem_univ, true_and, not_exists]
    exact hi)
  have hai : Function.Injective a := fun x y hxy => ha.injective (by simp only [hxy])
  have h1 : i ∈ Set.range a := by rw [hr]; simp
  obtain ⟨dir, hdir⟩ := h1
  refine ⟨a, dir, ha, hdir, fun j => ?_⟩
  have : (fun j => a (dir.succAbove j)) = b := by
    apply canon_unique hT _ hb
    · ext l
      constructor
      · rintro ⟨j, rfl⟩
        have h2 : a (dir.succAbove j) ∈ Set.range a := ⟨_, rfl⟩
        rw [hr] at h2
        simp only [Finset.coe_insert, Finset.coe_image, Finset.coe_univ, Set.image_univ, Set.mem_insert_iff] at h2
        rcases h2 with h2 | h2
        · rw [← hdir] at h2
          exact absurd (hai h2) (Fin.succAbove_ne _ _)
        · exact h2
      · rintro ⟨j, rfl⟩
        have h2 : b j ∈ Set.range a := by rw [hr]; simp
        obtain ⟨l, hl⟩ := h2
        rcases Fin.eq_self_or_eq_succAbove dir l with rfl | ⟨l', rfl⟩
        · exact absurd (hl.symm.trans hdir) (hi j)
        · exact ⟨l', hl⟩
    · intro x y hxy
      exact ha (Fin.strictMono_succAbove _ hxy)
  exact congrFun this j

/-- Number of the lower and the upper facet in direction `j`. -/
def facetNo (dir : Fin (d + 1)) (side : Fin 2) : Fin (2 * (d + 1)) := ⟨2 * dir + side, by omega⟩

@[simp] theorem facetDir_facetNo (dir : Fin (d + 1)) (side : Fin 2) : Elem.facetDir (facetNo dir side) = dir := by
  apply Fin.ext
  simp only [Elem.facetDir, facetNo]
  omega

@[simp] theorem facetNo_mod (dir : Fin (d + 1)) (side : Fin 2) : (facetNo dir side : Nat) % 2 = side := by
  simp only [facetNo]
  omega

theorem facetNo_facetDir (f : Fin (2 * (d + 1))) : facetNo (Elem.facetDir f) ⟨f % 2, by omega⟩ = f := by
  apply Fin.ext
  simp only [Elem.facetDir, facetNo]
  omega

/-- Every face of a grid without empty directions is a facet of a cell. -/
theorem exists_cell (hT : T.Lawful) {dims : Fin s → Nat} (hdims : ∀ i, 0 < dims i) (hds : d + 1 ≤ s) {hds' : d ≤ s} {f : Elem s d}
    (hf : Belongs T ⟨.both, dims, hds'⟩ f) :
    ∃ (e : Elem s (d + 1)) (i : Fin (2 * (d + 1))), Belongs T ⟨.both, dims, hds⟩ e ∧ e.facet i = f := by
  classical
  have hfi := along_inj hf.canon
  obtain ⟨i, hi⟩ : ∃ i, ∀ j, f.along j ≠ i := by
    by_contra hcon
    push Not at hcon
    have := Fintype.card_le_of_surjective f.along (fun i => hcon i)
    simp at this
    omega
  obtain ⟨a, dir, ha, hdir, hsucc⟩ := exists_insert hT hf.canon i hi
  have hai : Function.Injective a := fun x y hxy => ha.injective (by simp only [hxy])
  have hfl : f.coord i ≤ dims i := hf.flat i hi
  -- the lower neighbour unless the face lies at the lower end
  by_cases hlow : f.coord i < dims i
  · refine ⟨⟨a, f.coord⟩, facetNo dir 0, ⟨ha, fun j => ?_, fun l hl => ?_⟩, elem_ext ?_ ?_⟩
    · show f.coord (a j) < dims (a j)
      rcases Fin.eq_self_or_eq_succAbove dir j with rfl | ⟨j', rfl⟩
      · rw [hdir]; exact hlow
      · rw [hsucc]; exact hf.inside j'
    · exact hf.flat l (fun j => by rw [← hsucc]; exact hl _)
    · funext j
      simp only [Elem.facet, facetDir_facetNo, hsucc]
    · funext l
      simp only [Elem.facet, facetDir_facetNo, facetNo_mod]
      simp
  · refine ⟨⟨a, Function.update f.coord i (f.coord i - 1)⟩, facetNo dir 1, ⟨ha, fun j => ?_, fun l hl => ?_⟩, elem_ext ?_ ?_⟩
    · show Function.update f.coord i (f.coord i - 1) (a j) < dims (a j)
      rcases Fin.eq_self_or_eq_succAbove dir j with rfl | ⟨j', rfl⟩
      · rw [hdir, Function.update_self]
        have := hdims i
        omega
      · rw [hsucc, Function.update_of_ne (hi j')]; exact hf.inside j'
    · have hli : l ≠ i := fun h => hl dir (by rw [h]; exact hdir)
      show Function.update f.coord i (f.coord i - 1) l ≤ dims l
      rw [Function.update_of_ne hli]
      exact hf.flat l (fun j => by rw [← hsucc]; exact hl _)
    · funext j
      simp only [Elem.facet, facetDir_facetNo, hsucc]
    · funext l
      simp only [Elem.facet, facetDir_facetNo, facetNo_mod, hdir, Function.update_self]
      have := hdims i
      by_cases hl : l = i
      · subst hl
        rw [Function.update_self]
        show f.coord l - 1 + 1 = f.coord l
        omega
      · rw [Function.update_of_ne hl, Function.update_of_ne hl]

/-- The sub-cube at a given position. -/
theorem exists_sub (hT : T.Lawful) (p : Fin (d + 1) → Nat) (hp : ∀ j, p j < n) :
    ∃ r, Belongs T (refElem d n) r ∧ subPos r = p := by
  obtain ⟨e, he, h⟩ := exists_full hT (refElem d n) p (fun j _ => hp j)
  exact ⟨e, he, funext h⟩

/-- Every interior face is the upper facet of a sub-cube. -/
theorem exists_sub_of_face (hT : T.Lawful) {f : Elem (d + 1) d} (hf : Belongs T (refFaces d n) f) :
    ∃ (r : Elem (d + 1) (d + 1)) (dir : Fin (d + 1)), Belongs T (refElem d n) r ∧ r.facet (facetNo dir 1) = f ∧
      subPos r dir + 1 < n := by
  obtain ⟨i, hi⟩ : ∃ i, ∀ j, f.along j ≠ i := by
    by_contra hcon
    push Not at hcon
    have := Fintype.card_le_of_surjective f.along (fun i => hcon i)
    simp at this
  obtain ⟨a, dir, ha, hdir, hsucc⟩ := exists_insert hT hf.canon i hi
  have hfl : 0 < f.coord i ∧ f.coord i < n := hf.flat i hi
  have hrest : ∀ j, f.coord (f.along j) < n := hf.inside
  refine ⟨⟨a, Function.update f.coord i (f.coord i - 1)⟩, dir, ⟨ha, fun j => ?_, fun l hl => ?_⟩, elem_ext ?_ ?_, ?_⟩
  · show Function.update f.coord i (f.coord i - 1) (a j) < n
    rcases Fin.eq_self_or_eq_succAbove dir j with rfl | ⟨j', rfl⟩
    · rw [hdir, Function.update_self]; omega
    · rw [hsucc, Function.update_of_ne (hi j')]; exact hrest j'
  · have hai : Function.Injective a := fun x y hxy => ha.injective (by simp only [hxy])
    obtain ⟨j, hj⟩ := Finite.surjective_of_injective hai l
    exact absurd hj (hl j)
  · funext j
    simp only [Elem.facet, facetDir_facetNo, hsucc]
  · funext l
    simp only [Elem.facet, facetDir_facetNo, facetNo_mod, hdir, Function.update_self]
    by_cases hl : l = i
    · subst hl
      rw [Function.update_self]
      show f.coord l - 1 + 1 = f.coord l
      omega
    · rw [Function.update_of_ne hl, Function.update_of_ne hl]
  · show Function.update f.coord i (f.coord i - 1) (a dir) + 1 < n
    rw [hdir, Function.update_self]
    omega

/-- Interior faces are numbered by direction, position in this direction and position inside the face. -/
theorem size_refFaces (hT : T.Lawful) (d n : Nat) : T.size (refFaces d n) = (d + 1) * ((n - 1) * n ^ d) := by
  classical
  have hpos : ∀ x : Fin (d + 1) × Fin (n - 1) × (Fin d → Fin n), ∀ j,
      (x.1.insertNth (α := fun _ => Nat) x.2.1.1 (fun l => (x.2.2 l).1) j) < n := by
    intro x j
    rcases Fin.eq_self_or_eq_succAbove x.1 j with rfl | ⟨j', rfl⟩
    · rw [Fin.insertNth_apply_same]; omega
    · rw [Fin.insertNth_apply_succAbove]; exact (x.2.2 j').2
  choose r hr hrp using fun x => exists_sub hT (d := d) (n := n) _ (hpos x)
  have hb : ∀ x, Belongs T (refFaces d n) ((r x).facet (facetNo x.1 1)) := by
    intro x
    refine facet_belongs_ref (hr x) _ ?_
    rw [faceCoord_eq, facetDir_facetNo, facetNo_mod, hrp, Fin.insertNth_apply_same]
    have := x.2.1.2
    show ¬ (_ + 1 = 0 ∨ _ + 1 = n)
    omega
  let F : Fin (d + 1) × Fin (n - 1) × (Fin d → Fin n) → Fin (T.size (refFaces d n)) :=
    fun x => ⟨T.index _ ((r x).facet (facetNo x.1 1)), hT.index_lt _ _ (hb x)⟩
  have hF : Function.Bijective F := by
    constructor
    · intro x y hxy
      have h1 : (r x).facet (facetNo x.1 1) = (r y).facet (facetNo y.1 1) := by
        rw [← hT.elem_index _ _ (hb x), ← hT.elem_index _ _ (hb y)]
        congr 1
        exact Fin.mk.inj_iff.1 hxy
      rw [facet_eq_iff hT (hr x) (hr y), hrp, hrp] at h1
      obtain ⟨h2, h3, h4⟩ := h1
      rw [facetDir_facetNo, facetDir_facetNo] at h2 h4
      rw [facetNo_mod, facetNo_mod, Fin.insertNth_apply_same, Fin.insertNth_apply_same] at h4
      obtain ⟨x1, x2, x3⟩ := x
      obtain ⟨y1, y2, y3⟩ := y
      simp only at h2 h3 h4
      subst h2
      have h5 : x2 = y2 := Fin.ext (by omega)
      have h6 : x3 = y3 := by
        funext j
        have := h3 (x1.succAbove j) (by rw [facetDir_facetNo]; exact Fin.succAbove_ne _ _)
        rw [Fin.insertNth_apply_succAbove, Fin.insertNth_apply_succAbove] at this
        exact Fin.ext this
      rw [h5, h6]
    · intro ⟨v, hv⟩
      have hfb := hT.elem_belongs (refFaces d n) v hv
      obtain ⟨r', dir, hr', hfac, hlt⟩ := exists_sub_of_face hT hfb
      let x : Fin (d + 1) × Fin (n - 1) × (Fin d → Fin n) :=
        ⟨dir, ⟨subPos r' dir, by omega⟩, fun j => ⟨subPos r' (dir.succAbove j), hr'.inside _⟩⟩
      refine ⟨x, ?_⟩
      apply Fin.ext
      show T.index _ ((r x).facet (facetNo x.1 1)) = v
      have : (r x).facet (facetNo x.1 1) = T.elem (refFaces d n) v := by
        rw [← hfac]
        have : r x = r' := by
          apply full_ext hT (hr x).canon hr'.canon
          intro j
          show subPos (r x) j = subPos r' j
          rw [hrp]
          rcases Fin.eq_self_or_eq_succAbove x.1 j with h | ⟨j', h⟩
          · rw [h, Fin.insertNth_apply_same]
          · rw [h, Fin.insertNth_apply_succAbove]
        rw [this]
      rw [this, hT.index_elem _ _ hv]
  have := Fintype.card_congr (Equiv.ofBijective F hF)
  simpa using this.symm

/-- Every number below `n^d` is the number of a position in a slice. -/
theorem slice_onto (hT : T.Lawful) (f : Fin (2 * (d + 1))) (side : Nat) (hside : side < n) {v : Nat} (hv : v < n ^ d) :
    ∃ r, Belongs T (refElem d n) r ∧ subPos r (Elem.facetDir f) = side ∧
      T.index_in_slice (refFaces d n) (r.facet f) = v := by
  classical
  have hpos : ∀ x : Fin d → Fin n, ∀ j,
      ((Elem.facetDir f).insertNth (α := fun _ => Nat) side (fun l => (x l).1) j) < n := by
    intro x j
    rcases Fin.eq_self_or_eq_succAbove (Elem.facetDir f) j with rfl | ⟨j', rfl⟩
    · rw [Fin.insertNth_apply_same]; exact hside
    · rw [Fin.insertNth_apply_succAbove]; exact (x j').2
  choose r hr hrp using fun x => exists_sub hT (d := d) (n := n) _ (hpos x)
  let F : (Fin d → Fin n) → Fin (n ^ d) := fun x => ⟨_, slice_facet_lt hT (hr x) f⟩
  have hF : Function.Injective F := by
    intro x y hxy
    funext j
    have h1 := Fin.mk.inj_iff.1 hxy
    have := hT.slice_inj (refFaces d n) n _ _ (fun _ => rfl)
      (fun j => by rw [facet_coord_along (along_inj (hr x).canon)]; exact (hr x).inside _)
      (fun j => by rw [facet_coord_along (along_inj (hr y).canon)]; exact (hr y).inside _) h1 j
    rw [facet_coord_along (along_inj (hr x).canon), facet_coord_along (along_inj (hr y).canon)] at this
    have h2 : subPos (r x) ((Elem.facetDir f).succAbove j) = subPos (r y) ((Elem.facetDir f).succAbove j) := this
    rw [hrp, hrp, Fin.insertNth_apply_succAbove, Fin.insertNth_apply_succAbove] at h2
    exact Fin.ext h2
  have hsurj := ((Fintype.bijective_iff_injective_and_card F).2 ⟨hF, by simp⟩).2
  obtain ⟨x, hx⟩ := hsurj ⟨v, hv⟩
  refine ⟨r x, hr x, ?_, Fin.mk.inj_iff.1 hx⟩
  rw [hrp, Fin.insertNth_apply_same]

/-- Hyperedge numbers: coarse number and sub-cube. -/
theorem exists_index (hT : T.Lawful) (hn : 0 < n) {E : Nat} {r : Elem (d + 1) (d + 1)} (hr : Belongs T (refElem d n) r) :
    ∃ index, index / n ^ (d + 1) = E ∧ subElem T d n index = r := by
  have h1 := hT.index_lt _ _ hr
  rw [size_refElem hT] at h1
  refine ⟨n ^ (d + 1) * E + T.index (refElem d n) r, ?_, ?_⟩
  · rw [Nat.mul_add_div (Nat.pow_pos hn), Nat.div_eq_of_lt h1, Nat.add_zero]
  · unfold subElem
    rw [Nat.mul_add_mod, Nat.mod_eq_of_lt h1, hT.elem_index _ _ hr]

theorem index_lt_iff (hn : 0 < n) {index ce : Nat} : index < ce * n ^ (d + 1) ↔ index / n ^ (d + 1) < ce :=
  (Nat.div_lt_iff_lt_mul (Nat.pow_pos hn)).symm

/-- Every refined hypernode occurs. -/
theorem nodeVal_onto (hT : T.Lawful) (hn : 0 < n) {ce cf : Nat} (coarse : Nat → Fin (2 * (d + 1)) → Nat)
    (honto : ∀ c, c < cf → ∃ E, E < ce ∧ ∃ i, coarse E i = c) {v : Nat}
    (hv : v < cf * n ^ d + ce * T.size (refFaces d n)) :
    ∃ index, index < ce * n ^ (d + 1) ∧ ∃ i,
      nodeVal T d n cf (index / n ^ (d + 1)) (subElem T d n index) i (coarse (index / n ^ (d + 1)) i) = v := by
  have hD : 0 < n ^ d := Nat.pow_pos hn
  by_cases hlow : v < cf * n ^ d
  · obtain ⟨E, hE, i, hi⟩ := honto (v / n ^ d) (Nat.div_lt_of_lt_mul (by rw [Nat.mul_comm]; exact hlow))
    obtain ⟨r, hr, hside, hsl⟩ := slice_onto hT i (if i.1 % 2 = 0 then 0 else n - 1)
      (by split <;> omega) (Nat.mod_lt v hD)
    obtain ⟨index, h1, h2⟩ := exists_index hT hn (E := E) hr
    refine ⟨index, (index_lt_iff hn).2 (h1 ▸ hE), i, ?_⟩
    rw [h1, h2, hi]
    unfold nodeVal
    rw [if_pos, hsl, Nat.div_add_mod]
    rw [faceCoord_eq, hside]
    rcases Nat.mod_two_eq_zero_or_one i with h | h <;> simp only [h] <;> simp <;> omega
  · have hpos : 0 < T.size (refFaces d n) := by
      rcases Nat.eq_zero_or_pos (T.size (refFaces d n)) with h | h
      · rw [h] at hv; omega
      · exact h
    let w := v - cf * n ^ d
    have hw : w < ce * T.size (refFaces d n) := by omega
    have hE : w / T.size (refFaces d n) < ce := Nat.div_lt_of_lt_mul (by rw [Nat.mul_comm]; exact hw)
    have hfb := hT.elem_belongs (refFaces d n) _ (Nat.mod_lt w hpos)
    obtain ⟨r, dir, hr, hfac, hlt⟩ := exists_sub_of_face hT hfb
    obtain ⟨index, h1, h2⟩ := exists_index hT hn (E := w / T.size (refFaces d n)) hr
    refine ⟨index, (index_lt_iff hn).2 (h1 ▸ hE), facetNo dir 1, ?_⟩
    rw [h1, h2]
    unfold nodeVal
    rw [if_neg, hfac, hT.index_elem _ _ (Nat.mod_lt w hpos), Nat.add_assoc, Nat.div_add_mod]
    · omega
    · rw [faceCoord_eq, facetDir_facetNo, facetNo_mod]
      show ¬ (_ + 1 = 0 ∨ _ + 1 = n)
      omega

end HyperHDG

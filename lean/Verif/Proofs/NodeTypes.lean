import Verif.Proofs.CubicFile
import Verif.Proofs.Digits
import Verif.Spec.NodeTypes

/-! Helper lemmas: node descriptors. -/

namespace HyperHDG

open NodeDescriptor

variable {T : Tpcc} {d s n : Nat}

theorem eraseInterior_spec (hT : T.Lawful) (m : Mode) (hn : 0 < n) (hU : n ^ (d + 1) < U32) (index : Nat) (types : FaceArr d) :
    eraseInterior m T (refElem d n) n index types = .ok (fun i =>
      if refPos T d n index (Elem.facetDir i) + i % 2 = 0 ∨ refPos T d n index (Elem.facetDir i) + i % 2 = n then types i else 0) := by
  have hN : 0 < n ^ (d + 1) := Nat.pow_pos hn
  have h1 : Wrapper.n_elements T (refElem d n) = n ^ (d + 1) := by
    unfold Wrapper.n_elements
    rw [size_refElem hT, u32_of_lt hU]
  unfold eraseInterior
  rw [h1, umod, if_neg (Nat.pos_iff_ne_zero.1 hN), Res.ok_bind]
  have h2 : Wrapper.get_element m T (refElem d n) (index % n ^ (d + 1)) = .ok (subElem T d n index) :=
    get_element_lt m (refElem d n) (by rw [size_refElem hT]; exact Nat.mod_lt _ hN)
  rw [h2, Res.ok_bind]
  apply arrLoop'
  intro i a ha
  rw [get_face_fin, Res.ok_bind, facet_exterior hT m (subElem_belongs hT hn index).canon, Res.ok_bind]
  show (if refPos T d n index (Elem.facetDir i) + i % 2 ≠ 0 ∧ refPos T d n index (Elem.facetDir i) + i % 2 ≠ n then _ else _) = _
  by_cases hc : refPos T d n index (Elem.facetDir i) + i % 2 = 0 ∨ refPos T d n index (Elem.facetDir i) + i % 2 = n
  · rw [if_neg (by rcases hc with h | h
                   · exact fun h' => h'.1 h
                   · exact fun h' => h'.2 h), if_pos hc]
    refine congrArg Res.ok (funext fun j => ?_)
    unfold arrSet
    split
    · rename_i hj; rw [hj, ha]
    · rfl
  · rw [if_pos (not_or.1 hc), if_neg hc]
    rfl

/-- Digit of the code of a face of a grid. -/
def markDigit (N : Fin s → Nat) (face : Elem s d) (i : Fin s) : Nat :=
  if (∀ j, face.along j ≠ i) then (if face.coord i = 0 then 1 else if face.coord i = N i then 2 else 0) else 0

theorem markDigit_lt (N : Fin s → Nat) (face : Elem s d) (i : Fin s) : markDigit N face i < 3 := by
  unfold markDigit; split <;> (try split) <;> (try split) <;> omega

theorem across_length (hT : T.Lawful) {face : Elem s d} (hinj : Function.Injective face.along) : (face.across T).length = s - d := by
  classical
  have hnd : (face.across T).Nodup := (hT.dirs_nodup s).filter _
  rw [← List.toFinset_card_of_nodup hnd]
  have : (face.across T).toFinset = Finset.univ \ Finset.univ.image face.along := by
    ext i
    simp [Elem.across, hT.dirs_mem s i]
  rw [this, Finset.card_sdiff_of_subset (Finset.subset_univ _), Finset.card_univ, Fintype.card_fin,
    Finset.card_image_of_injective _ hinj, Finset.card_univ, Fintype.card_fin]

theorem across_sum (hT : T.Lawful) (face : Elem s d) (g : Fin s → Nat) :
    ((face.across T).map g).sum = ∑ i, if (∀ j, face.along j ≠ i) then g i else 0 := by
  classical
  have hnd : (face.across T).Nodup := (hT.dirs_nodup s).filter _
  rw [← List.sum_toFinset g hnd, ← Finset.sum_filter]
  congr 1
  ext i
  simp [Elem.across, hT.dirs_mem s i]

theorem coarseType_spec (hT : T.Lawful) (m : Mode) (hds : d + 1 ≤ s) (hs : 3 ^ s ≤ U32) (N : Fin s → Nat) {face : Elem s d}
    (hinj : Function.Injective face.along) :
    Cubic.coarseType m T N face = .ok (Spec.fromDigits 3 (List.ofFn (markDigit N face))) := by
  have hlen := across_length hT hinj
  let g : Fin s → Nat := fun i => (if face.coord i = 0 then 1 else if face.coord i = N i then 2 else 0) * 3 ^ (i : Nat)
  have htot : ((face.across T).map g).sum = Spec.fromDigits 3 (List.ofFn (markDigit N face)) := by
    rw [across_sum hT, fromDigits_sum]
    apply Finset.sum_congr rfl
    intro i _
    unfold markDigit
    by_cases hi : ∀ j, face.along j ≠ i
    · rw [if_pos hi, if_pos hi]
    · rw [if_neg hi, if_neg hi, Nat.zero_mul]
  have hbound : ((face.across T).map g).sum < U32 := by
    rw [htot]
    exact Nat.lt_of_lt_of_le (fromDigits_digit s _ (markDigit_lt N face)).1 hs
  have hpart : ∀ k, (((face.across T).take k).map g).sum ≤ ((face.across T).map g).sum := by
    intro k
    conv_rhs => rw [← List.take_append_drop k (face.across T), List.map_append, List.sum_append]
    omega
  obtain ⟨t, h1, h2⟩ := forUp_inv (s - (d + 1) + 1) (fun dim type => do
      let coordinate ← Wrapper.exterior_coordinate m T face dim
      let direction ← Wrapper.exterior_direction m T face dim
      if coordinate = 0 ∨ coordinate = N direction then
        let sum := type + (1 + (if coordinate ≠ 0 then 1 else 0)) * 3 ^ (direction : Nat)
        if sum < U32 then return sum else Res.ub
      else return type) 0 (fun k t => t = (((face.across T).take k).map g).sum) (by simp) (fun k hk t ht => by
      have hk' : k < (face.across T).length := by omega
      have e1 : Wrapper.exterior_coordinate m T face k = .ok (face.coord (face.across T)[k]) := by
        unfold Wrapper.exterior_coordinate
        rw [hyAssert_of (by omega), Res.ok_bind, vget_of_lt hk']
        rfl
      have e2 : Wrapper.exterior_direction m T face k = .ok (face.across T)[k] := by
        unfold Wrapper.exterior_direction
        rw [hyAssert_of (by omega), Res.ok_bind, vget_of_lt hk']
      rw [e1, Res.ok_bind, e2, Res.ok_bind]
      have hsum : (((face.across T).take (k + 1)).map g).sum = t + g (face.across T)[k] := by
        rw [List.take_succ_eq_append_getElem hk', List.map_append, List.sum_append, ht]
        simp
      have hle := hpart (k + 1)
      refine ⟨_, ?_, hsum.symm⟩
      by_cases hc : face.coord (face.across T)[k] = 0 ∨ face.coord (face.across T)[k] = N (face.across T)[k]
      · have hg : g (face.across T)[k] = (1 + (if face.coord (face.across T)[k] ≠ 0 then 1 else 0)) * 3 ^ ((face.across T)[k] : Nat) := by
          simp only [g]
          congr 1
          by_cases h0 : face.coord (face.across T)[k] = 0
          · simp [h0]
          · rw [if_neg h0, if_pos (hc.resolve_left h0), if_pos h0]
        rw [if_pos hc]
        simp only
        rw [← hg, if_pos (by rw [← hsum]; omega)]
        rfl
      · have hg : g (face.across T)[k] = 0 := by
          simp only [g]
          rw [if_neg (fun h => hc (Or.inl h)), if_neg (fun h => hc (Or.inr h)), Nat.zero_mul]
        rw [if_neg hc, hg]
        rfl)
  unfold Cubic.coarseType
  rw [h1, h2, List.take_of_length_le (by omega), htot]

theorem types_spec (hT : T.Lawful) (m : Mode) (h : d + 1 ≤ s) (hs : 3 ^ s ≤ U32) (N : Fin s → Nat) (hn : 0 < n)
    (hE : T.size (coarseElems h N) * n ^ (d + 1) < U32) {index : Nat} (hidx : index < T.size (coarseElems h N) * n ^ (d + 1))
    (t : Cubic d s) (h1 : t.n_elements = N) (h2 : t.tpcc_elements = coarseElems h N) (h3 : t.tpcc_ref_elem = refElem d n)
    (h4 : t.n_hyEdges = T.size (coarseElems h N) * n ^ (d + 1)) (h5 : t.n_subintervals = n) :
    t.get_hyFace_types m T index = .ok (fun i =>
      if refPos T d n index (Elem.facetDir i) + i % 2 = 0 ∨ refPos T d n index (Elem.facetDir i) + i % 2 = n then
        Spec.fromDigits 3 (List.ofFn (markDigit N ((T.elem (coarseElems h N) (index / n ^ (d + 1))).facet i))) else 0) := by
  have hEd := (index_lt_iff (d := d) hn).1 hidx
  have hU : n ^ (d + 1) < U32 := by
    have := Nat.mul_le_mul_right (n ^ (d + 1)) (Nat.lt_of_le_of_lt (Nat.zero_le _) hEd)
    omega
  have hne : Wrapper.n_elements T (refElem d n) = n ^ (d + 1) := by
    unfold Wrapper.n_elements
    rw [size_refElem hT, u32_of_lt hU]
  unfold Cubic.get_hyFace_types
  rw [h4, hyAssert_of hidx, Res.ok_bind, h3, h2, hne, udiv, if_neg (Nat.pos_iff_ne_zero.1 (Nat.pow_pos hn)), Res.ok_bind,
    get_element_lt m _ hEd, Res.ok_bind, h1, h5]
  have hb := hT.elem_belongs (coarseElems h N) _ hEd
  have hloop : forFin (2 * (d + 1)) (fun i (types : FaceArr d) => do
      let face ← Wrapper.get_face m (T.elem (coarseElems h N) (index / n ^ (d + 1))) i
      let type ← Cubic.coarseType m T N face
      return arrSet types i type) (fun _ => 0) = .ok (fun i =>
        Spec.fromDigits 3 (List.ofFn (markDigit N ((T.elem (coarseElems h N) (index / n ^ (d + 1))).facet i)))) := by
    apply arrLoop'
    intro i a _
    rw [get_face_fin, Res.ok_bind, coarseType_spec hT m h hs N (along_inj (facet_canon hb.canon i)), Res.ok_bind]
    rfl
  rw [hloop, Res.ok_bind, eraseInterior_spec hT m hn hU]

/-- When a placed face lies in a plane orthogonal to direction `i`. -/
theorem placed_const (hn : 0 < n) {e : Elem s (d + 1)} (h : Function.Injective e.along) (p : Fin (d + 1) → Nat)
    (f : Fin (2 * (d + 1))) (i : Fin s) (c : Nat) :
    (∀ x ∈ e.place '' subFace n p f, x i = c) ↔ (∀ j, (e.facet f).along j ≠ i) ∧
      n * e.coord i + (if i = e.along (Elem.facetDir f) then p (Elem.facetDir f) + f % 2 else 0) = n * c := by
  have hn' : (n : ℚ) ≠ 0 := by exact_mod_cast hn.ne'
  have hbox : (∀ x ∈ e.place '' subFace n p f, x i = c) ↔
      n * e.coord i + offs e (faceLo p f) i = n * c ∧ n * e.coord i + offs e (faceHi p f) i = n * c := by
    rw [subFace_eq_Icc hn, place_image_Icc h]
    have hle := place_mono h (lo_le_hi hn p f)
    have key : ∀ o : Nat, ((e.coord i : ℚ) + (o : ℚ) / n = c) ↔ n * e.coord i + o = n * c := by
      intro o
      rw [← Nat.cast_inj (R := ℚ)]
      push_cast
      constructor
      · intro H; rw [← H]; field_simp
      · intro H
        field_simp
        linarith
    constructor
    · intro H
      have a := H _ (Set.left_mem_Icc.2 hle)
      have b := H _ (Set.right_mem_Icc.2 hle)
      rw [place_offs h, key] at a b
      exact ⟨a, b⟩
    · rintro ⟨a, b⟩ x ⟨hx1, hx2⟩
      rw [← key, ← place_offs h] at a b
      have c1 := hx1 i
      have c2 := hx2 i
      rw [a] at c1
      rw [b] at c2
      exact le_antisymm c2 c1
  rw [hbox]
  rcases along_cases (e := e) f i with ⟨j, rfl⟩ | rfl | hi
  · have hc := corner_facet h p f j
    rw [hc.1, hc.2]
    constructor
    · rintro ⟨a, b⟩; omega
    · rintro ⟨a, _⟩; exact absurd rfl (a j)
  · have hc := corner_dir h p f
    rw [hc.1, hc.2, if_pos rfl, and_self]
    constructor
    · intro a
      exact ⟨fun j hj => Fin.succAbove_ne _ _ (h hj), a⟩
    · exact fun a => a.2
  · rw [offs_out _ i hi, offs_out _ i hi, if_neg (fun h => hi _ h.symm), and_self]
    constructor
    · intro a
      exact ⟨fun j hj => hi _ hj, a⟩
    · exact fun a => a.2

/-- The code of a coarse face. -/
theorem code_coarse {h : d + 1 ≤ s} {N : Fin s → Nat} (hT : T.Lawful) {E : Nat}
    (hinj : Function.Injective (T.elem (coarseElems h N) E).along) (f : Fin (2 * (d + 1))) :
    boundaryCode N (cubicFace T h N 1 E f) = Spec.fromDigits 3 (List.ofFn (markDigit N ((T.elem (coarseElems h N) E).facet f))) := by
  unfold boundaryCode
  congr 2
  funext i
  have hp : ∀ j, refPos T d 1 E j = 0 := fun j => by
    have := refPos_lt (d := d) hT (Nat.one_pos) E j
    omega
  have key : ∀ c : Nat, (∀ x ∈ cubicFace T h N 1 E f, x i = c) ↔ (∀ j, ((T.elem (coarseElems h N) E).facet f).along j ≠ i) ∧
      ((T.elem (coarseElems h N) E).facet f).coord i = c := by
    intro c
    unfold cubicFace
    rw [Nat.one_pow, Nat.div_one, placed_const Nat.one_pos hinj, hp, Nat.one_mul, Nat.one_mul]
    refine and_congr Iff.rfl ?_
    by_cases hi : i = (T.elem (coarseElems h N) E).along (Elem.facetDir f)
    · subst hi; rw [if_pos rfl, facet_coord_dir, Nat.zero_add]
    · rw [if_neg hi, facet_coord_of_ne _ f hi, Nat.add_zero]
  have k0 := key 0
  rw [Nat.cast_zero] at k0
  unfold markDigit
  by_cases ha : ∀ j, ((T.elem (coarseElems h N) E).facet f).along j ≠ i
  · simp only [k0, key, ha, implies_true, true_and, ne_eq, not_false_eq_true, if_true]
  · rw [if_neg ha, if_neg (fun H => ha (k0.1 H).1), if_neg (fun H => ha ((key _).1 H).1)]

end HyperHDG

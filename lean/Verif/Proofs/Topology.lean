import Mathlib.Tactic.Ring
import Mathlib.Tactic.Linarith
import Verif.Proofs.Tpcc

/-! Helper lemmas about refinement. -/

namespace HyperHDG

open Topology

variable {T : Tpcc} {d s : Nat}

/-- Lower coordinate of facet `i` in its normal direction. -/
def faceCoord (r : Elem (d + 1) (d + 1)) (i : Fin (2 * (d + 1))) : Nat :=
  r.coord (r.along (Elem.facetDir i)) + i % 2

/-- Index of the hypernode at face `i` of sub-cube `r` of coarse hyperedge `E`, if the coarse face has hypernode `c`. -/
def nodeVal (T : Tpcc) (d n cf E : Nat) (r : Elem (d + 1) (d + 1)) (i : Fin (2 * (d + 1))) (c : Nat) : Nat :=
  if faceCoord r i = 0 ∨ faceCoord r i = n then n ^ d * c + T.index_in_slice (refFaces d n) (r.facet i)
  else cf * n ^ d + T.size (refFaces d n) * E + T.index (refFaces d n) (r.facet i)

/-- No overflow of the index type. -/
structure Fits (T : Tpcc) (d n ce cf : Nat) : Prop where
  edges : ce * n ^ (d + 1) < U32
  nodes : cf * n ^ d + ce * T.size (refFaces d n) < U32

theorem facet_belongs_ref {n : Nat} {r : Elem (d + 1) (d + 1)} (h : Belongs T (refElem d n) r)
    (i : Fin (2 * (d + 1))) (hi : ¬ (faceCoord r i = 0 ∨ faceCoord r i = n)) :
    Belongs T (refFaces d n) (r.facet i) := by
  have hinj := along_inj h.canon
  refine ⟨facet_canon h.canon i, fun j => ?_, fun l hl => ?_⟩
  · rw [facet_coord_along hinj]
    exact h.inside _
  · obtain ⟨j, rfl⟩ := along_surj hinj l
    rcases Fin.eq_self_or_eq_succAbove (Elem.facetDir i) j with rfl | ⟨j', rfl⟩
    · show 0 < _ ∧ _ < n
      rw [facet_coord_dir]
      have h1 : r.coord (r.along (Elem.facetDir i)) < n := h.inside (Elem.facetDir i)
      unfold faceCoord at hi
      omega
    · exact absurd rfl (hl j')

theorem slice_facet_lt (hT : T.Lawful) {n : Nat} {r : Elem (d + 1) (d + 1)} (h : Belongs T (refElem d n) r)
    (i : Fin (2 * (d + 1))) : T.index_in_slice (refFaces d n) (r.facet i) < n ^ d := by
  refine hT.slice_lt (refFaces d n) n _ (fun _ => rfl) (fun j => ?_)
  rw [facet_coord_along (along_inj h.canon)]
  exact h.inside _

variable {n ce cf : Nat}

theorem Fits.refFaces_mul {E : Nat} (_ : Fits T d n ce cf) (hE : E < ce) :
    cf * n ^ d + T.size (refFaces d n) * E + T.size (refFaces d n) ≤ cf * n ^ d + ce * T.size (refFaces d n) := by
  have : T.size (refFaces d n) * (E + 1) ≤ ce * T.size (refFaces d n) := by
    rw [Nat.mul_comm]; exact Nat.mul_le_mul_right _ hE
  rw [Nat.mul_add] at this
  omega

theorem Fits.slice_add {c x : Nat} (hc : c < cf) (hx : x < n ^ d) : n ^ d * c + x < cf * n ^ d := by
  have : n ^ d * (c + 1) ≤ cf * n ^ d := by
    rw [Nat.mul_comm]; exact Nat.mul_le_mul_right _ hc
  rw [Nat.mul_add] at this
  omega

/-- The refined hypernode indices are below the number of hypernodes. -/
theorem nodeVal_lt (hT : T.Lawful) {E : Nat} {r : Elem (d + 1) (d + 1)} {i : Fin (2 * (d + 1))} {c : Nat}
    (hF : Fits T d n ce cf) (hE : E < ce) (hr : Belongs T (refElem d n) r) (hc : c < cf) :
    nodeVal T d n cf E r i c < cf * n ^ d + ce * T.size (refFaces d n) := by
  unfold nodeVal
  split
  · have := Fits.slice_add hc (slice_facet_lt hT hr i)
    omega
  · rename_i hi
    have h1 := hT.index_lt _ _ (facet_belongs_ref hr i hi)
    have h2 := hF.refFaces_mul hE
    omega

theorem refineFace_spec (hT : T.Lawful) (m : Mode) (hF : Fits T d n ce cf) (hn : 0 < n) {index : Nat}
    (hidx : index < ce * n ^ (d + 1)) {r : Elem (d + 1) (d + 1)} (hr : Belongs T (refElem d n) r)
    (i : Fin (2 * (d + 1))) (nodes : FaceArr d) (hc : nodes i < cf) :
    refineFace m T (Refined.make T ce cf n) index r i nodes =
      .ok (arrSet nodes i (nodeVal T d n cf (index / n ^ (d + 1)) r i (nodes i))) := by
  have hN : 0 < n ^ (d + 1) := Nat.pow_pos hn
  have hD : 0 < n ^ d := Nat.pow_pos hn
  have hE : index / n ^ (d + 1) < ce := Nat.div_lt_of_lt_mul (by rw [Nat.mul_comm]; exact hidx)
  have h1 := nodeVal_lt hT (i := i) hF hE hr hc
  have h2 := hF.nodes
  have hNU : n ^ (d + 1) < U32 := by
    have := Nat.mul_le_mul_right (n ^ (d + 1)) (Nat.succ_le_of_lt (Nat.zero_lt_of_lt hE))
    have := hF.edges
    omega
  have hDU : n ^ d < U32 := by
    have := Nat.mul_le_mul_right (n ^ d) (show 1 ≤ cf by omega)
    omega
  unfold refineFace
  rw [get_face_fin, Res.ok_bind, facet_exterior hT m hr.canon, Res.ok_bind]
  have hpow : Hypercube.pow d n = n ^ d := by
    rw [Hypercube.pow_eq, Nat.mod_eq_of_lt hDU]
  unfold nodeVal at h1 ⊢
  simp only [Refined.make, Wrapper.create_tpcc, Wrapper.tpcc_faces, hpow]
  by_cases hb : faceCoord r i = 0 ∨ faceCoord r i = n
  · rw [if_pos hb] at h1 ⊢
    rw [if_pos (by exact hb)]
    have h3 := slice_facet_lt hT hr i
    have h4 := Fits.slice_add hc h3
    have h5 : u32 (T.index_in_slice (refFaces d n) (r.facet i)) = T.index_in_slice (refFaces d n) (r.facet i) :=
      u32_of_lt (by omega)
    simp only [Wrapper.get_index_in_slice, h5]
    rw [u32_of_lt (show n ^ d * nodes i < U32 by omega), u32_of_lt (by omega)]
    rfl
  · rw [if_neg hb] at h1 ⊢
    rw [if_neg (by exact hb)]
    have h3 := facet_belongs_ref hr i hb
    have h4 := hT.index_lt _ _ h3
    have h5 := hF.refFaces_mul hE
    have hs : u32 (n ^ (d + 1)) = n ^ (d + 1) := u32_of_lt hNU
    simp only [Wrapper.n_elements, size_refElem hT, hs, udiv, if_neg (Nat.pos_iff_ne_zero.1 hN), Res.ok_bind]
    rw [get_index_lt hT m _ h3 (by omega)]
    have h6 : u32 (T.size (refFaces d n)) = T.size (refFaces d n) := u32_of_lt (by omega)
    have h7 : u32 (cf * n ^ d) = cf * n ^ d := u32_of_lt (by omega)
    have h8 : u32 (T.size (refFaces d n) * (index / n ^ (d + 1))) = T.size (refFaces d n) * (index / n ^ (d + 1)) :=
      u32_of_lt (by omega)
    rw [h6, h7, h8, u32_of_lt (show cf * n ^ d + T.size (refFaces d n) * (index / n ^ (d + 1)) < U32 by omega)]
    simp only [Res.ok_bind]
    rw [u32_of_lt (by omega)]
    rfl

/-- The sub-cube of a refined hyperedge. -/
def subElem (T : Tpcc) (d n index : Nat) : Elem (d + 1) (d + 1) := T.elem (refElem d n) (index % n ^ (d + 1))

theorem subElem_belongs (hT : T.Lawful) (hn : 0 < n) (index : Nat) :
    Belongs T (refElem d n) (subElem T d n index) := by
  apply hT.elem_belongs
  rw [size_refElem hT]
  exact Nat.mod_lt _ (Nat.pow_pos hn)

theorem refineNodes_spec (hT : T.Lawful) (m : Mode) (hF : Fits T d n ce cf) (hn : 0 < n) {index : Nat}
    (hidx : index < ce * n ^ (d + 1)) (nodes : FaceArr d) (hc : ∀ i, nodes i < cf) :
    refineNodes m T (Refined.make T ce cf n) index nodes =
      .ok (fun i => nodeVal T d n cf (index / n ^ (d + 1)) (subElem T d n index) i (nodes i)) := by
  have hN : 0 < n ^ (d + 1) := Nat.pow_pos hn
  have hNU : n ^ (d + 1) < U32 := by
    have h1 : 1 ≤ ce := by
      rcases Nat.eq_zero_or_pos ce with h | h
      · subst h; simp at hidx
      · exact h
    have := Nat.mul_le_mul_right (n ^ (d + 1)) h1
    have := hF.edges
    omega
  unfold refineNodes
  have h1 : (Refined.make (d := d) T ce cf n).n_elem_per_elem = n ^ (d + 1) := by
    show u32 (T.size (refElem d n)) = _
    rw [size_refElem hT, u32_of_lt hNU]
  rw [h1, umod, if_neg (Nat.pos_iff_ne_zero.1 hN), Res.ok_bind]
  have h2 : Wrapper.get_element m T (Refined.make (d := d) T ce cf n).tpcc_ref_elem (index % n ^ (d + 1)) =
      .ok (subElem T d n index) := get_element_lt m (refElem d n) (by
    rw [size_refElem hT]; exact Nat.mod_lt _ hN)
  rw [h2, Res.ok_bind]
  apply arrLoop'
  intro i a ha
  rw [← ha]
  exact refineFace_spec hT m hF hn hidx (subElem_belongs hT hn index) i a (by rw [ha]; exact hc i)

/-! ## When two refined hypernodes are equal -/

/-- Position of a sub-cube. -/
def subPos (r : Elem (d + 1) (d + 1)) (j : Fin (d + 1)) : Nat := r.coord (r.along j)

theorem faceCoord_eq (r : Elem (d + 1) (d + 1)) (i : Fin (2 * (d + 1))) :
    faceCoord r i = subPos r (Elem.facetDir i) + i % 2 := rfl

/-- Coincidence of faces of sub-cubes in terms of positions. -/
def SameFace (p : Fin (d + 1) → Nat) (i : Fin (2 * (d + 1))) (p' : Fin (d + 1) → Nat) (i' : Fin (2 * (d + 1))) : Prop :=
  Elem.facetDir i = Elem.facetDir i' ∧ (∀ j, j ≠ Elem.facetDir i → p j = p' j) ∧
    p (Elem.facetDir i) + i % 2 = p' (Elem.facetDir i') + i' % 2

theorem facet_eq_iff (hT : T.Lawful) {r r' : Elem (d + 1) (d + 1)} (hr : Belongs T (refElem d n) r)
    (hr' : Belongs T (refElem d n) r') (i i' : Fin (2 * (d + 1))) :
    r.facet i = r'.facet i' ↔ SameFace (subPos r) i (subPos r') i' := by
  have hinj := along_inj hr.canon
  have hinj' := along_inj hr'.canon
  have ha : r.along = r'.along := by
    apply canon_unique hT hr.canon hr'.canon
    rw [(along_surj hinj).range_eq, (along_surj hinj').range_eq]
  constructor
  · intro h
    have h1 : (r.facet i).across T = (r'.facet i').across T := by rw [h]
    rw [across_facet hT hr.canon, across_facet hT hr'.canon, List.cons.injEq, ← ha] at h1
    have h2 := hinj h1.1
    refine ⟨h2, fun j hj => ?_, ?_⟩
    · have := congrFun (congrArg Elem.coord h) (r.along j)
      rw [facet_coord_of_ne r i (fun h' => hj (hinj h')), ha,
        facet_coord_of_ne r' i' (fun h' => hj (by rw [h2]; exact hinj' h'))] at this
      unfold subPos
      rw [ha]
      exact this
    · have := congrFun (congrArg Elem.coord h) (r.along (Elem.facetDir i))
      rw [facet_coord_dir, ha, h2, facet_coord_dir] at this
      unfold subPos
      rw [ha, h2]
      exact this
  · rintro ⟨h1, h2, h3⟩
    have hal : (r.facet i).along = (r'.facet i').along := by
      funext j
      simp only [Elem.facet, ha, h1]
    have hco : (r.facet i).coord = (r'.facet i').coord := by
      funext l
      obtain ⟨j, rfl⟩ := along_surj hinj l
      by_cases hj : j = Elem.facetDir i
      · subst hj
        rw [facet_coord_dir]
        conv_rhs => rw [ha, h1, facet_coord_dir]
        exact h3
      · rw [facet_coord_of_ne r i (fun h' => hj (hinj h'))]
        conv_rhs => rw [ha, facet_coord_of_ne r' i' (fun h' => hj (by rw [h1]; exact hinj' h'))]
        exact h2 j hj
    cases hf : r.facet i; cases hf' : r'.facet i'
    rw [hf, hf'] at hal hco
    simp only at hal hco
    rw [hal, hco]

/-- Two refined hypernode indices agree exactly in these cases. -/
theorem nodeVal_eq_iff (hT : T.Lawful) {E E' : Nat} {r r' : Elem (d + 1) (d + 1)} {i i' : Fin (2 * (d + 1))} {c c' : Nat}
    (hr : Belongs T (refElem d n) r) (hr' : Belongs T (refElem d n) r') (hc : c < cf) (hc' : c' < cf) :
    nodeVal T d n cf E r i c = nodeVal T d n cf E' r' i' c' ↔
      ((faceCoord r i = 0 ∨ faceCoord r i = n) ∧ (faceCoord r' i' = 0 ∨ faceCoord r' i' = n) ∧ c = c' ∧
        ∀ j, subPos r ((Elem.facetDir i).succAbove j) = subPos r' ((Elem.facetDir i').succAbove j)) ∨
      (¬ (faceCoord r i = 0 ∨ faceCoord r i = n) ∧ ¬ (faceCoord r' i' = 0 ∨ faceCoord r' i' = n) ∧ E = E' ∧
        SameFace (subPos r) i (subPos r') i') := by
  have hs := slice_facet_lt hT hr i
  have hs' := slice_facet_lt hT hr' i'
  have hdm : ∀ {a b x y N : Nat}, x < N → y < N → N * a + x = N * b + y → a = b ∧ x = y := by
    intro a b x y N hx hy h
    have h1 : (N * a + x) / N = a := by
      rw [Nat.mul_add_div (by omega), Nat.div_eq_of_lt hx, Nat.add_zero]
    have h2 : (N * b + y) / N = b := by
      rw [Nat.mul_add_div (by omega), Nat.div_eq_of_lt hy, Nat.add_zero]
    have : a = b := by rw [← h1, h, h2]
    subst this
    omega
  unfold nodeVal
  by_cases hb : faceCoord r i = 0 ∨ faceCoord r i = n
  · by_cases hb' : faceCoord r' i' = 0 ∨ faceCoord r' i' = n
    · rw [if_pos hb, if_pos hb']
      simp only [hb, hb', not_true_eq_false, false_and, or_false, true_and]
      constructor
      · intro h
        obtain ⟨h1, h2⟩ := hdm hs hs' h
        refine ⟨h1, fun j => ?_⟩
        have := hT.slice_inj (refFaces d n) n (r.facet i) (r'.facet i') (fun _ => rfl)
          (fun j => by rw [facet_coord_along (along_inj hr.canon)]; exact hr.inside _)
          (fun j => by rw [facet_coord_along (along_inj hr'.canon)]; exact hr'.inside _) h2 j
        rw [facet_coord_along (along_inj hr.canon), facet_coord_along (along_inj hr'.canon)] at this
        exact this
      · rintro ⟨rfl, h2⟩
        have : T.index_in_slice (refFaces d n) (r.facet i) = T.index_in_slice (refFaces d n) (r'.facet i') := by
          apply hT.slice_congr (refFaces d n) n _ _ (fun _ => rfl)
          intro j
          rw [facet_coord_along (along_inj hr.canon), facet_coord_along (along_inj hr'.canon)]
          exact h2 j
        rw [this]
    · rw [if_pos hb, if_neg hb']
      simp only [hb, hb', not_true_eq_false, false_and, and_false, or_false, iff_false]
      have := Fits.slice_add hc hs
      omega
  · by_cases hb' : faceCoord r' i' = 0 ∨ faceCoord r' i' = n
    · rw [if_neg hb, if_pos hb']
      simp only [hb, hb', not_true_eq_false, false_and, and_false, or_false, iff_false]
      have := Fits.slice_add hc' hs'
      omega
    · rw [if_neg hb, if_neg hb']
      simp only [hb, hb', not_false_eq_true, false_and, false_or, true_and]
      have hfb := facet_belongs_ref hr i hb
      have hfb' := facet_belongs_ref hr' i' hb'
      rw [← facet_eq_iff hT hr hr']
      constructor
      · intro h
        have h' : T.size (refFaces d n) * E + T.index (refFaces d n) (r.facet i) =
            T.size (refFaces d n) * E' + T.index (refFaces d n) (r'.facet i') := by omega
        obtain ⟨h1, h2⟩ := hdm (hT.index_lt _ _ hfb) (hT.index_lt _ _ hfb') h'
        refine ⟨h1, ?_⟩
        rw [← hT.elem_index _ _ hfb, h2, hT.elem_index _ _ hfb']
      · rintro ⟨rfl, h2⟩
        rw [h2]

end HyperHDG

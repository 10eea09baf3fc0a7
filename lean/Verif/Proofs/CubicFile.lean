import Verif.Proofs.RefineOnto

/-! Helper lemmas: hypernodes of `Topology::Cubic` and `Topology::File`. -/

namespace HyperHDG

open Topology

variable {T : Tpcc} {d s n : Nat}

theorem refPos_eq (d n index : Nat) : refPos T d n index = subPos (subElem T d n index) := rfl

theorem refPos_lt (hT : T.Lawful) (hn : 0 < n) (index : Nat) (j : Fin (d + 1)) : refPos T d n index j < n :=
  (subElem_belongs hT hn index).inside j

/-- Coarse cells and coarse faces of a cubic grid. -/
abbrev coarseElems (h : d + 1 ≤ s) (ns : Fin s → Nat) : Complex s (d + 1) := ⟨.both, ns, h⟩
@[inherit_doc coarseElems]
abbrev coarseFaces (h : d + 1 ≤ s) (ns : Fin s → Nat) : Complex s d := ⟨.both, ns, Nat.le_of_succ_le h⟩

/-- Hypernode of a coarse face of a cubic grid. -/
def cubicCoarse (T : Tpcc) (h : d + 1 ≤ s) (ns : Fin s → Nat) (E : Nat) (i : Fin (2 * (d + 1))) : Nat :=
  T.index (coarseFaces h ns) ((T.elem (coarseElems h ns) E).facet i)

theorem cubicCoarse_lt (hT : T.Lawful) (h : d + 1 ≤ s) (ns : Fin s → Nat) {E : Nat}
    (hE : E < T.size (coarseElems h ns)) (i : Fin (2 * (d + 1))) :
    cubicCoarse T h ns E i < T.size (coarseFaces h ns) :=
  hT.index_lt _ _ (facet_belongs (hT.elem_belongs _ _ hE) i)

theorem fits_of (hT : T.Lawful) {ce cf : Nat} (h1 : ce * n ^ (d + 1) < U32)
    (h2 : cf * n ^ d + ce * nInterior d n < U32) : Fits T d n ce cf :=
  ⟨h1, by rw [size_refFaces hT]; exact h2⟩

theorem le_mul_pow (hn : 0 < n) (a k : Nat) : a ≤ a * n ^ k := Nat.le_mul_of_pos_right _ (Nat.pow_pos hn)

section Cubic

variable (hT : T.Lawful) (h : d + 1 ≤ s) (ns : Fin s → Nat) (hn : 0 < n)
  (hE : T.size (coarseElems h ns) * n ^ (d + 1) < U32)
  (hN : T.size (coarseFaces h ns) * n ^ d + T.size (coarseElems h ns) * nInterior d n < U32)

include hn hE hN in
theorem cubic_ref : ((Cubic.mk' T h ns).set_refinement T n).ref =
    Refined.make (d := d) T (T.size (coarseElems h ns)) (T.size (coarseFaces h ns)) n := by
  have h1 := le_mul_pow hn (T.size (coarseElems h ns)) (d + 1)
  have h2 := le_mul_pow hn (T.size (coarseFaces h ns)) d
  have e1 : u32 (T.size (coarseElems h ns)) = T.size (coarseElems h ns) := u32_of_lt (by omega)
  have e2 : u32 (T.size (coarseFaces h ns)) = T.size (coarseFaces h ns) := u32_of_lt (by omega)
  simp only [Cubic.set_refinement, Cubic.mk', Wrapper.n_elements, Wrapper.create_tpcc, Wrapper.tpcc_faces, e1, e2]

include hT in
theorem make_counts {ce cf : Nat} (hF : Fits T d n ce cf) (hce : 0 < ce → n ^ (d + 1) < U32) (hcf : 0 < cf → n ^ d < U32)
    (hfe : 0 < ce → T.size (refFaces d n) < U32) :
    (Refined.make (d := d) T ce cf n).n_hyEdges = ce * n ^ (d + 1) ∧
    (Refined.make (d := d) T ce cf n).n_hyNodes = cf * n ^ d + ce * T.size (refFaces d n) ∧
    (0 < ce → (Refined.make (d := d) T ce cf n).n_elem_per_elem = n ^ (d + 1)) := by
  have hE := hF.edges
  have hN := hF.nodes
  have e1 : ce * u32 (n ^ (d + 1)) = ce * n ^ (d + 1) := by
    rcases Nat.eq_zero_or_pos ce with h0 | h0
    · simp [h0]
    · rw [u32_of_lt (hce h0)]
  have e2 : cf * Hypercube.pow d n = cf * n ^ d := by
    rcases Nat.eq_zero_or_pos cf with h0 | h0
    · simp [h0]
    · rw [Hypercube.pow_eq, Nat.mod_eq_of_lt (hcf h0)]
  have e3 : ce * u32 (T.size (refFaces d n)) = ce * T.size (refFaces d n) := by
    rcases Nat.eq_zero_or_pos ce with h0 | h0
    · simp [h0]
    · rw [u32_of_lt (hfe h0)]
  refine ⟨?_, ?_, fun h0 => ?_⟩
  · show u32 (ce * u32 (T.size (refElem d n))) = _
    rw [size_refElem hT, e1, u32_of_lt hE]
  · show u32 (u32 (cf * Hypercube.pow d n) + u32 (ce * u32 (T.size (refFaces d n)))) = _
    rw [e2, e3, u32_of_lt (show cf * n ^ d < U32 by omega), u32_of_lt (show ce * T.size (refFaces d n) < U32 by omega), u32_of_lt hN]
  · show u32 (T.size (refElem d n)) = _
    rw [size_refElem hT, u32_of_lt (hce h0)]

include hT in
theorem fits_counts {ce cf : Nat} (hF : Fits T d n ce cf) :
    (Refined.make (d := d) T ce cf n).n_hyEdges = ce * n ^ (d + 1) ∧
    (Refined.make (d := d) T ce cf n).n_hyNodes = cf * n ^ d + ce * T.size (refFaces d n) ∧
    (0 < ce → (Refined.make (d := d) T ce cf n).n_elem_per_elem = n ^ (d + 1)) := by
  have h1 := hF.edges
  have h2 := hF.nodes
  refine make_counts hT hF (fun h0 => ?_) (fun h0 => ?_) (fun h0 => ?_)
  · have := Nat.le_mul_of_pos_left (n ^ (d + 1)) h0
    omega
  · have := Nat.le_mul_of_pos_left (n ^ d) h0
    omega
  · have := Nat.le_mul_of_pos_left (T.size (refFaces d n)) h0
    omega

include hT hn hE hN in
theorem cubic_nodes_spec (m : Mode) {index : Nat} (hidx : index < T.size (coarseElems h ns) * n ^ (d + 1)) :
    ((Cubic.mk' T h ns).set_refinement T n).get_hyNode_indices m T index =
      .ok (fun i => nodeVal T d n (T.size (coarseFaces h ns)) (index / n ^ (d + 1)) (subElem T d n index) i
        (cubicCoarse T h ns (index / n ^ (d + 1)) i)) := by
  have hF := fits_of hT hE hN
  have hcnt := fits_counts hT hF
  have hEd := (index_lt_iff (d := d) hn).1 hidx
  have hce : 0 < T.size (coarseElems h ns) := Nat.zero_lt_of_lt hEd
  have h1 := le_mul_pow hn (T.size (coarseFaces h ns)) d
  unfold Cubic.get_hyNode_indices Cubic.n_hyEdges
  rw [cubic_ref h ns hn hE hN, hyAssert_of (by rw [hcnt.1]; exact hidx), Res.ok_bind]
  have hco : ((Cubic.mk' T h ns).set_refinement T n).coarseNodes m T index (fun _ => 0) =
      .ok (cubicCoarse T h ns (index / n ^ (d + 1))) := by
    unfold Cubic.coarseNodes
    rw [cubic_ref h ns hn hE hN, hcnt.2.2 hce, udiv, if_neg (Nat.pos_iff_ne_zero.1 (Nat.pow_pos hn)), Res.ok_bind]
    have he : Wrapper.get_element m T ((Cubic.mk' T h ns).set_refinement T n).tpcc_elements (index / n ^ (d + 1)) =
        .ok (T.elem (coarseElems h ns) (index / n ^ (d + 1))) := get_element_lt m _ hEd
    rw [he, Res.ok_bind]
    apply arrLoop'
    intro i a _
    rw [get_face_fin, Res.ok_bind]
    have hfb : Belongs T (coarseFaces h ns) ((T.elem (coarseElems h ns) (index / n ^ (d + 1))).facet i) :=
      facet_belongs (hT.elem_belongs _ _ hEd) i
    have hg : Wrapper.get_index m T ((Cubic.mk' T h ns).set_refinement T n).tpcc_faces
        ((T.elem (coarseElems h ns) (index / n ^ (d + 1))).facet i) = .ok (cubicCoarse T h ns (index / n ^ (d + 1)) i) :=
      get_index_lt hT m (coarseFaces h ns) hfb (by omega)
    rw [hg]
    rfl
  rw [hco, Res.ok_bind]
  exact refineNodes_spec hT m hF hn hidx _ (fun i => cubicCoarse_lt hT h ns hEd i)

end Cubic

section File

variable (hT : T.Lawful) {D : DomainTopo d} (hD : D.Consistent) (hn : 0 < n)
  (hE : D.n_hyEdges * n ^ (d + 1) < U32)
  (hN : D.n_hyNodes * n ^ d + D.n_hyEdges * nInterior d n < U32)

/-- Hypernode of a coarse face of a domain read from a file. -/
def fileCoarse (D : DomainTopo d) (E : Nat) (i : Fin (2 * (d + 1))) : Nat :=
  (D.hyNodes_hyEdge.getD E (fun _ => 0)) i

include hD in
theorem fileCoarse_lt {E : Nat} (hE : E < D.n_hyEdges) (i : Fin (2 * (d + 1))) : fileCoarse D E i < D.n_hyNodes := by
  unfold fileCoarse
  have hlt : E < D.hyNodes_hyEdge.length := by rw [hD.nodes_length]; exact hE
  rw [List.getD_eq_getElem?_getD, List.getElem?_eq_getElem hlt, Option.getD_some]
  exact hD.nodes_lt _ (List.getElem_mem _) i

include hT hD hn hE hN in
theorem file_nodes_spec (m : Mode) {index : Nat} (hidx : index < D.n_hyEdges * n ^ (d + 1)) :
    ((File.mk' T D).set_refinement T n).get_hyNode_indices m T index =
      .ok (fun i => nodeVal T d n D.n_hyNodes (index / n ^ (d + 1)) (subElem T d n index) i
        (fileCoarse D (index / n ^ (d + 1)) i)) := by
  have hF := fits_of hT hE hN
  have hcnt := fits_counts hT hF
  have hEd := (index_lt_iff (d := d) hn).1 hidx
  have hce : 0 < D.n_hyEdges := Nat.zero_lt_of_lt hEd
  have href : ((File.mk' T D).set_refinement T n).ref = Refined.make T D.n_hyEdges D.n_hyNodes n := rfl
  unfold File.get_hyNode_indices File.n_hyEdges
  rw [href, hyAssert_of (by rw [hcnt.1]; exact hidx), Res.ok_bind, hcnt.2.2 hce, udiv,
    if_neg (Nat.pos_iff_ne_zero.1 (Nat.pow_pos hn)), Res.ok_bind]
  have hlt : index / n ^ (d + 1) < D.hyNodes_hyEdge.length := by rw [hD.nodes_length]; exact hEd
  have hv : vget ((File.mk' T D).set_refinement T n).domain_info.hyNodes_hyEdge (index / n ^ (d + 1)) =
      .ok (fileCoarse D (index / n ^ (d + 1))) := by
    show vget D.hyNodes_hyEdge _ = _
    rw [vget_of_lt hlt]
    unfold fileCoarse
    congr 1
    funext i
    rw [List.getD_eq_getElem?_getD, List.getElem?_eq_getElem hlt, Option.getD_some]
  rw [hv, Res.ok_bind]
  exact refineNodes_spec hT m hF hn hidx _ (fun i => fileCoarse_lt hD hEd i)

end File

/-- A hyperedge is determined by its coarse hyperedge and its position. -/
theorem index_unique (hT : T.Lawful) (hn : 0 < n) {index index' : Nat} (h1 : index / n ^ (d + 1) = index' / n ^ (d + 1))
    (h2 : refPos T d n index = refPos T d n index') : index = index' := by
  have hb := subElem_belongs (T := T) (d := d) hT hn index
  have hb' := subElem_belongs (T := T) (d := d) hT hn index'
  have he := full_ext hT hb.canon hb'.canon (fun j => congrFun h2 j)
  have hmod : index % n ^ (d + 1) = index' % n ^ (d + 1) := by
    have l1 : index % n ^ (d + 1) < T.size (refElem d n) := by
      rw [size_refElem hT]; exact Nat.mod_lt _ (Nat.pow_pos hn)
    have l2 : index' % n ^ (d + 1) < T.size (refElem d n) := by
      rw [size_refElem hT]; exact Nat.mod_lt _ (Nat.pow_pos hn)
    rw [← hT.index_elem _ _ l1, ← hT.index_elem _ _ l2]
    exact congrArg _ he
  rw [← Nat.div_add_mod index (n ^ (d + 1)), ← Nat.div_add_mod index' (n ^ (d + 1)), h1, hmod]

/-- Sub-cubes in space determine the hyperedge. -/
theorem cells_distinct (hT : T.Lawful) (hn : 0 < n) (h : d + 1 ≤ s) (ns : Fin s → Nat) {index index' : Nat}
    (hi : index < T.size (coarseElems h ns) * n ^ (d + 1)) (hi' : index' < T.size (coarseElems h ns) * n ^ (d + 1))
    (heq : cubicCell T h ns n index = cubicCell T h ns n index') : index = index' := by
  have hE := (index_lt_iff (d := d) hn).1 hi
  have hE' := (index_lt_iff (d := d) hn).1 hi'
  have hb := hT.elem_belongs (coarseElems h ns) _ hE
  have hb' := hT.elem_belongs (coarseElems h ns) _ hE'
  have hj := along_inj hb.canon
  have hj' := along_inj hb'.canon
  have hn' : (0 : ℚ) < n := by exact_mod_cast hn
  have hbox : ∀ p : Fin (d + 1) → Nat, subCube n p = Set.Icc (fun j => (p j : ℚ) / n) (fun j => ((p j + 1 : ℕ) : ℚ) / n) := by
    intro p
    ext x
    simp only [subCube, Set.mem_ofPred_eq, Set.mem_Icc, Pi.le_def, Nat.cast_add, Nat.cast_one]
    exact ⟨fun H => ⟨fun j => (H j).1, fun j => (H j).2⟩, fun H j => ⟨H.1 j, H.2 j⟩⟩
  unfold cubicCell at heq
  rw [hbox, hbox, place_image_Icc hj, place_image_Icc hj', Icc_inj (place_mono hj (fun j => by
    apply div_le_div_of_nonneg_right _ hn'.le
    push_cast; linarith))] at heq
  obtain ⟨hL, hH⟩ := heq
  have hL' := fun i => congrFun hL i
  have hH' := fun i => congrFun hH i
  simp only [place_offs hj, place_offs hj', div_scale hn] at hL' hH'
  have key : ∀ (e e' : Elem s (d + 1)) (p p' : Fin (d + 1) → Nat), Function.Injective e.along → Function.Injective e'.along →
      (∀ i, n * e.coord i + offs e p i = n * e'.coord i + offs e' p' i) →
      (∀ i, n * e.coord i + offs e (fun j => p j + 1) i = n * e'.coord i + offs e' (fun j => p' j + 1) i) →
      Set.range e.along ⊆ Set.range e'.along := by
    rintro e e' p p' hi hi' h1 h2 _ ⟨j, rfl⟩
    by_contra hne
    have a := h1 (e.along j)
    have b := h2 (e.along j)
    rw [offs_along hi, offs_out _ _ (fun l hl => hne ⟨l, hl⟩)] at a b
    omega
  have hal := canon_unique hT hb.canon hb'.canon (Set.Subset.antisymm (key _ _ _ _ hj hj' hL' hH')
    (key _ _ _ _ hj' hj (fun i => (hL' i).symm) (fun i => (hH' i).symm)))
  have hp : ∀ j, (T.elem (coarseElems h ns) (index / n ^ (d + 1))).coord ((T.elem (coarseElems h ns) (index' / n ^ (d + 1))).along j)
      = (T.elem (coarseElems h ns) (index' / n ^ (d + 1))).coord ((T.elem (coarseElems h ns) (index' / n ^ (d + 1))).along j) ∧
      refPos T d n index j = refPos T d n index' j := by
    intro j
    have a := hL' ((T.elem (coarseElems h ns) (index' / n ^ (d + 1))).along j)
    rw [offs_along hj', ← congrFun hal j, offs_along hj] at a
    rw [← congrFun hal j]
    exact mul_add_cancel (refPos_lt hT hn _ _) (refPos_lt hT hn _ _) a
  refine index_unique hT hn ?_ (funext fun j => (hp j).2)
  have he : T.elem (coarseElems h ns) (index / n ^ (d + 1)) = T.elem (coarseElems h ns) (index' / n ^ (d + 1)) := by
    refine elem_ext hal (funext fun i => ?_)
    by_cases hi : ∃ j, (T.elem (coarseElems h ns) (index' / n ^ (d + 1))).along j = i
    · obtain ⟨j, rfl⟩ := hi
      exact (hp j).1
    · have a := hL' i
      rw [offs_out _ i (fun j hj => hi ⟨j, hj⟩), offs_out _ i (fun j hj => hi ⟨j, by rw [← hal]; exact hj⟩)] at a
      exact Nat.eq_of_mul_eq_mul_left hn (by omega)
  rw [← hT.index_elem _ _ hE, ← hT.index_elem _ _ hE', he]

/-- The sub-hyperedge on the other side of an interior face. -/
theorem exists_neighbour (hT : T.Lawful) (hn : 0 < n) (index : Nat) (f : Fin (2 * (d + 1)))
    (hf : ¬ OnCoarse n (refPos T d n index) f) :
    ∃ index' f', index' / n ^ (d + 1) = index / n ^ (d + 1) ∧ (index', f') ≠ (index, f) ∧
      SameFace (refPos T d n index) f (refPos T d n index') f' ∧ ¬ OnCoarse n (refPos T d n index') f' ∧
      ∀ index'' f'', index'' / n ^ (d + 1) = index / n ^ (d + 1) →
        SameFace (refPos T d n index) f (refPos T d n index'') f'' →
        (index'', f'') = (index, f) ∨ (index'', f'') = (index', f') := by
  have hp := refPos_lt (d := d) hT hn index (Elem.facetDir f)
  have hf2 : f.1 % 2 < 2 := Nat.mod_lt _ (by omega)
  simp only [OnCoarse, not_or] at hf
  generalize hdir : Elem.facetDir f = dir at *
  -- coordinate of the neighbour in the direction of the face
  obtain ⟨q, hq, hqn⟩ : ∃ q, q + (1 - f.1 % 2) = refPos T d n index dir + f.1 % 2 ∧ q < n := by
    refine ⟨refPos T d n index dir + f.1 % 2 - (1 - f.1 % 2), ?_, ?_⟩ <;> omega
  obtain ⟨r, hr, hrp⟩ := exists_sub hT (d := d) (n := n) (Function.update (refPos T d n index) dir q) (by
    intro j
    by_cases hj : j = dir
    · subst hj; rw [Function.update_self]; exact hqn
    · rw [Function.update_of_ne hj]; exact refPos_lt hT hn _ _)
  obtain ⟨index', hi1, hi2⟩ := exists_index hT hn (E := index / n ^ (d + 1)) hr
  have hpos' : refPos T d n index' = Function.update (refPos T d n index) dir q := by
    rw [refPos_eq, hi2, hrp]
  obtain ⟨f', hf'⟩ : ∃ f' : Fin (2 * (d + 1)), Elem.facetDir f' = dir ∧ f'.1 % 2 = 1 - f.1 % 2 := by
    refine ⟨facetNo dir ⟨1 - f.1 % 2, by omega⟩, ?_, ?_⟩
    · apply Fin.ext; simp only [Elem.facetDir, facetNo]; omega
    · simp only [facetNo]; omega
  have hface : ∀ g g' : Fin (2 * (d + 1)), Elem.facetDir g = Elem.facetDir g' → g.1 % 2 = g'.1 % 2 → g = g' := by
    intro g g' h1 h2
    have := congrArg Fin.val h1
    simp only [Elem.facetDir] at this
    apply Fin.ext
    omega
  refine ⟨index', f', hi1, ?_, ⟨by rw [hdir, hf'.1], ?_, ?_⟩, ?_, ?_⟩
  · intro heq
    have := congrArg (fun x => x.2.1 % 2) heq
    simp only [hf'.2] at this
    omega
  · intro j hj
    rw [hdir] at hj
    rw [hpos', Function.update_of_ne hj]
  · rw [hdir, hf'.1, hf'.2, hpos', Function.update_self]; omega
  · rw [OnCoarse, hf'.1, hf'.2, hpos', Function.update_self]; omega
  · rintro index'' f'' hE ⟨s1, s2, s3⟩
    rw [hdir] at s1 s2 s3
    have hf2' : f''.1 % 2 < 2 := Nat.mod_lt _ (by omega)
    by_cases hside : f''.1 % 2 = f.1 % 2
    · left
      have : index'' = index := by
        refine index_unique hT hn hE (funext fun j => ?_)
        by_cases hj : j = dir
        · rw [hj]; rw [← s1] at s3; omega
        · exact (s2 j hj).symm
      rw [this, hface f'' f (by rw [← s1, hdir]) hside]
    · right
      have : index'' = index' := by
        refine index_unique hT hn (hE.trans hi1.symm) (funext fun j => ?_)
        rw [hpos']
        by_cases hj : j = dir
        · rw [hj, Function.update_self]; rw [← s1] at s3; omega
        · rw [Function.update_of_ne hj]; exact (s2 j hj).symm
      rw [this, hface f'' f' (by rw [← s1, hf'.1]) (by omega)]

end HyperHDG

import Verif.Proofs.CubicFile
import Verif.Proofs.TpccLex

/-!
# Properties of the topologies (C24, C25)

`T` stands for the external library `tpcc`, about which `Tpcc.Lawful` is assumed (`lexTpcc_lawful` shows that there is such a library).  The hypotheses
`hE` and `hN` say that the numbers of refined hyperedges and hypernodes fit the index type `unsigned int`.  By `C26` the topologies constructed and
refined once are all that occur.
-/

namespace HyperHDG

open Topology

variable {T : Tpcc} {d s n : Nat}

section Cubic

variable (hT : T.Lawful) (h : d + 1 ≤ s) (ns : Fin s → Nat) (hn : 0 < n)
  (hE : T.size (⟨.both, ns, h⟩ : Complex s (d + 1)) * n ^ (d + 1) < U32)
  (hN : T.size (⟨.both, ns, Nat.le_of_succ_le h⟩ : Complex s d) * n ^ d
    + T.size (⟨.both, ns, h⟩ : Complex s (d + 1)) * nInterior d n < U32)

include hT hn hE hN in
/-- A cubic topology refined into `n` parts per direction has `n ^ dim` hyperedges per coarse one, `n ^ (dim - 1)` hypernodes per coarse one, and
`dim * (n - 1) * n ^ (dim - 1)` hypernodes inside each coarse hyperedge. -/
theorem C24_cubic_counts : ((Cubic.mk' T h ns).set_refinement T n).n_hyEdges
      = T.size (⟨.both, ns, h⟩ : Complex s (d + 1)) * n ^ (d + 1) ∧
    ((Cubic.mk' T h ns).set_refinement T n).n_hyNodes
      = T.size (⟨.both, ns, Nat.le_of_succ_le h⟩ : Complex s d) * n ^ d
        + T.size (⟨.both, ns, h⟩ : Complex s (d + 1)) * ((d + 1) * ((n - 1) * n ^ d)) := by
  have hF := fits_of hT hE hN
  have := fits_counts hT hF
  unfold Cubic.n_hyEdges Cubic.n_hyNodes
  rw [cubic_ref h ns hn hE hN, this.1, this.2.1, size_refFaces hT]
  exact ⟨rfl, rfl⟩

include hT hn hE hN in
/-- Each hyperedge of a cubic topology has hypernodes which exist, whether or not assertions are compiled in. -/
theorem C24_cubic_valid (m : Mode) (index : Nat) (hidx : index < ((Cubic.mk' T h ns).set_refinement T n).n_hyEdges) :
    ∃ nodes, ((Cubic.mk' T h ns).set_refinement T n).get_hyNode_indices m T index = .ok nodes ∧
      ∀ i, nodes i < ((Cubic.mk' T h ns).set_refinement T n).n_hyNodes := by
  have hc := C24_cubic_counts hT h ns hn hE hN
  rw [hc.1] at hidx
  refine ⟨_, cubic_nodes_spec hT h ns hn hE hN m hidx, fun i => ?_⟩
  have hEd := (index_lt_iff (d := d) hn).1 hidx
  rw [hc.2, ← size_refFaces hT]
  exact nodeVal_lt hT (fits_of hT hE hN) hEd (subElem_belongs hT hn index) (cubicCoarse_lt hT h ns hEd i)

include hT hn hE hN in
/-- Each hypernode of a cubic topology belongs to a hyperedge. -/
theorem C24_cubic_onto (m : Mode) (hns : ∀ i, 0 < ns i) (v : Nat) (hv : v < ((Cubic.mk' T h ns).set_refinement T n).n_hyNodes) :
    ∃ index, index < ((Cubic.mk' T h ns).set_refinement T n).n_hyEdges ∧ ∃ nodes,
      ((Cubic.mk' T h ns).set_refinement T n).get_hyNode_indices m T index = .ok nodes ∧ ∃ i, nodes i = v := by
  have hc := C24_cubic_counts hT h ns hn hE hN
  rw [hc.2, ← size_refFaces hT] at hv
  have honto : ∀ c, c < T.size (coarseFaces h ns) → ∃ E, E < T.size (coarseElems h ns) ∧ ∃ i, cubicCoarse T h ns E i = c := by
    intro c hcc
    obtain ⟨e, i, he, hi⟩ := exists_cell hT hns h (hT.elem_belongs (coarseFaces h ns) c hcc)
    refine ⟨T.index (coarseElems h ns) e, hT.index_lt _ _ he, i, ?_⟩
    unfold cubicCoarse
    rw [hT.elem_index _ _ he, hi, hT.index_elem _ _ hcc]
  obtain ⟨index, hidx, i, hi⟩ := nodeVal_onto hT hn (cubicCoarse T h ns) honto hv
  refine ⟨index, by rw [hc.1]; exact hidx, _, cubic_nodes_spec hT h ns hn hE hN m hidx, i, hi⟩

include hT hn hE hN in
/-- Two faces of refined hyperedges of a cubic topology have the same hypernode exactly if they are the same set of points in space. -/
theorem C25_cubic_conforming (m : Mode) (index index' : Nat)
    (hidx : index < ((Cubic.mk' T h ns).set_refinement T n).n_hyEdges)
    (hidx' : index' < ((Cubic.mk' T h ns).set_refinement T n).n_hyEdges) (nodes nodes' : FaceArr d)
    (hnodes : ((Cubic.mk' T h ns).set_refinement T n).get_hyNode_indices m T index = .ok nodes)
    (hnodes' : ((Cubic.mk' T h ns).set_refinement T n).get_hyNode_indices m T index' = .ok nodes') (i i' : Fin (2 * (d + 1))) :
    nodes i = nodes' i' ↔ cubicFace T h ns n index i = cubicFace T h ns n index' i' := by
  have hc := C24_cubic_counts hT h ns hn hE hN
  rw [hc.1] at hidx hidx'
  have hEd := (index_lt_iff (d := d) hn).1 hidx
  have hEd' := (index_lt_iff (d := d) hn).1 hidx'
  rw [cubic_nodes_spec hT h ns hn hE hN m hidx] at hnodes
  rw [cubic_nodes_spec hT h ns hn hE hN m hidx'] at hnodes'
  injection hnodes with hnodes
  injection hnodes' with hnodes'
  subst hnodes hnodes'
  have hb := hT.elem_belongs (coarseElems h ns) _ hEd
  have hb' := hT.elem_belongs (coarseElems h ns) _ hEd'
  unfold cubicFace
  rw [placed_faces_eq_iff hT hn hb.canon hb'.canon (refPos_lt hT hn index) (refPos_lt hT hn index') i i',
    nodeVal_eq_iff hT (subElem_belongs hT hn index) (subElem_belongs hT hn index') (cubicCoarse_lt hT h ns hEd i)
      (cubicCoarse_lt hT h ns hEd' i')]
  have hco : cubicCoarse T h ns (index / n ^ (d + 1)) i = cubicCoarse T h ns (index' / n ^ (d + 1)) i' ↔
      (T.elem (coarseElems h ns) (index / n ^ (d + 1))).facet i = (T.elem (coarseElems h ns) (index' / n ^ (d + 1))).facet i' := by
    unfold cubicCoarse
    constructor
    · intro heq
      rw [← hT.elem_index _ _ (facet_belongs (hk' := Nat.le_of_succ_le h) hb i), ← hT.elem_index _ _ (facet_belongs (hk' := Nat.le_of_succ_le h) hb' i')]
      exact congrArg _ heq
    · intro heq
      rw [heq]
  have hcE : index / n ^ (d + 1) = index' / n ^ (d + 1) ↔
      T.elem (coarseElems h ns) (index / n ^ (d + 1)) = T.elem (coarseElems h ns) (index' / n ^ (d + 1)) := by
    constructor
    · intro heq; rw [heq]
    · intro heq
      rw [← hT.index_elem _ _ hEd, ← hT.index_elem _ _ hEd', heq]
  rw [hco, hcE]
  exact Iff.rfl

include hT hn in
/-- Different refined hyperedges are different cells in space. -/
theorem C25_cubic_cells (index index' : Nat) (hidx : index < T.size (⟨.both, ns, h⟩ : Complex s (d + 1)) * n ^ (d + 1))
    (hidx' : index' < T.size (⟨.both, ns, h⟩ : Complex s (d + 1)) * n ^ (d + 1)) :
    cubicCell T h ns n index = cubicCell T h ns n index' ↔ index = index' :=
  ⟨cells_distinct hT hn h ns hidx hidx', fun heq => by rw [heq]⟩

include hT hn hE hN in
/-- The faces of one hyperedge of a cubic topology have different hypernodes. -/
theorem C25_cubic_distinct (m : Mode) (index : Nat) (hidx : index < ((Cubic.mk' T h ns).set_refinement T n).n_hyEdges)
    (nodes : FaceArr d) (hnodes : ((Cubic.mk' T h ns).set_refinement T n).get_hyNode_indices m T index = .ok nodes) :
    Function.Injective nodes := by
  intro i i' heq
  rw [C25_cubic_conforming hT h ns hn hE hN m index index hidx hidx nodes nodes hnodes hnodes i i'] at heq
  have hc := C24_cubic_counts hT h ns hn hE hN
  rw [hc.1] at hidx
  have hEd := (index_lt_iff (d := d) hn).1 hidx
  have hb := hT.elem_belongs (coarseElems h ns) _ hEd
  have hj := along_inj hb.canon
  have hinj : Function.Injective (T.elem (coarseElems h ns) (index / n ^ (d + 1))).place := by
    intro x y hxy
    funext j
    have := congrFun hxy ((T.elem (coarseElems h ns) (index / n ^ (d + 1))).along j)
    rw [place_along hj, place_along hj] at this
    exact add_left_cancel this
  have := hinj.image_injective heq
  rw [subFace_eq_iff hn] at this
  obtain ⟨h1, _, h3⟩ := this
  have h1' := congrArg Fin.val h1
  rw [← h1] at h3
  simp only [Elem.facetDir] at h1'
  apply Fin.ext
  omega

include hT hn hE hN in
/-- A face of a refined hyperedge which does not lie on the boundary of its coarse hyperedge is shared by exactly one other
refined hyperedge, which is in the same coarse hyperedge. -/
theorem C25_cubic_interior (m : Mode) (index : Nat) (hidx : index < ((Cubic.mk' T h ns).set_refinement T n).n_hyEdges)
    (nodes : FaceArr d) (hnodes : ((Cubic.mk' T h ns).set_refinement T n).get_hyNode_indices m T index = .ok nodes)
    (i : Fin (2 * (d + 1))) (hi : ∀ g, ¬ subFace n (refPos T d n index) i ⊆ cubeFace g) :
    ∃ index' i', (index', i') ≠ (index, i) ∧ index' / n ^ (d + 1) = index / n ^ (d + 1) ∧
      ∀ index'' i'' nodes'', index'' < ((Cubic.mk' T h ns).set_refinement T n).n_hyEdges →
        ((Cubic.mk' T h ns).set_refinement T n).get_hyNode_indices m T index'' = .ok nodes'' →
        (nodes'' i'' = nodes i ↔ (index'', i'') = (index, i) ∨ (index'', i'') = (index', i')) := by
  have hc := C24_cubic_counts hT h ns hn hE hN
  rw [hc.1] at hidx ⊢
  have hEd := (index_lt_iff (d := d) hn).1 hidx
  have hno : ¬ OnCoarse n (refPos T d n index) i := fun hco =>
    hi i ((subFace_subset_iff hn (refPos_lt hT hn index) i i).2 ⟨rfl, hco⟩)
  obtain ⟨index', i', h1, h2, h3, h4, h5⟩ := exists_neighbour hT hn index i hno
  refine ⟨index', i', h2, h1, fun index'' i'' nodes'' hlt hnodes'' => ?_⟩
  have hEd'' := (index_lt_iff (d := d) hn).1 hlt
  rw [cubic_nodes_spec hT h ns hn hE hN m hidx] at hnodes
  rw [cubic_nodes_spec hT h ns hn hE hN m hlt] at hnodes''
  injection hnodes with hnodes
  injection hnodes'' with hnodes''
  subst hnodes hnodes''
  rw [eq_comm, nodeVal_eq_iff hT (subElem_belongs hT hn index) (subElem_belongs hT hn index'') (cubicCoarse_lt hT h ns hEd i)
      (cubicCoarse_lt hT h ns hEd'' i'')]
  constructor
  · rintro (⟨hco, _⟩ | ⟨_, _, hee, hs⟩)
    · exact absurd hco hno
    · exact h5 _ _ hee.symm hs
  · intro hor
    right
    rcases hor with heq | heq
    · obtain ⟨rfl, rfl⟩ := Prod.mk.inj heq
      exact ⟨hno, hno, rfl, rfl, fun _ _ => rfl, rfl⟩
    · obtain ⟨rfl, rfl⟩ := Prod.mk.inj heq
      exact ⟨hno, h4, h1.symm, h3⟩

end Cubic

section File

variable (hT : T.Lawful) {D : DomainTopo d} (hD : D.Consistent) (hn : 0 < n)
  (hE : D.n_hyEdges * n ^ (d + 1) < U32)
  (hN : D.n_hyNodes * n ^ d + D.n_hyEdges * nInterior d n < U32)

include hT hE hN in
/-- The numbers of refined hyperedges and hypernodes of a topology read from a file. -/
theorem C24_file_counts : ((File.mk' T D).set_refinement T n).n_hyEdges = D.n_hyEdges * n ^ (d + 1) ∧
    ((File.mk' T D).set_refinement T n).n_hyNodes
      = D.n_hyNodes * n ^ d + D.n_hyEdges * ((d + 1) * ((n - 1) * n ^ d)) := by
  have := fits_counts hT (fits_of hT hE hN)
  unfold File.n_hyEdges File.n_hyNodes
  have href : ((File.mk' T D).set_refinement T n).ref = Refined.make T D.n_hyEdges D.n_hyNodes n := rfl
  rw [href, this.1, this.2.1, size_refFaces hT]
  exact ⟨rfl, rfl⟩

include hT hD hn hE hN in
/-- Each hyperedge of a topology read from a consistent file has hypernodes which exist. -/
theorem C24_file_valid (m : Mode) (index : Nat) (hidx : index < ((File.mk' T D).set_refinement T n).n_hyEdges) :
    ∃ nodes, ((File.mk' T D).set_refinement T n).get_hyNode_indices m T index = .ok nodes ∧
      ∀ i, nodes i < ((File.mk' T D).set_refinement T n).n_hyNodes := by
  have hc := C24_file_counts hT hE hN
  rw [hc.1] at hidx
  refine ⟨_, file_nodes_spec hT hD hn hE hN m hidx, fun i => ?_⟩
  have hEd := (index_lt_iff (d := d) hn).1 hidx
  rw [hc.2, ← size_refFaces hT]
  exact nodeVal_lt hT (fits_of hT hE hN) hEd (subElem_belongs hT hn index) (fileCoarse_lt hD hEd i)

include hT hD hn hE hN in
/-- If each coarse hypernode belongs to a hyperedge, so does each refined hypernode. -/
theorem C24_file_onto (m : Mode) (honto : ∀ c, c < D.n_hyNodes → ∃ nodes ∈ D.hyNodes_hyEdge, ∃ i, nodes i = c) (v : Nat)
    (hv : v < ((File.mk' T D).set_refinement T n).n_hyNodes) :
    ∃ index, index < ((File.mk' T D).set_refinement T n).n_hyEdges ∧ ∃ nodes,
      ((File.mk' T D).set_refinement T n).get_hyNode_indices m T index = .ok nodes ∧ ∃ i, nodes i = v := by
  have hc := C24_file_counts (n := n) hT hE hN
  rw [hc.2, ← size_refFaces hT] at hv
  have honto' : ∀ c, c < D.n_hyNodes → ∃ E, E < D.n_hyEdges ∧ ∃ i, fileCoarse D E i = c := by
    intro c hcc
    obtain ⟨nodes, hmem, i, hi⟩ := honto c hcc
    obtain ⟨E, hlt, rfl⟩ := List.getElem_of_mem hmem
    refine ⟨E, by rw [← hD.nodes_length]; exact hlt, i, ?_⟩
    unfold fileCoarse
    rw [List.getD_eq_getElem?_getD, List.getElem?_eq_getElem hlt, Option.getD_some, hi]
  obtain ⟨index, hidx, i, hi⟩ := nodeVal_onto hT hn (fileCoarse D) honto' hv
  exact ⟨index, by rw [hc.1]; exact hidx, _, file_nodes_spec hT hD hn hE hN m hidx, i, hi⟩

include hT hD hn hE hN in
/-- Two faces of refined hyperedges have the same hypernode exactly if either both belong to the same coarse hyperedge, lie in its interior and are the same set of points, or
both lie on coarse faces with the same coarse hypernode and have the same position relative to these faces.  (The
positions are compared in the order of the remaining coordinates of each of the two hyperedges.) -/
theorem C25_file_conforming (m : Mode) (index index' : Nat)
    (hidx : index < ((File.mk' T D).set_refinement T n).n_hyEdges)
    (hidx' : index' < ((File.mk' T D).set_refinement T n).n_hyEdges) (nodes nodes' coarse coarse' : FaceArr d)
    (hnodes : ((File.mk' T D).set_refinement T n).get_hyNode_indices m T index = .ok nodes)
    (hnodes' : ((File.mk' T D).set_refinement T n).get_hyNode_indices m T index' = .ok nodes')
    (hcoarse : D.hyNodes_hyEdge[index / n ^ (d + 1)]? = some coarse)
    (hcoarse' : D.hyNodes_hyEdge[index' / n ^ (d + 1)]? = some coarse') (i i' : Fin (2 * (d + 1))) :
    nodes i = nodes' i' ↔
      (subFace n (refPos T d n index) i ⊆ cubeFace i ∧ subFace n (refPos T d n index') i' ⊆ cubeFace i' ∧
        coarse i = coarse' i' ∧ ∀ j, refPos T d n index ((Elem.facetDir i).succAbove j)
          = refPos T d n index' ((Elem.facetDir i').succAbove j)) ∨
      ((∀ g, ¬ subFace n (refPos T d n index) i ⊆ cubeFace g) ∧ index / n ^ (d + 1) = index' / n ^ (d + 1) ∧
        subFace n (refPos T d n index) i = subFace n (refPos T d n index') i') := by
  have hc := C24_file_counts hT hE hN
  rw [hc.1] at hidx hidx'
  have hEd := (index_lt_iff (d := d) hn).1 hidx
  have hEd' := (index_lt_iff (d := d) hn).1 hidx'
  rw [file_nodes_spec hT hD hn hE hN m hidx] at hnodes
  rw [file_nodes_spec hT hD hn hE hN m hidx'] at hnodes'
  injection hnodes with hnodes
  injection hnodes' with hnodes'
  subst hnodes hnodes'
  rw [nodeVal_eq_iff hT (subElem_belongs hT hn index) (subElem_belongs hT hn index') (fileCoarse_lt hD hEd i)
      (fileCoarse_lt hD hEd' i')]
  have e1 : fileCoarse D (index / n ^ (d + 1)) = coarse := by
    funext j; unfold fileCoarse; rw [List.getD_eq_getElem?_getD, hcoarse]; rfl
  have e2 : fileCoarse D (index' / n ^ (d + 1)) = coarse' := by
    funext j; unfold fileCoarse; rw [List.getD_eq_getElem?_getD, hcoarse']; rfl
  rw [e1, e2]
  simp only [subFace_subset_iff hn (refPos_lt hT hn index), subFace_subset_iff hn (refPos_lt hT hn index'), subFace_eq_iff hn,
    true_and]
  simp only [refPos_eq, faceCoord_eq]
  constructor
  · rintro (hl | ⟨h1, h2, h3, h4⟩)
    · exact Or.inl hl
    · exact Or.inr ⟨fun g hg => h1 hg.2, h3, h4⟩
  · rintro (hl | ⟨h1, h3, h4⟩)
    · exact Or.inl hl
    · refine Or.inr ⟨fun hg => h1 i ⟨rfl, hg⟩, fun hg => h1 i ⟨rfl, ?_⟩, h3, h4⟩
      rw [h4.2.2]; exact hg

include hT hD hn hE hN in
/-- If the faces of each coarse hyperedge have different hypernodes, so do the faces of each refined hyperedge. -/
theorem C25_file_distinct (hdist : ∀ nodes ∈ D.hyNodes_hyEdge, Function.Injective nodes) (m : Mode) (index : Nat)
    (hidx : index < ((File.mk' T D).set_refinement T n).n_hyEdges) (nodes : FaceArr d)
    (hnodes : ((File.mk' T D).set_refinement T n).get_hyNode_indices m T index = .ok nodes) :
    Function.Injective nodes := by
  intro i i' heq
  have hlt : index / n ^ (d + 1) < D.hyNodes_hyEdge.length := by
    rw [hD.nodes_length]
    rw [(C24_file_counts hT hE hN).1] at hidx
    exact (index_lt_iff (d := d) hn).1 hidx
  rw [C25_file_conforming hT hD hn hE hN m index index hidx hidx nodes nodes _ _ hnodes hnodes
    (List.getElem?_eq_getElem hlt) (List.getElem?_eq_getElem hlt) i i'] at heq
  rcases heq with ⟨_, _, hco, _⟩ | ⟨_, _, hs⟩
  · exact hdist _ (List.getElem_mem _) hco
  · rw [subFace_eq_iff hn] at hs
    obtain ⟨h1, _, h3⟩ := hs
    have h1' := congrArg Fin.val h1
    rw [← h1] at h3
    simp only [Elem.facetDir] at h1'
    apply Fin.ext
    omega

include hT hD hn hE hN in
/-- An interior face of a coarse hyperedge is shared by exactly two refined hyperedges, both in this coarse hyperedge. -/
theorem C25_file_interior (m : Mode) (index : Nat) (hidx : index < ((File.mk' T D).set_refinement T n).n_hyEdges)
    (nodes : FaceArr d) (hnodes : ((File.mk' T D).set_refinement T n).get_hyNode_indices m T index = .ok nodes)
    (i : Fin (2 * (d + 1))) (hi : ∀ g, ¬ subFace n (refPos T d n index) i ⊆ cubeFace g) :
    ∃ index' i', (index', i') ≠ (index, i) ∧ index' / n ^ (d + 1) = index / n ^ (d + 1) ∧
      ∀ index'' i'' nodes'', index'' < ((File.mk' T D).set_refinement T n).n_hyEdges →
        ((File.mk' T D).set_refinement T n).get_hyNode_indices m T index'' = .ok nodes'' →
        (nodes'' i'' = nodes i ↔ (index'', i'') = (index, i) ∨ (index'', i'') = (index', i')) := by
  have hc := C24_file_counts hT hE hN
  rw [hc.1] at hidx ⊢
  have hEd := (index_lt_iff (d := d) hn).1 hidx
  have hno : ¬ OnCoarse n (refPos T d n index) i := fun hco =>
    hi i ((subFace_subset_iff hn (refPos_lt hT hn index) i i).2 ⟨rfl, hco⟩)
  obtain ⟨index', i', h1, h2, h3, h4, h5⟩ := exists_neighbour hT hn index i hno
  refine ⟨index', i', h2, h1, fun index'' i'' nodes'' hlt hnodes'' => ?_⟩
  have hEd'' := (index_lt_iff (d := d) hn).1 hlt
  rw [file_nodes_spec hT hD hn hE hN m hidx] at hnodes
  rw [file_nodes_spec hT hD hn hE hN m hlt] at hnodes''
  injection hnodes with hnodes
  injection hnodes'' with hnodes''
  subst hnodes hnodes''
  rw [eq_comm, nodeVal_eq_iff hT (subElem_belongs hT hn index) (subElem_belongs hT hn index'') (fileCoarse_lt hD hEd i)
      (fileCoarse_lt hD hEd'' i'')]
  constructor
  · rintro (⟨hco, _⟩ | ⟨_, _, hee, hs⟩)
    · exact absurd hco hno
    · exact h5 _ _ hee.symm hs
  · intro hor
    right
    rcases hor with heq | heq
    · obtain ⟨rfl, rfl⟩ := Prod.mk.inj heq
      exact ⟨hno, hno, rfl, rfl, fun _ _ => rfl, rfl⟩
    · obtain ⟨rfl, rfl⟩ := Prod.mk.inj heq
      exact ⟨hno, h4, h1.symm, h3⟩

end File

/-! Concrete cases which meet the hypotheses. -/

/-- A grid of 2 x 1 squares, refined into 2 x 2 parts each. -/
example : lexTpcc.size (⟨.both, ![2, 1], Nat.le_refl 2⟩ : Complex 2 2) * 2 ^ 2 < U32 ∧
    lexTpcc.size (⟨.both, ![2, 1], by omega⟩ : Complex 2 1) * 2 ^ 1
      + lexTpcc.size (⟨.both, ![2, 1], Nat.le_refl 2⟩ : Complex 2 2) * nInterior 1 2 < U32 := by decide +kernel

/-- The two coarse squares share a coarse face, hence refined squares share refined hypernodes. -/
example : (do
    let t := (Cubic.mk' lexTpcc (Nat.le_refl 2) ![2, 1]).set_refinement lexTpcc 2
    let a ← t.get_hyNode_indices .debug lexTpcc 3
    let b ← t.get_hyNode_indices .debug lexTpcc 5
    return (List.ofFn a, List.ofFn b, t.n_hyEdges, t.n_hyNodes) : Res _) =
  .ok ([17, 11, 15, 3], [11, 21, 18, 6], 8, 22) := by decide +kernel

/-- A graph of three edges of dimension 1 in a star. -/
def starDomain : DomainTopo 0 where
  n_hyEdges := 3
  n_hyNodes := 4
  hyNodes_hyEdge := [![0, 1], ![0, 2], ![0, 3]]
  hyFaces_hyEdge := [![0, 1], ![0, 1], ![0, 2]]

example : starDomain.Consistent where
  nodes_length := rfl
  types_length := rfl
  nodes_lt := by decide

example : (∀ c, c < starDomain.n_hyNodes → ∃ nodes ∈ starDomain.hyNodes_hyEdge, ∃ i, nodes i = c) ∧
    (∀ nodes ∈ starDomain.hyNodes_hyEdge, Function.Injective nodes) ∧ starDomain.n_hyEdges * 5 ^ 1 < U32 ∧
    starDomain.n_hyNodes * 5 ^ 0 + starDomain.n_hyEdges * nInterior 0 5 < U32 := by decide

/-! ### C49: copies -/

/-- What can be observed of a topology: its numbers of hyperedges and hypernodes, its refinement level and the hypernodes of every hyperedge. -/
structure SameTopology {α β : Type} (nEdges nNodes level : α → Nat) (nodes : α → Nat → β) (a b : α) : Prop where
  edges : nEdges a = nEdges b
  nodesCount : nNodes a = nNodes b
  level : level a = level b
  nodes : ∀ index, nodes a index = nodes b index

/-- A copy of a cubic topology, made at any level of refinement and itself refined any number of times later, answers as the original does after the
same history. -/
theorem C49_cubic_topology (m : Mode) (T : Tpcc) {d s : Nat} (t : Topology.Cubic d s) (levels : List Nat) :
    SameTopology Topology.Cubic.n_hyEdges Topology.Cubic.n_hyNodes Topology.Cubic.get_refinement
      (fun t => t.get_hyNode_indices m T)
      (levels.foldl (fun t l => t.set_refinement T l) t.copy) (levels.foldl (fun t l => t.set_refinement T l) t) := by
  have h : t.copy = t := rfl
  rw [h]
  exact ⟨rfl, rfl, rfl, fun _ => rfl⟩

/-- The same for topologies of domain files. -/
theorem C49_file_topology (m : Mode) (T : Tpcc) {d : Nat} (t : Topology.File d) (levels : List Nat) :
    SameTopology Topology.File.n_hyEdges Topology.File.n_hyNodes Topology.File.get_refinement
      (fun t => t.get_hyNode_indices m T)
      (levels.foldl (fun t l => t.set_refinement T l) t.copy) (levels.foldl (fun t l => t.set_refinement T l) t) := by
  have h : t.copy = t := rfl
  rw [h]
  exact ⟨rfl, rfl, rfl, fun _ => rfl⟩

/-- A copy of the node descriptor of a domain file answers as the original if the original is not refined. -/
theorem C49_file_descriptor_partial (m : Mode) (T : Tpcc) {d : Nat} (domain : DomainTopo d)
    (hsize : u32 (domain.n_hyEdges * Wrapper.n_elements T (Wrapper.create_tpcc (Nat.le_refl (d + 1)) (fun _ => 1))) = domain.n_hyEdges)
    (index : Nat) :
    let t := NodeDescriptor.File.ofTopology (Topology.File.mk' T domain)
    t.copy.n_hyEdges = t.n_hyEdges ∧ t.copy.get_hyFace_types m T index = t.get_hyFace_types m T index :=
  ⟨hsize.symm, rfl⟩

/-- If the original is refined, the copy differs: it describes the unrefined domain. -/
theorem C49_file_descriptor_fails : ∃ (domain : DomainTopo 0) (t : NodeDescriptor.File 0),
    t = (NodeDescriptor.File.ofTopology (Topology.File.mk' lexTpcc domain)).set_refinement lexTpcc 2 ∧
    t.n_hyEdges = 6 ∧ t.copy.n_hyEdges = 3 ∧
    (t.get_hyFace_types .debug lexTpcc 5 >>= fun types => .ok (List.ofFn types)) = .ok [0, 2] ∧ t.copy.get_hyFace_types .debug lexTpcc 5 = .abort :=
  ⟨starDomain, _, rfl, by decide +kernel, by decide +kernel, by decide +kernel, by decide +kernel⟩

/-- A refined cubic topology and its copy. -/
example : let t := (Topology.Cubic.mk' lexTpcc (Nat.le_refl 2) ![2, 1]).set_refinement lexTpcc 2
    (t.copy.n_hyEdges, t.copy.n_hyNodes, t.copy.get_refinement) = (8, 22, 2) := by decide +kernel

example : u32 (starDomain.n_hyEdges * Wrapper.n_elements lexTpcc (Wrapper.create_tpcc (Nat.le_refl 1) (fun _ => 1))) = starDomain.n_hyEdges := by
  decide +kernel

end HyperHDG

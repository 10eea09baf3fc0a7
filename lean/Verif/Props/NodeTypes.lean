import Verif.Proofs.NodeTypes
import Verif.Proofs.TpccLex
import Verif.Props.Topology

/-!
# Properties of the node descriptors (C28)

The face types decide where boundary conditions hold.  `boundaryCode` (in `Spec.NodeTypes`) is the coding of the parts of the boundary; `cubicFace T h N 1 E f` is face
`f` of the coarse hyperedge `E`; `∃ g, subFace … ⊆ cubeFace g` says that a face of a refined hyperedge lies on the surface of its coarse hyperedge.
-/

namespace HyperHDG

variable {T : Tpcc} {d s n : Nat}

section Cubic

variable (hT : T.Lawful) (h : d + 1 ≤ s) (N : Fin s → Nat) (hn : 0 < n) (hs : 3 ^ s ≤ U32)
  (hE : T.size (⟨.both, N, h⟩ : Complex s (d + 1)) * n ^ (d + 1) < U32)

/-- A node descriptor constructed from a topology is the node descriptor with the same grid and the same refinement. -/
theorem C28_cubic_of_topology (T : Tpcc) (h : d + 1 ≤ s) (N : Fin s → Nat) (n : Nat) :
    NodeDescriptor.Cubic.ofTopology ((Topology.Cubic.mk' T h N).set_refinement T n)
      = (NodeDescriptor.Cubic.mk' T h N).set_refinement T n := rfl

theorem cubic_types (m : Mode) (hT : T.Lawful) (h : d + 1 ≤ s) (N : Fin s → Nat) (hn : 0 < n) (hs : 3 ^ s ≤ U32)
    (hE : T.size (⟨.both, N, h⟩ : Complex s (d + 1)) * n ^ (d + 1) < U32)
    {index : Nat} (hidx : index < T.size (coarseElems h N) * n ^ (d + 1)) :
    ((NodeDescriptor.Cubic.mk' T h N).set_refinement T n).get_hyFace_types m T index = .ok (fun i =>
      if refPos T d n index (Elem.facetDir i) + i % 2 = 0 ∨ refPos T d n index (Elem.facetDir i) + i % 2 = n then
        Spec.fromDigits 3 (List.ofFn (markDigit N ((T.elem (coarseElems h N) (index / n ^ (d + 1))).facet i))) else 0) := by
  refine types_spec hT m h hs N hn hE hidx _ rfl rfl rfl ?_ rfl
  have hEd := (index_lt_iff (d := d) hn).1 hidx
  have h1 : n ^ (d + 1) < U32 := by
    have := Nat.mul_le_mul_right (n ^ (d + 1)) (Nat.lt_of_le_of_lt (Nat.zero_le _) hEd)
    have hE' : T.size (coarseElems h N) * n ^ (d + 1) < U32 := hE
    omega
  have h2 : T.size (coarseElems h N) < U32 := by
    have := Nat.mul_le_mul_left (T.size (coarseElems h N)) (Nat.pow_pos hn (n := d + 1))
    have hE' : T.size (coarseElems h N) * n ^ (d + 1) < U32 := hE
    omega
  show u32 (u32 (T.size (coarseElems h N)) * u32 (T.size (refElem d n))) = _
  rw [size_refElem hT, u32_of_lt h1, u32_of_lt h2, u32_of_lt hE]

theorem onSurface_iff (hT : T.Lawful) (hn : 0 < n) (index : Nat) (i : Fin (2 * (d + 1))) :
    (∃ g, subFace n (refPos T d n index) i ⊆ cubeFace g) ↔
      (refPos T d n index (Elem.facetDir i) + i % 2 = 0 ∨ refPos T d n index (Elem.facetDir i) + i % 2 = n) := by
  have := subFace_subset_iff (d := d) hn (refPos_lt hT hn index) i
  constructor
  · rintro ⟨g, hg⟩
    exact ((this g).1 hg).2
  · intro hc
    exact ⟨i, (this i).2 ⟨rfl, hc⟩⟩

include hT hn hs hE in
open Classical in
/-- The type of a face of a refined hyperedge of a cubic graph is the code of the boundary parts on which the coarse face containing it lies, and 0 if it is contained in no
coarse face.  This holds for every refinement and with or without assertions. -/
theorem C28_cubic (m : Mode) (index : Nat) (hidx : index < T.size (⟨.both, N, h⟩ : Complex s (d + 1)) * n ^ (d + 1)) :
    ∃ types, ((NodeDescriptor.Cubic.mk' T h N).set_refinement T n).get_hyFace_types m T index = .ok types ∧
      ∀ f, types f = if ∃ g, subFace n (refPos T d n index) f ⊆ cubeFace g then
        boundaryCode N (cubicFace T h N 1 (index / n ^ (d + 1)) f) else 0 := by
  refine ⟨_, cubic_types m hT h N hn hs hE hidx, fun f => ?_⟩
  have hb := hT.elem_belongs (coarseElems h N) _ ((index_lt_iff (d := d) hn).1 hidx)
  rw [code_coarse hT (along_inj hb.canon)]
  exact if_congr (onSurface_iff hT hn index f).symm rfl rfl

include hT hn in
/-- If the hyperedges have the dimension of the space, the type of a face is the code of the boundary parts on which the face itself lies. -/
theorem C28_cubic_volume {N : Fin (d + 1) → Nat} (hs : 3 ^ (d + 1) ≤ U32)
    (hE : T.size (⟨.both, N, Nat.le_refl _⟩ : Complex (d + 1) (d + 1)) * n ^ (d + 1) < U32) (m : Mode) (index : Nat)
    (hidx : index < T.size (⟨.both, N, Nat.le_refl _⟩ : Complex (d + 1) (d + 1)) * n ^ (d + 1)) :
    ∃ types, ((NodeDescriptor.Cubic.mk' T (Nat.le_refl _) N).set_refinement T n).get_hyFace_types m T index = .ok types ∧
      ∀ f, types f = boundaryCode N (cubicFace T (Nat.le_refl _) N n index f) := by
  refine ⟨_, cubic_types m hT (Nat.le_refl _) N hn hs hE hidx, fun f => ?_⟩
  have hb := hT.elem_belongs (coarseElems (Nat.le_refl _) N) _ ((index_lt_iff (d := d) hn).1 hidx)
  have hinj := along_inj hb.canon
  have hp := refPos_lt (d := d) hT hn index
  generalize hp' : refPos T d n index = p at hp
  have hf : f.val % 2 < 2 := Nat.mod_lt _ (by omega)
  have hpf := hp (Elem.facetDir f)
  unfold boundaryCode cubicFace
  rw [hp']
  generalize T.elem (coarseElems (Nat.le_refl _) N) (index / n ^ (d + 1)) = e at hinj
  have hkey : ∀ (i : Fin (d + 1)) (c : Nat), (∀ x ∈ e.place '' subFace n p f, x i = c) ↔ (∀ j, (e.facet f).along j ≠ i) ∧
      (p (Elem.facetDir f) + f % 2 = 0 ∨ p (Elem.facetDir f) + f % 2 = n) ∧ (e.facet f).coord i = c := by
    intro i c
    rw [placed_const hn hinj]
    refine and_congr_right fun hi => ?_
    rcases along_cases (e := e) f i with ⟨j, rfl⟩ | rfl | hi'
    · exact absurd rfl (hi j)
    · rw [if_pos rfl, facet_coord_dir]
      constructor
      · intro heq
        have hlt : p (Elem.facetDir f) + f % 2 ≤ n := by omega
        have hmod : (p (Elem.facetDir f) + f % 2) % n = 0 := by
          have := congrArg (· % n) heq
          simpa [Nat.mul_add_mod] using this
        rcases Nat.lt_or_ge (p (Elem.facetDir f) + f % 2) n with hl | hg
        · rw [Nat.mod_eq_of_lt hl] at hmod
          refine ⟨Or.inl hmod, ?_⟩
          rw [hmod, Nat.add_zero] at heq
          have := Nat.eq_of_mul_eq_mul_left hn heq
          omega
        · have hl : p (Elem.facetDir f) + f % 2 = n := le_antisymm hlt hg
          refine ⟨Or.inr hl, ?_⟩
          rw [hl, show n * e.coord (e.along (Elem.facetDir f)) + n = n * (e.coord (e.along (Elem.facetDir f)) + 1) by ring] at heq
          have := Nat.eq_of_mul_eq_mul_left hn heq
          omega
      · rintro ⟨h1 | h1, h2⟩
        · rw [h1, ← h2]
          have : f.val % 2 = 0 := by omega
          rw [this]; ring
        · rw [h1, ← h2]
          have : f.val % 2 = 1 := by omega
          rw [this]; ring
    · obtain ⟨j, hj⟩ := Finite.surjective_of_injective hinj i
      exact absurd hj (hi' j)
  have k0 := fun i => hkey i 0
  simp only [Nat.cast_zero] at k0
  by_cases hc : p (Elem.facetDir f) + f % 2 = 0 ∨ p (Elem.facetDir f) + f % 2 = n
  · simp only [hc, if_true]
    congr 2
    funext i
    unfold markDigit
    simp only [k0, hkey, hc, true_and]
    by_cases ha : ∀ j, (e.facet f).along j ≠ i
    · simp only [ha, implies_true, true_and, ne_eq, not_false_eq_true, if_true]
    · simp only [ha, false_and, if_false]
  · simp only [hc, if_false]
    simp only [k0, hkey, hc, false_and, and_false, if_false]
    rw [fromDigits_sum]
    simp

include hT hn hs hE in
/-- Faces with the same hypernode have the same type, so a boundary condition is imposed by all hyperedges at a hypernode or by none. -/
theorem C28_cubic_shared (hN : T.size (⟨.both, N, Nat.le_of_succ_le h⟩ : Complex s d) * n ^ d
      + T.size (⟨.both, N, h⟩ : Complex s (d + 1)) * nInterior d n < U32) (m : Mode) (index index' : Nat)
    (hidx : index < T.size (⟨.both, N, h⟩ : Complex s (d + 1)) * n ^ (d + 1))
    (hidx' : index' < T.size (⟨.both, N, h⟩ : Complex s (d + 1)) * n ^ (d + 1)) (nodes nodes' types types' : FaceArr d)
    (hnodes : ((Topology.Cubic.mk' T h N).set_refinement T n).get_hyNode_indices m T index = .ok nodes)
    (hnodes' : ((Topology.Cubic.mk' T h N).set_refinement T n).get_hyNode_indices m T index' = .ok nodes')
    (htypes : ((NodeDescriptor.Cubic.mk' T h N).set_refinement T n).get_hyFace_types m T index = .ok types)
    (htypes' : ((NodeDescriptor.Cubic.mk' T h N).set_refinement T n).get_hyFace_types m T index' = .ok types')
    (i i' : Fin (2 * (d + 1))) (heq : nodes i = nodes' i') : types i = types' i' := by
  have hEd := (index_lt_iff (d := d) hn).1 hidx
  have hEd' := (index_lt_iff (d := d) hn).1 hidx'
  have hb := hT.elem_belongs (coarseElems h N) _ hEd
  have hb' := hT.elem_belongs (coarseElems h N) _ hEd'
  rw [cubic_nodes_spec hT h N hn hE hN m hidx] at hnodes
  rw [cubic_nodes_spec hT h N hn hE hN m hidx'] at hnodes'
  rw [cubic_types m hT h N hn hs hE hidx] at htypes
  rw [cubic_types m hT h N hn hs hE hidx'] at htypes'
  injection hnodes with hnodes
  injection hnodes' with hnodes'
  injection htypes with htypes
  injection htypes' with htypes'
  subst hnodes hnodes' htypes htypes'
  rw [nodeVal_eq_iff hT (subElem_belongs hT hn index) (subElem_belongs hT hn index') (cubicCoarse_lt hT h N hEd i)
      (cubicCoarse_lt hT h N hEd' i')] at heq
  rcases heq with ⟨h1, h2, h3, _⟩ | ⟨h1, h2, _⟩
  · have hfac : (T.elem (coarseElems h N) (index / n ^ (d + 1))).facet i = (T.elem (coarseElems h N) (index' / n ^ (d + 1))).facet i' := by
      unfold cubicCoarse at h3
      rw [← hT.elem_index _ _ (facet_belongs (hk' := Nat.le_of_succ_le h) hb i), ← hT.elem_index _ _ (facet_belongs (hk' := Nat.le_of_succ_le h) hb' i')]
      exact congrArg _ h3
    have h1' : refPos T d n index (Elem.facetDir i) + i % 2 = 0 ∨ refPos T d n index (Elem.facetDir i) + i % 2 = n := h1
    have h2' : refPos T d n index' (Elem.facetDir i') + i' % 2 = 0 ∨ refPos T d n index' (Elem.facetDir i') + i' % 2 = n := h2
    show (if _ then _ else _) = (if _ then _ else _)
    rw [if_pos h1', if_pos h2', hfac]
  · have h1' : ¬ (refPos T d n index (Elem.facetDir i) + i % 2 = 0 ∨ refPos T d n index (Elem.facetDir i) + i % 2 = n) := h1
    have h2' : ¬ (refPos T d n index' (Elem.facetDir i') + i' % 2 = 0 ∨ refPos T d n index' (Elem.facetDir i') + i' % 2 = n) := h2
    show (if _ then _ else _) = (if _ then _ else _)
    rw [if_neg h1', if_neg h2']

end Cubic

section File

variable (hT : T.Lawful) {D : DomainTopo d} (hD : D.Consistent) (hn : 0 < n)
  (hE : D.n_hyEdges * n ^ (d + 1) < U32)

/-- A node descriptor for a domain read from a file takes its refinement from the topology. -/
theorem C28_file_of_topology (T : Tpcc) (D : DomainTopo d) (n n' : Nat) :
    (NodeDescriptor.File.ofTopology ((Topology.File.mk' T D).set_refinement T n)).set_refinement T n'
      = NodeDescriptor.File.ofTopology ((Topology.File.mk' T D).set_refinement T n') := rfl

include hT hD hn hE in
open Classical in
/-- The type of a face of a refined hyperedge of a domain read from a file is the type of the face of the coarse hyperedge in the file which contains it,
and 0 if there is none. -/
theorem C28_file (m : Mode) (index : Nat) (hidx : index < D.n_hyEdges * n ^ (d + 1)) (coarse : FaceArr d)
    (hcoarse : D.hyFaces_hyEdge[index / n ^ (d + 1)]? = some coarse) :
    ∃ types, (NodeDescriptor.File.ofTopology ((Topology.File.mk' T D).set_refinement T n)).get_hyFace_types m T index = .ok types ∧
      (∀ f g, subFace n (refPos T d n index) f ⊆ cubeFace g → types f = coarse g) ∧
      (∀ f, (∀ g, ¬ subFace n (refPos T d n index) f ⊆ cubeFace g) → types f = 0) := by
  have hEd := (index_lt_iff (d := d) hn).1 hidx
  have h1 : n ^ (d + 1) < U32 := by
    have := Nat.mul_le_mul_right (n ^ (d + 1)) (Nat.lt_of_le_of_lt (Nat.zero_le _) hEd)
    omega
  have hne : Wrapper.n_elements T (refElem d n) = n ^ (d + 1) := by
    unfold Wrapper.n_elements
    rw [size_refElem hT, u32_of_lt h1]
  refine ⟨fun i => if refPos T d n index (Elem.facetDir i) + i % 2 = 0 ∨ refPos T d n index (Elem.facetDir i) + i % 2 = n then coarse i else 0, ?_, ?_, ?_⟩
  · show NodeDescriptor.File.get_hyFace_types m T ⟨D, n, refElem d n, _⟩ index = _
    unfold NodeDescriptor.File.get_hyFace_types
    simp only
    rw [hne, u32_of_lt hE, hyAssert_of hidx, Res.ok_bind, udiv, if_neg (Nat.pos_iff_ne_zero.1 (Nat.pow_pos hn)), Res.ok_bind]
    have : vget D.hyFaces_hyEdge (index / n ^ (d + 1)) = .ok coarse := by
      have hl : index / n ^ (d + 1) < D.hyFaces_hyEdge.length := by rw [hD.types_length]; exact hEd
      rw [vget_of_lt hl]
      rw [List.getElem?_eq_getElem hl] at hcoarse
      injection hcoarse with hcoarse
      rw [hcoarse]
    rw [this, Res.ok_bind, eraseInterior_spec hT m hn h1]
  · intro f g hg
    obtain ⟨rfl, hc⟩ := (subFace_subset_iff (d := d) hn (refPos_lt hT hn index) f g).1 hg
    show (if _ then _ else _) = _
    rw [if_pos hc]
  · intro f hf
    have hc := mt (onSurface_iff (d := d) hT hn index f).2 (fun ⟨g, hg⟩ => hf g hg)
    show (if _ then _ else _) = _
    rw [if_neg hc]

end File

/-! Concrete cases. -/

/-- The grid of 2 x 1 squares refined into 2 x 2 parts: the lower left refined square has types 1 = `x₀ = 0` and 3 = `x₁ = 0`. -/
example : (do
      let types ← ((NodeDescriptor.Cubic.mk' lexTpcc (Nat.le_refl 2) ![2, 1]).set_refinement lexTpcc 2).get_hyFace_types .debug lexTpcc 0
      return List.ofFn types : Res _) = .ok [1, 0, 3, 0] ∧ 3 ^ 2 ≤ U32 ∧ lexTpcc.size (⟨.both, ![2, 1], Nat.le_refl _⟩ : Complex 2 2) * 2 ^ 2 < U32 := by
  decide +kernel

/-- Where the hyperedges have a smaller dimension than the space, a face inside a coarse hyperedge has type 0 even if the coarse hyperedge lies on the
boundary: the edges of a square, refined into 2 parts each.  Refined hyperedge 0 begins at the corner with code 4 = 1 + 3; its other end, the
middle of an edge of the square, lies on the boundary too. -/
example : (do
      let t := (NodeDescriptor.Cubic.mk' lexTpcc (show 1 ≤ 2 by omega) ![1, 1]).set_refinement lexTpcc 2
      let types ← t.get_hyFace_types .debug lexTpcc 0
      return List.ofFn types : Res _) = .ok [4, 0] := by
  decide +kernel

example : (do
      let types ← (NodeDescriptor.File.ofTopology ((Topology.File.mk' lexTpcc starDomain).set_refinement lexTpcc 2)).get_hyFace_types .debug lexTpcc 5
      return List.ofFn types : Res _) = .ok [0, 2] := by
  decide +kernel

end HyperHDG

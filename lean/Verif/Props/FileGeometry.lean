import Verif.Proofs.FileGeometry
import Verif.Proofs.UnitTiling
import Verif.Props.Topology
import Verif.Spec.AffineForm
import Verif.Proofs.AffineForm
import Verif.Proofs.Householder
import Verif.Proofs.TpccLex
import Verif.Spec.Diffusion

/-!
# Properties of the geometry `File` with linear mappings (C15, C34)

`T` stands for the external library `tpcc`, `geqr2` for the routine of LAPACK.  The geometry is constructed from a domain `D` (with any initial refinement
`r`) and set to refinement `n`; the vertices of the coarse hyperedge to which hyperedge `index` belongs are the points `P k`.
-/

namespace HyperHDG

open Geometry Geometry.File Geometry.File.HyEdge Matrix

variable {T : Tpcc} {d s n : Nat} {K : Type} [Field K] [LinearOrder K] [IsStrictOrderedRing K]

section Edge

variable (hT : T.Lawful) (m : Mode) (geqr2 : Geqr2All K) (hg : Geqr2Spec geqr2) (hs : d + 1 ≤ s) (hb : QrInBounds d s)
  (D : DomainGeo d s K) (r : Nat) (hn : 0 < n) (hU : D.n_hyEdges * n ^ (d + 1) < U32) (index : Nat) (hidx : index < D.n_hyEdges * n ^ (d + 1))
  (P : Fin (2 ^ (d + 1)) → Fin s → K) (hP : ∀ k, D.HasVertex (index / n ^ (d + 1)) k (P k))

include hT hg hs hb hn hU hidx hP

theorem get_hyEdge_spec :
    ∃ e : File.HyEdge d s K, get_hyEdge m T geqr2 ((File.mk' D r).set_refinement n) index = .ok e ∧ EdgeData T n index P e := by
  have hpos : 0 < D.n_hyEdges := Nat.pos_of_ne_zero (fun h => by rw [h, Nat.zero_mul] at hidx; omega)
  have hU' : n ^ (d + 1) < U32 := lt_of_le_of_lt (Nat.le_mul_of_pos_left _ hpos) hU
  obtain ⟨e, e1, e2⟩ := Geometry.File.make_spec hT m geqr2 hg hs hb D r hn hU' index P hP
  refine ⟨e, ?_, e2⟩
  unfold get_hyEdge
  have h1 : Wrapper.n_elements T ((File.mk' D r).set_refinement n).tpcc_ref_elem = n ^ (d + 1) := by
    show u32 (T.size (refElem d n)) = _
    rw [size_refElem hT, u32, Nat.mod_eq_of_lt hU']
  have h2 : index < u32 (((File.mk' D r).set_refinement n).domain_info.n_hyEdges * Wrapper.n_elements T ((File.mk' D r).set_refinement n).tpcc_ref_elem) := by
    rw [h1]
    show index < u32 (D.n_hyEdges * n ^ (d + 1))
    rw [u32, Nat.mod_eq_of_lt hU]; exact hidx
  rw [hyAssert_of h2, Res.ok_bind, e1]

/-- Each hyperedge can be constructed: no assertion fails, no index is out of range, no exception is thrown. -/
theorem C15_constructed : ∃ e : File.HyEdge d s K, get_hyEdge m T geqr2 ((File.mk' D r).set_refinement n) index = .ok e := by
  obtain ⟨e, e1, -⟩ := get_hyEdge_spec hT m geqr2 hg hs hb D r hn hU index hidx P hP
  exact ⟨e, e1⟩

variable (e : File.HyEdge d s K) (he : get_hyEdge m T geqr2 ((File.mk' D r).set_refinement n) index = .ok e)

include he

theorem edge_data : EdgeData T n index P e := by
  obtain ⟨e', e1, e2⟩ := get_hyEdge_spec hT m geqr2 hg hs hb D r hn hU index hidx P hP
  rw [e1] at he
  injection he with he
  exact he ▸ e2

/-- `map_ref_to_phys` maps points `x` of the reference cube, given as columns, to the points of the parallelotope spanned at vertex 0 by the vectors to its
neighbours, with coordinates `(position of the sub-element + x) / n`. -/
theorem C15_map {n_vec : Nat} (X : SmallMat (d + 1) n_vec K) (x : Matrix (Fin (d + 1)) (Fin n_vec) K) (hX : Represents X x)
    (hx : ∀ a j, 0 ≤ x a j ∧ x a j ≤ 1) :
    Returns (e.map_ref_to_phys m X) (.of fun i j => spanned P (fun a => (refPos T d n index a + x a j) / n) i) := by
  have hd := edge_data hT m geqr2 hg hs hb D r hn hU index hidx P hP e he
  rw [represents_iff] at hX; subst hX
  obtain ⟨Y, y1, y2⟩ := Mapping.Linear.map_spec m e.mapping X
  have hin : inReference X := fun i => by
    obtain ⟨a, j, rfl⟩ := pos_surj i
    exact hx a j
  refine ⟨Y, ?_, represents_iff.mpr ?_⟩
  · unfold HyEdge.map_ref_to_phys
    rw [hyAssert_of hin, Res.ok_bind, y1]
  · rw [y2]
    ext i j
    simp only [Matrix.of_apply, Matrix.mul_apply, hd.matrix, hd.translation, spanned]
    rw [add_comm, add_assoc, ← Finset.sum_add_distrib]
    congr 1
    refine Finset.sum_congr rfl (fun a _ => ?_)
    ring

/-- All functions that evaluate the mapping at a single point agree with `map_ref_to_phys`: barycenters of faces are the images of the barycenters of the
reference faces. -/
theorem C15_face_barycenter (f : Fin (2 * (d + 1))) :
    Returns (e.face_barycenter m f)
      (.of fun i _ => spanned P (fun a => (refPos T d n index a + if a.1 = f.1 / 2 then ((f.1 % 2 : Nat) : K) else 1 / 2) / n) i) := by
  have hf : f.1 / 2 < d + 1 := by omega
  have h2 := vec_set_lt m (SmallMat.fill (d + 1) 1 (1 / 2 : K)) hf (if f.1 % 2 ≠ 0 then 1 else 0)
  have hv : ((if f.1 % 2 ≠ 0 then 1 else 0 : K)) = ((f.1 % 2 : Nat) : K) := by
    rcases Nat.mod_two_eq_zero_or_one f.1 with h | h <;> simp [h]
  rw [hv] at h2
  have hr : Represents (arrSet (SmallMat.fill (d + 1) 1 (1 / 2 : K)) (pos ⟨f.1 / 2, hf⟩ 0) ((f.1 % 2 : Nat) : K) : SmallVec (d + 1) K)
      (.of fun a _ => if a.1 = f.1 / 2 then ((f.1 % 2 : Nat) : K) else 1 / 2) := represents_iff.mpr (by
    ext a j
    have hj : j = 0 := Subsingleton.elim _ _
    subst hj
    rw [toMat_arrSet, Matrix.of_apply]
    by_cases h : a.1 = f.1 / 2
    · rw [if_pos ⟨Fin.ext h, rfl⟩, if_pos h]
    · rw [if_neg (fun h' => h (congrArg Fin.val h'.1)), if_neg h]; rfl)
  have h01 : (0 : K) ≤ ((f.1 % 2 : Nat) : K) ∧ ((f.1 % 2 : Nat) : K) ≤ 1 := by
    rcases Nat.mod_two_eq_zero_or_one f.1 with h | h <;> simp [h]
  have := C15_map hT m geqr2 hg hs hb D r hn hU index hidx P hP e he _ _ hr (fun a j => by
    rw [Matrix.of_apply]
    split
    · exact h01
    · constructor <;> norm_num)
  unfold HyEdge.face_barycenter
  rw [hyAssert_of f.2, Res.ok_bind, hv, h2, Res.ok_bind]
  exact this

/-- The spanning vectors of a hyperedge are the vectors between neighbouring vertices, divided by the number of parts. -/
theorem C15_span_vec (a : Fin (d + 1)) :
    Returns (e.span_vec m a) (.of fun i _ => (P (neighbour a) i - P vertex0 i) / n) := by
  have hd := edge_data hT m geqr2 hg hs hb D r hn hU index hidx P hP e he
  obtain ⟨N, n1, n2⟩ := C06_get_column m e.mapping.matrix _ (represents_iff.mpr rfl) a
  refine ⟨N, ?_, represents_iff.mpr ?_⟩
  · unfold HyEdge.span_vec Mapping.Linear.matrix_column
    rw [hyAssert_of a.2, Res.ok_bind, n1]
  · rw [represents_iff.mp n2]
    ext i j
    exact hd.matrix i a

/-- The area is the volume of the parallelotope spanned by the frame, whose square is the Gram determinant, divided by the number of sub-elements. -/
theorem C15_area : ∃ a, e.area m = .ok a ∧ 0 ≤ a ∧ (a * n ^ (d + 1)) ^ 2 = gramDet (frame P) := by
  have hd := edge_data hT m geqr2 hg hs hb D r hn hU index hidx P hP e he
  refine ⟨|(toMat e.mapping.matrix_r).det|, ?_, abs_nonneg _, ?_⟩
  · unfold HyEdge.area
    rw [Mapping.Linear.functional_determinant_hyEdge_spec m hd.good]
    rfl
  · rw [mul_pow, sq_abs, sq, ← gram_scaled hn (toMat e.mapping.matrix) (frame P) hd.matrix]
    unfold gramDet
    rw [hd.good.gram hs, Matrix.det_mul, Matrix.det_transpose]

/-- The area of a face is the volume of the parallelotope spanned by the vectors along the face, divided by the number of parts. -/
theorem C15_face_area (f : Fin (2 * (d + 1))) : ∃ a, e.face_area m geqr2 f = .ok a ∧ 0 ≤ a ∧
    (a * n ^ d) ^ 2 = gramDet ((frame P).submatrix id (Fin.succAbove ⟨f / 2, by omega⟩)) := by
  have hd := edge_data hT m geqr2 hg hs hb D r hn hU index hidx P hP e he
  obtain ⟨x, x1, x2⟩ := Mapping.Linear.functional_determinant_hyNode_spec m geqr2 hg hs e.mapping ⟨f / 2, by omega⟩
  refine ⟨|x|, ?_, abs_nonneg _, ?_⟩
  · unfold HyEdge.face_area
    rw [hyAssert_of f.2, Res.ok_bind]
    have x1' : e.mapping.functional_determinant_hyNode m geqr2 (f / 2) = .ok x := x1
    rw [x1']
    rfl
  · rw [mul_pow, sq_abs, sq, x2]
    exact gram_scaled hn _ _ (fun i j => hd.matrix i _)

/-- A corner of the reference cube is mapped to the vertex of the same number if it is vertex 0 or a neighbour of it, and otherwise exactly if the vertex is
where the parallelotope has its corner.  (`k.testBit a` is coordinate `a` of corner number `k`.) -/
theorem C15_corner (hn1 : n = 1) (X : SmallVec (d + 1) K) (k : Fin (2 ^ (d + 1)))
    (hX : Represents X (.of fun a _ => if k.1.testBit a then 1 else 0)) :
    (Returns (e.map_ref_to_phys m X) (.of fun i _ => P k i) ↔
      ∀ i, P k i = P vertex0 i + ∑ a : Fin (d + 1), if k.1.testBit a then P (neighbour a) i - P vertex0 i else 0) ∧
    ((k = vertex0 ∨ ∃ a, k = neighbour a) → Returns (e.map_ref_to_phys m X) (.of fun i _ => P k i)) := by
  have h0 : ∀ a, refPos T d n index a = 0 := fun a => by
    have := refPos_lt hT hn index a
    omega
  have hmap := C15_map hT m geqr2 hg hs hb D r hn hU index hidx P hP e he X _ hX (fun a j => by
    rw [Matrix.of_apply]; split <;> constructor <;> norm_num)
  have heq : (Matrix.of fun (i : Fin s) (j : Fin 1) => spanned P (fun a => ((refPos T d n index a : K) +
      Matrix.of (fun (a : Fin (d + 1)) (_ : Fin 1) => if k.1.testBit a then (1 : K) else 0) a j) / n) i) =
      .of fun i _ => P vertex0 i + ∑ a : Fin (d + 1), if k.1.testBit a then P (neighbour a) i - P vertex0 i else 0 := by
    ext i j
    have hn2 : (n : K) = 1 := by rw [hn1, Nat.cast_one]
    simp only [Matrix.of_apply, spanned, h0, hn2, Nat.cast_zero, zero_add, div_one, ite_mul, one_mul, zero_mul]
  rw [heq] at hmap
  have hiff : Returns (e.map_ref_to_phys m X) (.of fun i _ => P k i) ↔
      ∀ i, P k i = P vertex0 i + ∑ a : Fin (d + 1), if k.1.testBit a then P (neighbour a) i - P vertex0 i else 0 := by
    obtain ⟨Y, y1, y2⟩ := hmap
    constructor
    · rintro ⟨Z, z1, z2⟩ i
      rw [y1] at z1
      injection z1 with z1
      subst z1
      have := (represents_iff.mp z2).symm.trans (represents_iff.mp y2)
      exact congrFun (congrFun this i) 0
    · intro h
      refine ⟨Y, y1, ?_⟩
      convert y2 using 1
      ext i j
      exact h i
  refine ⟨hiff, fun hk => hiff.mpr (fun i => ?_)⟩
  rcases hk with rfl | ⟨b, rfl⟩
  · simp [vertex0]
  · have : ∀ a : Fin (d + 1), (neighbour b).1.testBit a = decide (a = b) := fun a => by
      show (2 ^ b.1).testBit a.1 = _
      rw [Nat.testBit_two_pow]
      simp only [Fin.ext_iff, eq_comm]
    simp [this]

/-- Two sub-elements of a hyperedge agree where they meet: points with the same coordinates in the hyperedge are mapped to the same point; if the
hyperedge is not degenerate, also conversely. -/
theorem C15_agree (index' : Nat) (hidx' : index' < D.n_hyEdges * n ^ (d + 1)) (hsame : index' / n ^ (d + 1) = index / n ^ (d + 1))
    (e' : File.HyEdge d s K) (he' : get_hyEdge m T geqr2 ((File.mk' D r).set_refinement n) index' = .ok e')
    (X X' : SmallVec (d + 1) K) (x x' : Fin (d + 1) → K) (hX : Represents X (.of fun a _ => x a)) (hX' : Represents X' (.of fun a _ => x' a))
    (hx : ∀ a, 0 ≤ x a ∧ x a ≤ 1) (hx' : ∀ a, 0 ≤ x' a ∧ x' a ≤ 1) :
    ((∀ a, (refPos T d n index a : K) + x a = refPos T d n index' a + x' a) → e.map_ref_to_phys m X = e'.map_ref_to_phys m X') ∧
    (gramDet (frame P) ≠ 0 → e.map_ref_to_phys m X = e'.map_ref_to_phys m X' →
      ∀ a, (refPos T d n index a : K) + x a = refPos T d n index' a + x' a) := by
  have hn' : (n : K) ≠ 0 := by exact_mod_cast hn.ne'
  obtain ⟨Y, y1, y2⟩ := C15_map hT m geqr2 hg hs hb D r hn hU index hidx P hP e he X _ hX (fun a _ => hx a)
  obtain ⟨Y', z1, z2⟩ := C15_map hT m geqr2 hg hs hb D r hn hU index' hidx' P (by rw [hsame]; exact hP) e' he' X' _ hX' (fun a _ => hx' a)
  rw [y1, z1]
  rw [represents_iff] at y2 z2
  constructor
  · intro h
    congr 1
    apply toMat_inj
    rw [y2, z2]
    ext i j
    simp only [Matrix.of_apply, h]
  · intro hdet heq a
    injection heq with heq
    subst heq
    have h1 : ∀ i, (frame P).mulVec (fun a => ((refPos T d n index a : K) + x a) / n - ((refPos T d n index' a : K) + x' a) / n) i = 0 := fun i => by
      have := congrFun (congrFun (y2.symm.trans z2) i) 0
      simp only [Matrix.of_apply, spanned, add_right_inj] at this
      rw [← sub_eq_zero, ← Finset.sum_sub_distrib] at this
      rw [← this]
      unfold Matrix.mulVec dotProduct
      refine Finset.sum_congr rfl (fun b _ => ?_)
      show (P (neighbour b) i - P vertex0 i) * _ = _
      ring
    have h2 : (frame P).transpose.mulVec ((frame P).mulVec (fun a => ((refPos T d n index a : K) + x a) / n - ((refPos T d n index' a : K) + x' a) / n)) = 0 := by
      rw [show (frame P).mulVec _ = 0 from funext h1, Matrix.mulVec_zero]
    rw [Matrix.mulVec_mulVec] at h2
    have h3 := congrFun (Matrix.eq_zero_of_mulVec_eq_zero hdet h2) a
    have h4 : ((refPos T d n index a : K) + x a) / n = ((refPos T d n index' a : K) + x' a) / n := sub_eq_zero.mp h3
    exact (div_left_inj' hn').mp h4

/-- Different sub-elements of a hyperedge which is not degenerate have no interior points in common. -/
theorem C15_disjoint (hdet : gramDet (frame P) ≠ 0) (index' : Nat) (hidx' : index' < D.n_hyEdges * n ^ (d + 1))
    (hsame : index' / n ^ (d + 1) = index / n ^ (d + 1))
    (e' : File.HyEdge d s K) (he' : get_hyEdge m T geqr2 ((File.mk' D r).set_refinement n) index' = .ok e')
    (X X' : SmallVec (d + 1) K) (x x' : Fin (d + 1) → K) (hX : Represents X (.of fun a _ => x a)) (hX' : Represents X' (.of fun a _ => x' a))
    (hx : ∀ a, 0 < x a ∧ x a < 1) (hx' : ∀ a, 0 < x' a ∧ x' a < 1) (heq : e.map_ref_to_phys m X = e'.map_ref_to_phys m X') :
    index = index' := by
  have h1 := (C15_agree hT m geqr2 hg hs hb D r hn hU index hidx P hP e he index' hidx' hsame e' he' X X' x x' hX hX'
    (fun a => ⟨(hx a).1.le, (hx a).2.le⟩) (fun a => ⟨(hx' a).1.le, (hx' a).2.le⟩)).2 hdet heq
  have h2 : ∀ a, refPos T d n index a = refPos T d n index' a := fun a =>
    lattice_eq (hx a).1 (hx a).2 (hx' a).1 (hx' a).2 (h1 a)
  have hpos := Nat.pow_pos (n := d + 1) hn
  have h3 := full_ext hT (hT.elem_belongs (refElem d n) (index % n ^ (d + 1)) (by rw [size_refElem hT]; exact Nat.mod_lt _ hpos)).canon
    (hT.elem_belongs (refElem d n) (index' % n ^ (d + 1)) (by rw [size_refElem hT]; exact Nat.mod_lt _ hpos)).canon h2
  have h4 : index % n ^ (d + 1) = index' % n ^ (d + 1) := by
    rw [← hT.index_elem (refElem d n) (index % n ^ (d + 1)) (by rw [size_refElem hT]; exact Nat.mod_lt _ hpos), h3,
      hT.index_elem (refElem d n) (index' % n ^ (d + 1)) (by rw [size_refElem hT]; exact Nat.mod_lt _ hpos)]
  rw [← Nat.div_add_mod index (n ^ (d + 1)), ← Nat.div_add_mod index' (n ^ (d + 1)), hsame, h4]

/-- Neighbouring sub-elements agree on their common face: if the topology gives face `f` of one and face `f'` of the other sub-element of the same hyperedge the same hypernode
(and different hypernodes to the faces of the hyperedge), then both faces are across the same direction, and both mappings coincide on the face. -/
theorem C15_common_face (Dt : DomainTopo d) (hD : Dt.Consistent) (hedges : Dt.n_hyEdges = D.n_hyEdges)
    (hNo : Dt.n_hyNodes * n ^ d + Dt.n_hyEdges * nInterior d n < U32)
    (hdist : ∀ nodes ∈ Dt.hyNodes_hyEdge, Function.Injective nodes)
    (index' : Nat) (hidx' : index' < D.n_hyEdges * n ^ (d + 1)) (hsame : index' / n ^ (d + 1) = index / n ^ (d + 1))
    (e' : File.HyEdge d s K) (he' : get_hyEdge m T geqr2 ((File.mk' D r).set_refinement n) index' = .ok e')
    (nodes nodes' : FaceArr d)
    (hnodes : ((Topology.File.mk' T Dt).set_refinement T n).get_hyNode_indices m T index = .ok nodes)
    (hnodes' : ((Topology.File.mk' T Dt).set_refinement T n).get_hyNode_indices m T index' = .ok nodes')
    (f f' : Fin (2 * (d + 1))) (hff : nodes f = nodes' f') :
    f.1 / 2 = f'.1 / 2 ∧ ∀ (X X' : SmallVec (d + 1) K) (x : Fin (d + 1) → K), (∀ a, 0 ≤ x a ∧ x a ≤ 1) →
      Represents X (.of fun a _ => if a.1 = f.1 / 2 then ((f.1 % 2 : Nat) : K) else x a) →
      Represents X' (.of fun a _ => if a.1 = f'.1 / 2 then ((f'.1 % 2 : Nat) : K) else x a) →
      e.map_ref_to_phys m X = e'.map_ref_to_phys m X' := by
  have hE' : Dt.n_hyEdges * n ^ (d + 1) < U32 := by rw [hedges]; exact hU
  have hc := C24_file_counts (n := n) hT hE' hNo
  have hEd : index / n ^ (d + 1) < Dt.n_hyEdges := by
    rw [hedges]; exact (index_lt_iff (d := d) hn).1 hidx
  have hsome : Dt.hyNodes_hyEdge[index / n ^ (d + 1)]? = some (Dt.hyNodes_hyEdge[index / n ^ (d + 1)]'(by rw [hD.nodes_length]; exact hEd)) :=
    List.getElem?_eq_getElem _
  have hconf := (C25_file_conforming hT hD hn hE' hNo m index index' (by rw [hc.1, hedges]; exact hidx) (by rw [hc.1, hedges]; exact hidx')
    nodes nodes' _ _ hnodes hnodes' hsome (by rw [hsame]; exact hsome) f f').1 hff
  have key : Elem.facetDir f = Elem.facetDir f' ∧ (∀ j, j ≠ Elem.facetDir f → refPos T d n index j = refPos T d n index' j) ∧
      refPos T d n index (Elem.facetDir f) + f % 2 = refPos T d n index' (Elem.facetDir f') + f' % 2 := by
    rcases hconf with ⟨h1, h2, h3, h4⟩ | ⟨-, -, h⟩
    · have hfeq : f = f' := hdist _ (List.getElem_mem _) h3
      subst hfeq
      refine ⟨rfl, fun j hj => ?_, ?_⟩
      · obtain ⟨b, rfl⟩ := Fin.exists_succAbove_eq hj
        exact h4 b
      · have a1 := ((subFace_subset_iff hn (refPos_lt hT hn index) f f).1 h1).2
        have a2 := ((subFace_subset_iff hn (refPos_lt hT hn index') f f).1 h2).2
        have b1 := refPos_lt hT hn index (Elem.facetDir f)
        have b2 := refPos_lt hT hn index' (Elem.facetDir f)
        have := Nat.mod_two_eq_zero_or_one f.1
        omega
    · exact (subFace_eq_iff hn _ _ f f').1 h
  obtain ⟨k1, k2, k3⟩ := key
  have k1' : f.1 / 2 = f'.1 / 2 := congrArg Fin.val k1
  refine ⟨k1', fun X X' x hx hX hX' => ?_⟩
  have h01 : ∀ f : Nat, (0 : K) ≤ ((f % 2 : Nat) : K) ∧ ((f % 2 : Nat) : K) ≤ 1 := fun f => by
    rcases Nat.mod_two_eq_zero_or_one f with h | h <;> simp [h]
  refine (C15_agree hT m geqr2 hg hs hb D r hn hU index hidx P hP e he index' hidx' hsame e' he' X X' _ _ hX hX'
    (fun a => by split <;> [exact h01 _; exact hx a]) (fun a => by split <;> [exact h01 _; exact hx a])).1 (fun a => ?_)
  by_cases ha : a = Elem.facetDir f
  · have ha' : a.1 = f.1 / 2 := congrArg Fin.val ha
    rw [if_pos ha', if_pos (ha'.trans k1'), ← Nat.cast_add, ← Nat.cast_add]
    have : refPos T d n index a + f % 2 = refPos T d n index' a + f' % 2 := by
      rw [ha]; rw [← k1] at k3; exact k3
    rw [this]
  · have ha' : a.1 ≠ f.1 / 2 := fun h => ha (Fin.ext h)
    rw [if_neg ha', if_neg (fun h => ha' (h.trans k1'.symm)), k2 a ha]

/-- The unit normals `local_normal` are, in space, orthogonal to the face and point out of the hyperedge.  (They are given in the coordinates of the first
columns of the orthogonal matrix `mat_q`.) -/
theorem C34_file_local_normal (hdet : gramDet (frame P) ≠ 0) (f : Fin (2 * (d + 1))) :
    ∃ (q : Matrix (Fin s) (Fin s) K) (v : Fin (d + 1) → K), Represents e.mat_q q ∧ q.transpose * q = 1 ∧
      Returns (e.local_normal m geqr2 f) (.of fun k _ => v k) ∧ ∑ k, v k * v k = 1 ∧
      (∀ b : Fin (d + 1), b.1 ≠ f.1 / 2 → ∑ i, (∑ k, q i (k.castLE hs) * v k) * frame P i b = 0) ∧
      (f.1 % 2 = 0 → ∑ i, (∑ k, q i (k.castLE hs) * v k) * frame P i ⟨f.1 / 2, by omega⟩ < 0) ∧
      (f.1 % 2 = 1 → 0 < ∑ i, (∑ k, q i (k.castLE hs) * v k) * frame P i ⟨f.1 / 2, by omega⟩) := by
  have hd := edge_data hT m geqr2 hg hs hb D r hn hU index hidx P hP e he
  have hn' : (0 : K) < n := by exact_mod_cast hn
  obtain ⟨N, v, n1, n2, n3⟩ := Geometry.File.local_normal_spec hd hn hs hdet m geqr2 hg f
  refine ⟨toMat e.mapping.matrix_q, fun k => toMat N k 0, represents_iff.mpr rfl, hd.good.orth', ⟨N, n1, represents_iff.mpr ?_⟩, ?_, fun b hb => ?_,
    fun hf => ?_, fun hf => ?_⟩
  · ext k j
    have hj : j = 0 := Subsingleton.elim _ _
    subst hj; rfl
  · rw [← n2.unit]
    refine Finset.sum_congr rfl (fun k _ => ?_)
    simp only [n3]
    split <;> ring
  · rw [hd.inner hn'.ne' hs]
    have h0 := n2.orth b (fun h => hb (congrArg Fin.val h))
    have : ∑ k, toMat N k 0 * toMat e.mapping.matrix_r k b = 0 := by
      simp only [n3]
      by_cases hf : f.1 % 2 = 1
      · simp only [hf, if_true, neg_mul, Finset.sum_neg_distrib, h0, neg_zero]
      · simp only [hf, if_false, h0]
    rw [this, mul_zero]
  · rw [hd.inner hn'.ne' hs]
    simp only [n3, hf, zero_ne_one, if_false]
    exact mul_neg_of_pos_of_neg hn' n2.neg
  · rw [hd.inner hn'.ne' hs]
    simp only [n3, hf, if_true, neg_mul, Finset.sum_neg_distrib]
    exact mul_pos hn' (neg_pos.mpr n2.neg)

/-- Normals of opposite faces are opposite. -/
theorem C34_file_opposite (hdet : gramDet (frame P) ≠ 0) (a : Fin (d + 1)) :
    ∃ v : Fin (d + 1) → K, Returns (e.local_normal m geqr2 (2 * a.1)) (.of fun k _ => v k) ∧
      Returns (e.local_normal m geqr2 (2 * a.1 + 1)) (.of fun k _ => -v k) := by
  have hd := edge_data hT m geqr2 hg hs hb D r hn hU index hidx P hP e he
  obtain ⟨N, n1, n2⟩ := Mapping.Linear.local_normal_spec m geqr2 hg e.mapping ((Matrix.isUnit_iff_isUnit_det _).mpr (hd.unit hn hs hdet)) a
  have h1 : 2 * a.1 / 2 = a.1 := by omega
  have h2 : (2 * a.1 + 1) / 2 = a.1 := by omega
  obtain ⟨N', m1, m2⟩ := (C07_entrywise m N N N _ _ _ (-1) (represents_iff.mpr rfl) (represents_iff.mpr rfl) (represents_iff.mpr rfl)).2.2.2.1
  refine ⟨fun k => toMat N k 0, ⟨N, ?_, represents_iff.mpr ?_⟩, ⟨N', ?_, represents_iff.mpr ?_⟩⟩
  · unfold HyEdge.local_normal
    have := a.2
    rw [hyAssert_of (by omega), Res.ok_bind, h1, n1, Res.ok_bind, if_neg (by omega)]
    rfl
  · ext k j
    have hj : j = 0 := Subsingleton.elim _ _
    subst hj; rfl
  · unfold HyEdge.local_normal
    have := a.2
    rw [hyAssert_of (by omega), Res.ok_bind, h2, n1, Res.ok_bind, if_pos (by omega), m1]
  · rw [represents_iff.mp m2]
    ext k j
    have hj : j = 0 := Subsingleton.elim _ _
    subst hj
    rw [Matrix.of_apply, mul_neg_one]; rfl

/-- `inner_normal` (of the faces with even numbers) and `outer_normal` are the columns of one orthogonal matrix, `inner_normal` of the opposite faces are
the opposite vectors, and each `outer_normal` is orthogonal to the hyperedge. -/
theorem C34_file_inner_outer :
    ∃ q : Matrix (Fin s) (Fin s) K, q.transpose * q = 1 ∧ q * q.transpose = 1 ∧
      (∀ a : Fin (d + 1), Returns (e.inner_normal m (2 * a.1)) (.of fun i _ => q i (a.castLE hs)) ∧
        Returns (e.inner_normal m (2 * a.1 + 1)) (.of fun i _ => -q i (a.castLE hs))) ∧
      (∀ b : Fin (s - (d + 1)), Returns (e.outer_normal m b) (.of fun i _ => q i ⟨b.1 + (d + 1), by omega⟩) ∧
        ∀ a, ∑ i, q i ⟨b.1 + (d + 1), by omega⟩ * frame P i a = 0) := by
  have hd := edge_data hT m geqr2 hg hs hb D r hn hU index hidx P hP e he
  have hn' : (n : K) ≠ 0 := by exact_mod_cast hn.ne'
  refine ⟨toMat e.mapping.matrix_q, hd.good.orth', hd.good.orth, fun a => ?_, fun b => ⟨?_, fun a => ?_⟩⟩
  · obtain ⟨N, n1, n2⟩ := C06_get_column m e.mapping.matrix_q _ (represents_iff.mpr rfl) (a.castLE hs)
    have n1' : e.mapping.matrix_q.get_column m a.1 = .ok N := n1
    have h1 : 2 * a.1 / 2 = a.1 := by omega
    have h2 : (2 * a.1 + 1) / 2 = a.1 := by omega
    have ha := a.2
    obtain ⟨N', m1, m2⟩ := (C07_entrywise m N N N _ _ _ (-1) n2 n2 n2).2.2.2.1
    constructor
    · refine ⟨N, ?_, n2⟩
      unfold HyEdge.inner_normal Mapping.Linear.inner_normal
      rw [hyAssert_of (by omega), Res.ok_bind, h1, hyAssert_of ha, Res.ok_bind, n1', Res.ok_bind, if_neg (by omega)]
      rfl
    · refine ⟨N', ?_, ?_⟩
      · unfold HyEdge.inner_normal Mapping.Linear.inner_normal
        rw [hyAssert_of (by omega), Res.ok_bind, h2, hyAssert_of ha, Res.ok_bind, n1', Res.ok_bind, if_pos (by omega), m1]
      · rw [represents_iff] at m2 ⊢
        rw [m2]
        ext i j
        simp
  · obtain ⟨N, n1, n2⟩ := C06_get_column m e.mapping.matrix_q _ (represents_iff.mpr rfl) ⟨b.1 + (d + 1), by omega⟩
    refine ⟨N, ?_, n2⟩
    unfold HyEdge.outer_normal Mapping.Linear.outer_normal
    rw [hyAssert_of b.2]
    exact n1
  · have h1 := hd.good.columns ⟨b.1 + (d + 1), by omega⟩ a
    have h2 : ∀ i, frame P i a = n * toMat e.mapping.matrix i a := fun i => by
      rw [hd.matrix]
      unfold frame
      rw [Matrix.of_apply, mul_div_cancel₀ _ hn']
    simp only [h2, mul_left_comm _ (n : K), ← Finset.mul_sum, h1]
    unfold padRows
    rw [Matrix.of_apply, dif_neg (by simp; omega), mul_zero]

/-- Volume, inverse of the Jacobian, face areas and normals of a hyperedge which is not degenerate fit together as needed for integration by parts: the
area vectors of the faces are the images of those of the reference cube under the cofactor matrix. -/
theorem C34_file_piola (hdet : gramDet (frame P) ≠ 0) :
    ∃ (R : Matrix (Fin (d + 1)) (Fin (d + 1)) K) (A : Spec.Affine (d + 1) K), Represents e.mat_r R ∧ IsUnit R ∧
      e.area m = .ok A.vol ∧ A.cof = A.vol • R⁻¹ ∧ (∀ f : Fin (2 * (d + 1)), e.face_area m geqr2 f = .ok (A.area f)) ∧
      (∀ f : Fin (2 * (d + 1)), Returns (e.local_normal m geqr2 f) (.of fun k _ => A.normal f k)) ∧ Spec.AffineLaws A := by
  have hd := edge_data hT m geqr2 hg hs hb D r hn hU index hidx P hP e he
  have hunit := hd.unit hn hs hdet
  choose N v n1 n2 n3 using fun f => Geometry.File.local_normal_spec hd hn hs hdet m geqr2 hg f
  choose x x1 x2 using fun f : Fin (2 * (d + 1)) => Mapping.Linear.functional_determinant_hyNode_spec m geqr2 hg hs e.mapping ⟨f.1 / 2, by omega⟩
  have hpiola := fun f => Mapping.Linear.piola_core hunit (n2 f) (hd.good.gram hs) (x2 f)
  have hdetpos : 0 < |(toMat e.mapping.matrix_r).det| := abs_pos.mpr hunit.ne_zero
  refine ⟨toMat e.mapping.matrix_r, ⟨|(toMat e.mapping.matrix_r).det|, |(toMat e.mapping.matrix_r).det| • (toMat e.mapping.matrix_r)⁻¹, fun f => |x f|,
    fun f k => toMat (N f) k 0⟩, represents_iff.mpr rfl, (Matrix.isUnit_iff_isUnit_det _).mpr hunit, ?_, rfl, fun f => ?_,
    fun f => ⟨N f, n1 f, represents_iff.mpr ?_⟩, ⟨hdetpos, ?_, fun f => abs_pos.mpr ?_, fun f k => ?_⟩⟩
  · unfold HyEdge.area
    rw [Mapping.Linear.functional_determinant_hyEdge_spec m hd.good]
    rfl
  · unfold HyEdge.face_area
    have := x1 f
    rw [hyAssert_of f.2, Res.ok_bind]
    show (e.mapping.functional_determinant_hyNode m geqr2 (f / 2) >>= fun x => pure |x|) = _
    rw [this]
    rfl
  · ext k j
    have hj : j = 0 := Subsingleton.elim _ _
    subst hj; rfl
  · have h1 : IsUnit (toMat e.mapping.matrix_r)⁻¹ := Matrix.isUnit_nonsing_inv_iff.mpr ((Matrix.isUnit_iff_isUnit_det _).mpr hunit)
    rw [Matrix.isUnit_iff_isUnit_det, Matrix.det_smul] at *
    exact (hdetpos.ne'.isUnit.pow _).mul h1
  · intro h0
    have hz : ∀ i, (toMat e.mapping.matrix_r)⁻¹ ⟨f.1 / 2, by omega⟩ i = 0 := fun i => by
      have := hpiola f i
      rw [h0, abs_zero, mul_zero, eq_comm, neg_eq_zero] at this
      exact (mul_eq_zero.mp this).resolve_left hdetpos.ne'
    have h1 : ((toMat e.mapping.matrix_r)⁻¹ * toMat e.mapping.matrix_r) ⟨f.1 / 2, by omega⟩ ⟨f.1 / 2, by omega⟩ = 1 := by
      rw [Matrix.nonsing_inv_mul _ hunit, Matrix.one_apply_eq]
    rw [Matrix.mul_apply] at h1
    simp [hz] at h1
  · show toMat (N f) k 0 * |x f| = Spec.normal f * (|(toMat e.mapping.matrix_r).det| * (toMat e.mapping.matrix_r)⁻¹ (Spec.axis f) k)
    rw [n3]
    have := hpiola f k
    unfold Spec.normal Spec.axis
    by_cases hf : f.1 % 2 = 0
    · rw [if_pos hf, if_neg (by omega), this]; ring
    · rw [if_neg hf, if_pos (by omega), neg_mul, this]; ring

/-- Hence all that was assumed about the integrals in the theorems C21, C47 and C48 on diffusion holds if the hyperedge is taken from a file: the
integrals are those of the transformed shape functions, and the integrals with the inverse diffusion coefficient as weight are symmetric and positive. -/
theorem C21_file_laws (hdet : gramDet (frame P) ≠ 0) {nS nB : Nat} (I : Integrator K) (hI : Spec.Lawful I (d + 1) nS nB) (E : Diffusion.Edge (d + 1) nS K)
    (hE : Diffusion.UsesGeometry m geqr2 e I E) (time : K) (hsymm : ∀ i j : Fin nS, E.vol_phiphifunc time i j = E.vol_phiphifunc time j i)
    (hpos : ∀ v : Fin nS → K, v ≠ 0 → 0 < ∑ i : Fin nS, ∑ j : Fin nS, v i * E.vol_phiphifunc time i j * v j) :
    Spec.FormLaws (Diffusion.form E nB time) := by
  obtain ⟨R, A, r1, -, a1, a2, a3, a4, hA⟩ := C34_file_piola hT m geqr2 hg hs hb D r hn hU index hidx P hP e he hdet
  have hform : Diffusion.form E nB time = Spec.affineForm I A (.of fun i j : Fin nS => E.vol_phiphifunc time i j) := by
    unfold Diffusion.form Spec.affineForm
    congr 1
    · ext i j
      exact hE.vol A.vol a1 i j
    · funext k
      ext i j
      rw [Matrix.of_apply, Matrix.of_apply, hE.grad A.vol R a1 r1, Finset.mul_sum]
      refine Finset.sum_congr rfl (fun l _ => ?_)
      rw [a2, Matrix.smul_apply, smul_eq_mul, mul_assoc]
    · funext f
      ext i j
      exact hE.bdr f _ (a3 f) i j
    · funext f
      ext i j
      exact hE.psi f _ (a3 f) i j
    · funext f k
      exact hE.normal f _ (a4 f) k
    · funext f
      exact hE.area f _ (a3 f)
  rw [hform]
  refine Spec.affine_laws I hI A hA _ ?_ (fun v hv => lt_of_lt_of_eq (hpos v hv) ?_)
  · ext i j
    exact hsymm j i
  · simp only [dotProduct, mulVec, of_apply, Finset.mul_sum, mul_assoc]

end Edge

section Whole

variable (hT : T.Lawful) (m : Mode) (geqr2 : Geqr2All K) (hg : Geqr2Spec geqr2) (hs : d + 1 ≤ s) (hb : QrInBounds d s)
  (D : DomainGeo d s K) (r : Nat) (hn : 0 < n) (hU : D.n_hyEdges * n ^ (d + 1) < U32) (E : Nat) (hE : E < D.n_hyEdges)
  (P : Fin (2 ^ (d + 1)) → Fin s → K) (hP : ∀ k, D.HasVertex E k (P k))

include hT hg hs hb hn hU hE hP

theorem coarse_data : ∃ e : File.HyEdge d s K, get_hyEdge m T geqr2 ((File.mk' D r).set_refinement 1) E = .ok e ∧ EdgeData T 1 E P e :=
  get_hyEdge_spec hT m geqr2 hg hs hb D r Nat.one_pos (by
    have := Nat.pow_pos (n := d + 1) hn
    rw [Nat.one_pow, Nat.mul_one]
    exact lt_of_le_of_lt (Nat.le_mul_of_pos_right _ this) hU) E (by rw [Nat.one_pow, Nat.mul_one]; exact hE) P
    (by rw [Nat.one_pow, Nat.div_one]; exact hP)

/-- The sub-elements cover the hyperedge: each point of the unrefined hyperedge is a point of one of its sub-elements. -/
theorem C15_covers (e0 : File.HyEdge d s K) (he0 : get_hyEdge m T geqr2 ((File.mk' D r).set_refinement 1) E = .ok e0)
    (Y : SmallVec (d + 1) K) (y : Fin (d + 1) → K) (hY : Represents Y (.of fun a _ => y a)) (hy : ∀ a, 0 ≤ y a ∧ y a ≤ 1) :
    ∃ index, index / n ^ (d + 1) = E ∧ ∃ (e : File.HyEdge d s K) (X : SmallVec (d + 1) K),
      get_hyEdge m T geqr2 ((File.mk' D r).set_refinement n) index = .ok e ∧ inReference X ∧
      ∃ Z, e.map_ref_to_phys m X = .ok Z ∧ e0.map_ref_to_phys m Y = .ok Z := by
  have hn' : (0 : K) < n := by exact_mod_cast hn
  have hpos := Nat.pow_pos (n := d + 1) hn
  have h1 : ∀ a, ∃ c : Nat, c < n ∧ (c : K) ≤ n * y a ∧ n * y a ≤ c + 1 := fun a =>
    exists_step n hn _ (mul_nonneg hn'.le (hy a).1) (by
      have := mul_le_mul_of_nonneg_left (hy a).2 hn'.le
      rwa [mul_one] at this)
  choose c c1 c2 c3 using h1
  obtain ⟨el, el1, el2⟩ := exists_full hT (refElem d n) c (fun j i => c1 j)
  have hlt := hT.index_lt _ _ el1
  rw [size_refElem hT] at hlt
  have hdiv : (E * n ^ (d + 1) + T.index (refElem d n) el) / n ^ (d + 1) = E := by
    rw [Nat.add_comm, Nat.add_mul_div_right _ _ hpos, Nat.div_eq_of_lt hlt, Nat.zero_add]
  have hmod : (E * n ^ (d + 1) + T.index (refElem d n) el) % n ^ (d + 1) = T.index (refElem d n) el := by
    rw [Nat.add_comm, Nat.add_mul_mod_self_right, Nat.mod_eq_of_lt hlt]
  have href : ∀ a, refPos T d n (E * n ^ (d + 1) + T.index (refElem d n) el) a = c a := fun a => by
    unfold refPos
    rw [hmod]
    have : T.elem (⟨.both, fun _ => n, Nat.le_refl _⟩ : Complex (d + 1) (d + 1)) (T.index (refElem d n) el) = el := hT.elem_index _ _ el1
    rw [this]
    exact el2 a
  have hidx : E * n ^ (d + 1) + T.index (refElem d n) el < D.n_hyEdges * n ^ (d + 1) := by
    have : (E + 1) * n ^ (d + 1) ≤ D.n_hyEdges * n ^ (d + 1) := Nat.mul_le_mul_right _ hE
    rw [Nat.add_mul, Nat.one_mul] at this
    omega
  obtain ⟨e, e1, -⟩ := get_hyEdge_spec hT m geqr2 hg hs hb D r hn hU _ hidx P (by rw [hdiv]; exact hP)
  have hX : ∀ a, 0 ≤ n * y a - c a ∧ n * y a - c a ≤ 1 := fun a => ⟨by linarith [c2 a], by linarith [c3 a]⟩
  have hrep : Represents (ofMat (.of fun a _ => n * y a - c a) : SmallVec (d + 1) K) (.of fun a _ => n * y a - c a) :=
    represents_iff.mpr (toMat_ofMat _)
  obtain ⟨Z, z1, z2⟩ := C15_map hT m geqr2 hg hs hb D r hn hU _ hidx P (by rw [hdiv]; exact hP) e e1 _ _ hrep (fun a _ => hX a)
  obtain ⟨W, w1, w2⟩ := C15_map hT m geqr2 hg hs hb D r Nat.one_pos (by
    rw [Nat.one_pow, Nat.mul_one]
    exact lt_of_le_of_lt (Nat.le_mul_of_pos_right _ hpos) hU) E (by rw [Nat.one_pow, Nat.mul_one]; exact hE) P
    (by rw [Nat.one_pow, Nat.div_one]; exact hP) e0 he0 Y _ hY (fun a _ => hy a)
  refine ⟨_, hdiv, e, _, e1, fun i => ?_, Z, z1, ?_⟩
  · obtain ⟨a, j, rfl⟩ := pos_surj i
    have : ofMat (.of fun a (_ : Fin 1) => n * y a - c a) (pos a j) = n * y a - c a :=
      congrFun (congrFun (toMat_ofMat (.of fun a (_ : Fin 1) => n * y a - c a)) a) j
    rw [this]
    exact hX a
  · rw [w1]
    congr 1
    apply toMat_inj
    rw [represents_iff.mp w2, represents_iff.mp z2]
    ext i j
    simp only [Matrix.of_apply]
    congr 1
    funext a
    have h0 : refPos T d 1 E a = 0 := by
      have := refPos_lt hT Nat.one_pos E a
      omega
    rw [href, h0]
    have : (n : K) ≠ 0 := hn'.ne'
    push_cast
    field_simp
    ring

/-- The areas of the sub-elements of a hyperedge add up to its area. -/
theorem C15_areas_add (e0 : File.HyEdge d s K) (he0 : get_hyEdge m T geqr2 ((File.mk' D r).set_refinement 1) E = .ok e0) :
    ∃ (a0 : K) (a : Fin (n ^ (d + 1)) → K), e0.area m = .ok a0 ∧
      (∀ i : Fin (n ^ (d + 1)), ∃ e : File.HyEdge d s K, get_hyEdge m T geqr2 ((File.mk' D r).set_refinement n) (E * n ^ (d + 1) + i) = .ok e ∧
        e.area m = .ok (a i)) ∧ ∑ i, a i = a0 := by
  have hn' : (0 : K) < n := by exact_mod_cast hn
  have hpos := Nat.pow_pos (n := d + 1) hn
  obtain ⟨a0, b1, b2, b3⟩ := C15_area hT m geqr2 hg hs hb D r Nat.one_pos (by
    rw [Nat.one_pow, Nat.mul_one]
    exact lt_of_le_of_lt (Nat.le_mul_of_pos_right _ hpos) hU) E (by rw [Nat.one_pow, Nat.mul_one]; exact hE) P
    (by rw [Nat.one_pow, Nat.div_one]; exact hP) e0 he0
  have h1 : ∀ i : Fin (n ^ (d + 1)), ∃ (e : File.HyEdge d s K), get_hyEdge m T geqr2 ((File.mk' D r).set_refinement n) (E * n ^ (d + 1) + i) = .ok e ∧
      e.area m = .ok (a0 / n ^ (d + 1)) := fun i => by
    have hdiv : (E * n ^ (d + 1) + i) / n ^ (d + 1) = E := by
      rw [Nat.add_comm, Nat.add_mul_div_right _ _ hpos, Nat.div_eq_of_lt i.2, Nat.zero_add]
    have hidx : E * n ^ (d + 1) + i < D.n_hyEdges * n ^ (d + 1) := by
      have : (E + 1) * n ^ (d + 1) ≤ D.n_hyEdges * n ^ (d + 1) := Nat.mul_le_mul_right _ hE
      rw [Nat.add_mul, Nat.one_mul] at this
      omega
    obtain ⟨e, e1, -⟩ := get_hyEdge_spec hT m geqr2 hg hs hb D r hn hU _ hidx P (by rw [hdiv]; exact hP)
    obtain ⟨a, a1, a2, a3⟩ := C15_area hT m geqr2 hg hs hb D r hn hU _ hidx P (by rw [hdiv]; exact hP) e e1
    refine ⟨e, e1, ?_⟩
    rw [a1]
    congr 1
    rw [← b3, Nat.cast_one, one_pow, mul_one] at a3
    have hp : (0 : K) < (n : K) ^ (d + 1) := pow_pos hn' _
    rw [eq_div_iff hp.ne']
    exact (pow_left_inj₀ (mul_nonneg a2 hp.le) b2 (by decide)).mp a3
  choose e e1 e2 using h1
  refine ⟨a0, fun _ => a0 / n ^ (d + 1), b1, fun i => ⟨e i, e1 i, e2 i⟩, ?_⟩
  rw [Finset.sum_const, Finset.card_univ, Fintype.card_fin, nsmul_eq_mul, Nat.cast_pow, mul_div_cancel₀]
  exact (pow_pos hn' _).ne'

end Whole

/-! ## Examples -/

/-- A sheared square: two hyperedges, the second one a parallelogram in the plane spanned by `(1, 0)` and `(1, 1)`. -/
noncomputable def shearedDomain : DomainGeo 1 2 ℝ :=
  ⟨2, [ofMat !![0; 0], ofMat !![1; 0], ofMat !![1; 1], ofMat !![2; 1], ofMat !![0; 1]], [![0, 1, 4, 2], ![0, 1, 2, 3]]⟩

def shearedPoints : Fin (2 ^ (1 + 1)) → Fin 2 → ℝ := ![![0, 0], ![1, 0], ![1, 1], ![2, 1]]

theorem sheared_vertices (k : Fin (2 ^ (1 + 1))) : shearedDomain.HasVertex 1 k (shearedPoints k) := by
  have h : ∀ (x y : ℝ), (!![x; y] : Matrix (Fin 2) (Fin 1) ℝ) = .of fun i _ => (![x, y] : Fin 2 → ℝ) i := fun x y => by
    ext i j
    have hj : j = 0 := Subsingleton.elim _ _
    subst hj
    fin_cases i <;> rfl
  have hk : k = (0 : Fin 4) ∨ k = (1 : Fin 4) ∨ k = (2 : Fin 4) ∨ k = (3 : Fin 4) := by
    change Fin 4 at k
    fin_cases k <;> simp
  refine ⟨![0, 1, 2, 3], ?_⟩
  rcases hk with rfl | rfl | rfl | rfl
  · exact ⟨_, rfl, rfl, represents_iff.mpr ((toMat_ofMat _).trans (h _ _))⟩
  · exact ⟨_, rfl, rfl, represents_iff.mpr ((toMat_ofMat _).trans (h _ _))⟩
  · exact ⟨_, rfl, rfl, represents_iff.mpr ((toMat_ofMat _).trans (h _ _))⟩
  · exact ⟨_, rfl, rfl, represents_iff.mpr ((toMat_ofMat _).trans (h _ _))⟩

theorem sheared_frame : frame shearedPoints = !![1, 1; 0, 1] := by
  ext i a
  change Fin 2 at a
  fin_cases i <;> fin_cases a <;> simp [frame, neighbour, vertex0, shearedPoints]

/-- The hypotheses of the theorems above are met: there is a function which satisfies the law assumed about LAPACK, and with it the parallelogram (refined into nine
parts) is constructed; it is not degenerate, and the area of each part is 1/9. -/
theorem C15_example : ∃ geqr2 : Geqr2All ℝ, Geqr2Spec geqr2 ∧ QrInBounds 1 2 ∧ gramDet (frame shearedPoints) ≠ 0 ∧
    (∀ k, shearedDomain.HasVertex ((9 + 4) / 3 ^ (1 + 1)) k (shearedPoints k)) ∧
    ∃ e : File.HyEdge 1 2 ℝ, get_hyEdge .debug lexTpcc geqr2 ((File.mk' shearedDomain 1).set_refinement 3) (9 + 4) = .ok e ∧ e.area .debug = .ok (1 / 9) := by
  obtain ⟨geqr2, hg⟩ := Householder.exists_geqr2_real
  have hb : QrInBounds 1 2 := fun i j h1 h2 => by omega
  have hU : shearedDomain.n_hyEdges * 3 ^ (1 + 1) < U32 := by show 2 * 3 ^ 2 < U32; decide
  have hgram : gramDet (frame shearedPoints) = 1 := by
    rw [sheared_frame]
    simp [gramDet, Matrix.det_fin_two]
  have hv : ∀ k, shearedDomain.HasVertex ((9 + 4) / 3 ^ (1 + 1)) k (shearedPoints k) := by
    rw [show (9 + 4) / 3 ^ (1 + 1) = 1 by decide]
    exact sheared_vertices
  obtain ⟨e, he⟩ := C15_constructed lexTpcc_lawful .debug geqr2 hg (le_refl 2) hb shearedDomain 1 (n := 3) (by decide) hU (9 + 4) (by show 13 < 2 * 9; decide)
    shearedPoints hv
  obtain ⟨a, a1, a2, a3⟩ := C15_area lexTpcc_lawful .debug geqr2 hg (le_refl 2) hb shearedDomain 1 (n := 3) (by decide) hU (9 + 4) (by show 13 < 2 * 9; decide)
    shearedPoints hv e he
  refine ⟨geqr2, hg, hb, by rw [hgram]; exact one_ne_zero, hv, e, he, ?_⟩
  rw [a1]
  congr 1
  rw [hgram] at a3
  have : a * 9 = 1 := by
    have h1 : (a * 9) ^ 2 = 1 := by rw [← a3]; norm_num
    have h2 : 0 ≤ a * 9 := by linarith
    nlinarith
  linarith

/-- `inner_normal` is not the normal of the face within the hyperedge: for the (unrefined) parallelogram, whatever correct LAPACK is used, the vector returned for
face 0 is not orthogonal to this face, which is spanned by `(1, 1)`. -/
theorem C34_inner_normal_witness (geqr2 : Geqr2All ℝ) (hg : Geqr2Spec geqr2) :
    ∃ (e : File.HyEdge 1 2 ℝ) (v : Fin 2 → ℝ), get_hyEdge .debug lexTpcc geqr2 ((File.mk' shearedDomain 1).set_refinement 1) 1 = .ok e ∧
      Returns (e.inner_normal .debug 0) (.of fun i _ => v i) ∧ ∑ i, v i * frame shearedPoints i 1 ≠ 0 := by
  have hb : QrInBounds 1 2 := fun i j h1 h2 => by omega
  have hU : shearedDomain.n_hyEdges * 1 ^ (1 + 1) < U32 := by show 2 * 1 ^ 2 < U32; decide
  obtain ⟨e, he⟩ := C15_constructed lexTpcc_lawful .debug geqr2 hg (le_refl 2) hb shearedDomain 1 (n := 1) (by decide) hU 1 (by show 1 < 2 * 1; decide)
    shearedPoints sheared_vertices
  have hd := edge_data lexTpcc_lawful .debug geqr2 hg (le_refl 2) hb shearedDomain 1 (n := 1) (by decide) hU 1 (by show 1 < 2 * 1; decide)
    shearedPoints sheared_vertices e he
  obtain ⟨N, n1, n2⟩ := C06_get_column .debug e.mapping.matrix_q _ (represents_iff.mpr rfl) (0 : Fin 2)
  have n1' : e.mapping.matrix_q.get_column .debug 0 = .ok N := n1
  refine ⟨e, fun i => toMat e.mapping.matrix_q i 0, he, ⟨N, ?_, n2⟩, ?_⟩
  · unfold HyEdge.inner_normal Mapping.Linear.inner_normal
    rw [hyAssert_of (by decide), Res.ok_bind, hyAssert_of (by decide), Res.ok_bind, n1', Res.ok_bind]
    rfl
  · have hM : toMat e.mapping.matrix = frame shearedPoints := by
      ext i a
      rw [hd.matrix]
      unfold frame
      simp
    have h1 : ∑ i, toMat e.mapping.matrix_q i 0 * frame shearedPoints i 1 = toMat e.mapping.matrix_r 0 1 := by
      rw [← hM]
      exact hd.good.columns 0 1
    have h2 := congrFun (congrFun (hd.good.gram (le_refl 2)) 0) 1
    rw [hM, sheared_frame] at h2
    have h3 : toMat e.mapping.matrix_r 1 0 = 0 := hd.good.upper 1 0 (by decide)
    rw [h1]
    intro h0
    simp [Matrix.mul_apply, Fin.sum_univ_two, h0, h3] at h2

end HyperHDG

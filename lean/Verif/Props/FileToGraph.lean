import Verif.Props.EpsilonGraph
import Verif.Props.FileGeometry
import Verif.Props.NodeTypes

/-!
# From a domain file to the hypergraph (C107)

`read_domain` returns a domain; the topology, the geometry and the node descriptor `File` are constructed from it and may be refined.  `T` stands for the external library
`tpcc`, `geqr2` for the routine of LAPACK, `sort` for `std::sort`.
-/

namespace HyperHDG

open HyperHDG.Topology

variable {T : Tpcc} {d s n : Nat} {K : Type} [Field K] [LinearOrder K] {sort : StdSort} {scan : Scan K} {print : K → List Char} {sqrt : K → K}
  {fs fs' : FileSystem} {filename : List Char} {D : DomainInfo d (s + 1) K}

/-- **C107** (checks).  With assertions, each domain returned by `read_domain` has lists of the announced lengths, only valid indices and nothing twice. -/
theorem C107_checked (hs : SortSpec sort) (h : read_domain .debug sort scan print sqrt d s fs filename = .ok (fs', D)) : D.Sized ∧ D.Valid := by
  unfold read_domain at h
  obtain ⟨_, -, h⟩ := Res.bind_eq_ok.mp h
  obtain ⟨_, -, h⟩ := Res.bind_eq_ok.mp h
  obtain ⟨r, -, h⟩ := Res.bind_eq_ok.mp h
  obtain ⟨_, -, h⟩ := Res.bind_eq_ok.mp h
  obtain ⟨D', hD, h⟩ := Res.bind_eq_ok.mp h
  obtain ⟨_, hc, h⟩ := Res.bind_eq_ok.mp h
  injection h with h
  obtain ⟨-, rfl⟩ := Prod.mk.inj h
  refine ⟨(C31_accepted scan _ _ hD).2, ?_⟩
  by_contra hv
  unfold assertConsistent at hc
  rw [(C30_debug sort hs D').2 hv] at hc
  exact absurd hc (by simp [bind, Res.bind])

omit [Field K] [LinearOrder K] in
/-- The topology of a checked domain is consistent. -/
theorem topo_consistent (hS : D.Sized) (hV : D.Valid) : D.topo.Consistent := ⟨hS.hyNodes, hS.hyFaces, hV.hyNode_lt⟩

omit [Field K] [LinearOrder K] in
/-- Each vertex of each hyperedge of a checked domain is a point of the domain. -/
theorem geo_vertices (hS : D.Sized) (hV : D.Valid) {e : Nat} (he : e < D.n_hyEdges) : ∃ P : Fin (2 ^ (d + 1)) → Fin (s + 1) → K, ∀ k, D.geo.HasVertex e k (P k) := by
  have he' : e < D.points_hyEdge.length := by rw [hS.points_hyEdge]; exact he
  have hlt : ∀ k, D.points_hyEdge[e] k < D.points.length := fun k => by
    rw [hS.points]
    exact hV.point_lt _ (List.getElem_mem he') k
  refine ⟨fun k i => toMat (D.points[D.points_hyEdge[e] k]'(hlt k)) i 0, fun k => ⟨D.points_hyEdge[e], D.points[D.points_hyEdge[e] k]'(hlt k), ?_, ?_, ?_⟩⟩
  · exact List.getElem?_eq_getElem he'
  · exact List.getElem?_eq_getElem (hlt k)
  · rw [represents_iff]
    funext i j
    obtain rfl : j = 0 := Subsingleton.elim _ _
    rfl

section
variable (hT : T.Lawful) (hs : SortSpec sort) (h : read_domain .debug sort scan print sqrt d s fs filename = .ok (fs', D)) (hn : 0 < n)
  (hE : D.n_hyEdges * n ^ (d + 1) < U32)

include hT hs h hn hE

/-- **C107** (topology).  Every hyperedge of every refinement of an accepted domain has hypernodes which exist, different ones for different faces. -/
theorem C107_topology (hN : D.n_hyNodes * n ^ d + D.n_hyEdges * nInterior d n < U32) (m : Mode) (index : Nat)
    (hidx : index < ((File.mk' T D.topo).set_refinement T n).n_hyEdges) :
    ∃ nodes, ((File.mk' T D.topo).set_refinement T n).get_hyNode_indices m T index = .ok nodes ∧
      (∀ i, nodes i < ((File.mk' T D.topo).set_refinement T n).n_hyNodes) ∧ Function.Injective nodes := by
  obtain ⟨hS, hV⟩ := C107_checked hs h
  have hD := topo_consistent hS hV
  obtain ⟨nodes, h1, h2⟩ := C24_file_valid hT hD hn hE hN m index hidx
  exact ⟨nodes, h1, h2, C25_file_distinct hT hD hn hE hN hV.hyNode_inj m index hidx nodes h1⟩

/-- **C107** (types).  The types of the faces of every hyperedge of every refinement of an accepted domain can be asked for. -/
theorem C107_types (m : Mode) (index : Nat) (hidx : index < D.n_hyEdges * n ^ (d + 1)) :
    ∃ types, (NodeDescriptor.File.ofTopology ((File.mk' T D.topo).set_refinement T n)).get_hyFace_types m T index = .ok types := by
  obtain ⟨hS, hV⟩ := C107_checked hs h
  have hlt : index / n ^ (d + 1) < D.hyFaces_hyEdge.length := by
    rw [hS.hyFaces]
    exact (index_lt_iff (d := d) hn).1 hidx
  obtain ⟨types, ht, -⟩ := C28_file hT (topo_consistent hS hV) hn hE m index hidx _ (List.getElem?_eq_getElem hlt)
  exact ⟨types, ht⟩

/-- **C107** (geometry).  Every hyperedge of every refinement of an accepted domain can be constructed: no index of a point is out of range. -/
theorem C107_geometry [IsStrictOrderedRing K] (geqr2 : Geqr2All K) (hg : Geqr2Spec geqr2) (hds : d + 1 ≤ s + 1) (hb : QrInBounds d (s + 1)) (m : Mode) (r : Nat) (index : Nat)
    (hidx : index < D.n_hyEdges * n ^ (d + 1)) :
    ∃ e : Geometry.File.HyEdge d (s + 1) K, Geometry.File.get_hyEdge m T geqr2 ((Geometry.File.mk' D.geo r).set_refinement n) index = .ok e := by
  obtain ⟨hS, hV⟩ := C107_checked hs h
  obtain ⟨P, hP⟩ := geo_vertices hS hV ((index_lt_iff (d := d) hn).1 hidx)
  exact C15_constructed hT m geqr2 hg hds hb D.geo r hn hE index hidx P hP

end

/-- **C107** (edges of dimension one).  No edge of an accepted domain of dimension one has length zero: its two ends are different points. -/
theorem C107_length (hs : SortSpec sort) {D : DomainInfo 0 (s + 1) K} (h : read_domain .debug sort scan print sqrt 0 s fs filename = .ok (fs', D)) (e : Nat)
    (P : Fin (2 ^ (0 + 1)) → Fin (s + 1) → K) (hP : ∀ k, D.geo.HasVertex e k (P k)) : P 0 ≠ P 1 := by
  obtain ⟨hS, hV⟩ := C107_checked hs h
  intro heq
  obtain ⟨a, x, h1, h2, h3⟩ := hP 0
  obtain ⟨b, y, h4, h5, h6⟩ := hP 1
  have hab : a = b := by rw [h1] at h4; injection h4
  subst hab
  obtain ⟨he, ha⟩ := List.getElem?_eq_some_iff.mp h1
  obtain ⟨hx, hx'⟩ := List.getElem?_eq_some_iff.mp h2
  obtain ⟨hy, hy'⟩ := List.getElem?_eq_some_iff.mp h5
  have hxy : x = y := by
    rw [heq] at h3
    rw [represents_iff] at h3 h6
    have h7 : toMat x = toMat y := h3.trans h6.symm
    exact toMat_inj h7
  have h8 : a 0 = a 1 := (List.Nodup.getElem_inj_iff hV.points (hi := hx) (hj := hy)).mp (hx'.trans (hxy.trans hy'.symm))
  have h9 := hV.point_inj a (ha ▸ List.getElem_mem he) h8
  exact absurd h9 (by decide)

/-! ## Examples -/

/-- A file with one edge whose second hypernode has number `n1`. -/
def edgeFile (n1 : String) : List Char :=
  ("Space_Dim = 1\nHyperEdge_Dim = 1\nN_Points = 2\nN_HyperNodes = 2\nN_HyperEdges = 1\nPOINTS:\n0\n3\nHYPERNODES_OF_HYPEREDGES:\n0 " ++ n1 ++
    "\nTYPES_OF_HYPERFACES:\n1 0\nPOINTS_OF_HYPEREDGES:\n0 1\n").toList

/-- An accepted file. -/
theorem C107_example : ∃ fs' D, read_domain .debug insertionSort scanRat printRat sqrtRat 0 0 (fun _ => some (edgeFile "1")) "a.geo".toList = .ok (fs', D) ∧
    D.n_hyEdges = 1 ∧ D.n_hyNodes = 2 := by
  have h : (read_domain .debug insertionSort scanRat printRat sqrtRat 0 0 (fun _ => some (edgeFile "1")) "a.geo".toList >>= fun r =>
      Res.ok (r.2.n_hyEdges, r.2.n_hyNodes)) = .ok (1, 2) := by decide +kernel
  obtain ⟨⟨fs', D⟩, h1, h2⟩ := Res.bind_eq_ok.mp h
  injection h2 with h2
  obtain ⟨h3, h4⟩ := Prod.mk.inj h2
  exact ⟨fs', D, h1, h3, h4⟩

/-- Without assertions a file is accepted whose edge has a hypernode which does not exist, with assertions the program is aborted.  Values of this hypernode are read outside of
the vector of all degrees of freedom. -/
theorem C107_release_witness :
    (read_domain .release insertionSort scanRat printRat sqrtRat 0 0 (fun _ => some (edgeFile "7")) "a.geo".toList >>= fun r =>
      (File.mk' lexTpcc r.2.topo).get_hyNode_indices .release lexTpcc 0 >>= fun nodes => Res.ok ((File.mk' lexTpcc r.2.topo).n_hyNodes, nodes 0, nodes 1)) = .ok (2, 0, 7) ∧
    (read_domain .debug insertionSort scanRat printRat sqrtRat 0 0 (fun _ => some (edgeFile "7")) "a.geo".toList >>= fun _ => Res.ok ()) = .abort ∧
    (⟨2, 1⟩ : HyperNodeFactory).get_dof_values .release 7 [10, 20] [0] = .ub := by
  refine ⟨by decide +kernel, by decide +kernel, by decide +kernel⟩

end HyperHDG

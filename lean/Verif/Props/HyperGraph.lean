import Verif.Proofs.HyperGraph
import Verif.Props.Topology
import Verif.Props.NodeTypes
import Verif.Props.UnitCube

/-!
# Properties of hypergraphs (C26, C27)

Theorems about all programs `pre ++ .graph a :: post`: any operations, the construction of a hypergraph, which gets the number `nConstructed pre`, then any operations, among them
refinements of this and other hypergraphs.
-/

namespace HyperHDG.HyperGraph

variable {C : Classes}

/-- The classes of cubic hypergraphs keep nothing of earlier refinements. -/
theorem C26_cubic (T : Tpcc) (d s n : Nat) (h : d + 1 ≤ s) (K : Type) [Field K] [LinearOrder K] (D : Type) (default : D) :
    (cubic T d s n h K D default).Refinable where
  topo_last _ _ _ := rfl
  geom_last _ _ _ := rfl
  node_last _ _ _ := rfl
  topo_one _ := rfl
  geom_one _ := rfl
  geom_of _ _ := rfl
  node_of _ _ := rfl
  level _ _ := rfl

theorem graph_owns (hC : C.Refinable) {m : Mode} {pre post : List (Cmd C)} {a : C.TopoArg} {w : World C}
    (hrun : run m World.empty (pre ++ .graph a :: post) = .ok w) :
    Owns w (nConstructed pre) (C.topo_refine (C.topo_make a) (lastLevel (nConstructed pre) 1 post))
      (C.geom_of_topo (C.topo_refine (C.topo_make a) (lastLevel (nConstructed pre) 1 post)))
      (C.node_of_topo (C.topo_refine (C.topo_make a) (lastLevel (nConstructed pre) 1 post))) ∧
    ∃ w₁, construct_topo m (World.empty : World C) a = .ok w₁ ∧
      Owns w₁ 0 (C.topo_make a) (C.geom_of_topo (C.topo_make a)) (C.node_of_topo (C.topo_make a)) := by
  obtain ⟨w₁, h1, h2⟩ := run_append.1 hrun
  simp only [run, Res.bind_eq_ok] at h2
  obtain ⟨w₂, h2, h3⟩ := h2
  have hv := run_valid empty_valid h1
  have hl : w₁.graphs.length = nConstructed pre := by
    rw [run_length h1]; simp [World.empty]
  have ho := construct_owns hv (C.topo_make a) (C.geom_of_topo (C.topo_make a)) h2
  rw [hl] at ho
  constructor
  · have e1 := hC.topo_one a
    have e2 := hC.geom_of a 1
    have e3 := hC.node_of a 1
    rw [e1] at e2 e3
    rw [← e2, ← e3, ← e1] at ho
    have := run_owns hC ho h3
    rw [e1, hC.geom_of, hC.node_of] at this
    exact this
  · obtain ⟨t, ht, _, hall⟩ := construct_ok h2
    have : t = C.topo_make a := by simpa [allocate] using ht.symm
    subst this
    have hf := hall (allocate World.empty (C.topo_make a) (C.geom_of_topo (C.topo_make a))) 0 0 0 (by simp [allocate, World.empty])
    exact ⟨_, hf, construct_owns empty_valid _ _ hf⟩

theorem graph_geom_owns (hC : C.Refinable) {m : Mode} {pre post : List (Cmd C)} {a : C.TopoArg} {b : C.GeomArg} {w : World C}
    (hrun : run m World.empty (pre ++ .graph_geom a b :: post) = .ok w) :
    Owns w (nConstructed pre) (C.topo_refine (C.topo_make a) (lastLevel (nConstructed pre) 1 post))
      (C.geom_refine (C.geom_make b) (lastLevel (nConstructed pre) 1 post))
      (C.node_of_topo (C.topo_refine (C.topo_make a) (lastLevel (nConstructed pre) 1 post))) ∧
    ∃ w₁, construct_topo_geom m (World.empty : World C) a b = .ok w₁ ∧
      Owns w₁ 0 (C.topo_make a) (C.geom_make b) (C.node_of_topo (C.topo_make a)) := by
  obtain ⟨w₁, h1, h2⟩ := run_append.1 hrun
  simp only [run, Res.bind_eq_ok] at h2
  obtain ⟨w₂, h2, h3⟩ := h2
  have hv := run_valid empty_valid h1
  have hl : w₁.graphs.length = nConstructed pre := by
    rw [run_length h1]; simp [World.empty]
  have ho := construct_owns hv (C.topo_make a) (C.geom_make b) h2
  rw [hl] at ho
  constructor
  · have e1 := hC.topo_one a
    have e2 := hC.geom_one b
    have e3 := hC.node_of a 1
    rw [e1] at e3
    rw [← e2, ← e3, ← e1] at ho
    have := run_owns hC ho h3
    rw [e1, hC.node_of] at this
    exact this
  · obtain ⟨t, ht, _, hall⟩ := construct_ok h2
    have : t = C.topo_make a := by simpa [allocate] using ht.symm
    subst this
    have hf := hall (allocate World.empty (C.topo_make a) (C.geom_make b)) 0 0 0 (by simp [allocate, World.empty])
    exact ⟨_, hf, construct_owns empty_valid _ _ hf⟩

theorem refine_fresh {w : World C} {t ge nd} (h : Owns w 0 t ge nd) (m : Mode) (l : Nat) :
    ∃ w', run m w [.refine 0 l] = .ok w' ∧ Owns w' 0 (C.topo_refine t l) (C.geom_refine ge l) (C.node_refine nd l) := by
  obtain ⟨G, hG, a1, a2, a3, _⟩ := h.owned
  have hs : step m w (.refine 0 l) = .ok _ := set_refinement_eq (level := l) hG a1 a2 a3
  refine ⟨_, by rw [run, hs, Res.ok_bind]; rfl, ?_⟩
  rcases step_owns h hs with ⟨l', e, ho⟩ | ⟨hne, _⟩
  · injection e with _ e; subst e; exact ho
  · exact absurd rfl (hne l)

/-- After any history a hypergraph is what it would be if it had been constructed and refined once, to the level last set. -/
theorem C26_history (hC : C.Refinable) (m : Mode) (pre post : List (Cmd C)) (a : C.TopoArg) (w : World C)
    (hrun : run m World.empty (pre ++ .graph a :: post) = .ok w) :
    ∃ w₀ c, run m World.empty [.graph a, .refine 0 (lastLevel (nConstructed pre) 1 post)] = .ok w₀ ∧
      content w (nConstructed pre) = .ok c ∧ content w₀ 0 = .ok c := by
  obtain ⟨ho, w₁, h1, h2⟩ := graph_owns hC hrun
  obtain ⟨w', h3, h4⟩ := refine_fresh h2 m (lastLevel (nConstructed pre) 1 post)
  rw [hC.geom_of, hC.node_of] at h4
  refine ⟨w', _, ?_, content_owns ho, content_owns h4⟩
  show (construct_topo m World.empty a >>= fun w' => run m w' [_]) = _
  rw [h1, Res.ok_bind, h3]

/-- The same for hypergraphs whose geometry is constructed from its own argument. -/
theorem C26_history_geom (hC : C.Refinable) (m : Mode) (pre post : List (Cmd C)) (a : C.TopoArg) (b : C.GeomArg) (w : World C)
    (hrun : run m World.empty (pre ++ .graph_geom a b :: post) = .ok w) :
    ∃ w₀ c, run m World.empty [.graph_geom a b, .refine 0 (lastLevel (nConstructed pre) 1 post)] = .ok w₀ ∧
      content w (nConstructed pre) = .ok c ∧ content w₀ 0 = .ok c := by
  obtain ⟨ho, w₁, h1, h2⟩ := graph_geom_owns hC hrun
  obtain ⟨w', h3, h4⟩ := refine_fresh h2 m (lastLevel (nConstructed pre) 1 post)
  rw [hC.node_of] at h4
  refine ⟨w', _, ?_, content_owns ho, content_owns h4⟩
  show (construct_topo_geom m World.empty a b >>= fun w' => run m w' [_]) = _
  rw [h1, Res.ok_bind, h3]

/-- Setting the level 1 restores the initial state. -/
theorem C26_level_one (hC : C.Refinable) (m : Mode) (pre post : List (Cmd C)) (a : C.TopoArg) (w : World C)
    (hrun : run m World.empty (pre ++ .graph a :: post) = .ok w) (hone : lastLevel (nConstructed pre) 1 post = 1) :
    ∃ w₀ c, run m World.empty [.graph a] = .ok w₀ ∧ content w (nConstructed pre) = .ok c ∧ content w₀ 0 = .ok c := by
  obtain ⟨ho, w₁, h1, h2⟩ := graph_owns hC hrun
  rw [hone, hC.topo_one] at ho
  refine ⟨w₁, _, ?_, content_owns ho, content_owns h2⟩
  show (construct_topo m World.empty a >>= fun w' => run m w' []) = _
  rw [h1]
  rfl

/-- After any history topology, geometry and node descriptor have the level which was set last, the dof factory knows the number of hypernodes, and there is one
data object for each hyperedge. -/
theorem C27_in_step_partial (hC : C.Refinable) (m : Mode) (pre post : List (Cmd C)) (a : C.TopoArg) (w : World C)
    (hrun : run m World.empty (pre ++ .graph a :: post) = .ok w) :
    ∃ c, content w (nConstructed pre) = .ok c ∧ C.topo_refinement c.topology = lastLevel (nConstructed pre) 1 post ∧
      c.geometry = C.geom_of_topo c.topology ∧ c.node_des = C.node_of_topo c.topology ∧
      c.factory.n_hyNodes = C.n_hyNodes c.topology ∧ c.n_data = C.n_hyEdges c.topology :=
  ⟨_, content_owns (graph_owns hC hrun).1, hC.level _ _, rfl, rfl, rfl, rfl⟩

section Cubic

variable {T : Tpcc} {d s n : Nat} {h : d + 1 ≤ s} {K : Type} [Field K] [LinearOrder K] [IsStrictOrderedRing K] {D : Type} {default : D}

/-- After any history each hyperedge of a cubic hypergraph can be accessed, its hypernodes are among those for which there are degrees of freedom, and the numbers
of hyperedges and hypernodes are those of the grid refined to the level which was set last. -/
theorem C27_cubic_partial (hT : T.Lawful) (m : Mode) (pre post : List (Cmd (cubic T d s n h K D default))) (N : Fin s → Nat) (hN : ∀ i, 0 < N i)
    (w : World (cubic T d s n h K D default)) (hrun : run m World.empty (pre ++ .graph N :: post) = .ok w)
    (l : Nat) (hl : l = lastLevel (nConstructed pre) 1 post) (hpos : 0 < l) (hs : 3 ^ s ≤ U32)
    (hE : T.size (⟨.both, N, h⟩ : Complex s (d + 1)) * l ^ (d + 1) < U32)
    (hV : T.size (⟨.both, N, Nat.le_of_succ_le h⟩ : Complex s d) * l ^ d
      + T.size (⟨.both, N, h⟩ : Complex s (d + 1)) * nInterior d l < U32) :
    ∃ g, w.graphs[nConstructed pre]? = some g ∧
      n_hyEdges w g = .ok (T.size (⟨.both, N, h⟩ : Complex s (d + 1)) * l ^ (d + 1)) ∧
      n_hyNodes g = T.size (⟨.both, N, Nat.le_of_succ_le h⟩ : Complex s d) * l ^ d
        + T.size (⟨.both, N, h⟩ : Complex s (d + 1)) * nInterior d l ∧
      get_refinement w g = .ok l ∧
      ∀ index, index < T.size (⟨.both, N, h⟩ : Complex s (d + 1)) * l ^ (d + 1) →
        ∃ nodes geom types data, get m w g index = .ok (nodes, geom, types, data) ∧
          (∀ i, (nodes : FaceArr d) i < n_hyNodes g) ∧
          Topology.Cubic.get_hyNode_indices m T ((Topology.Cubic.mk' T h N).set_refinement T l) index = .ok nodes ∧
          Geometry.UnitCube.HyEdge.make m T ((Geometry.UnitCube.mk' h N).set_refinement l) index = .ok geom ∧
          NodeDescriptor.Cubic.get_hyFace_types m T ((NodeDescriptor.Cubic.mk' T h N).set_refinement T l) index = .ok types := by
  obtain ⟨g, hg, a1, a2, a3, a4, a5, _⟩ := (graph_owns (C26_cubic T d s n h K D default) hrun).1.owned
  rw [← hl] at a1 a2 a3 a4 a5
  have hcnt := C24_cubic_counts hT h N hpos hE hV
  have hnode : n_hyNodes g = T.size (⟨.both, N, Nat.le_of_succ_le h⟩ : Complex s d) * l ^ d
        + T.size (⟨.both, N, h⟩ : Complex s (d + 1)) * nInterior d l := by
    unfold n_hyNodes
    rw [a4]
    exact hcnt.2
  have hdata : g.data.length = T.size (⟨.both, N, h⟩ : Complex s (d + 1)) * l ^ (d + 1) := a5.trans hcnt.1
  refine ⟨g, hg, ?_, hnode, ?_, fun index hidx => ?_⟩
  · unfold n_hyEdges
    rw [vget_ok_iff.2 a1, Res.ok_bind]
    exact congrArg Res.ok hcnt.1
  · unfold get_refinement
    rw [vget_ok_iff.2 a1, Res.ok_bind]
    rfl
  · have hU : l ^ (d + 1) < U32 := by
      have hEd := (index_lt_iff (d := d) hpos).1 hidx
      have := Nat.mul_le_mul_right (l ^ (d + 1)) (Nat.lt_of_le_of_lt (Nat.zero_le _) hEd)
      omega
    obtain ⟨nodes, hn1, hn2⟩ := C24_cubic_valid hT h N hpos hE hV m index (by rw [hcnt.1]; exact hidx)
    obtain ⟨geom, hg1⟩ := C33_constructed (K := K) hT h N hN hpos hU m index hidx
    obtain ⟨types, ht1, _⟩ := C28_cubic hT h N hpos hs hE m index hidx
    have hlt : index < g.data.length := by rw [hdata]; exact hidx
    refine ⟨nodes, geom, types, g.data[index], ?_, fun i => ?_, hn1, hg1, ht1⟩
    · exact get_eq a1 a2 a3 hn1 hg1 ht1 hlt
    · rw [hnode]
      have := hn2 i
      rw [hcnt.2] at this
      exact this

end Cubic

/-! Hypergraphs constructed from pointers which the program keeps may get out of step. -/

/-- Graphs of dimension 1. -/
abbrev lineClasses : Classes := cubic lexTpcc 0 1 1 (Nat.le_refl 1) ℚ Unit ()

/-- Two hypergraphs which share their parts; the first is refined. -/
def sharing : List (Cmd lineClasses) :=
  [.make_topo ![2], .make_geom_of 0, .make_node_of 0, .graph_shared 0 0 0, .graph_shared 0 0 0, .refine 0 2]

/-- The second hypergraph then has four hyperedges, but degrees of freedom for three hypernodes only, and access to the data of a hyperedge aborts, or is undefined if assertions are not compiled
in. -/
theorem C27_shared_out_of_step (m : Mode) : ∃ w g, run m World.empty sharing = .ok w ∧ w.graphs[1]? = some g ∧ n_hyEdges w g = .ok 4 ∧
    n_hyNodes g = 3 ∧ (∃ nodes : FaceArr 0, lineClasses.topo_get m ((lineClasses.topo_refine (lineClasses.topo_make ![2]) 2)) 3 = .ok nodes ∧
      ∃ i, n_hyNodes g ≤ nodes i) ∧ hyEdge_data m g 3 = (match m with | .debug => .abort | .release => .ub) := by
  cases m
  · refine ⟨_, _, rfl, rfl, rfl, rfl, ⟨_, rfl, ?_⟩, rfl⟩
    decide +kernel
  · refine ⟨_, _, rfl, rfl, rfl, rfl, ⟨_, rfl, ?_⟩, rfl⟩
    decide +kernel

/-! Concrete cases. -/

/-- A program with two hypergraphs, refined in turn: the hypotheses of `C27_cubic_partial` hold for the second, with level 3. -/
example : ∃ w, run .debug World.empty ([Cmd.graph (C := lineClasses) ![2], .refine 0 2] ++ .graph ![3] :: [.refine 1 2, .refine 0 5, .refine 1 3]) = .ok w ∧
    lastLevel (nConstructed [Cmd.graph (C := lineClasses) ![2], .refine 0 2]) 1 [Cmd.refine (C := lineClasses) 1 2, .refine 0 5, .refine 1 3] = 3 ∧
    3 ^ 1 ≤ U32 ∧ lexTpcc.size (⟨.both, ![3], Nat.le_refl 1⟩ : Complex 1 1) * 3 ^ 1 < U32 := by
  refine ⟨_, rfl, ?_, ?_, ?_⟩ <;> decide +kernel

end HyperHDG.HyperGraph

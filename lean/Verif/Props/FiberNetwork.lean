import Verif.Proofs.FiberNetworkFile
import Verif.Props.ReadDomain
import Mathlib.Algebra.Order.Ring.Rat

/-!
# C99: networks of fibres

`domains/morgan/make_geo.py`.
-/

namespace HyperHDG.MakeGeo

variable {K : Type} [Field K] [LinearOrder K] [IsStrictOrderedRing K]

/-- **C99** (the network).  The edges are those of the connections in their order, followed by the pieces of the fibres in their order.  Each connection is an edge
between the vertices of its two points (none if the two vertices are the same); the pieces of a fibre with connections form a chain from its beginning, through
all of its points with connections in their order, to its end, and have the properties of the fibre.  `Error` is never printed.  All vertices are points of
connections, or ends of fibres with connections. -/
theorem C99_network (inp : Input K) (net : Network K) (h : network inp = some net) :
    (∃ cs fs, List.Forall₂ (JoinsPoints inp net.vertices) inp.connections cs ∧ List.Forall₂ (FollowsFiber inp net.vertices) (List.range inp.fibers.length) fs ∧
      net.edges = cs.flatten ++ fs.flatten.map Prod.fst ∧ net.edges_prop = inp.connectionsProp ++ fs.flatten.map Prod.snd) ∧
    net.errors = 0 ∧ ∀ v ∈ net.vertices, Relevant inp v := by
  obtain ⟨⟨cs, fs, h1, h2, h3, h4, -⟩, h5, h6, -⟩ := network_spec h
  exact ⟨⟨cs, fs, h1, h2, h3, h4⟩, h5, h6⟩

/-- **C99** (success).  If the tables are complete and some fibre with a connection is longer than 2e-10, the program does not fail. -/
theorem C99_succeeds (inp : Input K) (hc : Complete inp) (index : Nat) (a : K) (ht : Touches inp index a) (p q : Point K) (hp : OnFiber inp index 0 p)
    (hq : OnFiber inp index 1 q) (hd : (2 / 10 ^ 10) ^ 2 < dist2 p q) : ∃ net, network inp = some net :=
  network_some hc ht hp hq hd

/-- **C99** (edges).  There is an edge, and each edge joins two different vertices which exist. -/
theorem C99_edges (inp : Input K) (net : Network K) (h : network inp = some net) :
    net.edges ≠ [] ∧ ∀ e ∈ net.edges, e.1 < net.vertices.length ∧ e.2 < net.vertices.length ∧ e.1 ≠ e.2 := by
  obtain ⟨⟨cs, fs, h1, h2, h3, -, h5⟩, -⟩ := network_spec h
  rw [h3]
  refine ⟨fun hc => h5 (List.map_eq_nil_iff.mp (List.append_eq_nil_iff.mp hc).2), fun e he => ?_⟩
  rcases List.mem_append.mp he with he | he
  · obtain ⟨c, -, bs, -, hj, hb⟩ := forall₂_flatten_mem h1 he
    exact (joins_edges hj).2 e hb
  · obtain ⟨x, hx, rfl⟩ := List.mem_map.mp he
    obtain ⟨i, -, bs, -, hj, hb⟩ := forall₂_flatten_mem h2 hx
    exact follows_edges hj x hb

/-- **C99** (properties; partial: the program does not ensure that the two points of each connection are apart).  If they are, then there are exactly as many
rows of properties as edges, the first edges are those of the connections, each with the properties of its connection, and the other edges are the pieces of
the fibres, each with the properties of its fibre. -/
theorem C99_properties_partial (inp : Input K) (hc : Complete inp) (hp : ProperConnections inp) (net : Network K) (h : network inp = some net) :
    net.edges.length = net.edges_prop.length ∧
    List.Forall₂ (fun con e => JoinsPoints inp net.vertices con [e]) inp.connections (net.edges.take inp.connections.length) ∧
    net.edges_prop.take inp.connections.length = inp.connectionsProp ∧
    ∃ fs, List.Forall₂ (FollowsFiber inp net.vertices) (List.range inp.fibers.length) fs ∧
      net.edges.drop inp.connections.length = fs.flatten.map Prod.fst ∧ net.edges_prop.drop inp.connections.length = fs.flatten.map Prod.snd := by
  obtain ⟨⟨cs, fs, h1, h2, h3, h4, -⟩, -⟩ := network_spec h
  have h6 := forall₂_flatten_one h1 (fun con hcon es hj => by
    obtain ⟨p, q, i, j, g1, g2, ⟨v, hv, hvn⟩, ⟨w, hw, hwn⟩, rfl⟩ := hj
    have hij : i ≠ j := by
      rintro rfl
      rw [hv] at hw
      cases hw
      exact absurd (near_near hvn hwn) (not_le.mpr (hp con hcon p q g1 g2))
    simp [chain, hij])
  have hlen : cs.flatten.length = inp.connections.length := h6.length_eq.symm
  refine ⟨?_, ?_, ?_, fs, h2, ?_, ?_⟩
  · rw [h3, h4, List.length_append, List.length_append, hlen, hc.connectionsProp, List.length_map, List.length_map]
  · rw [h3, ← hlen, List.take_left' rfl]
    exact h6
  · rw [h4, ← hc.connectionsProp, List.take_left' rfl]
  · rw [h3, ← hlen, List.drop_left' rfl]
  · rw [h4, ← hc.connectionsProp, List.drop_left' rfl]

/-- **C99** (joints; partial: the program merges only some of the points which are nearly the same).  If any two points of the network are the same or more than
1e-10 apart, and the two points of each connection differ, then the vertices are exactly the points of the network, without repetition, and the edges of the
connections and the pieces of the fibres (`C99_network`) which belong to the same point meet in the same vertex, which is exactly this point. -/
theorem C99_joints_partial (inp : Input K) (hs : Separated inp)
    (hp : ∀ con ∈ inp.connections, ∀ p q, OnFiber inp con.fiber1 con.a1 p → OnFiber inp con.fiber2 con.a2 q → p ≠ q) (net : Network K) (h : network inp = some net) :
    net.vertices.Nodup ∧ (∀ p, p ∈ net.vertices ↔ Relevant inp p) ∧
    (∀ i p, Relevant inp p → (AtVertex net.vertices i p ↔ net.vertices[i]? = some p)) ∧
    ∀ i j p, Relevant inp p → AtVertex net.vertices i p → AtVertex net.vertices j p → i = j := by
  obtain ⟨⟨cs, fs, -, h2, -⟩, -, h6, h7⟩ := network_spec h
  have hnd := h7 hp
  have hat : ∀ i p, Relevant inp p → AtVertex net.vertices i p → net.vertices[i]? = some p := fun i p hr ⟨v, hv, hn⟩ => by
    rw [hv, hs p v hr (h6 v (List.mem_of_getElem? hv)) hn]
  refine ⟨hnd, fun p => ⟨h6 p, fun hr => ?_⟩, fun i p hr => ⟨hat i p hr, fun hv => ⟨p, hv, near_self p⟩⟩, fun i j p hr hi hj => ?_⟩
  · have hr' := hr
    obtain ⟨index, a, ht, ho⟩ := hr
    have hidx : index < inp.fibers.length := by
      rcases ho with ⟨f, u, v, hf, -⟩ | ⟨f, u, v, hf, -⟩ | ⟨f, u, v, hf, -⟩ <;> exact (List.getElem?_eq_some_iff.mp hf).1
    rw [List.forall₂_iff_get] at h2
    have l1 : index < (List.range inp.fibers.length).length := by simpa using hidx
    have l2 : index < fs.length := by rw [← h2.1]; exact l1
    have h3 := h2.2 index l1 l2
    simp only [List.get_eq_getElem, List.getElem_range] at h3
    rcases h3 with ⟨hno, -⟩ | ⟨mid, ix, -, hm, -, h4, -⟩
    · exact absurd ht (hno a)
    · have key : ∀ b ∈ (0 :: mid ++ [1]), OnFiber inp index b p → p ∈ net.vertices := fun b hb hob => by
        obtain ⟨k, hk, rfl⟩ := List.getElem_of_mem hb
        rw [List.forall₂_iff_get] at h4
        obtain ⟨p', hp', hv⟩ := h4.2 k hk (by rw [← h4.1]; exact hk)
        rw [hp'.unique hob] at hv
        exact List.mem_of_getElem? (hat _ p hr' hv)
      rcases ho with ho | ho | ho
      · exact key a (by simp [(hm a).mpr ht]) ho
      · exact key 0 (by simp) ho
      · exact key 1 (by simp) ho
  · have hi := hat i p hr hi
    have hj := hat j p hr hj
    obtain ⟨li, ei⟩ := List.getElem?_eq_some_iff.mp hi
    obtain ⟨lj, ej⟩ := List.getElem?_eq_some_iff.mp hj
    exact (hnd.getElem_inj_iff).mp (ei.trans ej.symm)

/-- **C99** (the file).  The file is read by `read_domain_geo` as exactly the network: its vertices are the points and the hypernodes, its edges are the hyperedges,
and the first rows of properties are those of the hyperedges.  The type of a face is 1 if its hypernode lies in the boundary of the bounding box, else 0. -/
theorem C99_read (m : Mode) (scan : Scan K) (print : K → List Char) (round : K → K) (hp : PrintSpec scan print round) (inp : Input K) (hc : Complete inp) (net : Network K)
    (h : network inp = some net) (hv : net.vertices.length < 2 ^ 32) (he : net.edges.length < 2 ^ 32) (hb : Bounded net.vertices) :
    ∃ (types : Nat → Nat) (content : List Char), make_geo print inp = some ("fiber_network_".toList ++ showNat net.edges.length ++ ".geo".toList, content) ∧
      (∀ i v, net.vertices[i]? = some v → types i ≤ 1 ∧ (types i = 1 ↔ OnBoundary net.vertices v)) ∧
      read_domain_geo m scan 0 3 content =
        .ok (domain round net.vertices net.edges (net.edges.map (fun e => (types e.1, types e.2))) (net.edges_prop.take net.edges.length)) := by
  obtain ⟨hne, hedge⟩ := C99_edges inp net h
  obtain ⟨⟨cs, fs, h1, -, h3, h4, -⟩, -⟩ := network_spec h
  have hle : net.edges.length ≤ net.edges_prop.length := by
    rw [h3, h4, List.length_append, List.length_append, hc.connectionsProp, List.length_map, List.length_map]
    have := forall₂_flatten_length (fun a bs hj => (joins_edges hj).1) h1
    omega
  have htypes := types_some net.vertices net.edges (fun e he => ⟨(hedge e he).1, (hedge e he).2.1⟩)
  refine ⟨fun i => (typeOf net.vertices i).getD 0, unlines ((fileLines print net).getD []), ?_, fun i v hi => ?_, ?_⟩
  · unfold make_geo
    rw [h]
    simp only [Option.bind_eq_bind, Option.bind_some]
    unfold fileLines
    rw [htypes]
    rfl
  · obtain ⟨t, g1, g2, g3⟩ := typeOf_spec hb hi
    simp only [g1, Option.getD_some]
    exact ⟨g2, g3⟩
  · have hl : fileLines print net = some ((fileLines print net).getD []) := by
      unfold fileLines
      rw [htypes]
      rfl
    refine C31_round_trip m scan _ ⟨by simp [domain], by simp [domain], by simp [domain], by simp [domain], .inr ?_, ?_, ?_, ?_⟩ _ (fileLines_newline hp hl) ?_
    · simp only [domain, List.length_map, List.length_take]
      omega
    · obtain ⟨e, he'⟩ := List.exists_mem_of_ne_nil _ hne
      have := (hedge e he').1
      show net.vertices.length ≠ 0
      omega
    · obtain ⟨e, he'⟩ := List.exists_mem_of_ne_nil _ hne
      have := (hedge e he').1
      show net.vertices.length ≠ 0
      omega
    · show net.edges.length ≠ 0
      exact fun hc => hne (List.length_eq_zero_iff.mp hc)
    · have hd := file_describes hp net.vertices net.edges (net.edges.map (fun e => ((typeOf net.vertices e.1).getD 0, (typeOf net.vertices e.2).getD 0))) net.edges_prop hv he
        (fun e he' => ⟨(hedge e he').1.trans hv, (hedge e he').2.1.trans hv⟩)
        (fun e he' => by
          obtain ⟨x, -, rfl⟩ := List.mem_map.mp he'
          exact ⟨lt_of_le_of_lt (typeOf_le _ _) (by decide), lt_of_le_of_lt (typeOf_le _ _) (by decide)⟩)
        (Nat.pos_of_ne_zero (fun hc => hne (List.length_eq_zero_iff.mp hc))) hle
      unfold fileLines
      rw [htypes]
      exact hd

/-- **C99** (where the program fails, repeated vertices).  If the first connection joins two fibres which meet in a point, this point is stored twice; the
domain is rejected by `check_consistency` (with assertions), however the coordinates are rounded. -/
theorem C99_repeated_vertex (inp : Input K) (con : Connection K) (rest : List (Connection K)) (hcon : inp.connections = con :: rest) (p : Point K)
    (h1 : OnFiber inp con.fiber1 con.a1 p) (h2 : OnFiber inp con.fiber2 con.a2 p) (net : Network K) (h : network inp = some net) (sort : StdSort) (hs : SortSpec sort)
    (round : K → K) (types : List (Nat × Nat)) (props : List (Props K)) :
    ¬ net.vertices.Nodup ∧ (domain round net.vertices net.edges types props).check_consistency .debug sort = .abort := by
  unfold network at h
  obtain ⟨s, hs', h⟩ := Option.bind_eq_some_iff.mp h
  obtain ⟨r, hr, h⟩ := Option.bind_eq_some_iff.mp h
  obtain ⟨b1, -⟩ := fiberLoop_spec (s := ⟨s.vertices, s.edges, [], 0⟩) (marked_of hs') hr
  rw [hcon] at hs'
  obtain ⟨s1, g1, g2⟩ := Option.bind_eq_some_iff.mp hs'
  obtain ⟨c1, -⟩ := joinLoop_spec g2
  have hpre : [p, p] <+: s1.vertices := by
    unfold joinStep at g1
    obtain ⟨e1, he1, g1⟩ := Option.bind_eq_some_iff.mp g1
    obtain ⟨e2, he2, g1⟩ := Option.bind_eq_some_iff.mp g1
    obtain ⟨⟨i, va⟩, ha, g1⟩ := Option.bind_eq_some_iff.mp g1
    obtain ⟨⟨j, vb⟩, hb, g1⟩ := Option.bind_eq_some_iff.mp g1
    have g1 := Option.some.inj g1
    subst g1
    have e1' := (fiberEnds_eq he1 con.a1).unique h1
    have e2' := (fiberEnds_eq he2 con.a2).unique h2
    rw [e1', e2'] at ha
    rw [e2'] at hb
    have hab : va <+: vb := by
      rcases (attach_spec hb).2 with rfl | ⟨rfl, -⟩
      exacts [List.prefix_rfl, List.prefix_append _ _]
    refine List.IsPrefix.trans ?_ hab
    rcases (attach_spec ha).2 with rfl | ⟨rfl, -⟩
    exacts [List.prefix_rfl, List.prefix_append _ _]
  split_ifs at h with hnil
  have h := Option.some.inj h
  subst h
  obtain ⟨t, ht⟩ := hpre.trans (c1.trans b1)
  refine ⟨fun hn => ?_, (C30_debug sort hs _).2 (fun hval => ?_)⟩
  · have hn' : r.vertices.Nodup := hn
    rw [← ht] at hn'
    simp at hn'
  · have hn := hval.points
    have e : (domain round r.vertices r.edges types props).points = r.vertices.map (fun p i => round (p i)) := rfl
    rw [e, ← ht] at hn
    simp at hn

/-! ## Examples and witnesses -/

/-- A row of properties. -/
def row (x : ℚ) : Props ℚ := fun _ => x

/-- Two parallel fibres, joined by one connection between their centres. -/
def ladder : Input ℚ where
  nodes := [![0, 0, 0], ![1, 0, 0], ![0, 0, 1], ![1, 0, 1]]
  fibers := [(0, 1), (2, 3)]
  connections := [⟨0, 1, 1 / 2, 1 / 2⟩]
  fibersProps := [row 1, row 2]
  connectionsProp := [row 3]

/-- **C99** (example).  For the two parallel fibres all assumptions hold, and the network has one edge for the connection and two for each fibre. -/
theorem C99_example : Complete ladder ∧ ProperConnections ladder ∧ Separated ladder ∧ Bounded ((network ladder).map Network.vertices |>.getD []) ∧
    (network ladder).map (fun net => (net.vertices, net.edges, net.edges_prop.map (fun r => r 0))) =
      some ([![1 / 2, 0, 0], ![1 / 2, 0, 1], ![0, 0, 0], ![1, 0, 0], ![0, 0, 1], ![1, 0, 1]], [(0, 1), (2, 0), (0, 3), (4, 1), (1, 5)], [3, 1, 1, 2, 2]) := by
  refine ⟨⟨by decide, by decide, by decide, by decide⟩, ?_, ?_, ?_, by decide +kernel⟩
  · intro con hcon p q hp hq
    obtain rfl := List.mem_singleton.mp hcon
    rw [← Option.some.inj (hp.ends.symm.trans (show _ = some (![1 / 2, 0, 0] : Point ℚ) by decide +kernel)).symm,
      ← Option.some.inj (hq.ends.symm.trans (show _ = some (![1 / 2, 0, 1] : Point ℚ) by decide +kernel)).symm]
    decide +kernel
  · intro p q hp hq
    have : ∀ p ∈ relevantPoints ladder, ∀ q ∈ relevantPoints ladder, Near p q → p = q := by decide +kernel
    exact this p (mem_relevantPoints hp) q (mem_relevantPoints hq)
  · unfold Bounded
    decide +kernel

/-- Two fibres which cross, and a third one which is joined to the first one by a connection of positive length. -/
def crossing : Input ℚ where
  nodes := [![0, 0, 0], ![1, 0, 0], ![1 / 2, -1, 0], ![1 / 2, 1, 0], ![0, 0, 1], ![1, 0, 1]]
  fibers := [(0, 1), (2, 3), (4, 5)]
  connections := [⟨0, 1, 1 / 2, 1 / 2⟩, ⟨0, 2, 1 / 4, 1 / 4⟩]
  fibersProps := [row 1, row 2, row 3]
  connectionsProp := [row 10, row 20]

/-- **C99** (witness, properties).  The crossing is no edge, but its properties are written: the other connection gets the properties of the crossing, and the
first piece of the first fibre gets those of the other connection.  There is one row more than there are edges, and the crossing is stored twice. -/
theorem C99_properties_witness : Complete crossing ∧
    (network crossing).map (fun net => (net.vertices, net.edges, net.edges_prop.map (fun r => r 0))) =
      some ([![1 / 2, 0, 0], ![1 / 2, 0, 0], ![1 / 4, 0, 0], ![1 / 4, 0, 1], ![0, 0, 0], ![1, 0, 0], ![1 / 2, -1, 0], ![1 / 2, 1, 0], ![0, 0, 1], ![1, 0, 1]],
        [(2, 3), (4, 2), (2, 0), (0, 5), (6, 0), (0, 7), (8, 3), (3, 9)], [10, 20, 1, 1, 1, 2, 2, 3, 3]) := by
  exact ⟨⟨by decide, by decide, by decide, by decide⟩, by decide +kernel⟩

/-- A fibre (number 1) which begins 8e-11 beside the centre of another one, with a connection from its beginning to a third fibre. -/
def detached : Input ℚ where
  nodes := [![0, 0, 0], ![1, 0, 0], ![1 / 2 + 8 / 10 ^ 11, 0, 0], ![1 / 2, 1, 0], ![0, 0, 1], ![1, 0, 1]]
  fibers := [(0, 1), (2, 3), (4, 5)]
  connections := [⟨0, 2, 1 / 2, 1 / 2⟩, ⟨1, 2, 0, 1 / 4⟩]
  fibersProps := [row 1, row 2, row 3]
  connectionsProp := [row 10, row 20]

/-- **C99** (witness, joints).  The connection is attached to the centre of the first fibre, which is near; but the beginning of the fibre itself becomes
another vertex.  Hence no path leads from the fibre (vertices 5 and 6) to the rest of the network, although the tables contain a connection between them. -/
theorem C99_joints_witness : Complete detached ∧ ProperConnections detached ∧ (∃ con ∈ detached.connections, con.fiber1 = 1 ∧ con.fiber2 = 2) ∧
    (network detached).map (fun net => net.edges) = some [(0, 1), (0, 2), (3, 0), (0, 4), (5, 6), (7, 2), (2, 1), (1, 8)] := by
  refine ⟨⟨by decide, by decide, by decide, by decide⟩, ?_, ⟨⟨1, 2, 0, 1 / 4⟩, by simp [detached], rfl, rfl⟩, by decide +kernel⟩
  intro con hcon p q hp hq
  simp only [detached, List.mem_cons, List.not_mem_nil, or_false] at hcon
  rcases hcon with rfl | rfl
  · rw [← Option.some.inj (hp.ends.symm.trans (show _ = some (![1 / 2, 0, 0] : Point ℚ) by decide +kernel)).symm,
      ← Option.some.inj (hq.ends.symm.trans (show _ = some (![1 / 2, 0, 1] : Point ℚ) by decide +kernel)).symm]
    decide +kernel
  · rw [← Option.some.inj (hp.ends.symm.trans (show _ = some (![1 / 2 + 8 / 10 ^ 11, 0, 0] : Point ℚ) by decide +kernel)).symm,
      ← Option.some.inj (hq.ends.symm.trans (show _ = some (![1 / 4, 0, 1] : Point ℚ) by decide +kernel)).symm]
    decide +kernel

/-- **C99** (example for repeated vertices).  The first connection of the crossing fibres is such a connection. -/
theorem C99_repeated_vertex_example : ∃ con rest p net, crossing.connections = con :: rest ∧ OnFiber crossing con.fiber1 con.a1 p ∧ OnFiber crossing con.fiber2 con.a2 p ∧
    network crossing = some net := by
  have h : (network crossing).isSome = true := by decide +kernel
  obtain ⟨net, hn⟩ := Option.isSome_iff_exists.mp h
  exact ⟨_, _, ![1 / 2, 0, 0], net, rfl, ⟨_, _, _, rfl, rfl, rfl, by decide +kernel⟩, ⟨_, _, _, rfl, rfl, rfl, by decide +kernel⟩, hn⟩

end HyperHDG.MakeGeo

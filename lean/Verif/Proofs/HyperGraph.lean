import Verif.Spec.HyperGraph
import Verif.Proofs.Loops

/-! Helper lemmas: hypergraphs and pointers. -/

namespace HyperHDG.HyperGraph

variable {C : Classes}

theorem vget_ok_iff {α : Type} {v : List α} {i : Nat} {a : α} : vget v i = .ok a ↔ v[i]? = some a := by
  unfold vget
  cases v[i]? <;> simp

theorem vset_ok_iff {α : Type} {v v' : List α} {i : Nat} {a : α} : vset v i a = .ok v' ↔ i < v.length ∧ v' = v.set i a := by
  unfold vset
  split <;> simp [*, eq_comm]

/-- All pointers are valid. -/
structure Valid (w : World C) : Prop where
  graphs : ∀ G ∈ w.graphs, G.topology < w.topos.length ∧ G.geometry < w.geoms.length ∧ G.node_des < w.nodes.length
  topos : ∀ p ∈ w.user_topos, p < w.topos.length
  geoms : ∀ p ∈ w.user_geoms, p < w.geoms.length
  nodes : ∀ p ∈ w.user_nodes, p < w.nodes.length

/-- Hypergraph `i` consists of the given parts, to which nobody else has a pointer. -/
structure Owns (w : World C) (i : Nat) (t : C.Topo) (ge : C.Geom) (nd : C.Node) : Prop where
  owned : ∃ G, w.graphs[i]? = some G ∧ w.topos[G.topology]? = some t ∧ w.geoms[G.geometry]? = some ge ∧
    w.nodes[G.node_des]? = some nd ∧ G.factory = ⟨C.n_dofs_per_node, C.n_hyNodes t⟩ ∧ G.data.length = C.n_hyEdges t ∧
    G.topology ∉ w.user_topos ∧ G.geometry ∉ w.user_geoms ∧ G.node_des ∉ w.user_nodes ∧
    ∀ j G', j ≠ i → w.graphs[j]? = some G' → G'.topology ≠ G.topology ∧ G'.geometry ≠ G.geometry ∧ G'.node_des ≠ G.node_des

theorem mem_of_getElem? {α : Type} {l : List α} {i : Nat} {a : α} (h : l[i]? = some a) : a ∈ l :=
  List.mem_of_getElem? h

theorem lt_of_some {α : Type} {l : List α} {i : Nat} {a : α} (h : l[i]? = some a) : i < l.length :=
  (List.getElem?_eq_some_iff.1 h).1

theorem append_some {α : Type} {l l' : List α} {i : Nat} {a : α} (h : l[i]? = some a) : (l ++ l')[i]? = some a := by
  rw [List.getElem?_append_left (lt_of_some h), h]

theorem construct_ok {m : Mode} {w w' : World C} {p q r : Nat} (h : construct m w p q r = .ok w') :
    ∃ t, w.topos[p]? = some t ∧ w' =
      { w with graphs := w.graphs ++ [⟨p, q, r, ⟨C.n_dofs_per_node, C.n_hyNodes t⟩, List.replicate (C.n_hyEdges t) C.data_default⟩] } ∧
      ∀ w₀ : World C, ∀ p₀ q₀ r₀, w₀.topos[p₀]? = some t → construct m w₀ p₀ q₀ r₀ = .ok
        { w₀ with graphs := w₀.graphs ++ [⟨p₀, q₀, r₀, ⟨C.n_dofs_per_node, C.n_hyNodes t⟩, List.replicate (C.n_hyEdges t) C.data_default⟩] } := by
  unfold construct at h
  simp only [Res.bind_eq_ok, vget_ok_iff] at h
  obtain ⟨t, ht, _, h1, _, h2, _, h3, h4⟩ := h
  refine ⟨t, ht, ?_, fun w₀ p₀ q₀ r₀ h₀ => ?_⟩
  · injection h4 with h4; exact h4.symm
  · unfold construct
    rw [vget_ok_iff.2 h₀, Res.ok_bind]
    simp only [h1, h2, h3, Res.ok_bind]
    rfl

theorem set_refinement_ok {w w' : World C} {i level : Nat} (h : set_refinement w i level = .ok w') :
    ∃ G t ge nd, w.graphs[i]? = some G ∧ w.topos[G.topology]? = some t ∧ w.geoms[G.geometry]? = some ge ∧ w.nodes[G.node_des]? = some nd ∧
      w' = { w with
        topos := w.topos.set G.topology (C.topo_refine t level)
        geoms := w.geoms.set G.geometry (C.geom_refine ge level)
        nodes := w.nodes.set G.node_des (C.node_refine nd level)
        graphs := w.graphs.set i { G with
          factory := ⟨C.n_dofs_per_node, C.n_hyNodes (C.topo_refine t level)⟩
          data := List.replicate (C.n_hyEdges (C.topo_refine t level)) C.data_default } } := by
  unfold set_refinement at h
  simp only [Res.bind_eq_ok, vget_ok_iff, vset_ok_iff] at h
  obtain ⟨G, hG, t, ht, topos, ⟨hl, rfl⟩, ge, hge, geoms, ⟨hl2, rfl⟩, nd, hnd, nodes, ⟨hl3, rfl⟩, t', ht', graphs, ⟨hl4, rfl⟩, hw⟩ := h
  rw [List.getElem?_set_self hl] at ht'
  injection ht' with ht'
  subst ht'
  refine ⟨G, t, ge, nd, hG, ht, hge, hnd, ?_⟩
  injection hw with hw
  exact hw.symm

/-- The reverse: refining succeeds if the pointers are valid. -/
theorem set_refinement_eq {w : World C} {i level : Nat} {G : Graph C} {t ge nd} (hG : w.graphs[i]? = some G) (ht : w.topos[G.topology]? = some t)
    (hge : w.geoms[G.geometry]? = some ge) (hnd : w.nodes[G.node_des]? = some nd) :
    set_refinement w i level = .ok { w with
        topos := w.topos.set G.topology (C.topo_refine t level)
        geoms := w.geoms.set G.geometry (C.geom_refine ge level)
        nodes := w.nodes.set G.node_des (C.node_refine nd level)
        graphs := w.graphs.set i { G with
          factory := ⟨C.n_dofs_per_node, C.n_hyNodes (C.topo_refine t level)⟩
          data := List.replicate (C.n_hyEdges (C.topo_refine t level)) C.data_default } } := by
  unfold set_refinement
  have hl := lt_of_some ht
  rw [vget_ok_iff.2 hG, Res.ok_bind, vget_ok_iff.2 ht, Res.ok_bind, vset_ok_iff.2 ⟨hl, rfl⟩, Res.ok_bind, vget_ok_iff.2 hge, Res.ok_bind,
    vset_ok_iff.2 ⟨lt_of_some hge, rfl⟩, Res.ok_bind, vget_ok_iff.2 hnd, Res.ok_bind, vset_ok_iff.2 ⟨lt_of_some hnd, rfl⟩, Res.ok_bind,
    vget_ok_iff.2 (List.getElem?_set_self hl), Res.ok_bind, vset_ok_iff.2 ⟨lt_of_some hG, rfl⟩]
  rfl

theorem step_valid {m : Mode} {w w' : World C} {c : Cmd C} (hw : Valid w) (h : step m w c = .ok w') : Valid w' := by
  obtain ⟨h1, h2, h3, h4⟩ := hw
  have hctor : ∀ t ge, Valid (allocate w t ge) := fun t ge => by
    constructor <;> simp only [allocate, List.length_append, List.length_singleton]
    · intro G hG; have := h1 G hG; omega
    · intro p hp; have := h2 p hp; omega
    · intro p hp; have := h3 p hp; omega
    · intro p hp; have := h4 p hp; omega
  have hcons : ∀ (w₁ : World C) p q r, Valid w₁ → q < w₁.geoms.length → r < w₁.nodes.length → construct m w₁ p q r = .ok w' → Valid w' := by
    intro w₁ p q r hv hq hr hc
    obtain ⟨t, ht, rfl, _⟩ := construct_ok hc
    obtain ⟨a, b, c, d⟩ := hv
    refine ⟨fun G hG => ?_, b, c, d⟩
    rcases List.mem_append.1 hG with hG | hG
    · exact a G hG
    · rw [List.mem_singleton.1 hG]
      exact ⟨lt_of_some ht, hq, hr⟩
  cases c with
  | make_topo a =>
    injection h with h; subst h
    constructor <;> simp only [List.length_append, List.length_singleton, List.mem_append, List.mem_singleton]
    · intro G hG; have := h1 G hG; omega
    · rintro p (hp | rfl)
      · have := h2 p hp; omega
      · omega
    · exact h3
    · exact h4
  | make_geom a =>
    injection h with h; subst h
    constructor <;> simp only [List.length_append, List.length_singleton, List.mem_append, List.mem_singleton]
    · intro G hG; have := h1 G hG; omega
    · exact h2
    · rintro p (hp | rfl)
      · have := h3 p hp; omega
      · omega
    · exact h4
  | make_geom_of p =>
    simp only [step, Res.bind_eq_ok, vget_ok_iff] at h
    obtain ⟨a, _, t, _, h⟩ := h
    injection h with h; subst h
    constructor <;> simp only [List.length_append, List.length_singleton, List.mem_append, List.mem_singleton]
    · intro G hG; have := h1 G hG; omega
    · exact h2
    · rintro p (hp | rfl)
      · have := h3 p hp; omega
      · omega
    · exact h4
  | make_node_of p =>
    simp only [step, Res.bind_eq_ok, vget_ok_iff] at h
    obtain ⟨a, _, t, _, h⟩ := h
    injection h with h; subst h
    constructor <;> simp only [List.length_append, List.length_singleton, List.mem_append, List.mem_singleton]
    · intro G hG; have := h1 G hG; omega
    · exact h2
    · exact h3
    · rintro p (hp | rfl)
      · have := h4 p hp; omega
      · omega
  | refine_topo p l =>
    simp only [step, Res.bind_eq_ok, vget_ok_iff, vset_ok_iff] at h
    obtain ⟨a, _, t, _, _, ⟨_, rfl⟩, h⟩ := h
    injection h with h; subst h
    constructor <;> simp only [List.length_set] <;> assumption
  | refine_geom p l =>
    simp only [step, Res.bind_eq_ok, vget_ok_iff, vset_ok_iff] at h
    obtain ⟨a, _, t, _, _, ⟨_, rfl⟩, h⟩ := h
    injection h with h; subst h
    constructor <;> simp only [List.length_set] <;> assumption
  | refine_node p l =>
    simp only [step, Res.bind_eq_ok, vget_ok_iff, vset_ok_iff] at h
    obtain ⟨a, _, t, _, _, ⟨_, rfl⟩, h⟩ := h
    injection h with h; subst h
    constructor <;> simp only [List.length_set] <;> assumption
  | graph a => exact hcons _ _ _ _ (hctor _ _) (by simp [allocate]) (by simp [allocate]) h
  | graph_geom a b => exact hcons _ _ _ _ (hctor _ _) (by simp [allocate]) (by simp [allocate]) h
  | graph_shared p q r =>
    simp only [step, Res.bind_eq_ok, vget_ok_iff] at h
    obtain ⟨a, ha, b, hb, c, hc, h⟩ := h
    exact hcons _ _ _ _ ⟨h1, h2, h3, h4⟩ (h3 _ (mem_of_getElem? hb)) (h4 _ (mem_of_getElem? hc)) h
  | refine i l =>
    obtain ⟨G, t, ge, nd, hG, ht, hge, hnd, rfl⟩ := set_refinement_ok h
    constructor <;> simp only [List.length_set]
    · intro G' hG'
      rcases List.mem_or_eq_of_mem_set hG' with hG' | rfl
      · exact h1 _ hG'
      · exact h1 G (mem_of_getElem? hG)
    · exact h2
    · exact h3
    · exact h4
  | set_data i index x =>
    simp only [step, Res.bind_eq_ok, vget_ok_iff, vset_ok_iff] at h
    obtain ⟨G, hG, _, _, data, ⟨_, rfl⟩, _, ⟨_, rfl⟩, h⟩ := h
    injection h with h; subst h
    refine ⟨fun G' hG' => ?_, h2, h3, h4⟩
    rcases List.mem_or_eq_of_mem_set hG' with hG' | rfl
    · exact h1 _ hG'
    · exact h1 G (mem_of_getElem? hG)

theorem set_some_ne {α : Type} {l : List α} {i j : Nat} {a b : α} (h : l[i]? = some a) (hne : j ≠ i) : (l.set j b)[i]? = some a := by
  rw [List.getElem?_set_ne hne, h]

theorem step_length {m : Mode} {w w' : World C} {c : Cmd C} (h : step m w c = .ok w') :
    w'.graphs.length = w.graphs.length + (if c.constructs then 1 else 0) := by
  have hcons : ∀ (w₁ : World C) p q r, construct m w₁ p q r = .ok w' → w'.graphs.length = w₁.graphs.length + 1 := by
    intro w₁ p q r hc
    obtain ⟨t, ht, rfl, _⟩ := construct_ok hc
    simp
  cases c with
  | make_topo a => injection h with h; subst h; rfl
  | make_geom a => injection h with h; subst h; rfl
  | make_geom_of p =>
    simp only [step, Res.bind_eq_ok] at h
    obtain ⟨a, _, t, _, h⟩ := h
    injection h with h; subst h; rfl
  | make_node_of p =>
    simp only [step, Res.bind_eq_ok] at h
    obtain ⟨a, _, t, _, h⟩ := h
    injection h with h; subst h; rfl
  | refine_topo p l =>
    simp only [step, Res.bind_eq_ok] at h
    obtain ⟨a, _, t, _, _, _, h⟩ := h
    injection h with h; subst h; rfl
  | refine_geom p l =>
    simp only [step, Res.bind_eq_ok] at h
    obtain ⟨a, _, t, _, _, _, h⟩ := h
    injection h with h; subst h; rfl
  | refine_node p l =>
    simp only [step, Res.bind_eq_ok] at h
    obtain ⟨a, _, t, _, _, _, h⟩ := h
    injection h with h; subst h; rfl
  | graph a => exact hcons (allocate w _ _) _ _ _ h
  | graph_geom a b => exact hcons (allocate w _ _) _ _ _ h
  | graph_shared p q r =>
    simp only [step, Res.bind_eq_ok] at h
    obtain ⟨a, ha, b, hb, c, hc, h⟩ := h
    exact hcons _ _ _ _ h
  | refine i l =>
    obtain ⟨G, t, ge, nd, hG, ht, hge, hnd, rfl⟩ := set_refinement_ok h
    simp [Cmd.constructs]
  | set_data i index x =>
    simp only [step, Res.bind_eq_ok, vset_ok_iff] at h
    obtain ⟨G, hG, _, _, data, _, _, ⟨_, rfl⟩, h⟩ := h
    injection h with h; subst h
    simp [Cmd.constructs]

/-- A hypergraph made by one of the first two constructors owns its parts. -/
theorem construct_owns {m : Mode} {w w' : World C} (hw : Valid w) (t : C.Topo) (ge : C.Geom)
    (h : construct m (allocate w t ge) w.topos.length w.geoms.length w.nodes.length = .ok w') :
    Owns w' w.graphs.length t ge (C.node_of_topo t) := by
  obtain ⟨t', ht', rfl, _⟩ := construct_ok h
  have : t' = t := by simpa [allocate] using ht'.symm
  subst this
  obtain ⟨h1, h2, h3, h4⟩ := hw
  refine ⟨⟨w.topos.length, w.geoms.length, w.nodes.length, ⟨C.n_dofs_per_node, C.n_hyNodes t'⟩,
    List.replicate (C.n_hyEdges t') C.data_default⟩, by simp [allocate], by simp [allocate], by simp [allocate], by simp [allocate], rfl, by simp, ?_, ?_, ?_, ?_⟩
  · exact fun hp => Nat.lt_irrefl _ (h2 _ hp)
  · exact fun hp => Nat.lt_irrefl _ (h3 _ hp)
  · exact fun hp => Nat.lt_irrefl _ (h4 _ hp)
  · intro j G' hj hG'
    have hlt := lt_of_some hG'
    simp only [allocate, List.length_append, List.length_singleton] at hlt
    simp only [allocate] at hG'
    rw [List.getElem?_append_left (by omega)] at hG'
    have := h1 G' (mem_of_getElem? hG')
    dsimp only
    omega

theorem construct_keeps {m : Mode} {w w' : World C} {i : Nat} {t ge nd} {p q r : Nat} (h : Owns w i t ge nd)
    (hfresh : ∀ G, w.graphs[i]? = some G → p ≠ G.topology ∧ q ≠ G.geometry ∧ r ≠ G.node_des) (hc : construct m w p q r = .ok w') : Owns w' i t ge nd := by
  obtain ⟨G, hG, a1, a2, a3, a4, a5, a6, a7, a8, a9⟩ := h
  obtain ⟨t', ht', rfl, _⟩ := construct_ok hc
  refine ⟨G, append_some hG, a1, a2, a3, a4, a5, a6, a7, a8, fun j G' hj hG' => ?_⟩
  rcases Nat.lt_or_ge j w.graphs.length with hl | hl
  · rw [List.getElem?_append_left hl] at hG'
    exact a9 j G' hj hG'
  · rw [List.getElem?_append_right hl] at hG'
    have := List.mem_singleton.1 (mem_of_getElem? hG')
    subst this
    exact hfresh G hG

theorem allocate_keeps {w : World C} {i : Nat} {t ge nd} (h : Owns w i t ge nd) (t' : C.Topo) (ge' : C.Geom) : Owns (allocate w t' ge') i t ge nd := by
  obtain ⟨G, hG, a1, a2, a3, a4, a5, a6, a7, a8, a9⟩ := h
  exact ⟨G, hG, append_some a1, append_some a2, append_some a3, a4, a5, a6, a7, a8, a9⟩

/-- What an operation does to a hypergraph which owns its parts. -/
theorem step_owns {m : Mode} {w w' : World C} {c : Cmd C} {i : Nat} {t ge nd} (h : Owns w i t ge nd) (hs : step m w c = .ok w') :
    (∃ l, c = .refine i l ∧ Owns w' i (C.topo_refine t l) (C.geom_refine ge l) (C.node_refine nd l)) ∨
      ((∀ l, c ≠ .refine i l) ∧ Owns w' i t ge nd) := by
  have h' := h
  obtain ⟨G, hG, a1, a2, a3, a4, a5, a6, a7, a8, a9⟩ := h
  have hnew : ∀ (v : List Nat) (L p : Nat), p < L → p ∉ v → p ∉ v ++ [L] := by
    intro v L p hp hv hm
    rcases List.mem_append.1 hm with hm | hm
    · exact hv hm
    · rw [List.mem_singleton.1 hm] at hp; exact Nat.lt_irrefl _ hp
  cases c with
  | make_topo a =>
    injection hs with hs; subst hs
    exact .inr ⟨fun _ => by simp, G, hG, append_some a1, a2, a3, a4, a5, hnew _ _ _ (lt_of_some a1) a6, a7, a8, a9⟩
  | make_geom a =>
    injection hs with hs; subst hs
    exact .inr ⟨fun _ => by simp, G, hG, a1, append_some a2, a3, a4, a5, a6, hnew _ _ _ (lt_of_some a2) a7, a8, a9⟩
  | make_geom_of p =>
    simp only [step, Res.bind_eq_ok] at hs
    obtain ⟨a, _, t', _, hs⟩ := hs
    injection hs with hs; subst hs
    exact .inr ⟨fun _ => by simp, G, hG, a1, append_some a2, a3, a4, a5, a6, hnew _ _ _ (lt_of_some a2) a7, a8, a9⟩
  | make_node_of p =>
    simp only [step, Res.bind_eq_ok] at hs
    obtain ⟨a, _, t', _, hs⟩ := hs
    injection hs with hs; subst hs
    exact .inr ⟨fun _ => by simp, G, hG, a1, a2, append_some a3, a4, a5, a6, a7, hnew _ _ _ (lt_of_some a3) a8, a9⟩
  | refine_topo p l =>
    simp only [step, Res.bind_eq_ok, vget_ok_iff, vset_ok_iff] at hs
    obtain ⟨a, ha, t', _, _, ⟨_, rfl⟩, hs⟩ := hs
    injection hs with hs; subst hs
    have hne : a ≠ G.topology := fun e => a6 (e ▸ mem_of_getElem? ha)
    exact .inr ⟨fun _ => by simp, G, hG, set_some_ne a1 hne, a2, a3, a4, a5, a6, a7, a8, a9⟩
  | refine_geom p l =>
    simp only [step, Res.bind_eq_ok, vget_ok_iff, vset_ok_iff] at hs
    obtain ⟨a, ha, t', _, _, ⟨_, rfl⟩, hs⟩ := hs
    injection hs with hs; subst hs
    have hne : a ≠ G.geometry := fun e => a7 (e ▸ mem_of_getElem? ha)
    exact .inr ⟨fun _ => by simp, G, hG, a1, set_some_ne a2 hne, a3, a4, a5, a6, a7, a8, a9⟩
  | refine_node p l =>
    simp only [step, Res.bind_eq_ok, vget_ok_iff, vset_ok_iff] at hs
    obtain ⟨a, ha, t', _, _, ⟨_, rfl⟩, hs⟩ := hs
    injection hs with hs; subst hs
    have hne : a ≠ G.node_des := fun e => a8 (e ▸ mem_of_getElem? ha)
    exact .inr ⟨fun _ => by simp, G, hG, a1, a2, set_some_ne a3 hne, a4, a5, a6, a7, a8, a9⟩
  | graph a =>
    refine .inr ⟨fun _ => by simp, construct_keeps (allocate_keeps h' _ _) (fun G' hG' => ?_) hs⟩
    have : G' = G := by
      have := hG'.symm.trans hG
      injection this
    subst this
    exact ⟨(lt_of_some a1).ne', (lt_of_some a2).ne', (lt_of_some a3).ne'⟩
  | graph_geom a b =>
    refine .inr ⟨fun _ => by simp, construct_keeps (allocate_keeps h' _ _) (fun G' hG' => ?_) hs⟩
    have : G' = G := by
      have := hG'.symm.trans hG
      injection this
    subst this
    exact ⟨(lt_of_some a1).ne', (lt_of_some a2).ne', (lt_of_some a3).ne'⟩
  | graph_shared p q r =>
    simp only [step, Res.bind_eq_ok, vget_ok_iff] at hs
    obtain ⟨a, ha, b, hb, c, hc, hs⟩ := hs
    refine .inr ⟨fun _ => by simp, construct_keeps h' (fun G' hG' => ?_) hs⟩
    have : G' = G := by
      have := hG'.symm.trans hG
      injection this
    subst this
    exact ⟨fun e => a6 (e ▸ mem_of_getElem? ha), fun e => a7 (e ▸ mem_of_getElem? hb), fun e => a8 (e ▸ mem_of_getElem? hc)⟩
  | refine j l =>
    obtain ⟨G', t', ge', nd', hG', ht', hge', hnd', rfl⟩ := set_refinement_ok hs
    by_cases hj : j = i
    · subst hj
      have : G' = G := by
        have := hG'.symm.trans hG
        injection this
      subst this
      rw [a1] at ht'; rw [a2] at hge'; rw [a3] at hnd'
      injection ht' with ht'; injection hge' with hge'; injection hnd' with hnd'
      subst ht' hge' hnd'
      refine .inl ⟨l, rfl, _, List.getElem?_set_self (lt_of_some hG), List.getElem?_set_self (lt_of_some a1), List.getElem?_set_self (lt_of_some a2),
        List.getElem?_set_self (lt_of_some a3), rfl, by simp, a6, a7, a8, fun k H hk hH => ?_⟩
      rw [List.getElem?_set_ne (Ne.symm hk)] at hH
      exact a9 k H hk hH
    · obtain ⟨b1, b2, b3⟩ := a9 j G' hj hG'
      refine .inr ⟨fun l' e => hj (by injection e), G, set_some_ne hG hj, set_some_ne a1 b1, set_some_ne a2 b2, set_some_ne a3 b3, a4, a5, a6, a7, a8,
        fun k H hk hH => ?_⟩
      by_cases hkj : k = j
      · subst hkj
        have e := (List.getElem?_set_self (lt_of_some hG')).symm.trans hH
        injection e with e
        rw [← e]
        exact a9 k G' hk hG'
      · rw [List.getElem?_set_ne (Ne.symm hkj)] at hH
        exact a9 k H hk hH
  | set_data j index x =>
    simp only [step, Res.bind_eq_ok, vget_ok_iff, vset_ok_iff] at hs
    obtain ⟨G', hG', _, _, data, ⟨_, rfl⟩, _, ⟨_, rfl⟩, hs⟩ := hs
    injection hs with hs; subst hs
    refine .inr ⟨fun _ => by simp, ?_⟩
    by_cases hj : j = i
    · subst hj
      have : G' = G := by
        have := hG'.symm.trans hG
        injection this
      subst this
      refine ⟨_, List.getElem?_set_self (lt_of_some hG), a1, a2, a3, a4, ?_, a6, a7, a8, fun k H hk hH => ?_⟩
      · rw [List.length_set]; exact a5
      · rw [List.getElem?_set_ne (Ne.symm hk)] at hH
        exact a9 k H hk hH
    · refine ⟨G, set_some_ne hG hj, a1, a2, a3, a4, a5, a6, a7, a8, fun k H hk hH => ?_⟩
      by_cases hkj : k = j
      · subst hkj
        have e := (List.getElem?_set_self (lt_of_some hG')).symm.trans hH
        injection e with e
        rw [← e]
        exact a9 k G' hk hG'
      · rw [List.getElem?_set_ne (Ne.symm hkj)] at hH
        exact a9 k H hk hH

theorem run_append {m : Mode} {w w' : World C} {as bs : List (Cmd C)} :
    run m w (as ++ bs) = .ok w' ↔ ∃ w₁, run m w as = .ok w₁ ∧ run m w₁ bs = .ok w' := by
  induction as generalizing w with
  | nil => simp [run]
  | cons c cs ih =>
    simp only [List.cons_append, run, Res.bind_eq_ok, ih]
    constructor
    · rintro ⟨a, h1, b, h2, h3⟩; exact ⟨b, ⟨a, h1, h2⟩, h3⟩
    · rintro ⟨b, ⟨a, h1, h2⟩, h3⟩; exact ⟨a, h1, b, h2, h3⟩

theorem run_valid {m : Mode} {w w' : World C} {cs : List (Cmd C)} (hw : Valid w) (h : run m w cs = .ok w') : Valid w' := by
  induction cs generalizing w with
  | nil => injection h with h; exact h ▸ hw
  | cons c cs ih =>
    simp only [run, Res.bind_eq_ok] at h
    obtain ⟨w₁, h1, h2⟩ := h
    exact ih (step_valid hw h1) h2

theorem run_length {m : Mode} {w w' : World C} {cs : List (Cmd C)} (h : run m w cs = .ok w') :
    w'.graphs.length = w.graphs.length + nConstructed cs := by
  induction cs generalizing w with
  | nil => injection h with h; subst h; rfl
  | cons c cs ih =>
    simp only [run, Res.bind_eq_ok] at h
    obtain ⟨w₁, h1, h2⟩ := h
    rw [ih h2, step_length h1]
    unfold nConstructed
    by_cases hc : c.constructs
    · rw [List.filter_cons_of_pos hc, if_pos hc, List.length_cons]; omega
    · rw [List.filter_cons_of_neg hc, if_neg hc]; omega

theorem empty_valid : Valid (World.empty : World C) := by
  constructor <;> simp [World.empty]

theorem lastLevel_other (i level : Nat) {c : Cmd C} (cs : List (Cmd C)) (h : ∀ l, c ≠ .refine i l) :
    lastLevel i level (c :: cs) = lastLevel i level cs := by
  cases c with
  | refine j l =>
    show lastLevel i (if j = i then l else level) cs = _
    rw [if_neg (fun e => h l (by rw [e]))]
  | _ => rfl

/-- After a sequence of operations a hypergraph consists of its parts refined to the level last set. -/
theorem run_owns {m : Mode} {w w' : World C} {cs : List (Cmd C)} {i l : Nat} {t ge nd} (hC : C.Refinable)
    (h : Owns w i (C.topo_refine t l) (C.geom_refine ge l) (C.node_refine nd l)) (hr : run m w cs = .ok w') :
    Owns w' i (C.topo_refine t (lastLevel i l cs)) (C.geom_refine ge (lastLevel i l cs)) (C.node_refine nd (lastLevel i l cs)) := by
  induction cs generalizing w l with
  | nil => injection hr with hr; exact hr ▸ h
  | cons c cs ih =>
    simp only [run, Res.bind_eq_ok] at hr
    obtain ⟨w₁, h1, h2⟩ := hr
    rcases step_owns h h1 with ⟨l', rfl, ho⟩ | ⟨hne, ho⟩
    · rw [hC.topo_last, hC.geom_last, hC.node_last] at ho
      have := ih ho h2
      simpa [lastLevel] using this
    · rw [lastLevel_other i l cs hne]
      exact ih ho h2

theorem content_owns {w : World C} {i : Nat} {t ge nd} (h : Owns w i t ge nd) :
    content w i = .ok ⟨t, ge, nd, ⟨C.n_dofs_per_node, C.n_hyNodes t⟩, C.n_hyEdges t⟩ := by
  obtain ⟨G, hG, a1, a2, a3, a4, a5, _⟩ := h
  unfold content
  rw [vget_ok_iff.2 hG, Res.ok_bind, vget_ok_iff.2 a1, Res.ok_bind, vget_ok_iff.2 a2, Res.ok_bind, vget_ok_iff.2 a3, Res.ok_bind, a4, a5]
  rfl

theorem get_eq {m : Mode} {w : World C} {g : Graph C} {index : Nat} {t ge nd x y z} (a1 : w.topos[g.topology]? = some t)
    (a2 : w.geoms[g.geometry]? = some ge) (a3 : w.nodes[g.node_des]? = some nd) (h1 : C.topo_get m t index = .ok x)
    (h2 : C.geom_get m ge index = .ok y) (h3 : C.node_get m nd index = .ok z) (hlt : index < g.data.length) :
    get m w g index = .ok (x, y, z, g.data[index]) := by
  unfold get
  rw [vget_ok_iff.2 a1, Res.ok_bind, h1, Res.ok_bind, vget_ok_iff.2 a2, Res.ok_bind, h2, Res.ok_bind, vget_ok_iff.2 a3, Res.ok_bind, h3, Res.ok_bind]
  unfold hyEdge_data
  rw [hyAssert_of hlt, Res.ok_bind, vget_of_lt hlt, Res.ok_bind]
  rfl

end HyperHDG.HyperGraph

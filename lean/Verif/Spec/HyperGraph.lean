import Verif.Model.HyperGraph

/-! Vocabulary for the theorems on hypergraphs. -/

namespace HyperHDG.HyperGraph

variable {C : Classes}

/-- Does the operation construct a hypergraph? -/
def Cmd.constructs : Cmd C → Bool
  | .graph _ => true
  | .graph_geom _ _ => true
  | .graph_shared _ _ _ => true
  | _ => false

/-- The number of hypergraphs constructed by a sequence of operations.  The next one gets this number. -/
def nConstructed (cmds : List (Cmd C)) : Nat := (cmds.filter Cmd.constructs).length

/-- The refinement level of hypergraph `i` after a sequence of operations, if it was `level` before: that of the last `set_refinement` call. -/
def lastLevel (i : Nat) : Nat → List (Cmd C) → Nat
  | level, [] => level
  | level, .refine j l :: cs => lastLevel i (if j = i then l else level) cs
  | level, _ :: cs => lastLevel i level cs

/-- All that can be observed of a hypergraph, except for the contents of its data container. -/
structure Content (C : Classes) where
  topology : C.Topo
  geometry : C.Geom
  node_des : C.Node
  factory : HyperNodeFactory
  n_data : Nat

/-- The hypergraph number `i` of a program. -/
def content (w : World C) (i : Nat) : Res (Content C) := do
  let g ← vget w.graphs i
  let t ← vget w.topos g.topology
  let ge ← vget w.geoms g.geometry
  let nd ← vget w.nodes g.node_des
  return ⟨t, ge, nd, g.factory, g.data.length⟩

/-- What the classes have to do on `set_refinement`: the result is that of refining once, and the parts refined one by one are the same as the
parts made from the refined topology. -/
structure Classes.Refinable (C : Classes) : Prop where
  topo_last : ∀ t l l', C.topo_refine (C.topo_refine t l) l' = C.topo_refine t l'
  geom_last : ∀ t l l', C.geom_refine (C.geom_refine t l) l' = C.geom_refine t l'
  node_last : ∀ t l l', C.node_refine (C.node_refine t l) l' = C.node_refine t l'
  topo_one : ∀ a, C.topo_refine (C.topo_make a) 1 = C.topo_make a
  geom_one : ∀ a, C.geom_refine (C.geom_make a) 1 = C.geom_make a
  geom_of : ∀ a l, C.geom_refine (C.geom_of_topo (C.topo_make a)) l = C.geom_of_topo (C.topo_refine (C.topo_make a) l)
  node_of : ∀ a l, C.node_refine (C.node_of_topo (C.topo_make a)) l = C.node_of_topo (C.topo_refine (C.topo_make a) l)
  level : ∀ a l, C.topo_refinement (C.topo_refine (C.topo_make a) l) = l

end HyperHDG.HyperGraph

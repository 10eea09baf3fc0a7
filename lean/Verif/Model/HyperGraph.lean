import Verif.Model.Topology
import Verif.Model.UnitCube
import Verif.Model.GlobalLoop

/-!
# Model of `include/HyperHDG/hdg_hypergraph.hxx` and `include/HyperHDG/hy_data_container.hxx`

The classes of the topology, geometry, node descriptor and data are template parameters; `Classes` collects what `HDGHyperGraph` uses of them.  Topology, geometry and node
descriptor are held by `std::shared_ptr`, so several hypergraphs and the user's own variables may point to the same object: the model has a heap of objects, and pointers are
positions in it.
-/

namespace HyperHDG

namespace HyperGraph

/-- The template parameters of `HDGHyperGraph`: `hdg_hypergraph.hxx` 45-50, with the functions which it calls. -/
structure Classes where
  n_dofs_per_node : Nat
  TopoArg : Type
  GeomArg : Type
  Topo : Type
  Geom : Type
  Node : Type
  TopoEdge : Type
  GeomEdge : Type
  NodeEdge : Type
  Data : Type
  topo_make : TopoArg → Topo
  geom_make : GeomArg → Geom
  geom_of_topo : Topo → Geom
  node_of_topo : Topo → Node
  topo_refine : Topo → Nat → Topo
  geom_refine : Geom → Nat → Geom
  node_refine : Node → Nat → Node
  topo_refinement : Topo → Nat
  n_hyEdges : Topo → Nat
  n_hyNodes : Topo → Nat
  topo_get : Mode → Topo → Nat → Res TopoEdge
  geom_get : Mode → Geom → Nat → Res GeomEdge
  node_get : Mode → Node → Nat → Res NodeEdge
  /-- `DataT()`. -/
  data_default : Data

variable {C : Classes}

/-- The members of an `HDGHyperGraph`: `hdg_hypergraph.hxx` 264-293.  The data container is `hy_data_container.hxx` 29. -/
structure Graph (C : Classes) where
  topology : Nat
  geometry : Nat
  node_des : Nat
  factory : HyperNodeFactory
  data : List C.Data

/-- All objects of a program that uses hypergraphs: the objects created by `make_shared`, the hypergraphs, and the shared pointers which the program itself holds. -/
structure World (C : Classes) where
  topos : List C.Topo
  geoms : List C.Geom
  nodes : List C.Node
  graphs : List (Graph C)
  user_topos : List Nat
  user_geoms : List Nat
  user_nodes : List Nat

/-- The beginning of a program. -/
def World.empty : World C := ⟨[], [], [], [], [], [], []⟩

/-- Constructor from three pointers: `hdg_hypergraph.hxx` 370-391; also the common part (310-324, 342-356) of the other constructors.
`HyDataContainer` is constructed by `hy_data_container.hxx` 45 (value-initialised elements). -/
def construct (m : Mode) (w : World C) (topo geom node : Nat) : Res (World C) := do
  let t ← vget w.topos topo
  let factory : HyperNodeFactory := ⟨C.n_dofs_per_node, C.n_hyNodes t⟩
  let data := List.replicate (C.n_hyEdges t) C.data_default
  hyAssert m (factory.n_hyNodes = C.n_hyNodes t)
  hyAssert m (2 ≤ factory.n_hyNodes)
  hyAssert m (0 < C.n_hyEdges t)
  return { w with graphs := w.graphs ++ [⟨topo, geom, node, factory, data⟩] }

/-- Creation of the three objects: `hdg_hypergraph.hxx` 307-309 and 339-341. -/
def allocate (w : World C) (t : C.Topo) (g : C.Geom) : World C :=
  { w with
    topos := w.topos ++ [t]
    geoms := w.geoms ++ [g]
    nodes := w.nodes ++ [C.node_of_topo t] }

/-- Constructor from an argument for the topology: `hdg_hypergraph.hxx` 306-325. -/
def construct_topo (m : Mode) (w : World C) (a : C.TopoArg) : Res (World C) :=
  let t := C.topo_make a
  construct m (allocate w t (C.geom_of_topo t)) w.topos.length w.geoms.length w.nodes.length

/-- Constructor from arguments for topology and geometry: `hdg_hypergraph.hxx` 337-357. -/
def construct_topo_geom (m : Mode) (w : World C) (a : C.TopoArg) (b : C.GeomArg) : Res (World C) :=
  construct m (allocate w (C.topo_make a) (C.geom_make b)) w.topos.length w.geoms.length w.nodes.length

/-- `set_refinement(level)` of hypergraph `i`: `hdg_hypergraph.hxx` 525-533. -/
def set_refinement (w : World C) (i level : Nat) : Res (World C) := do
  let g ← vget w.graphs i
  let t ← vget w.topos g.topology
  let topos ← vset w.topos g.topology (C.topo_refine t level)
  let ge ← vget w.geoms g.geometry
  let geoms ← vset w.geoms g.geometry (C.geom_refine ge level)
  let nd ← vget w.nodes g.node_des
  let nodes ← vset w.nodes g.node_des (C.node_refine nd level)
  let t ← vget topos g.topology
  let graphs ← vset w.graphs i
    { g with
      factory := ⟨C.n_dofs_per_node, C.n_hyNodes t⟩
      data := List.replicate (C.n_hyEdges t) C.data_default }
  return { w with topos := topos, geoms := geoms, nodes := nodes, graphs := graphs }

/-- `hyEdge_data(index)`: `hdg_hypergraph.hxx` 494, `hy_data_container.hxx` 53-67. -/
def hyEdge_data (m : Mode) (g : Graph C) (index : Nat) : Res C.Data := do
  hyAssert m (index < g.data.length)
  vget g.data index

/-- `operator[](index)` of hypergraph `g`: `hdg_hypergraph.hxx` 403-407, 460-494.  (The order in which the four parts are built is unspecified in C++.) -/
def get (m : Mode) (w : World C) (g : Graph C) (index : Nat) : Res (C.TopoEdge × C.GeomEdge × C.NodeEdge × C.Data) := do
  let t ← vget w.topos g.topology
  let topo ← C.topo_get m t index
  let ge ← vget w.geoms g.geometry
  let geom ← C.geom_get m ge index
  let nd ← vget w.nodes g.node_des
  let node ← C.node_get m nd index
  let data ← hyEdge_data m g index
  return (topo, geom, node, data)

/-- `n_hyEdges()`, `get_refinement()`: `hdg_hypergraph.hxx` 500, 521. -/
def n_hyEdges (w : World C) (g : Graph C) : Res Nat := do
  let t ← vget w.topos g.topology
  return C.n_hyEdges t
@[inherit_doc n_hyEdges] def get_refinement (w : World C) (g : Graph C) : Res Nat := do
  let t ← vget w.topos g.topology
  return C.topo_refinement t

/-- `n_hyNodes()`, `n_global_dofs()`: `hdg_hypergraph.hxx` 506, 514-517. -/
def n_hyNodes (g : Graph C) : Nat := g.factory.n_hyNodes
@[inherit_doc n_hyNodes] def n_global_dofs (g : Graph C) : Nat := g.factory.n_global_dofs

/-- What a program can do with hypergraphs.  Pointers which the program holds are given as positions among its variables. -/
inductive Cmd (C : Classes) where
  | make_topo (a : C.TopoArg)
  | make_geom (b : C.GeomArg)
  | make_geom_of (p : Nat)
  | make_node_of (p : Nat)
  | refine_topo (p level : Nat)
  | refine_geom (p level : Nat)
  | refine_node (p level : Nat)
  | graph (a : C.TopoArg)
  | graph_geom (a : C.TopoArg) (b : C.GeomArg)
  | graph_shared (p q r : Nat)
  | refine (i level : Nat)
  | set_data (i index : Nat) (x : C.Data)

/-- The effect of one of these operations. -/
def step (m : Mode) (w : World C) : Cmd C → Res (World C)
  | .make_topo a => return { w with topos := w.topos ++ [C.topo_make a], user_topos := w.user_topos ++ [w.topos.length] }
  | .make_geom b => return { w with geoms := w.geoms ++ [C.geom_make b], user_geoms := w.user_geoms ++ [w.geoms.length] }
  | .make_geom_of p => do
    let a ← vget w.user_topos p
    let t ← vget w.topos a
    return { w with geoms := w.geoms ++ [C.geom_of_topo t], user_geoms := w.user_geoms ++ [w.geoms.length] }
  | .make_node_of p => do
    let a ← vget w.user_topos p
    let t ← vget w.topos a
    return { w with nodes := w.nodes ++ [C.node_of_topo t], user_nodes := w.user_nodes ++ [w.nodes.length] }
  | .refine_topo p level => do
    let a ← vget w.user_topos p
    let t ← vget w.topos a
    let topos ← vset w.topos a (C.topo_refine t level)
    return { w with topos := topos }
  | .refine_geom p level => do
    let a ← vget w.user_geoms p
    let t ← vget w.geoms a
    let geoms ← vset w.geoms a (C.geom_refine t level)
    return { w with geoms := geoms }
  | .refine_node p level => do
    let a ← vget w.user_nodes p
    let t ← vget w.nodes a
    let nodes ← vset w.nodes a (C.node_refine t level)
    return { w with nodes := nodes }
  | .graph a => construct_topo m w a
  | .graph_geom a b => construct_topo_geom m w a b
  | .graph_shared p q r => do
    let a ← vget w.user_topos p
    let b ← vget w.user_geoms q
    let c ← vget w.user_nodes r
    construct m w a b c
  | .refine i level => set_refinement w i level
  | .set_data i index x => do
    let g ← vget w.graphs i
    hyAssert m (index < g.data.length)
    let data ← vset g.data index x
    let graphs ← vset w.graphs i { g with data := data }
    return { w with graphs := graphs }

/-- A sequence of operations. -/
def run (m : Mode) : World C → List (Cmd C) → Res (World C)
  | w, [] => .ok w
  | w, c :: cs => step m w c >>= fun w' => run m w' cs

/-- The classes of a cubic hypergraph with the geometry of the unit cube: `Topology::Cubic`, `Geometry::UnitCube`, `NodeDescriptor::Cubic`. -/
def cubic (T : Tpcc) (d s n : Nat) (h : d + 1 ≤ s) (K : Type) [Field K] [LinearOrder K] (D : Type) (default : D) : Classes where
  n_dofs_per_node := n
  TopoArg := Fin s → Nat
  GeomArg := Fin s → Nat
  Topo := Topology.Cubic d s
  Geom := Geometry.UnitCube d s
  Node := NodeDescriptor.Cubic d s
  TopoEdge := FaceArr d
  GeomEdge := Geometry.UnitCube.HyEdge d s K
  NodeEdge := FaceArr d
  Data := D
  topo_make := Topology.Cubic.mk' T h
  geom_make := Geometry.UnitCube.mk' h
  geom_of_topo := Geometry.UnitCube.ofTopology h
  node_of_topo := NodeDescriptor.Cubic.ofTopology
  topo_refine := Topology.Cubic.set_refinement T
  geom_refine := Geometry.UnitCube.set_refinement
  node_refine := NodeDescriptor.Cubic.set_refinement T
  topo_refinement := Topology.Cubic.get_refinement
  n_hyEdges := Topology.Cubic.n_hyEdges
  n_hyNodes := Topology.Cubic.n_hyNodes
  topo_get := fun m => Topology.Cubic.get_hyNode_indices m T
  geom_get := fun m g index => Geometry.UnitCube.HyEdge.make m T g index
  node_get := fun m => NodeDescriptor.Cubic.get_hyFace_types m T
  data_default := default

end HyperGraph

end HyperHDG

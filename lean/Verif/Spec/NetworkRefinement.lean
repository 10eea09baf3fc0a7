import Verif.Spec.ErrorEstimate
import Verif.Spec.Connected
import Verif.Spec.Refinement

/-!
# Specification: diffusion problems on refined networks
-/

namespace HyperHDG.Diffusion

open Spec HyGraph Polynomial

/-- The data on the part number `k` (counted from 0 along the edge) of an edge which is divided into `n` parts of equal length. -/
noncomputable def Data.part (B : Data 0) (n k : Nat) : Data 0 where
  A := { B.A with vol := B.A.vol / n }
  a := fun z => B.a fun _ => (k + z 0) / n
  f := fun z => B.f fun _ => (k + z 0) / n
  g := fun z => B.g fun _ => (k + z 0) / n
  w := fun z => B.w fun _ => (k + z 0) / n

/-- A network read from a file whose hyperfaces with types in `L` are Dirichlet faces: type 0, which refinement gives to new faces, is not in `L`; whether a hypernode belongs to `DN` is what the types of all of its faces say;
each hypernode is connected to one of `DN` by a chain of edges. -/
structure DirichletFile (dom : DomainTopo 0) (L : List Nat) (DN : Nat → Prop) : Prop where
  consistent : dom.Consistent
  zero : 0 ∉ L
  types : ∀ (e : Nat) (nodes types : Fin (2 * (0 + 1)) → Nat), dom.hyNodes_hyEdge[e]? = some nodes → dom.hyFaces_hyEdge[e]? = some types → ∀ f, types f ∈ L ↔ DN (nodes f)
  anchored : ∀ v, v < dom.n_hyNodes → ∃ w, w < dom.n_hyNodes ∧ DN w ∧ Relation.ReflTransGen (LinkedInFile dom) w v

/-- The problem on the network of a file, each edge refined into `n` parts: the hypergraph is the one of the refined topology, the types of hyperfaces are those of its node descriptor, the local solver gets the integrals of the data of
the parts.  `B e` are the data of edge `e` of the file. -/
structure RefinedNetwork (m : Mode) (T : Tpcc) (dom : DomainTopo 0) (L : List Nat) (B : Nat → Data 0) (time : ℝ) (n : Nat) {p : Nat} (P : Fin (p + 1) → ℝ[X]) (G : HyGraph (0 + 1) ((p + 1) ^ 0))
    (E : Nat → Edge (0 + 1) ((p + 1) ^ (0 + 1)) ℝ) : Prop where
  graph : DescribedBy G ((Topology.File.mk' T dom).set_refinement T n).n_hyEdges ((Topology.File.mk' T dom).set_refinement T n).n_hyNodes
    (((Topology.File.mk' T dom).set_refinement T n).get_hyNode_indices m T)
  types : ∀ e, e < dom.n_hyEdges * n → (NodeDescriptor.File.ofTopology ((Topology.File.mk' T dom).set_refinement T n)).get_hyFace_types m T e = .ok fun f => (E e).node_descriptor f
  dirichlet : ∀ e, (E e).dirichlet_nodes = L
  integrals : ∀ e, ExactIntegrals P ((B (e / n)).part n (refPos T 0 n e 0)) time (E e)

/-- No index of the refined network overflows. -/
structure RefinedFits (dom : DomainTopo 0) (n : Nat) : Prop where
  pos : 0 < n
  edges : dom.n_hyEdges * n < U32
  nodes : dom.n_hyNodes + dom.n_hyEdges * (n - 1) < U32

/-- The network of a file as the families of data and hypernodes used by `IsClassicalSolution`: functions `q e`, `u e` on its edges, numbers `w v` for its hypernodes. -/
def SolvesOnFile (dom : DomainTopo 0) (DN : Nat → Prop) (B : Nat → Data 0) (q u : Nat → ℝ → ℝ) (w : Nat → ℝ) : Prop :=
  ∃ nodes : Fin dom.n_hyEdges → Fin (2 * (0 + 1)) → Fin dom.n_hyNodes, (∀ e, ∃ h : e.1 < dom.hyNodes_hyEdge.length, ∀ f, (nodes e f).1 = dom.hyNodes_hyEdge[e.1] f) ∧
    IsClassicalSolution (fun e : Fin dom.n_hyEdges => B e) nodes (fun v => DN v) (fun e _ z => q e (z 0)) (fun e z => u e (z 0)) fun v _ => w v

end HyperHDG.Diffusion

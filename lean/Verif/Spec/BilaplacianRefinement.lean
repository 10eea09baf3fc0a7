import Verif.Spec.BilaplacianExact
import Verif.Spec.NetworkRefinement

/-!
# Specification: the bilaplacian on refined networks
-/

namespace HyperHDG.Bilaplacian

open Spec HyGraph Polynomial
open Diffusion (DirichletFile RefinedFits)

/-- The data on the part number `k` (counted from 0 along the edge) of an edge which is divided into `n` parts of equal length. -/
noncomputable def Data.part (B : Data 0) (n k : Nat) : Data 0 where
  A := { B.A with vol := B.A.vol / n }
  b := fun z => B.b fun _ => (k + z 0) / n
  f := fun z => B.f fun _ => (k + z 0) / n
  g := fun z => B.g fun _ => (k + z 0) / n
  h := fun z => B.h fun _ => (k + z 0) / n

/-- The problem on the network of a file, each edge refined into `n` parts: the hypergraph is the one of the refined topology, the types of hyperfaces are those of its node descriptor, both `u` and `w` are prescribed on faces with
types in `L`, the local solver gets the integrals of the data of the parts.  `B e` are the data of edge `e` of the file. -/
structure RefinedNetwork (m : Mode) (T : Tpcc) (dom : DomainTopo 0) (L : List Nat) (B : Nat → Data 0) (time : ℝ) (n : Nat) {p : Nat} (P : Fin (p + 1) → ℝ[X]) (G : HyGraph (0 + 1) (2 * (p + 1) ^ 0))
    (E : Nat → Edge (0 + 1) ((p + 1) ^ (0 + 1)) ℝ) : Prop where
  graph : DescribedBy G ((Topology.File.mk' T dom).set_refinement T n).n_hyEdges ((Topology.File.mk' T dom).set_refinement T n).n_hyNodes
    (((Topology.File.mk' T dom).set_refinement T n).get_hyNode_indices m T)
  types : ∀ e, e < dom.n_hyEdges * n → (NodeDescriptor.File.ofTopology ((Topology.File.mk' T dom).set_refinement T n)).get_hyFace_types m T e = .ok fun f => (E e).node_descriptor f
  dirichlet : ∀ e, (E e).dirichlet_nodes = L
  laplacian : ∀ e, (E e).dirichlet_laplacian_nodes = L
  integrals : ∀ e, ExactIntegrals P ((B (e / n)).part n (refPos T 0 n e 0)) time (E e)

/-- No index of the refined network, and no index of a degree of freedom (two for each node), overflows. -/
structure DofsFit (dom : DomainTopo 0) (n : Nat) : Prop extends RefinedFits dom n where
  dofs : (dom.n_hyNodes + dom.n_hyEdges * (n - 1)) * 2 < U32

/-- The network of a file as the families of data and hypernodes used by `IsClassicalSolution`: functions `q e`, `u e`, `r e`, `w e` on its edges, numbers `U v`, `W v` for its hypernodes. -/
def SolvesOnFile (dom : DomainTopo 0) (DN : Nat → Prop) (B : Nat → Data 0) (q u : Nat → ℝ → ℝ) (U : Nat → ℝ) (r w : Nat → ℝ → ℝ) (W : Nat → ℝ) : Prop :=
  ∃ nodes : Fin dom.n_hyEdges → Fin (2 * (0 + 1)) → Fin dom.n_hyNodes, (∀ e, ∃ h : e.1 < dom.hyNodes_hyEdge.length, ∀ f, (nodes e f).1 = dom.hyNodes_hyEdge[e.1] f) ∧
    IsClassicalSolution (fun e : Fin dom.n_hyEdges => B e) nodes (fun v => DN v) (fun e _ z => q e (z 0)) (fun e z => u e (z 0)) (fun v _ => U v) (fun e _ z => r e (z 0)) (fun e z => w e (z 0)) fun v _ => W v

end HyperHDG.Bilaplacian

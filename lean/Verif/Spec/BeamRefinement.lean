import Verif.Spec.BeamExact
import Verif.Spec.NetworkRefinement

/-!
# Specification: refined networks of beams
-/

namespace HyperHDG.Timoshenko

open Spec HyGraph Polynomial Diffusion

/-- The part number `k` (counted from 0 along the beam) of a beam which is divided into `n` parts of equal length.  (If the end of a part is fixed, it is an end of the beam.) -/
noncomputable def Beam.part (B : Beam) (n k : Nat) : Beam where
  length := B.length / n
  frame := B.frame
  stiffness := B.stiffness
  load := fun s => B.load ((k + s) / n)
  fixed := B.fixed

/-- The network of beams of a file, each refined into `n` parts: the hypergraph is the one of the refined topology, the types of hyperfaces are those of its node descriptor, the local solver gets the integrals of the parts.
`B e` is beam `e` of the file. -/
structure RefinedBeams (m : Mode) (T : Tpcc) (dom : DomainTopo 0) (L : List Nat) (B : Nat → Beam) (n : Nat) {p : Nat} (P : Fin (p + 1) → ℝ[X]) (G : HyGraph 1 6) (E : Nat → Edge (p + 1) ℝ) : Prop where
  graph : DescribedBy (dim := 0 + 1) G ((Topology.File.mk' T dom).set_refinement T n).n_hyEdges ((Topology.File.mk' T dom).set_refinement T n).n_hyNodes
    (((Topology.File.mk' T dom).set_refinement T n).get_hyNode_indices m T)
  types : ∀ e, e < dom.n_hyEdges * n → (NodeDescriptor.File.ofTopology ((Topology.File.mk' T dom).set_refinement T n)).get_hyFace_types m T e = .ok fun f => (E e).node_descriptor f
  dirichlet : ∀ e, (E e).dirichlet_nodes = L
  integrals : ∀ e, BeamIntegrals P ((B (e / n)).part n (refPos T 0 n e 0)) (E e)

/-- No index of the refined network overflows. -/
structure BeamsFit (dom : DomainTopo 0) (n : Nat) : Prop where
  fits : RefinedFits dom n
  dofs : (dom.n_hyNodes + dom.n_hyEdges * (n - 1)) * 6 < U32

/-- The network of beams of a file is in equilibrium. -/
def EquilibriumOnFile (dom : DomainTopo 0) (DN : Nat → Prop) (B : Nat → Beam) (Q U : Nat → ℝ → Fin 6 → ℝ) (w : Nat → Fin 6 → ℝ) : Prop :=
  ∃ nodes : Fin dom.n_hyEdges → Fin (2 * 1) → Fin dom.n_hyNodes, (∀ e, ∃ h : e.1 < dom.hyNodes_hyEdge.length, ∀ f, (nodes e f).1 = dom.hyNodes_hyEdge[e.1] f) ∧
    IsEquilibrium (fun e : Fin dom.n_hyEdges => B e) nodes (fun v => DN v) (fun e => Q e) (fun e => U e) fun v => w v

end HyperHDG.Timoshenko

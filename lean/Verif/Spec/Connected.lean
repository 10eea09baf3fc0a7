import Verif.Spec.Elliptic
import Verif.Model.Topology
import Verif.Model.GlobalLoop

/-!
# Specification of connectedness

Hypernodes and hyperedges are numbers here, as the topologies count them; `node e f` is the hypernode of face `f` of hyperedge `e`.
-/

namespace HyperHDG.Spec

/-- Hypernodes `v` and `w` are faces of the same of the first `E` hyperedges. -/
def Linked {F : Type} (E : Nat) (node : Nat → F → Nat) (v w : Nat) : Prop := ∃ e, e < E ∧ ∃ f g, node e f = v ∧ node e g = w

/-- Any two of the first `N` hypernodes are connected by a chain of hyperedges. -/
def ConnectedNodes {F : Type} (E N : Nat) (node : Nat → F → Nat) : Prop :=
  ∀ v w, v < N → w < N → Relation.ReflTransGen (Linked E node) v w

/-- Hypernodes `v` and `w` are returned by `get_hyNode_indices` for the same of the first `E` hyperedges. -/
def LinkedBy {F : Type} (E : Nat) (get_hyNode_indices : Nat → Res (F → Nat)) (v w : Nat) : Prop :=
  ∃ index, index < E ∧ ∃ nodes, get_hyNode_indices index = .ok nodes ∧ ∃ f g, nodes f = v ∧ nodes g = w

/-- Hypernodes `v` and `w` belong to the same hyperedge of a domain file. -/
def LinkedInFile {d : Nat} (D : DomainTopo d) (v w : Nat) : Prop := ∃ nodes ∈ D.hyNodes_hyEdge, ∃ f g, nodes f = v ∧ nodes g = w

/-- The hypergraph on which the global loops work is the one which a topology describes. -/
structure DescribedBy {dim n : Nat} (G : HyGraph dim n) (n_hyEdges n_hyNodes : Nat) (get_hyNode_indices : Nat → Res (Fin (2 * dim) → Nat)) : Prop where
  edges : G.n_hyEdges = n_hyEdges
  nodes : G.n_hyNodes = n_hyNodes
  indices : ∀ e, e < n_hyEdges → get_hyNode_indices e = .ok (G.hyNodes e)

/-- The same for hypernodes and hyperedges of finite types. -/
def Connected {E N F : Nat} (nodes : Fin E → Fin F → Fin N) : Prop := ∀ v w, Relation.ReflTransGen (Adjacent nodes) v w

end HyperHDG.Spec

import Verif.Spec.LDG
import Verif.Spec.Assembly
import Mathlib.Data.Fin.Rev

/-!
# Specification: networks of edges

A network is a hypergraph of edges, hyperedges of dimension one: `nodes e 0` and `nodes e 1` are the ends of edge `e`, `nodes e f.rev` is the end opposite to `nodes e f`.  Each node is a point and
owns one dof, the value there.
-/

namespace HyperHDG.Spec

open Finset Matrix

variable {nE nN nS : Nat} {K : Type}

/-- The weighted graph Laplacian: the sum of `c e * (value at the other end of e - value at v)` over all edges `e` which end at `v`. -/
def laplacian [Ring K] (nodes : Fin nE → Fin (2 * 1) → Fin nN) (c : Fin nE → K) (x : Fin nN → K) (v : Fin nN) : K :=
  ∑ e, ∑ f, if nodes e f = v then c e * (x (nodes e f.rev) - x v) else 0

/-- `one` are the coefficients of the function which is constant one. -/
structure IsUnit1 [CommRing K] (F : Form 1 nS 1 K) (one : Fin nS → K) : Prop where
  const : IsConst F one
  trace : ∀ f, IsTrace F one f fun _ => 1

end HyperHDG.Spec

import Verif.Spec.LDG
import Verif.Spec.LocalSolver
import Mathlib.Logic.Relation

/-!
# Specification of elliptic problems on hypergraphs

When the discrete problem has exactly one solution: functions without derivatives are determined by their trace on a single face, and each hypernode is connected to the
Dirichlet boundary by a chain of hyperedges.
-/

namespace HyperHDG.Spec

open Matrix

variable {dim nS nB : Nat} {K : Type}

/-- A function without derivatives which vanishes on one face vanishes. -/
def Rigid [CommRing K] (F : Form dim nS nB K) : Prop := ∀ (u : Fin nS → K) (f : Fin (2 * dim)), IsConst F u → (F.psi f)ᵀ *ᵥ u = 0 → u = 0

/-- The same in terms of the integrator. -/
def RigidIntegrator [CommRing K] (I : Integrator K) (dim nS nB : Nat) : Prop :=
  ∀ (u : Fin nS → K) (f : Fin (2 * dim)), Constant I dim u → traceOf I nB u f = 0 → u = 0

/-- Two hypernodes are faces of the same hyperedge. -/
def Adjacent {E N F : Nat} (nodes : Fin E → Fin F → Fin N) (v w : Fin N) : Prop := ∃ e f g, nodes e f = v ∧ nodes e g = w

/-- Each hypernode is connected to a hypernode of `D` by a chain of hyperedges. -/
def Anchored {E N F : Nat} (nodes : Fin E → Fin F → Fin N) (D : Fin N → Prop) : Prop :=
  ∀ v, ∃ w, D w ∧ Relation.ReflTransGen (Adjacent nodes) w v

end HyperHDG.Spec

import Verif.Spec.LDG

/-!
# Specification of balances

Constant functions, and what flows out of a hyperedge through a face.
-/

namespace HyperHDG.Spec

open Matrix

variable {dim nS nB : Nat} {K : Type} [CommRing K]

/-- `one` are the coefficients of the function which is constant one, `oneB` those of its trace on each face; the functions without derivatives are its multiples. -/
structure Constants (F : Form dim nS nB K) (one : Fin nS → K) (oneB : Fin nB → K) : Prop where
  const : IsConst F one
  trace : ∀ f, IsTrace F one f oneB
  only : ∀ u, IsConst F u → ∃ c : K, u = c • one
  nonzero : oneB ≠ 0

/-- What flows out of the hyperedge through face `f`: the integral of `q . n + tau (u - g)` over the face, where `g f` are the integrals of the trace times the shape functions. -/
def outflow (F : Form dim nS nB K) (one : Fin nS → K) (tau : K) (g : Fin (2 * dim) → Fin nS → K) (q : Fin dim → Fin nS → K) (u : Fin nS → K) (f : Fin (2 * dim)) : K :=
  one ⬝ᵥ (F.bdr f *ᵥ (∑ d, F.normal f d • q d + tau • u) - tau • g f)

end HyperHDG.Spec

import Verif.Spec.DiffusionAdvectionReaction
import Verif.Spec.Reciprocity

/-!
# Specification: problems of diffusion, advection and reaction which differ in their loads
-/

namespace HyperHDG.DAR

variable {dim nS : Nat} {K : Type} [Field K]

/-- The hyperedges agree but for right-hand sides and prescribed values: in what matters for diffusion, in the integrals of the velocity (at time 0, the only time at which the code asks for it) and
in those of the reaction rate. -/
structure SameOperator (E E' : Edge dim nS K) (nB : Nat) (time : K) : Prop where
  diffusion : EllipticProgram.SameOperator E.toEdge E'.toEdge nB time
  velocity : ∀ (i j : Fin nS) (d : Fin dim), E'.vol_phiphivecfunc 0 i j d = E.vol_phiphivecfunc 0 i j d
  reaction : ∀ i j : Fin nS, E'.vol_phiphireact time i j = E.vol_phiphireact time i j

/-- The evaluation of a function given by its coefficients is linear in the coefficients. -/
def LinearEval (lin_comb : (Fin nS → K) → List K → K) : Prop := ∀ (a b : K) (c c' : Fin nS → K) (p : List K), lin_comb (a • c + b • c') p = a * lin_comb c p + b * lin_comb c' p

end HyperHDG.DAR

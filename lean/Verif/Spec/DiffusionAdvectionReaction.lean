import Verif.Model.DiffusionAdvectionReaction
import Verif.Spec.Diffusion
import Verif.Spec.AdvectionReaction

/-!
# Specification of the local solver for diffusion, advection and reaction: the integrals of a hyperedge
-/

namespace HyperHDG.DAR

open Spec Matrix

variable {K : Type} {dim nS nB : Nat}

/-- The integrals with the coefficients of the lower order terms, the velocity at time `t_b`, the reaction rate at time `t_r`. -/
def coeffs (E : Edge dim nS K) (t_b t_r : K) : Spec.DAR.Coeffs dim nS K where
  advect := fun d => .of fun i j => E.vol_phiphivecfunc t_b i j d
  react := .of fun i j => E.vol_phiphireact t_r i j

end HyperHDG.DAR

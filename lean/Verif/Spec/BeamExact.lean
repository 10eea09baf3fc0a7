import Verif.Spec.Timoshenko
import Verif.Spec.Legendre
import Mathlib.Analysis.Calculus.Deriv.Basic

/-!
# Specification: networks of beams in equilibrium
-/

namespace HyperHDG.Timoshenko

open Finset Spec Matrix Polynomial

/-- A straight beam: its length, its frame (the rows are its direction and two normals), its stiffnesses, the forces and moments which act on it (per length; vectors in space, `s` in `[0, 1]` runs from its end 0 to its end 1), and the
displacements and rotations which are prescribed for its ends if they are fixed (vectors in space). -/
structure Beam where
  length : ℝ
  frame : Matrix (Fin 3) (Fin 3) ℝ
  stiffness : Fin 6 → ℝ
  load : ℝ → Fin 6 → ℝ
  fixed : Fin 2 → Fin 6 → ℝ

structure Beam.Admissible (B : Beam) : Prop where
  length_pos : 0 < B.length
  frame_ortho : B.frameᵀ * B.frame = 1
  stiffness_pos : ∀ d, 0 < B.stiffness d
  load_cont : Continuous B.load

/-- The equations of the Timoshenko beam.  `Q s` (force and moment) and `U s` (displacement and rotation) are components with respect to the frame; the derivative with respect to the length is `1 / length` times the one with respect
to `s`; `t` is the direction of the beam:

* `Q / stiffness + U' = t x rotation` (in the components of the displacement),
* `Q' = load + t x force` (in the components of the moment). -/
structure Beam.Solves (B : Beam) (Q U : ℝ → Fin 6 → ℝ) : Prop where
  cont_Q : ∀ d, ContinuousOn (fun s => Q s d) (Set.Icc 0 1)
  cont_U : ∀ d, ContinuousOn (fun s => U s d) (Set.Icc 0 1)
  strain : ∀ d, ∀ s ∈ Set.Ioo (0 : ℝ) 1, HasDerivAt (fun s => U s d) (B.length * (both (![1, 0, 0] ⨯₃ angPart (U s)) 0 d - Q s d / B.stiffness d)) s
  balance : ∀ d, ∀ s ∈ Set.Ioo (0 : ℝ) 1, HasDerivAt (fun s => Q s d) (B.length * (inFrame B.frame (B.load s) d + both 0 (![1, 0, 0] ⨯₃ linPart (Q s)) d)) s

/-- Force and moment at an end: the outer normal is -1 at end 0 and 1 at end 1. -/
def endSign (f : Fin (2 * 1)) : ℝ := if f.1 = 0 then -1 else 1

/-- A network of beams in equilibrium: on each beam the equations hold; displacements and rotations of its ends are those of the joints, and the prescribed ones at the joints in `D`; at each other joint the forces and moments of the
beams which end there are in equilibrium.  `w v` is the displacement and rotation of joint `v`. -/
structure IsEquilibrium {nE nN : Nat} (B : Fin nE → Beam) (nodes : Fin nE → Fin (2 * 1) → Fin nN) (D : Fin nN → Prop) (Q U : Fin nE → ℝ → Fin 6 → ℝ) (w : Fin nN → Fin 6 → ℝ) : Prop where
  beams : ∀ e, (B e).Solves (Q e) (U e)
  joints : ∀ e f, ¬ D (nodes e f) → inSpace (B e).frame (U e f.1) = w (nodes e f)
  fixed : ∀ e f, D (nodes e f) → inSpace (B e).frame (U e f.1) = (B e).fixed f
  balance : ∀ v, ¬ D v → ∑ e, ∑ f, (if nodes e f = v then endSign f • inSpace (B e).frame (Q e f.1) else 0) = 0

/-- The local solver gets the exact integrals of a beam, for the shape functions `P`; on a vector-valued function the integrator takes the components with respect to the frame. -/
structure BeamIntegrals {p : Nat} (P : Fin (p + 1) → ℝ[X]) (B : Beam) (E : Edge (p + 1) ℝ) : Prop where
  phiphi : ∀ i j : Fin (p + 1), E.vol_phiphi i j = B.length * ∫ s in (0 : ℝ)..1, (P i).eval s * (P j).eval s
  nablaphiphi : ∀ i j : Fin (p + 1), E.vol_nablaphiphi i j 0 = ∫ s in (0 : ℝ)..1, (P i).derivative.eval s * (P j).eval s
  bdr_phiphi : ∀ (i j : Fin (p + 1)) (f : Fin (2 * 1)), E.bdr_phiphi i j f = (P i).eval (f.1 : ℝ) * (P j).eval (f.1 : ℝ)
  bdr_phipsi : ∀ (i : Fin (p + 1)) (f : Fin (2 * 1)), E.bdr_phipsi i 0 f = (P i).eval (f.1 : ℝ)
  normal : ∀ f : Fin (2 * 1), E.local_normal f 0 = endSign f
  frame : Timoshenko.frame E = B.frame
  complete : Complete E
  stiffness : coefficients E = B.stiffness
  source : ∀ d i, source E d i = B.length * ∫ s in (0 : ℝ)..1, inFrame B.frame (B.load s) d * (P i).eval s
  dirichlet : ∀ f, IsDirichlet E f → ∀ d i, dirichletMoments E f d i = (P i).eval (f.1 : ℝ) * inFrame B.frame (B.fixed f) d

end HyperHDG.Timoshenko

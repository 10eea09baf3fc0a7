import Verif.Model.Timoshenko
import Verif.Spec.LDG
import Verif.Spec.Elliptic
import Mathlib.LinearAlgebra.CrossProduct
import Mathlib.LinearAlgebra.Matrix.Notation

/-!
# Specification: networks of Timoshenko beams

A beam has an orthonormal frame: its direction and two normals.  Vectors of six entries describe displacement (or force) in the entries 0 to 2 and rotation (or
moment) in the entries 3 to 5.
-/

namespace HyperHDG.Spec

open Matrix

variable {K : Type} {nS : Nat}

/-- Displacement (or force). -/
def linPart (v : Fin 6 → K) : Fin 3 → K := ![v 0, v 1, v 2]
/-- Rotation (or moment). -/
def angPart (v : Fin 6 → K) : Fin 3 → K := ![v 3, v 4, v 5]
/-- Both together. -/
def both (a b : Fin 3 → K) : Fin 6 → K := ![a 0, a 1, a 2, b 0, b 1, b 2]

/-- The components of displacement and rotation with respect to the frame whose vectors are the rows of `R`. -/
def inFrame [CommRing K] (R : Matrix (Fin 3) (Fin 3) K) (v : Fin 6 → K) : Fin 6 → K := both (R *ᵥ linPart v) (R *ᵥ angPart v)
/-- Displacement and rotation with the given components. -/
def inSpace [CommRing K] (R : Matrix (Fin 3) (Fin 3) K) (v : Fin 6 → K) : Fin 6 → K := both (Rᵀ *ᵥ linPart v) (Rᵀ *ᵥ angPart v)

/-- What rotations contribute to the strains: the cross product of direction and rotation (`shear_cross`). -/
def shear [AddGroup K] (u : Fin 6 → Fin nS → K) : Fin 6 → Fin nS → K := ![0, -u 5, u 4, 0, 0, 0]
/-- What forces contribute to the balance of moments: the cross product of direction and force (`lever_cross`). -/
def lever [AddGroup K] (q : Fin 6 → Fin nS → K) : Fin 6 → Fin nS → K := ![0, 0, 0, 0, -q 2, q 1]

theorem shear_cross [CommRing K] (u : Fin 6 → Fin nS → K) (i : Fin nS) : (fun d => shear u d i) = both (![1, 0, 0] ⨯₃ angPart fun d => u d i) 0 := by
  funext d
  fin_cases d <;> simp [shear, both, angPart, cross_apply]

theorem lever_cross [CommRing K] (q : Fin 6 → Fin nS → K) (i : Fin nS) : (fun d => lever q d i) = both 0 (![1, 0, 0] ⨯₃ linPart fun d => q d i) := by
  funext d
  fin_cases d <;> simp [lever, both, linPart, cross_apply]

/-- `q` (force and moment) and `u` (displacement and rotation), all with respect to the frame of the beam, solve the local problem if for all test functions

* `(q_d / c_d, phi) - (u_d, phi') + <trace, phi n> = ((t x rotation)_d, phi)` for each component `d` of the strains,
* `- (q_d, phi') + <q_d n + tau (u_d - trace_d), phi> = s_d + ((t x force)_d, phi)` for each component `d` of the balance of forces and moments,

`t` the direction of the beam.  `g f d` are the integrals of `trace_d phi_i` over face `f`. -/
structure IsBeam [Field K] (F : Form 1 nS 1 K) (c : Fin 6 → K) (tau : K) (g : Fin (2 * 1) → Fin 6 → Fin nS → K) (s : Fin 6 → Fin nS → K)
    (q u : Fin 6 → Fin nS → K) : Prop where
  strain : ∀ d, (c d)⁻¹ • F.mass *ᵥ q d - F.grad 0 *ᵥ u d + ∑ f, F.normal f 0 • g f d = F.mass *ᵥ shear u d
  balance : ∀ d, -(F.grad 0 *ᵥ q d) + ∑ f, (F.bdr f *ᵥ (F.normal f 0 • q d + tau • u d) - tau • g f d) = s d + F.mass *ᵥ lever q d

/-- The local problem has at most one solution (equivalently, as it is a square system: exactly one). -/
def BeamSolvable [Field K] (F : Form 1 nS 1 K) (c : Fin 6 → K) (tau : K) : Prop := ∀ q u, IsBeam F c tau 0 0 q u → q = 0 ∧ u = 0

/-- The integrals of the trace with coefficients `lambda` against the shape functions. -/
def beamMoments [CommRing K] (F : Form 1 nS 1 K) (lambda : Fin (2 * 1) → Fin 6 → K) : Fin (2 * 1) → Fin 6 → Fin nS → K := fun f d => moments F (fun f _ => lambda f d) f

/-- The numerical flux `q_d n + tau (u_d - lambda_d)` of each component: force and moment at the ends of the beam. -/
def beamFlux [CommRing K] (F : Form 1 nS 1 K) (tau : K) (lambda : Fin (2 * 1) → Fin 6 → K) (q u : Fin 6 → Fin nS → K) : Fin (2 * 1) → Fin 6 → K := fun f d =>
  faceFlux F tau (fun f _ => lambda f d) (fun _ => q d) (u d) f 0

/-- `one` are the coefficients of the function 1 and `lin` those of a function with derivative 1 whose values at the ends are `x`: arc length. -/
structure IsArcLength [CommRing K] (F : Form 1 nS 1 K) (one lin : Fin nS → K) (x : Fin (2 * 1) → K) : Prop where
  one_const : (F.grad 0)ᵀ *ᵥ one = 0
  one_trace : ∀ f, (F.psi f)ᵀ *ᵥ one = fun _ => 1
  lin_deriv : (F.grad 0)ᵀ *ᵥ lin = F.mass *ᵥ one
  lin_trace : ∀ f, (F.psi f)ᵀ *ᵥ lin = fun _ => x f

/-- Displacement and rotation of the point `p` in a rigid motion: translation by `a` and infinitesimal rotation, described by `r`.  `sign = -1`: the usual convention, the displacement is
`a + r x p`; `sign = 1`: the opposite one. -/
def rigidMotion [CommRing K] (sign : K) (a r p : Fin 3 → K) : Fin 6 → K := both (a + sign • (p ⨯₃ r)) r

/-- The pairing of fluxes and traces. -/
def beamPairing [CommRing K] (mu y : Fin (2 * 1) → Fin 6 → K) : K := ∑ f, mu f ⬝ᵥ y f

end HyperHDG.Spec

namespace HyperHDG.Timoshenko

open Spec Matrix

variable {K : Type} {nS : Nat}

/-- The integrals of a beam. -/
def form [CommRing K] (E : Edge nS K) : Form 1 nS 1 K where
  mass := .of fun i j => E.vol_phiphi i j
  mass0 := .of fun i j => E.vol_phiphi i j
  grad d := .of fun i j => E.vol_nablaphiphi i j d
  bdr f := .of fun i j => E.bdr_phiphi i j f
  psi f := .of fun i j => E.bdr_phipsi i j f
  normal f := E.local_normal f
  area _ := 1

/-- The frame of a beam: its direction and its normals. -/
def frame (E : Edge nS K) : Matrix (Fin 3) (Fin 3) K := .of ![E.inner_normal 0, E.outer_normal 0, E.outer_normal 1]

/-- Face `f` belongs to the Dirichlet boundary. -/
def IsDirichlet (E : Edge nS K) (f : Fin (2 * 1)) : Prop := E.node_descriptor f ∈ E.dirichlet_nodes

open Classical in
/-- The entries of the faces of the Dirichlet boundary are replaced by zero. -/
noncomputable def offDirichlet [Zero K] (E : Edge nS K) (y : Fin (2 * 1) → Fin 6 → K) : Fin (2 * 1) → Fin 6 → K := fun f => if IsDirichlet E f then 0 else y f

/-- The integrals of the loads: forces and moments. -/
def source [Zero K] (E : Edge nS K) : Fin 6 → Fin nS → K := fun d i =>
  ![E.vol_phi_n i 1 0, E.vol_phi_n i (-1) 0, E.vol_phi_n i (-2) 0, E.vol_phi_m i 1 0, E.vol_phi_m i (-1) 0, E.vol_phi_m i (-2) 0] d

open Classical in
/-- The integrals of the Dirichlet values: displacements and rotations. -/
noncomputable def dirichletMoments [Zero K] (E : Edge nS K) : Fin (2 * 1) → Fin 6 → Fin nS → K := fun f d i =>
  if IsDirichlet E f then
    ![E.bdr_phi_u i f 1 0, E.bdr_phi_u i f (-1) 0, E.bdr_phi_u i f (-2) 0, E.bdr_phi_phi i f 1 0, E.bdr_phi_phi i f (-1) 0, E.bdr_phi_phi i f (-2) 0] d
  else 0

/-- The data of a beam are complete: two normals of the cross section and six stiffnesses. -/
def Complete (E : Edge nS K) : Prop := ∀ e, E.extra_data = some e → 12 ≤ e.length

/-- The stiffness coefficients: one, or the absolute values of the combinations of the six stiffnesses (in the units of the program) by the scalar products of the
normals of the beam with the two normals of the cross section. -/
def coefficients [Field K] [LinearOrder K] (E : Edge nS K) : Fin 6 → K :=
  match E.extra_data with
  | none => fun _ => 1
  | some l =>
    let e := fun k => l.getD k 0
    let n1 : Fin 3 → K := ![e 6, e 7, e 8]
    let n2 : Fin 3 → K := ![e 9, e 10, e 11]
    let o1 := E.outer_normal 0
    let o2 := E.outer_normal 1
    ![|e 0 * 10 ^ 4|, |(e 1 * (o1 ⬝ᵥ n1) + e 2 * (o1 ⬝ᵥ n2)) * 10 ^ 4|, |(e 1 * (o2 ⬝ᵥ n1) + e 2 * (o2 ⬝ᵥ n2)) * 10 ^ 4|,
      |e 3 * 10 ^ 12|, |(e 4 * (o1 ⬝ᵥ n1) + e 5 * (o1 ⬝ᵥ n2)) * 10 ^ 12|, |(e 4 * (o2 ⬝ᵥ n1) + e 5 * (o2 ⬝ᵥ n2)) * 10 ^ 12|]

/-- The displacement of a point with components `w` in the frame of the beam. -/
def spatial [CommRing K] (E : Edge nS K) (w : Fin 3 → K) : Fin 3 → K := (frame E)ᵀ *ᵥ w

end HyperHDG.Timoshenko

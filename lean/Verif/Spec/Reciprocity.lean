import Verif.Props.Elliptic
import Verif.Props.Timoshenko

/-!
# Specification for C103: problems which differ in their loads

Two problems on the same hypergraph which agree in geometry, coefficients and the set of Dirichlet nodes, but not in the right-hand sides and prescribed values; problems whose right-hand sides and
prescribed values are combinations of those of two others; discrete solutions, and the work of the load of one problem along the solution of another.
-/

namespace HyperHDG.EllipticProgram

open Finset Spec Matrix Diffusion HyGraph

variable {dim nS nB : Nat} {K : Type} [Field K]

/-- The hyperedges agree but for right-hand sides and prescribed values. -/
structure SameOperator (E E' : Edge dim nS K) (nB : Nat) (time : K) : Prop where
  form : form E' nB time = form E nB time
  dirichlet : ∀ f : Fin (2 * dim), IsDirichlet E' f ↔ IsDirichlet E f

/-- The right-hand side and the prescribed values of `E` are `a` times those of `E₁` plus `b` times those of `E₂`. -/
structure Superposed (a b : K) (E₁ E₂ E : Edge dim nS K) (time : K) : Prop where
  source : ∀ i : Fin nS, E.vol_phifunc time i = a * E₁.vol_phifunc time i + b * E₂.vol_phifunc time i
  values : ∀ (f : Fin (2 * dim)) (i : Fin nS), IsDirichlet E f → E.bdr_phifunc time i f = a * E₁.bdr_phifunc time i f + b * E₂.bdr_phifunc time i f

/-- The prescribed values are zero. -/
def ZeroValues (E : Edge dim nS K) (time : K) : Prop := ∀ (f : Fin (2 * dim)) (i : Fin nS), IsDirichlet E f → E.bdr_phifunc time i f = 0

/-- `y` is the vector of a discrete solution and `u e` the coefficients of the solution on hyperedge `e`: `y` vanishes at the Dirichlet nodes, `Elliptic::residual_flux` returns zeros for it, and `u e`
solves the local problem with the values of `y` at the faces of `e`. -/
structure Solves (m : Mode) (gesv : Gesv ((dim + 1) * nS) 1 K) (tau time : K) (G : HyGraph dim nB) (nodes : Fin G.n_hyEdges → Fin (2 * dim) → Fin G.n_hyNodes)
    (D : Fin G.n_hyNodes → Prop) (old0 new0 : LocDofs dim nB K) (E : Nat → Edge dim nS K) (y : Fin (G.n_hyNodes * nB) → K) (u : Fin G.n_hyEdges → Fin nS → K) : Prop where
  vanishes : VanishesAt D y
  residual : (Elliptic.mk' G).apply m (localResidual m gesv tau E time) old0 new0 (List.ofFn y) = .ok (List.replicate (G.n_hyNodes * nB) 0)
  local_solution : ∀ e : Fin G.n_hyEdges, ∃ q : Fin dim → Fin nS → K, IsSolution (Diffusion.form (E e) nB time) tau 0 1
    (moments (Diffusion.form (E e) nB time) (faceValues nodes y e) + dirichletMoments (E e) time) (Diffusion.source (E e) time) q (u e)

/-- The integral of the right-hand side of `E` times the function with coefficients `u`. -/
def work {N : Nat} (E : Nat → Edge dim nS K) (time : K) (u : Fin N → Fin nS → K) : K := ∑ e : Fin N, ∑ i : Fin nS, u e i * (E e).vol_phifunc time i

end HyperHDG.EllipticProgram

namespace HyperHDG.Timoshenko

open Finset Spec Matrix HyGraph

variable {nS : Nat} {K : Type} [Field K] [LinearOrder K]

/-- The beams agree but for loads and prescribed displacements and rotations. -/
structure SameOperator (E E' : Edge nS K) : Prop where
  form : form E' = form E
  coefficients : coefficients E' = coefficients E
  frame : frame E' = frame E
  dirichlet : ∀ f, IsDirichlet E' f ↔ IsDirichlet E f

/-- The loads (forces and moments) and the prescribed values of `E` are `a` times those of `E₁` plus `b` times those of `E₂`. -/
structure Superposed (a b : K) (E₁ E₂ E : Edge nS K) : Prop where
  source : source E = a • source E₁ + b • source E₂
  values : dirichletMoments E = a • dirichletMoments E₁ + b • dirichletMoments E₂

/-- `y` is the vector of an equilibrium of the network and `u e` the coefficients of displacement and rotation of beam `e`. -/
structure Solves (m : Mode) (gesv : Gesv (n_loc_dofs nS) 1 K) (tau time : K) (G : HyGraph 1 6) (nodes : Fin G.n_hyEdges → Fin (2 * 1) → Fin G.n_hyNodes)
    (D : Fin G.n_hyNodes → Prop) (old0 new0 : LocDofs 1 6 K) (E : Nat → Edge nS K) (y : Fin (G.n_hyNodes * 6) → K) (u : Fin G.n_hyEdges → Fin 6 → Fin nS → K) : Prop where
  vanishes : VanishesAt D y
  residual : G.mat_vec_multiply m (localResidual m gesv tau E time) old0 new0 (List.ofFn y) = .ok (List.replicate (G.n_hyNodes * 6) 0)
  local_solution : ∀ e : Fin G.n_hyEdges, ∃ q : Fin 6 → Fin nS → K, IsBeam (Timoshenko.form (E e)) (Timoshenko.coefficients (E e)) tau
    (beamMoments (Timoshenko.form (E e)) (beamEnds (E e) (faceValues nodes y e)) + dirichletMoments (E e)) (Timoshenko.source (E e)) q (u e)

/-- The work of the loads of `E` along the displacements and rotations `u`. -/
def work {N : Nat} (E : Nat → Edge nS K) (u : Fin N → Fin 6 → Fin nS → K) : K := ∑ e : Fin N, ∑ d : Fin 6, u e d ⬝ᵥ Timoshenko.source (E e) d

end HyperHDG.Timoshenko

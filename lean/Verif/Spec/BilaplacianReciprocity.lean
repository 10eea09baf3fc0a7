import Verif.Props.Bilaplacian

/-!
# Specification for C113: biharmonic problems which differ in their loads
-/

namespace HyperHDG.Bilaplacian

open Finset Spec Matrix HyGraph

variable {dim nS nB : Nat} {K : Type} [Field K]

/-- The hyperedges agree but for right-hand sides and prescribed values. -/
structure SameOperator (E E' : Edge dim nS K) (nB : Nat) (time : K) : Prop where
  form : form E' nB = form E nB
  coupling : coupling E' time = coupling E time
  dirichlet : ∀ f : Fin (2 * dim), IsDirichlet E' f ↔ IsDirichlet E f
  laplacian : ∀ f : Fin (2 * dim), IsDirichletLaplacian E' f ↔ IsDirichletLaplacian E f

/-- The right-hand side and the prescribed values (of `u` and of the Laplacian) of `E` are `a` times those of `E₁` plus `b` times those of `E₂`. -/
structure Superposed (a b : K) (E₁ E₂ E : Edge dim nS K) (time : K) : Prop where
  source : ∀ i : Fin nS, E.vol_phifunc time i = a * E₁.vol_phifunc time i + b * E₂.vol_phifunc time i
  values : ∀ (f : Fin (2 * dim)) (i : Fin nS), IsDirichlet E f → E.bdr_phifunc time i f = a * E₁.bdr_phifunc time i f + b * E₂.bdr_phifunc time i f
  laplacian : ∀ (f : Fin (2 * dim)) (i : Fin nS), IsDirichletLaplacian E f → E.bdr_phifunc_laplace time i f = a * E₁.bdr_phifunc_laplace time i f + b * E₂.bdr_phifunc_laplace time i f

/-- The prescribed values are zero. -/
structure ZeroValues (E : Edge dim nS K) (time : K) : Prop where
  values : ∀ (f : Fin (2 * dim)) (i : Fin nS), IsDirichlet E f → E.bdr_phifunc time i f = 0
  laplacian : ∀ (f : Fin (2 * dim)) (i : Fin nS), IsDirichletLaplacian E f → E.bdr_phifunc_laplace time i f = 0

/-- `y` is the vector of a discrete solution and `u e` the coefficients of the solution on hyperedge `e`, `w e` those of its Laplacian: `y` vanishes at the prescribed hypernodes and solves the linear system `A y = -R` of the programs,
`A` the global `trace_to_flux`, `R` the global `residual_flux` of zero; `u e`, `w e` solve the local problem with the values of `y` at the faces of `e`. -/
structure SolvesLoad (m : Mode) (gesv : Gesv (n_loc_dofs dim nS) 1 K) (tau time : K) (G : HyGraph dim (2 * nB)) (nodes : Fin G.n_hyEdges → Fin (2 * dim) → Fin G.n_hyNodes)
    (D : Fin G.n_hyNodes → Prop) (old0 new0 : LocDofs dim (2 * nB) K) (E : Nat → Edge dim nS K) (y : Fin (G.n_hyNodes * (2 * nB)) → K) (u w : Fin G.n_hyEdges → Fin nS → K) : Prop where
  vanishes : VanishesAt D y
  system : ∃ R : Fin (G.n_hyNodes * (2 * nB)) → K,
    G.mat_vec_multiply m (localResidual m gesv tau E time) old0 new0 (List.ofFn (0 : Fin (G.n_hyNodes * (2 * nB)) → K)) = .ok (List.ofFn R) ∧
    G.mat_vec_multiply m (localOperator m gesv tau E time) old0 new0 (List.ofFn y) = .ok (List.ofFn (-R))
  local_solution : ∀ e : Fin G.n_hyEdges, ∃ q p : Fin dim → Fin nS → K, IsMixedSolution (Bilaplacian.form (E e) nB) (Bilaplacian.coupling (E e) time) 0 tau 1
    (moments (Bilaplacian.form (E e) nB) (upper (faceValues nodes y e)) + dirichletMoments (E e) time)
    (moments (Bilaplacian.form (E e) nB) (lower (faceValues nodes y e)) + laplacianMoments (E e) time) 0 (Bilaplacian.source (E e) time) q (u e) p (w e)

/-- The integral of the right-hand side of `E` times the function with coefficients `u`. -/
def work {N : Nat} (E : Nat → Edge dim nS K) (time : K) (u : Fin N → Fin nS → K) : K := ∑ e : Fin N, ∑ i : Fin nS, u e i * (E e).vol_phifunc time i

end HyperHDG.Bilaplacian

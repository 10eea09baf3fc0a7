import Mathlib.LinearAlgebra.Matrix.DotProduct
import Mathlib.Algebra.Order.Field.Basic
import Verif.Model.AdvectionParab
import Verif.Model.GlobalClasses
import Verif.Spec.LDG

/-!
# Specification: the theta scheme for the upwind HDG method for advection problems

The problem is `d_t u + div(b u) = f` on each hyperedge, with `u = g` on the Dirichlet part of the boundary.  The semi-discrete problem on a hyperedge at time `t` with
trace `lambda` on the faces reads

`(d_t u, phi_i) = (f, phi_i) + (u, b . grad phi_i) - <F, phi_i>` for all `i`,

where `F` is the upwind flux through the boundary: `F = b.n u` where the wind blows out of the hyperedge, `F = b.n lambda` where it blows in (`b.n g` on Dirichlet faces), plus the
stabilisation `tau (u - lambda)`.
-/

namespace HyperHDG.AdvectionParab

open Spec Matrix

variable {K : Type} {dim nS nB : Nat}

/-- The unknowns on a hyperedge: coefficients of the primal unknown and of the trace. -/
structure State (dim nS nB : Nat) (K : Type) where
  u : Fin nS → K
  lambda : Fin (2 * dim) → Fin nB → K

section
variable [CommRing K]

/-- Linear combination of states. -/
def comb (a b : K) (x y : State dim nS nB K) : State dim nS nB K := ⟨a • x.u + b • y.u, a • x.lambda + b • y.lambda⟩

/-- `(phi_j, phi_i)`. -/
def mass (E : Edge dim nS K) : Matrix (Fin nS) (Fin nS) K := .of fun i j => E.vol_phiphi i j

/-- `(phi_j, b . grad phi_i)`. -/
def conv (E : Edge dim nS K) (time : K) : Matrix (Fin nS) (Fin nS) K := .of fun i j => E.vol_nablaphiphivec time i j

/-- `(f, phi_i)`. -/
def source (E : Edge dim nS K) (time : K) : Fin nS → K := fun i => E.vol_phifunc time i

/-- The flux through a face, tested by the shape functions. -/
def fluxTested (E : Edge dim nS K) (tau time : K) (x : State dim nS nB K) (f : Fin (2 * dim)) : Fin nS → K := fun i =>
  ∑ j : Fin nS, (E.bdr_phiphinu time i j f + tau * E.bdr_phiphi time i j f) * x.u j +
    ∑ j : Fin nB, (E.bdr_phipsinu time i j f - tau * E.bdr_phipsi time i j f) * x.lambda f j

/-- The flux through a face, tested by the face shape functions. -/
def flux (E : Edge dim nS K) (tau time : K) (x : State dim nS nB K) (f : Fin (2 * dim)) : Fin nB → K := fun i =>
  ∑ j : Fin nS, (E.bdr_psiphinu time i j f + tau * E.bdr_psiphi time i j f) * x.u j +
    ∑ j : Fin nB, (E.bdr_psipsinu time i j f - tau * E.bdr_psipsi time i j f) * x.lambda f j

/-- The stabilisation part of the flux. -/
def stabFlux (E : Edge dim nS K) (tau time : K) (x : State dim nS nB K) (f : Fin (2 * dim)) : Fin nB → K := fun i =>
  ∑ j : Fin nS, tau * E.bdr_psiphi time i j f * x.u j - ∑ j : Fin nB, tau * E.bdr_psipsi time i j f * x.lambda f j

variable [LinearOrder K]

/-- The face is of Dirichlet type: its node is declared to be, or it is a boundary node and the wind does not blow out there. -/
def IsDirichlet (E : Edge dim nS K) (time : K) (f : Fin (2 * dim)) : Prop :=
  E.node_descriptor f ∈ E.dirichlet_nodes ∨ (E.node_descriptor f ∈ E.boundary_nodes ∧ E.wind time f ≤ 0)

/-- The face is an outflow face: its node is declared to be, or it is a boundary node and the wind blows out there. -/
def IsOutflow (E : Edge dim nS K) (time : K) (f : Fin (2 * dim)) : Prop :=
  E.node_descriptor f ∈ E.outflow_nodes ∨ (E.node_descriptor f ∈ E.boundary_nodes ∧ 0 < E.wind time f)

instance (E : Edge dim nS K) (time : K) (f : Fin (2 * dim)) : Decidable (IsDirichlet E time f) := by unfold IsDirichlet; infer_instance
instance (E : Edge dim nS K) (time : K) (f : Fin (2 * dim)) : Decidable (IsOutflow E time f) := by unfold IsOutflow; infer_instance

/-- The flux of the Dirichlet data through a face, tested by the shape functions. -/
def dirichletFlux (E : Edge dim nS K) (time : K) (f : Fin (2 * dim)) : Fin nS → K := fun i => if IsDirichlet E time f then E.bdr_dirichlet time i f else 0

/-- The right-hand side of the semi-discrete problem. -/
def rate (E : Edge dim nS K) (tau time : K) (x : State dim nS nB K) : Fin nS → K :=
  source E time + conv E time *ᵥ x.u - ∑ f, (fluxTested E tau time x f + dirichletFlux E time f)

/-- A step of the theta scheme from `old` at time `time - delta_t` to `new` at `time`. -/
def ThetaStep (S : Solver K) (E : Edge dim nS K) (time : K) (old new : State dim nS nB K) : Prop :=
  mass E *ᵥ (new.u - old.u) = S.delta_t • (S.theta • rate E S.tau time new + (1 - S.theta) • rate E S.tau (time - S.delta_t) old)

/-- The local problem of a time step for the trace alone: without source, Dirichlet data and former time step. -/
def IsLocal (S : Solver K) (E : Edge dim nS K) (time : K) (x : State dim nS nB K) : Prop :=
  mass E *ᵥ x.u = (S.theta * S.delta_t) • (conv E time *ᵥ x.u - ∑ f, fluxTested E S.tau time x f)

/-- What a hyperedge contributes to the balance at its nodes: the flux, on outflow faces the stabilisation only. -/
def nodeFlux (E : Edge dim nS K) (tau time : K) (x : State dim nS nB K) (f : Fin (2 * dim)) : Fin nB → K :=
  if IsOutflow E time f then stabFlux E tau time x f else flux E tau time x f

/-- Zero on the Dirichlet faces. -/
def offDirichlet (E : Edge dim nS K) (time : K) (y : Fin (2 * dim) → Fin nB → K) : Fin (2 * dim) → Fin nB → K := fun f j => if IsDirichlet E time f then 0 else y f j

/-- The trace vanishes on the Dirichlet faces. -/
def VanishesOnDirichlet (E : Edge dim nS K) (time : K) (lambda : Fin (2 * dim) → Fin nB → K) : Prop := ∀ f, IsDirichlet E time f → lambda f = 0

/-- The state `make_initial` describes: the projections of the initial value (`lambda` vanishes on Dirichlet faces). -/
structure IsInitial (E : Edge dim nS K) (time : K) (x : State dim nS nB K) : Prop where
  primal : x.u = fun i : Fin nS => E.volUni_initial time i
  trace : x.lambda = offDirichlet E time (fun f j => E.bdrUni_initial time j f)

/-- The calls a program makes to compute `n` time steps: `make_initial` at time `t0`, then for `k = 1, ..., n` `set_data` with the global vector `X k` at time
`t0 + k delta_t`; the vector returned by `make_initial` and the data kept by the hyperedges at the end.  `E e` is hyperedge `e`. -/
def run (m : Mode) (gesv : Gesv nS 1 K) (S : Solver K) (E : Nat → Edge dim nS K) (G : HyGraph dim nB) (buf0 : LocDofs dim nB K) (x : List K)
    (data0 : List (Data dim nS nB K)) (t0 : K) (X : Nat → List K) : Nat → Res (List K × List (Data dim nS nB K))
  | 0 => G.make_initial_data m (fun e lambda data => make_initial m S lambda (E e) data t0) x data0
  | n + 1 => do
    let r ← run m gesv S E G buf0 x data0 t0 X n
    let data ← G.set_data m (fun e lambda data => set_data m gesv S lambda (E e) data (t0 + (n + 1 : Nat) • S.delta_t)) buf0 (X (n + 1)) r.2
    return (r.1, data)

/-- `residual_flux` of `Parabolic` at time `time`, with the data kept by the hyperedges. -/
def globalResidual (m : Mode) (gesv : Gesv nS 1 K) (S : Solver K) (E : Nat → Edge dim nS K) (G : HyGraph dim nB) (old0 new0 : LocDofs dim nB K)
    (data : List (Data dim nS nB K)) (time : K) (x : List K) : Res (List K) :=
  G.mat_vec_multiply m (fun e lambda out => do
    let d ← vget data e
    residual_flux m gesv S lambda out (E e) d time) old0 new0 x

/-- `trace_to_flux` of `Parabolic`. -/
def globalFlux (m : Mode) (gesv : Gesv nS 1 K) (S : Solver K) (E : Nat → Edge dim nS K) (G : HyGraph dim nB) (old0 new0 : LocDofs dim nB K)
    (data : List (Data dim nS nB K)) (time : K) (x : List K) : Res (List K) :=
  G.mat_vec_multiply m (fun e lambda out => do
    let d ← vget data e
    trace_to_flux m gesv S lambda out (E e) d time) old0 new0 x

end

section
variable [CommRing K]

/-- The shape functions are orthogonal and of the same size: their mass matrix is the volume of the hyperedge times the identity. -/
def Orthonormal (E : Edge dim nS K) : Prop := ∀ i j : Fin nS, E.vol_phiphi i j = if i = j then E.area else 0

/-- The L2 product of functions on a hyperedge (coefficients of the shape functions). -/
def product (E : Edge dim nS K) (v w : Fin nS → K) : K := ∑ i : Fin nS, ∑ j : Fin nS, v i * E.vol_phiphi i j * w j

/-- The local problem of a time step is uniquely solvable: `(u, v) - theta delta_t ((u, b . grad v) - <F(u, 0), v>) = 0` for all `v` only for `u = 0`. -/
def Solvable (S : Solver K) (E : Edge dim nS K) (nB : Nat) (time : K) : Prop :=
  ∀ u : Fin nS → K, mass E *ᵥ u - (S.theta * S.delta_t) • (conv E time *ᵥ u - ∑ f, fluxTested E S.tau time (⟨u, 0⟩ : State dim nS nB K) f) = 0 → u = 0

end

/-- Quadrature points on the faces of a hyperedge: weights, the wind `b . n` out of the hyperedge, the size of the stabilisation, and the values of the shape
functions and the face shape functions. -/
structure Points (dim nS nB : Nat) (K : Type) where
  n : Nat
  weight : Fin (2 * dim) → Fin n → K
  wind : Fin (2 * dim) → Fin n → K
  stab : Fin (2 * dim) → Fin n → K
  phi : Fin (2 * dim) → Fin n → Fin nS → K
  psi : Fin (2 * dim) → Fin n → Fin nB → K

variable [Field K] [LinearOrder K] [IsStrictOrderedRing K]

namespace Points

/-- The value of the primal unknown at a point. -/
def val (P : Points dim nS nB K) (f : Fin (2 * dim)) (k : Fin P.n) (u : Fin nS → K) : K := ∑ i, P.phi f k i * u i

/-- The value of the trace at a point. -/
def tr (P : Points dim nS nB K) (f : Fin (2 * dim)) (k : Fin P.n) (mu : Fin nB → K) : K := ∑ j, P.psi f k j * mu j

/-- The upwind flux for the values `v` inside and `l` on the face. -/
def upwind (P : Points dim nS nB K) (tau : K) (f : Fin (2 * dim)) (k : Fin P.n) (v l : K) : K :=
  max (P.wind f k) 0 * v + min (P.wind f k) 0 * l + tau * P.stab f k * (v - l)

end Points

/-- What is assumed of the integrals: those on the faces are computed by the same quadrature, `cutwind` for shape functions of the hyperedge integrates where the wind blows out, for face shape functions
where it blows in, and the integrals with stabilisation all use the same weights; the mass matrix is symmetric and positive definite. -/
structure UpwindLaws (E : Edge dim nS K) (time : K) (P : Points dim nS nB K) : Prop where
  weight : ∀ f k, 0 ≤ P.weight f k
  stab : ∀ f k, 0 ≤ P.stab f k
  phiphinu : ∀ (i j : Fin nS) (f : Fin (2 * dim)), E.bdr_phiphinu time i j f = ∑ k, P.weight f k * max (P.wind f k) 0 * (P.phi f k i * P.phi f k j)
  phipsinu : ∀ (i : Fin nS) (j : Fin nB) (f : Fin (2 * dim)), E.bdr_phipsinu time i j f = ∑ k, P.weight f k * min (P.wind f k) 0 * (P.phi f k i * P.psi f k j)
  psiphinu : ∀ (i : Fin nB) (j : Fin nS) (f : Fin (2 * dim)), E.bdr_psiphinu time i j f = ∑ k, P.weight f k * max (P.wind f k) 0 * (P.psi f k i * P.phi f k j)
  psipsinu : ∀ (i j : Fin nB) (f : Fin (2 * dim)), E.bdr_psipsinu time i j f = ∑ k, P.weight f k * min (P.wind f k) 0 * (P.psi f k i * P.psi f k j)
  phiphi : ∀ (i j : Fin nS) (f : Fin (2 * dim)), E.bdr_phiphi time i j f = ∑ k, P.weight f k * P.stab f k * (P.phi f k i * P.phi f k j)
  phipsi : ∀ (i : Fin nS) (j : Fin nB) (f : Fin (2 * dim)), E.bdr_phipsi time i j f = ∑ k, P.weight f k * P.stab f k * (P.phi f k i * P.psi f k j)
  psiphi : ∀ (i : Fin nB) (j : Fin nS) (f : Fin (2 * dim)), E.bdr_psiphi time i j f = ∑ k, P.weight f k * P.stab f k * (P.psi f k i * P.phi f k j)
  psipsi : ∀ (i j : Fin nB) (f : Fin (2 * dim)), E.bdr_psipsi time i j f = ∑ k, P.weight f k * P.stab f k * (P.psi f k i * P.psi f k j)
  mass_symm : (mass E)ᵀ = mass E
  mass_pos : ∀ u, u ≠ 0 → 0 < u ⬝ᵥ mass E *ᵥ u

/-- The velocity field has no sinks in the hyperedge: `2 (u, b . grad u) <= <b.n u, u>`, which is integration by parts for `div b >= 0`. -/
def NoSinks (E : Edge dim nS K) (time : K) (P : Points dim nS nB K) : Prop :=
  ∀ u, 2 * (u ⬝ᵥ conv E time *ᵥ u) ≤ ∑ f, ∑ k, P.weight f k * P.wind f k * P.val f k u ^ 2

/-- `c` is the constant function 1 and `mu` its trace. -/
structure IsOne (E : Edge dim nS K) (time : K) (P : Points dim nS nB K) (c : Fin nS → K) (mu : Fin (2 * dim) → Fin nB → K) : Prop where
  val : ∀ f k, P.val f k c = 1
  tr : ∀ f k, P.tr f k (mu f) = 1
  grad : (conv E time)ᵀ *ᵥ c = 0

/-- What leaves the hypergraph through a face: the whole flux through Dirichlet faces, the flux without the stabilisation through outflow faces. -/
def faceLoss (E : Edge dim nS K) (tau time : K) (c : Fin nS → K) (mu : Fin (2 * dim) → Fin nB → K) (x : State dim nS nB K) (f : Fin (2 * dim)) : K :=
  if IsDirichlet E time f then mu f ⬝ᵥ flux E tau time x f + c ⬝ᵥ dirichletFlux E time f
  else if IsOutflow E time f then mu f ⬝ᵥ (flux E tau time x f - stabFlux E tau time x f)
  else 0

/-- What is assumed of the hypernodes.  `D` are those where the trace is not determined by a balance: all faces are of Dirichlet type, or outflow faces without stabilisation.  The
other ones are no sinks (not more flows in than out, outflow faces not counted), and wind or stabilisation reaches each trace.  The wind blows out at outflow faces. -/
structure NodeLaws (E : Nat → Edge dim nS K) (tau time : K) (P : Nat → Points dim nS nB K) {nE nN : Nat} (nodes : Fin nE → Fin (2 * dim) → Fin nN) (D : Fin nN → Prop) : Prop where
  dirichlet : ∀ (e : Fin nE) f, (IsDirichlet (E e) time f ∨ (tau = 0 ∧ IsOutflow (E e) time f)) ↔ D (nodes e f)
  outflow : ∀ (e : Fin nE) f, IsOutflow (E e) time f → ∀ k, 0 ≤ (P e).wind f k
  noSink : ∀ v, ¬ D v → ∀ mu : Fin nB → K, (∑ e : Fin nE, ∑ f, if nodes e f = v ∧ ¬ IsOutflow (E e) time f then ∑ k, (P e).weight f k * (P e).wind f k * (P e).tr f k mu ^ 2 else 0) ≤ 0
  determined : ∀ v, ¬ D v → ∀ mu : Fin nB → K, (∀ (e : Fin nE) f k, nodes e f = v →
    (P e).weight f k * ((if IsOutflow (E e) time f then 0 else |(P e).wind f k|) + tau * (P e).stab f k) * (P e).tr f k mu = 0) → mu = 0

/-- The velocity field does not depend on the time. -/
structure Steady (E : Edge dim nS K) : Prop where
  wind : ∀ t t', E.wind t = E.wind t'
  vol_nablaphiphivec : ∀ t t', E.vol_nablaphiphivec t = E.vol_nablaphiphivec t'
  bdr_phiphinu : ∀ t t', E.bdr_phiphinu t = E.bdr_phiphinu t'
  bdr_phiphi : ∀ t t', E.bdr_phiphi t = E.bdr_phiphi t'
  bdr_phipsinu : ∀ t t', E.bdr_phipsinu t = E.bdr_phipsinu t'
  bdr_phipsi : ∀ t t', E.bdr_phipsi t = E.bdr_phipsi t'
  bdr_psiphinu : ∀ t t', E.bdr_psiphinu t = E.bdr_psiphinu t'
  bdr_psiphi : ∀ t t', E.bdr_psiphi t = E.bdr_psiphi t'
  bdr_psipsinu : ∀ t t', E.bdr_psipsinu t = E.bdr_psipsinu t'
  bdr_psipsi : ∀ t t', E.bdr_psipsi t = E.bdr_psipsi t'

/-- A problem on a hyperedge whose solution is the constant 1: no source, `div b = 0`, Dirichlet data 1, and no stabilisation on Dirichlet faces. -/
structure FreeStream (E : Edge dim nS K) (tau time : K) (P : Points dim nS nB K) (c : Fin nS → K) (mu : Fin (2 * dim) → Fin nB → K) : Prop where
  one : IsOne E time P c mu
  source : source E time = 0
  divfree : conv E time *ᵥ c = fun i => ∑ f, ∑ k, P.weight f k * P.wind f k * P.phi f k i
  dirichlet : ∀ f, IsDirichlet E time f → ∀ i : Fin nS, E.bdr_dirichlet time i f = ∑ k, P.weight f k * min (P.wind f k) 0 * P.phi f k i
  stab : ∀ f, IsDirichlet E time f → ∀ k, tau * P.stab f k = 0

/-- Coefficients of the primal unknown kept by a hyperedge. -/
def kept (data : Data dim nS nB K) : Fin nS → K := fun i => data.u_old (i.cast (Nat.mul_one nS).symm)

end HyperHDG.AdvectionParab

import Verif.Model.DiffusionParab
import Verif.Spec.Diffusion
import Verif.Model.GlobalClasses

/-!
# Specification: the theta scheme for the LDG-H method on a hyperedge

The semi-discrete problem on a hyperedge at time `t`, with trace `lambda` on the faces (plus Dirichlet data):

* `(a q_d, phi_i) - (u, d_d phi_i) + <trace, phi_i n_d> = 0` for each direction `d`,
* `(d_t u, phi_i) = (f, phi_i) + (q, grad phi_i) - <q . n + tau (u - trace), phi_i>`.
-/

namespace HyperHDG.DiffusionParab

open Spec Matrix Diffusion

variable {K : Type} {dim nS nB : Nat}

/-- The unknowns on a hyperedge: coefficients of the dual unknown, of the primal unknown and of the trace. -/
structure State (dim nS nB : Nat) (K : Type) where
  q : Fin dim → Fin nS → K
  u : Fin nS → K
  lambda : Fin (2 * dim) → Fin nB → K

variable [CommRing K]

/-- The moments of the trace, which is `lambda` plus the Dirichlet data. -/
noncomputable def trace (E : Edge dim nS K) (time : K) (lambda : Fin (2 * dim) → Fin nB → K) : Fin (2 * dim) → Fin nS → K :=
  moments (form E.toEdge nB time) lambda + dirichletMoments E.toEdge time

/-- The first equation. -/
def DualEquation (E : Edge dim nS K) (time : K) (x : State dim nS nB K) : Prop :=
  ∀ d, (form E.toEdge nB time).mass *ᵥ x.q d - (form E.toEdge nB time).grad d *ᵥ x.u +
    ∑ f, (form E.toEdge nB time).normal f d • trace E time x.lambda f = 0

/-- The right-hand side of the second equation. -/
noncomputable def rate (E : Edge dim nS K) (tau time : K) (x : State dim nS nB K) : Fin nS → K :=
  source E.toEdge time + ∑ d, (form E.toEdge nB time).grad d *ᵥ x.q d -
    ∑ f, ((form E.toEdge nB time).bdr f *ᵥ (∑ d, (form E.toEdge nB time).normal f d • x.q d + tau • x.u) - tau • trace E time x.lambda f)

/-- A step of the theta scheme from `old` at time `time - delta_t` to `new` at `time`. -/
structure ThetaStep (S : Solver K) (E : Edge dim nS K) (time : K) (old new : State dim nS nB K) : Prop where
  dual : DualEquation E time new
  primal : (form E.toEdge nB time).mass0 *ᵥ (new.u - old.u) =
    S.delta_t • (S.theta • rate E S.tau time new + (1 - S.theta) • rate E S.tau (time - S.delta_t) old)

/-- The numerical flux `q . n + tau (u - lambda)` tested by the face shape functions. -/
def flux (E : Edge dim nS K) (tau time : K) (x : State dim nS nB K) : Fin (2 * dim) → Fin nB → K := faceFlux (form E.toEdge nB time) tau x.lambda x.q x.u

/-- The shape functions are orthogonal and of the same size: their mass matrix is the volume of the hyperedge times the identity. -/
def Orthonormal (E : Edge dim nS K) : Prop := ∀ i j : Fin nS, E.vol_phiphi i j = if i = j then E.area else 0

/-- The state `make_initial` describes: `u` and `lambda` are the projections of the initial value `w` (`lambda` vanishes on Dirichlet faces) and
`(a q_d, phi_i) = (w, d_d phi_i) - <w, phi_i n_d>`. -/
structure IsInitial (E : Edge dim nS K) (time : K) (x : State dim nS nB K) : Prop where
  primal : x.u = fun i : Fin nS => E.volUni_initial time i
  trace : x.lambda = offDirichlet E.toEdge (fun f j => E.bdrUni_psifunc time j f)
  dual : ∀ d, (form E.toEdge nB time).mass *ᵥ x.q d =
    fun i : Fin nS => E.vol_derphi_initial time i d - ∑ f : Fin (2 * dim), E.bdr_initial time i f * E.local_normal f d

/-- The initial value is compatible with the discretisation: its integrals against the derivatives and the traces of the shape functions are those of its projections
(which holds for exact integration, because derivatives are again spanned by the shape functions and traces by the face shape functions), and it has the Dirichlet
values on the Dirichlet faces. -/
structure InitialLaws (E : Edge dim nS K) (nB : Nat) (time : K) : Prop where
  grad : ∀ (d : Fin dim) (i : Fin nS), E.vol_derphi_initial time i d = ((form E.toEdge nB time).grad d *ᵥ fun j : Fin nS => E.volUni_initial time j) i
  bdr : ∀ (f : Fin (2 * dim)) (i : Fin nS), E.bdr_initial time i f = trace E time (offDirichlet E.toEdge fun f (j : Fin nB) => E.bdrUni_psifunc time j f) f i

/-- The calls a program makes to compute `n` time steps: `make_initial` at time `t0`, then for `k = 1, ..., n` `set_data` with the global vector `X k` at time
`t0 + k delta_t`; the vector returned by `make_initial` and the data kept by the hyperedges at the end.  `E e` is hyperedge `e`. -/
def run (m : Mode) (gesv : Gesv ((dim + 1) * nS) 1 K) (gesv1 : Gesv nS 1 K) (S : Solver K) (E : Nat → Edge dim nS K) (G : HyGraph dim nB)
    (buf0 : LocDofs dim nB K) (x : List K) (data0 : List (Data dim nS nB K)) (t0 : K) (X : Nat → List K) : Nat → Res (List K × List (Data dim nS nB K))
  | 0 => G.make_initial_data m (fun e lambda data => make_initial m gesv1 S lambda (E e) data t0) x data0
  | n + 1 => do
    let r ← run m gesv gesv1 S E G buf0 x data0 t0 X n
    let data ← G.set_data m (fun e lambda data => set_data m gesv S lambda (E e) data (t0 + (n + 1 : Nat) • S.delta_t)) buf0 (X (n + 1)) r.2
    return (r.1, data)

/-- `residual_flux` of `Parabolic` at time `time`, with the data kept by the hyperedges. -/
def globalResidual (m : Mode) (gesv : Gesv ((dim + 1) * nS) 1 K) (S : Solver K) (E : Nat → Edge dim nS K) (G : HyGraph dim nB) (old0 new0 : LocDofs dim nB K)
    (data : List (Data dim nS nB K)) (time : K) (x : List K) : Res (List K) :=
  G.mat_vec_multiply m (fun e lambda out => do
    let d ← vget data e
    residual_flux m gesv S lambda out (E e) d time) old0 new0 x

/-- `trace_to_flux` of `Parabolic`. -/
def globalFlux (m : Mode) (gesv : Gesv ((dim + 1) * nS) 1 K) (S : Solver K) (E : Nat → Edge dim nS K) (G : HyGraph dim nB) (old0 new0 : LocDofs dim nB K)
    (data : List (Data dim nS nB K)) (time : K) (x : List K) : Res (List K) :=
  G.mat_vec_multiply m (fun e lambda out => do
    let d ← vget data e
    trace_to_flux m gesv S lambda out (E e) d time) old0 new0 x

/-- The L2 product of the primal unknowns kept by two hyperedges (coefficients of the shape functions). -/
def product (E : Edge dim nS K) (v w : Fin nS → K) : K := ∑ i : Fin nS, ∑ j : Fin nS, v i * E.vol_phiphi i j * w j

end HyperHDG.DiffusionParab

import Verif.Model.BilaplacianParab
import Verif.Spec.Bilaplacian
import Verif.Model.GlobalClasses

/-!
# Specification: the implicit Euler step for the time-dependent biharmonic problem

`u_t - div (grad w) = s`, `- div (grad u) = b w` on a hyperedge; `upper` and `lower` traces as in `Verif/Spec/Mixed.lean`.
-/

namespace HyperHDG.BilaplacianParab

open Spec Matrix Bilaplacian

variable {dim nS nB : Nat} {K : Type}

/-- The discrete operator `- div grad`: `p` the discrete gradient (with the sign of the flux) of `w`, whose trace has the moments `h`. -/
def laplace [CommRing K] (F : Form dim nS nB K) (tau : K) (h : Fin (2 * dim) → Fin nS → K) (p : Fin dim → Fin nS → K) (w : Fin nS → K) : Fin nS → K :=
  -∑ d, F.grad d *ᵥ p d + ∑ f, (F.bdr f *ᵥ (∑ d, F.normal f d • p d + tau • w) - tau • h f)

/-- `q` is the discrete flux of `u`, whose trace has the moments `g`. -/
def IsGradient [CommRing K] (F : Form dim nS nB K) (g : Fin (2 * dim) → Fin nS → K) (q : Fin dim → Fin nS → K) (u : Fin nS → K) : Prop :=
  ∀ d, F.mass *ᵥ q d - F.grad d *ᵥ u + ∑ f, F.normal f d • g f = 0

/-- A state of the hyperedge: unknowns and traces. -/
structure State (dim nS nB : Nat) (K : Type) where
  q : Fin dim → Fin nS → K
  u : Fin nS → K
  p : Fin dim → Fin nS → K
  w : Fin nS → K
  lambda : Fin (2 * dim) → Fin (2 * nB) → K

/-- The moments of the trace of `u`, with the prescribed values. -/
noncomputable def State.traceU [CommRing K] (E : Edge dim nS K) (time : K) (x : State dim nS nB K) : Fin (2 * dim) → Fin nS → K :=
  moments (form E.stat nB) (upper x.lambda) + dirichletMoments E.stat time

/-- The moments of the trace of `w`, with the prescribed values. -/
noncomputable def State.traceW [CommRing K] (E : Edge dim nS K) (time : K) (x : State dim nS nB K) : Fin (2 * dim) → Fin nS → K :=
  moments (form E.stat nB) (lower x.lambda) + laplacianMoments E.stat time

/-- The equations without time derivative of a state at `time`: `q` and `p` are the fluxes of `u` and `w`, and `laplace u = b w`. -/
structure Constraints [CommRing K] (E : Edge dim nS K) (tau time : K) (x : State dim nS nB K) : Prop where
  gradient_u : IsGradient (form E.stat nB) (x.traceU E time) x.q x.u
  gradient_w : IsGradient (form E.stat nB) (x.traceW E time) x.p x.w
  laplace_u : laplace (form E.stat nB) tau (x.traceU E time) x.q x.u = coupling E.stat time *ᵥ x.w

/-- `s(time) - laplace w`, tested: the time derivative of `u`. -/
noncomputable def rate [CommRing K] (E : Edge dim nS K) (tau time : K) (x : State dim nS nB K) : Fin nS → K :=
  source E.stat time - laplace (form E.stat nB) tau (x.traceW E time) x.p x.w

/-- A step of size `dt` of the implicit Euler method, ending at `time`, from the value `u_old`. -/
structure EulerStep [CommRing K] (E : Edge dim nS K) (tau dt time : K) (u_old : Fin nS → K) (x : State dim nS nB K) : Prop where
  constraints : Constraints E tau time x
  primal : (form E.stat nB).mass0 *ᵥ (x.u - u_old) = dt • rate E tau time x

/-- A step of the theta scheme from `old` at time `time - delta_t` to `new` at `time`. -/
structure ThetaStep [CommRing K] (S : Solver K) (E : Edge dim nS K) (time : K) (old new : State dim nS nB K) : Prop where
  constraints : Constraints E S.tau time new
  primal : (form E.stat nB).mass0 *ᵥ (new.u - old.u) = S.delta_t • (S.theta • rate E S.tau time new + (1 - S.theta) • rate E S.tau (time - S.delta_t) old)

/-- The step which the solver computes: the right-hand sides are weighted, but `laplace w` is taken at the end of the step only, with weight `theta`. -/
structure Step [CommRing K] (S : Solver K) (E : Edge dim nS K) (time : K) (u_old : Fin nS → K) (x : State dim nS nB K) : Prop where
  constraints : Constraints E S.tau time x
  primal : (form E.stat nB).mass0 *ᵥ (x.u - u_old) = S.delta_t • (S.theta • rate E S.tau time x + (1 - S.theta) • source E.stat (time - S.delta_t))

/-- The data of a hyperedge contain the unknowns of a state, in the order `q`, `u`, `p`, `w`. -/
structure Stores (c : Data dim nS K) (x : State dim nS nB K) : Prop where
  q : ∀ (d : Fin dim) (i : Fin nS), arrGet c (d * nS + i) = .ok (x.q d i)
  u : ∀ i : Fin nS, arrGet c (dim * nS + i) = .ok (x.u i)
  p : ∀ (d : Fin dim) (i : Fin nS), arrGet c ((dim + 1) * nS + d * nS + i) = .ok (x.p d i)
  w : ∀ i : Fin nS, arrGet c ((dim + 1) * nS + dim * nS + i) = .ok (x.w i)

/-- The data of a hyperedge contain the value `u`. -/
def StoresU (c : Data dim nS K) (u : Fin nS → K) : Prop := ∀ i : Fin nS, arrGet c (dim * nS + i) = .ok (u i)

/-- The source of a step: the weighted right-hand sides and the old value. -/
def stepSource [CommRing K] (S : Solver K) (E : Edge dim nS K) (nB : Nat) (u_old : Fin nS → K) (time : K) : Fin nS → K :=
  (S.theta * S.delta_t) • source E.stat time + ((1 - S.theta) * S.delta_t) • source E.stat (time - S.delta_t) + (form E.stat nB).mass0 *ᵥ u_old

/-- The local problem of a step, `lambda` the trace, `g`, `h`, `t` further data. -/
def StepSolution [CommRing K] (S : Solver K) (E : Edge dim nS K) (time : K) (g h : Fin (2 * dim) → Fin nS → K) (t : Fin nS → K)
    (q : Fin dim → Fin nS → K) (u : Fin nS → K) (p : Fin dim → Fin nS → K) (w : Fin nS → K) : Prop :=
  IsMixedSolution (form E.stat nB) (coupling E.stat time) (form E.stat nB).mass0 S.tau (S.theta * S.delta_t) g h 0 t q u p w

/-- The local problem has exactly one solution. -/
def StepSolvable [CommRing K] (S : Solver K) (E : Edge dim nS K) (nB : Nat) (time : K) : Prop :=
  MixedSolvable (form E.stat nB) (coupling E.stat time) (form E.stat nB).mass0 S.tau (S.theta * S.delta_t)

/-- The correct numerical fluxes of a state: of `w` in the first half, of `u` in the second half. -/
noncomputable def fluxes [CommRing K] (E : Edge dim nS K) (tau : K) (x : State dim nS nB K) : Fin (2 * dim) → Fin (2 * nB) → K :=
  offDirichlet E.stat (faceFlux (form E.stat nB) tau (lower x.lambda) x.p x.w) (faceFlux (form E.stat nB) tau (upper x.lambda) x.q x.u)

variable [CommRing K]

/-- The calls a program makes to compute `n` time steps: `make_initial` at time `t0`, then for `k = 1, ..., n` `set_data` with the global vector `X k` at time `t0 + k delta_t`;
the vector returned by `make_initial` and the data kept by the hyperedges at the end.  `E e` is hyperedge `e`. -/
def run (m : Mode) (gesv : Gesv (n_loc_dofs dim nS) 1 K) (S : Solver K) (E : Nat → Edge dim nS K) (G : HyGraph dim (2 * nB))
    (buf0 : LocDofs dim (2 * nB) K) (x : List K) (data0 : List (Data dim nS K)) (t0 : K) (X : Nat → List K) : Nat → Res (List K × List (Data dim nS K))
  | 0 => G.make_initial_data m (fun e lambda data => make_initial lambda (E e) data t0) x data0
  | n + 1 => do
    let r ← run m gesv S E G buf0 x data0 t0 X n
    let data ← G.set_data m (fun e lambda data => set_data m gesv S lambda (E e) data (t0 + (n + 1 : Nat) • S.delta_t)) buf0 (X (n + 1)) r.2
    return (r.1, data)

/-- `residual_flux` of `Parabolic` at time `time`, with the data kept by the hyperedges. -/
def globalResidual (m : Mode) (gesv : Gesv (n_loc_dofs dim nS) 1 K) (S : Solver K) (E : Nat → Edge dim nS K) (G : HyGraph dim (2 * nB))
    (old0 new0 : LocDofs dim (2 * nB) K) (data : List (Data dim nS K)) (time : K) (x : List K) : Res (List K) :=
  G.mat_vec_multiply m (fun e lambda out => do
    let d ← vget data e
    residual_flux m gesv S lambda out (E e) d time) old0 new0 x

/-- `trace_to_flux` of `Parabolic`. -/
def globalFlux (m : Mode) (gesv : Gesv (n_loc_dofs dim nS) 1 K) (S : Solver K) (E : Nat → Edge dim nS K) (G : HyGraph dim (2 * nB))
    (old0 new0 : LocDofs dim (2 * nB) K) (data : List (Data dim nS K)) (time : K) (x : List K) : Res (List K) :=
  G.mat_vec_multiply m (fun e lambda out => do
    let d ← vget data e
    trace_to_flux m gesv S lambda out (E e) d time) old0 new0 x

/-- The hyperedge with another initial value (its projections onto the hyperedge and, for both unknowns, onto the faces). -/
def Edge.withInitial (E : Edge dim nS K) (vol : K → Nat → K) (bdr bdr_laplace : K → Nat → Nat → K) : Edge dim nS K :=
  { E with volUni_initial := vol, bdrUni_psifunc := bdr, bdrUni_psifunc_laplace := bdr_laplace }

/-- The L2 product of two functions (coefficients of the shape functions) on a hyperedge. -/
def product (E : Edge dim nS K) (v w : Fin nS → K) : K := ∑ i : Fin nS, ∑ j : Fin nS, v i * E.vol_phiphi i j * w j

end HyperHDG.BilaplacianParab

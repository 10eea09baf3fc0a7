import Verif.Model.LocalSolver
import Verif.Model.Hypercube

/-!
# Model of `include/HyperHDG/local_solver/diffusion_ip.hxx`

`dim` is `hyEdge_dimT`, `nS` is `n_shape_fct_` (and `n_loc_dofs_`), `nB` is `n_shape_bdr_`.  A hyperedge is seen by the local solver through the integrals over it and its
faces (functions of the library `tensor_product_polynomials`, not part of the repository), face areas and the types of its nodes.  Not modelled:
`assemble_rhs_from_coeffs` (739-747), which is private and never called (each of its writes is out of range).
-/

namespace HyperHDG

namespace DiffusionIP

/-- What the local solver asks about a hyperedge.  Arguments are natural numbers as in the code; the first argument of functions with a parameter function is the time. -/
structure Edge (dim nS : Nat) (K : Type) where
  /-- `integrate_vol_nablaphinablaphifunc<diffusion_coeff>(i, j, geometry, time)` -/
  vol_nablaphinablaphifunc : K → Nat → Nat → K
  /-- `integrate_bdr_phiphi(i, j, face, geometry)` -/
  bdr_phiphi : Nat → Nat → Nat → K
  /-- `integrate_bdr_nablaphiphinufunc<diffusion_coeff>(i, j, face, geometry, time)`: the gradient acts on the first function -/
  bdr_nablaphiphinufunc : K → Nat → Nat → Nat → K
  /-- `integrate_bdr_phipsi(i, j, face, geometry)` -/
  bdr_phipsi : Nat → Nat → Nat → K
  /-- `integrate_bdr_nablaphipsinufunc<diffusion_coeff>(i, j, face, geometry, time)` -/
  bdr_nablaphipsinufunc : K → Nat → Nat → Nat → K
  /-- `integrate_vol_phifunc<right_hand_side>(i, geometry, time)` -/
  vol_phifunc : K → Nat → K
  /-- `integrate_bdr_phifunc<dirichlet_value>(i, face, geometry, time)` -/
  bdr_phifunc : K → Nat → Nat → K
  /-- `integrate_vol_diffsquare_discana<analytic_result>(coeffs, geometry, time)` -/
  vol_diffsquare : K → (Fin nS → K) → K
  /-- `geometry.face_area(face)` -/
  face_area : Nat → K
  /-- `node_descriptor[face]` -/
  node_descriptor : Nat → Nat
  /-- `parameters::dirichlet_nodes` -/
  dirichlet_nodes : List Nat

variable {K : Type} {dim nS nB : Nat}

/-- `is_dirichlet(hyper_edge.node_descriptor[face])`: `diffusion_ip.hxx` 225-230. -/
def is_dirichlet (E : Edge dim nS K) (face : Nat) : Bool := E.dirichlet_nodes.contains (E.node_descriptor face)

/-- `node_types`: `diffusion_ip.hxx` 470-483. -/
def node_types (E : Edge dim nS K) : Res (Fin (2 * dim) → Nat) :=
  forFin (2 * dim) (fun i result => .ok (if is_dirichlet E i then arrSet result i 1 else result)) (fun _ => 0)

variable [CommRing K]

/-- `assemble_loc_matrix`: `diffusion_ip.hxx` 611-642.  The integral of the normal derivative is asked for without the argument `time`, whose default is 0. -/
def assemble_loc_matrix (m : Mode) (E : Edge dim nS K) (tau time : K) : Res (SmallMat nS nS K) :=
  forUp nS (fun i M => forUp nS (fun j M => do
    let M ← SmallMat.addAt m i j (E.vol_nablaphinablaphifunc time i j) M
    forUp (2 * dim) (fun face M => do
      let M ← SmallMat.addAt m i j (tau * E.bdr_phiphi i j face) M
      SmallMat.subAt m i j (E.bdr_nablaphiphinufunc 0 j i face) M) M) M) (SmallMat.fill _ _ 0)

/-- `assemble_rhs_from_lambda`: `diffusion_ip.hxx` 658-681 (the checks of sizes hold by the types of the model). -/
def assemble_rhs_from_lambda (m : Mode) (E : Edge dim nS K) (tau : K) (lambda : LocDofs dim nB K) : Res (SmallVec nS K) :=
  forUp nS (fun i v => forUp nB (fun j v => forUp (2 * dim) (fun face (v : SmallVec nS K) => do
    let l ← arrGet2 lambda face j
    SmallMat.addTo m i (tau * l * E.bdr_phipsi i j face) v) v) v) (SmallMat.fill _ _ 0)

/-- `assemble_rhs_from_global_rhs`: `diffusion_ip.hxx` 697-721. -/
def assemble_rhs_from_global_rhs (m : Mode) (E : Edge dim nS K) (tau time : K) : Res (SmallVec nS K) :=
  forUp nS (fun i (v : SmallVec nS K) => do
    let v ← SmallMat.set m i (E.vol_phifunc time i) v
    forUp (2 * dim) (fun face v =>
      if ¬ is_dirichlet E face then .ok v else SmallMat.addTo m i (tau * E.bdr_phifunc time i face) v) v) (SmallMat.fill _ _ 0)

/-- `solve_local_problem`: `diffusion_ip.hxx` 345-369. -/
def solve_local_problem (m : Mode) (gesv : Gesv nS 1 K) (E : Edge dim nS K) (tau : K) (lambda : LocDofs dim nB K) (solution_type : Nat) (time : K) :
    Res (SmallVec nS K) :=
  catchLapack m (do
    let rhs ← (if solution_type = 0 then assemble_rhs_from_lambda m E tau lambda
      else if solution_type = 1 then do
        let a ← assemble_rhs_from_lambda m E tau lambda
        let b ← assemble_rhs_from_global_rhs m E tau time
        SmallMat.add_mat a b
      else do
        hyAssert m (0 = 1)
        return SmallMat.fill _ _ 0)
    let A ← assemble_loc_matrix m E tau time
    solve gesv rhs A)

/-- `primal_at_boundary`: `diffusion_ip.hxx` 765-779. -/
def primal_at_boundary (m : Mode) (E : Edge dim nS K) (nB : Nat) (coeffs : SmallVec nS K) : Res (SmallMat (2 * dim) nB K) :=
  forUp nS (fun i b => forUp nB (fun j b => forUp (2 * dim) (fun face (b : SmallMat (2 * dim) nB K) => do
    let x ← SmallMat.get m coeffs i
    SmallMat.addAt m face j (x * E.bdr_phipsi i j face) b) b) b) (SmallMat.fill _ _ 0)

/-- `dual_at_boundary`: `diffusion_ip.hxx` 796-814.  Again the argument `time` is not given. -/
def dual_at_boundary (m : Mode) (E : Edge dim nS K) (nB : Nat) (coeffs : SmallVec nS K) : Res (SmallMat (2 * dim) nB K) :=
  forUp nS (fun i b => forUp nB (fun j b => forUp (2 * dim) (fun face (b : SmallMat (2 * dim) nB K) => do
    let x ← SmallMat.get m coeffs i
    SmallMat.subAt m face j (E.bdr_nablaphipsinufunc 0 i j face * x) b) b) b) (SmallMat.fill _ _ 0)

/-- The loop writing the result: `diffusion_ip.hxx` 455-463 and 519-529. -/
def writeFlux (m : Mode) (E : Edge dim nS K) (tau : K) (primals duals : SmallMat (2 * dim) nB K) (lambda_in lambda_out : LocDofs dim nB K) :
    Res (LocDofs dim nB K) :=
  forFin (2 * dim) (fun i out =>
    if is_dirichlet E i then forFin nB (fun j (out : LocDofs dim nB K) => .ok (arrSet out i (arrSet (out i) j 0))) out
    else forFin nB (fun j (out : LocDofs dim nB K) => do
      let x ← SmallMat.at' m duals i j
      let y ← SmallMat.at' m primals i j
      return arrSet out i (arrSet (out i) j (x + tau * y - tau * lambda_in i j * E.face_area i))) out) lambda_out

/-- `trace_to_flux`: `diffusion_ip.hxx` 433-466 (the checks of sizes hold by the types of the model, here and below). -/
def trace_to_flux (m : Mode) (gesv : Gesv nS 1 K) (tau : K) (lambda_in lambda_out : LocDofs dim nB K) (E : Edge dim nS K) (time : K) :
    Res (LocDofs dim nB K) := do
  let coeffs ← solve_local_problem m gesv E tau lambda_in 0 time
  let primals ← primal_at_boundary m E nB coeffs
  let duals ← dual_at_boundary m E nB coeffs
  writeFlux m E tau primals duals lambda_in lambda_out

/-- `residual_flux`: `diffusion_ip.hxx` 497-532. -/
def residual_flux (m : Mode) (gesv : Gesv nS 1 K) (tau : K) (lambda_in lambda_out : LocDofs dim nB K) (E : Edge dim nS K) (time : K) :
    Res (LocDofs dim nB K) := do
  let coeffs ← solve_local_problem m gesv E tau lambda_in 1 time
  let primals ← primal_at_boundary m E nB coeffs
  let duals ← dual_at_boundary m E nB coeffs
  writeFlux m E tau primals duals lambda_in lambda_out

/-- `errors`: `diffusion_ip.hxx` 544-560. -/
def errors (m : Mode) (gesv : Gesv nS 1 K) (tau : K) (lambda : LocDofs dim nB K) (E : Edge dim nS K) (time : K) : Res (Fin 1 → K) := do
  let coefficients ← solve_local_problem m gesv E tau lambda 1 time
  return fun _ => E.vol_diffsquare time fun i : Fin nS => coefficients ⟨i.1, by omega⟩

/-- `bulk_values`: `diffusion_ip.hxx` 832-857 (`system_dim` is 1).  `lin_comb` stands for `shape_fun_t::lin_comb_fct_val(coeffs, point)` of
`tensor_product_polynomials` (asked for as `float` in the code; exact here). -/
def bulk_values (m : Mode) (gesv : Gesv nS 1 K) (lin_comb : (Fin nS → K) → List K → K) (tau : K) (abscissas : List K) (lambda : LocDofs dim nB K)
    (E : Edge dim nS K) (time : K) (vals0 : Fin 1 → Fin (Hypercube.pow dim abscissas.length) → K) :
    Res (Fin 1 → Fin (Hypercube.pow dim abscissas.length) → K) := do
  let coefficients ← solve_local_problem m gesv E tau lambda 1 time
  let r ← forFin 1 (fun d (s : (Fin nS → K) × (Fin 1 → Fin (Hypercube.pow dim abscissas.length) → K)) => do
    let coeffs ← forFin nS (fun i (c : Fin nS → K) => do
      let x ← SmallMat.get m coefficients (d * nS + i)
      return arrSet c i x) s.1
    let vals ← forFin (Hypercube.pow dim abscissas.length) (fun pt (v : Fin 1 → Fin (Hypercube.pow dim abscissas.length) → K) => do
      let p ← Hypercube.tensorial_pt m dim pt abscissas
      return arrSet v d (arrSet (v d) pt (lin_comb coeffs p))) s.2
    return (coeffs, vals)) (fun _ => 0, vals0)
  return r.2

end DiffusionIP
end HyperHDG

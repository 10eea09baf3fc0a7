import Verif.Model.LocalSolver
import Verif.Model.Hypercube

/-!
# Model of `include/HyperHDG/local_solver/diffusion_ldgh.hxx`

`dim` is `hyEdge_dimT`, `nS` is `n_shape_fct_`, `nB` is `n_shape_bdr_`.  A hyperedge is seen by the local solver through the integrals over it and its
faces (functions of the library `tensor_product_polynomials`, not part of the repository), its local normals, face areas and the types of its nodes.  Not
modelled: `errors_temp` and `solve_loc_prob_cor`, which is only used there.
-/

namespace HyperHDG

namespace Diffusion

/-- What the local solver asks about a hyperedge.  Arguments are natural numbers as in the code.  `SmallVec<hyEdge_dimT>` is `Fin dim → K`.  The
geometry is asked for valid faces only, for which it returns. -/
structure Edge (dim nS : Nat) (K : Type) where
  /-- `integrate_vol_phiphi(i, j, geometry)` -/
  vol_phiphi : Nat → Nat → K
  /-- `integrate_vol_phiphifunc<inverse_diffusion_coeff>(i, j, geometry, time)` -/
  vol_phiphifunc : K → Nat → Nat → K
  /-- `integrate_vol_nablaphiphi(i, j, geometry)`: the gradient acts on the first function -/
  vol_nablaphiphi : Nat → Nat → Fin dim → K
  /-- `integrate_bdr_phiphi(i, j, face, geometry)` -/
  bdr_phiphi : Nat → Nat → Nat → K
  /-- `integrate_bdr_phipsi(i, j, face, geometry)` -/
  bdr_phipsi : Nat → Nat → Nat → K
  /-- `integrate_vol_phifunc<right_hand_side>(i, geometry, time)` -/
  vol_phifunc : K → Nat → K
  /-- `integrate_bdr_phifunc<dirichlet_value>(i, face, geometry, time)` -/
  bdr_phifunc : K → Nat → Nat → K
  /-- `integrate_bdrUni_psifunc<initial>(j, face, geometry, time)` -/
  bdrUni_psifunc : K → Nat → Nat → K
  /-- `integrate_vol_diffsquare_discana<analytic_result>(coeffs, geometry, time)` -/
  vol_diffsquare : K → (Fin nS → K) → K
  /-- `geometry.local_normal(face)` -/
  local_normal : Nat → Fin dim → K
  /-- `geometry.face_area(face)` -/
  face_area : Nat → K
  /-- `node_descriptor[face]` -/
  node_descriptor : Nat → Nat
  /-- `parameters::dirichlet_nodes` -/
  dirichlet_nodes : List Nat

variable {K : Type} {dim nS nB : Nat}

/-- `is_dirichlet(hyper_edge.node_descriptor[face])`: `diffusion_ldgh.hxx` 226-231. -/
def is_dirichlet (E : Edge dim nS K) (face : Nat) : Bool := E.dirichlet_nodes.contains (E.node_descriptor face)

/-- `node_types`: `diffusion_ldgh.hxx` 528-541. -/
def node_types (E : Edge dim nS K) : Res (Fin (2 * dim) → Nat) :=
  forFin (2 * dim) (fun i result => .ok (if is_dirichlet E i then arrSet result i 1 else result)) (fun _ => 0)

variable [CommRing K]

/-- Body of the loops of `assemble_loc_matrix` over `i` and `j`: `diffusion_ldgh.hxx` 949-979. -/
def locMatrixStep (m : Mode) (E : Edge dim nS K) (tau time : K) (i j : Nat)
    (local_mat : SmallMat ((dim + 1) * nS) ((dim + 1) * nS) K) : Res (SmallMat ((dim + 1) * nS) ((dim + 1) * nS) K) := do
  let vol_integral := E.vol_phiphifunc time i j
  let grad_int_vec := E.vol_nablaphiphi i j
  let s ← forUp (2 * dim) (fun face (s : K × (Fin dim → K)) => do
    let helper := E.bdr_phiphi i j face
    return (s.1 + helper, fun d => s.2 d + helper * E.local_normal face d)) (0, fun _ => 0)
  let local_mat ← SmallMat.addAt m (dim * nS + i) (dim * nS + j) (tau * s.1) local_mat
  forUp dim (fun d M => do
    let M ← SmallMat.addAt m (d * nS + i) (d * nS + j) vol_integral M
    let g ← arrGet grad_int_vec d
    let M ← SmallMat.subAt m (dim * nS + i) (d * nS + j) g M
    let M ← SmallMat.subAt m (d * nS + i) (dim * nS + j) g M
    let n ← arrGet s.2 d
    SmallMat.addAt m (dim * nS + i) (d * nS + j) n M) local_mat

/-- `assemble_loc_matrix`: `diffusion_ldgh.hxx` 925-984. -/
def assemble_loc_matrix (m : Mode) (E : Edge dim nS K) (tau time : K) : Res (SmallMat ((dim + 1) * nS) ((dim + 1) * nS) K) :=
  forUp nS (fun i M => forUp nS (fun j M => locMatrixStep m E tau time i j M) M) (SmallMat.fill _ _ 0)

/-- `assemble_rhs_from_lambda`: `diffusion_ldgh.hxx` 990-1028 (the checks of sizes hold by the types of the model). -/
def assemble_rhs_from_lambda (m : Mode) (E : Edge dim nS K) (tau : K) (lambda : LocDofs dim nB K) : Res (SmallVec ((dim + 1) * nS) K) :=
  forUp nS (fun i v => forUp nB (fun j v => forUp (2 * dim) (fun face (v : SmallVec ((dim + 1) * nS) K) => do
    let integral := E.bdr_phipsi i j face
    let l ← arrGet2 lambda face j
    let v ← SmallMat.addTo m (dim * nS + i) (tau * l * integral) v
    forUp dim (fun d v => do
      let n ← arrGet (E.local_normal face) d
      SmallMat.subFrom m (d * nS + i) (n * l * integral) v) v) v) v) (SmallMat.fill _ _ 0)

/-- `assemble_rhs_from_global_rhs`: `diffusion_ldgh.hxx` 1034-1071. -/
def assemble_rhs_from_global_rhs (m : Mode) (E : Edge dim nS K) (tau time : K) : Res (SmallVec ((dim + 1) * nS) K) :=
  forUp nS (fun i (v : SmallVec ((dim + 1) * nS) K) => do
    let v ← SmallMat.set m (dim * nS + i) (E.vol_phifunc time i) v
    forUp (2 * dim) (fun face v =>
      if ¬ is_dirichlet E face then .ok v
      else do
        let integral := E.bdr_phifunc time i face
        let v ← SmallMat.addTo m (dim * nS + i) (tau * integral) v
        forUp dim (fun d v => do
          let n ← arrGet (E.local_normal face) d
          SmallMat.subFrom m (d * nS + i) (n * integral) v) v) v) (SmallMat.fill _ _ 0)

/-- `assemble_rhs_from_coeffs`: `diffusion_ldgh.hxx` 1077-1098. -/
def assemble_rhs_from_coeffs (m : Mode) (E : Edge dim nS K) (coeffs : SmallVec ((dim + 1) * nS) K) : Res (SmallVec ((dim + 1) * nS) K) :=
  forUp nS (fun i v => forUp nS (fun j (v : SmallVec ((dim + 1) * nS) K) => do
    let x ← SmallMat.get m coeffs (dim * nS + j)
    SmallMat.addTo m (dim * nS + i) (x * E.vol_phiphi i j) v) v) (SmallMat.fill _ _ 0)

/-- `solve_local_problem`: `diffusion_ldgh.hxx` 345-369. -/
def solve_local_problem (m : Mode) (gesv : Gesv ((dim + 1) * nS) 1 K) (E : Edge dim nS K) (tau : K) (lambda : LocDofs dim nB K) (solution_type : Nat)
    (time : K) : Res (SmallVec ((dim + 1) * nS) K) :=
  catchLapack m (do
    let rhs ← (if solution_type = 0 then assemble_rhs_from_lambda m E tau lambda
      else if solution_type = 1 then do
        let a ← assemble_rhs_from_lambda m E tau lambda
        let b ← assemble_rhs_from_global_rhs m E tau time
        SmallMat.add_mat a b
      else do
        hyAssert m (0 = 1)
        return SmallMat.fill _ _ 0)
    let A ← assemble_loc_matrix m E tau time
    solve gesv rhs A)

/-- `solve_mass_problem`: `diffusion_ldgh.hxx` 382-398. -/
def solve_mass_problem (m : Mode) (gesv : Gesv ((dim + 1) * nS) 1 K) (E : Edge dim nS K) (tau : K) (coeffs : SmallVec ((dim + 1) * nS) K) (time : K) :
    Res (SmallVec ((dim + 1) * nS) K) :=
  catchLapack m (do
    let rhs ← assemble_rhs_from_coeffs m E coeffs
    let A ← assemble_loc_matrix m E tau time
    solve gesv rhs A)

/-- `primal_at_boundary`: `diffusion_ldgh.hxx` 1104-1129. -/
def primal_at_boundary (m : Mode) (E : Edge dim nS K) (nB : Nat) (coeffs : SmallVec ((dim + 1) * nS) K) : Res (SmallMat (2 * dim) nB K) :=
  forUp nS (fun i b => forUp nB (fun j b => forUp (2 * dim) (fun face (b : SmallMat (2 * dim) nB K) => do
    let x ← SmallMat.get m coeffs (dim * nS + i)
    SmallMat.addAt m face j (x * E.bdr_phipsi i j face) b) b) b) (SmallMat.fill _ _ 0)

/-- `dual_at_boundary`: `diffusion_ldgh.hxx` 1135-1164. -/
def dual_at_boundary (m : Mode) (E : Edge dim nS K) (nB : Nat) (coeffs : SmallVec ((dim + 1) * nS) K) : Res (SmallMat (2 * dim) nB K) :=
  forUp nS (fun i b => forUp nB (fun j b => forUp (2 * dim) (fun face (b : SmallMat (2 * dim) nB K) => do
    let integral := E.bdr_phipsi i j face
    forUp dim (fun d b => do
      let n ← arrGet (E.local_normal face) d
      let x ← SmallMat.get m coeffs (d * nS + i)
      SmallMat.addAt m face j (n * integral * x) b) b) b) b) (SmallMat.fill _ _ 0)

/-- The loop writing the result: `diffusion_ldgh.hxx` 513-521 and 577-587. -/
def writeFlux (m : Mode) (E : Edge dim nS K) (tau : K) (primals duals : SmallMat (2 * dim) nB K) (lambda_in lambda_out : LocDofs dim nB K) :
    Res (LocDofs dim nB K) :=
  forFin (2 * dim) (fun i out =>
    if is_dirichlet E i then forFin nB (fun j (out : LocDofs dim nB K) => .ok (arrSet out i (arrSet (out i) j 0))) out
    else forFin nB (fun j (out : LocDofs dim nB K) => do
      let x ← SmallMat.at' m duals i j
      let y ← SmallMat.at' m primals i j
      return arrSet out i (arrSet (out i) j (x + tau * y - tau * lambda_in i j * E.face_area i))) out) lambda_out

/-- The loop writing the result of the mass fluxes: `diffusion_ldgh.hxx` 743-751 and 793-801. -/
def writeMassFlux (m : Mode) (E : Edge dim nS K) (tau : K) (primals duals : SmallMat (2 * dim) nB K) (lambda_out : LocDofs dim nB K) :
    Res (LocDofs dim nB K) :=
  forFin (2 * dim) (fun i out =>
    if is_dirichlet E i then forFin nB (fun j (out : LocDofs dim nB K) => .ok (arrSet out i (arrSet (out i) j 0))) out
    else forFin nB (fun j (out : LocDofs dim nB K) => do
      let x ← SmallMat.at' m duals i j
      let y ← SmallMat.at' m primals i j
      return arrSet out i (arrSet (out i) j (x + tau * y))) out) lambda_out

/-- `trace_to_flux`: `diffusion_ldgh.hxx` 490-524 (the checks of sizes hold by the types of the model, here and below). -/
def trace_to_flux (m : Mode) (gesv : Gesv ((dim + 1) * nS) 1 K) (tau : K) (lambda_in lambda_out : LocDofs dim nB K) (E : Edge dim nS K) (time : K) :
    Res (LocDofs dim nB K) := do
  let coeffs ← solve_local_problem m gesv E tau lambda_in 0 time
  let primals ← primal_at_boundary m E nB coeffs
  let duals ← dual_at_boundary m E nB coeffs
  writeFlux m E tau primals duals lambda_in lambda_out

/-- `residual_flux`: `diffusion_ldgh.hxx` 554-590. -/
def residual_flux (m : Mode) (gesv : Gesv ((dim + 1) * nS) 1 K) (tau : K) (lambda_in lambda_out : LocDofs dim nB K) (E : Edge dim nS K) (time : K) :
    Res (LocDofs dim nB K) := do
  let coeffs ← solve_local_problem m gesv E tau lambda_in 1 time
  let primals ← primal_at_boundary m E nB coeffs
  let duals ← dual_at_boundary m E nB coeffs
  writeFlux m E tau primals duals lambda_in lambda_out

/-- `make_initial`: `diffusion_ldgh.hxx` 603-628. -/
def make_initial (lambda_values : LocDofs dim nB K) (E : Edge dim nS K) (time : K) : Res (LocDofs dim nB K) :=
  forFin (2 * dim) (fun i out =>
    if is_dirichlet E i then forFin nB (fun j (out : LocDofs dim nB K) => .ok (arrSet out i (arrSet (out i) j 0))) out
    else forFin nB (fun j (out : LocDofs dim nB K) => .ok (arrSet out i (arrSet (out i) j (E.bdrUni_psifunc time j i)))) out) lambda_values

/-- `trace_to_mass_flux`: `diffusion_ldgh.hxx` 719-754. -/
def trace_to_mass_flux (m : Mode) (gesv : Gesv ((dim + 1) * nS) 1 K) (tau : K) (lambda_in lambda_out : LocDofs dim nB K) (E : Edge dim nS K) (time : K) :
    Res (LocDofs dim nB K) := do
  let coeffs ← solve_local_problem m gesv E tau lambda_in 0 time
  let coeffs ← solve_mass_problem m gesv E tau coeffs time
  let primals ← primal_at_boundary m E nB coeffs
  let duals ← dual_at_boundary m E nB coeffs
  writeMassFlux m E tau primals duals lambda_out

/-- `total_numerical_flux_mass`: `diffusion_ldgh.hxx` 769-804. -/
def total_numerical_flux_mass (m : Mode) (gesv : Gesv ((dim + 1) * nS) 1 K) (tau : K) (lambda_in lambda_out : LocDofs dim nB K) (E : Edge dim nS K)
    (time : K) : Res (LocDofs dim nB K) := do
  let coeffs ← solve_local_problem m gesv E tau lambda_in 1 time
  let coeffs ← solve_mass_problem m gesv E tau coeffs time
  let primals ← primal_at_boundary m E nB coeffs
  let duals ← dual_at_boundary m E nB coeffs
  writeMassFlux m E tau primals duals lambda_out

/-- `errors`: `diffusion_ldgh.hxx` 815-836 (the array `coeffs` is not initialised in the code; each entry is written). -/
def errors (m : Mode) (gesv : Gesv ((dim + 1) * nS) 1 K) (tau : K) (lambda : LocDofs dim nB K) (E : Edge dim nS K) (time : K) : Res (Fin 1 → K) := do
  let coefficients ← solve_local_problem m gesv E tau lambda 1 time
  let coeffs ← forFin nS (fun i (c : Fin nS → K) => do
    let x ← SmallMat.get m coefficients (i + dim * nS)
    return arrSet c i x) (fun _ => 0)
  return fun _ => E.vol_diffsquare time coeffs

/-- `bulk_values`: `diffusion_ldgh.hxx` 1170-1207.  `lin_comb` stands for `shape_fun_t::lin_comb_fct_val(coeffs, point)` of
`tensor_product_polynomials` (asked for as `float` in the code; exact here). -/
def bulk_values (m : Mode) (gesv : Gesv ((dim + 1) * nS) 1 K) (lin_comb : (Fin nS → K) → List K → K) (tau : K) (abscissas : List K)
    (lambda : LocDofs dim nB K) (E : Edge dim nS K) (time : K) (vals0 : Fin (dim + 1) → Fin (Hypercube.pow dim abscissas.length) → K) :
    Res (Fin (dim + 1) → Fin (Hypercube.pow dim abscissas.length) → K) := do
  let coefficients ← solve_local_problem m gesv E tau lambda 1 time
  let r ← forFin (dim + 1) (fun d (s : (Fin nS → K) × (Fin (dim + 1) → Fin (Hypercube.pow dim abscissas.length) → K)) => do
    let coeffs ← forFin nS (fun i (c : Fin nS → K) => do
      let x ← SmallMat.get m coefficients (d * nS + i)
      return arrSet c i x) s.1
    let vals ← forFin (Hypercube.pow dim abscissas.length) (fun pt (v : Fin (dim + 1) → Fin (Hypercube.pow dim abscissas.length) → K) => do
      let p ← Hypercube.tensorial_pt m dim pt abscissas
      return arrSet v d (arrSet (v d) pt (lin_comb coeffs p))) s.2
    return (coeffs, vals)) (fun _ => 0, vals0)
  return r.2

end Diffusion
end HyperHDG

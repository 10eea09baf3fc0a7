import Verif.Model.Diffusion
import Mathlib.Order.Defs.LinearOrder

/-!
# Model of `include/HyperHDG/local_solver/bilaplacian_ldgh.hxx`

`dim` is `hyEdge_dimT`, `nS` is `n_shape_fct_`, `nB` is `n_shape_bdr_`; the local unknowns are two copies of those of the diffusion problem, and a hypernode
owns `2 * nB` degrees of freedom: `nB` for the trace of the primal unknown, then `nB` for that of the (negative) Laplacian.  Not modelled: `errors_temp` and
`solve_loc_prob_cor`, which is only used there.
-/

namespace HyperHDG

namespace Bilaplacian

/-- What the local solver asks about a hyperedge: as for diffusion (`vol_phiphifunc` with `inverse_bilaplacian_coefficient`), and the data for the
Laplacian. -/
structure Edge (dim nS : Nat) (K : Type) extends Diffusion.Edge dim nS K where
  /-- `integrate_bdr_phifunc<dirichlet_laplace_value>(i, face, geometry, time)` -/
  bdr_phifunc_laplace : K → Nat → Nat → K
  /-- `integrate_bdrUni_psifunc<initial_laplace>(j, face, geometry, time)` -/
  bdrUni_psifunc_laplace : K → Nat → Nat → K
  /-- `parameters::dirichlet_laplacian_nodes` -/
  dirichlet_laplacian_nodes : List Nat

variable {K : Type} {dim nS nB : Nat}

/-- `n_loc_dofs_`: `bilaplacian_ldgh.hxx` 221. -/
abbrev n_loc_dofs (dim nS : Nat) : Nat := 2 * (dim + 1) * nS

/-- `n_dofs_lap = n_loc_dofs_ / 2`: `bilaplacian_ldgh.hxx` 971, 1054, 1106, 1197, 1241. -/
def n_dofs_lap (dim nS : Nat) : Nat := n_loc_dofs dim nS / 2

/-- `is_dirichlet(hyper_edge.node_descriptor[face])`: `bilaplacian_ldgh.hxx` 237-242. -/
def is_dirichlet (E : Edge dim nS K) (face : Nat) : Bool := E.dirichlet_nodes.contains (E.node_descriptor face)

/-- `is_dirichlet_laplacian(hyper_edge.node_descriptor[face])`: `bilaplacian_ldgh.hxx` 243-249. -/
def is_dirichlet_laplacian (E : Edge dim nS K) (face : Nat) : Bool := E.dirichlet_laplacian_nodes.contains (E.node_descriptor face)

/-- `node_types`: `bilaplacian_ldgh.hxx` 551-564. -/
def node_types (E : Edge dim nS K) : Res (Fin (2 * dim) → Nat) :=
  forFin (2 * dim) (fun i result => .ok (if is_dirichlet E i then arrSet result i 1 else result)) (fun _ => 0)

variable [CommRing K]

/-- Body of the loops of `assemble_loc_matrix` over `i` and `j`: `bilaplacian_ldgh.hxx` 981-1029. -/
def locMatrixStep (m : Mode) (E : Edge dim nS K) (tau time : K) (i j : Nat)
    (M : SmallMat (n_loc_dofs dim nS) (n_loc_dofs dim nS) K) : Res (SmallMat (n_loc_dofs dim nS) (n_loc_dofs dim nS) K) := do
  let vol_integral := E.vol_phiphi i j
  let vol_func_integral := E.vol_phiphifunc time i j
  let grad_int_vec := E.vol_nablaphiphi i j
  let s ← forUp (2 * dim) (fun face (s : K × (Fin dim → K)) => do
    let helper := E.bdr_phiphi i j face
    let normal_int_vec ← forUp dim (fun d (n : Fin dim → K) => do
      let x ← arrGet n d
      let y ← arrGet (E.local_normal face) d
      arrPut n d (x + y * helper)) s.2
    return (s.1 + helper, normal_int_vec)) (0, fun _ => 0)
  let M ← SmallMat.subAt m (dim * nS + i) (n_dofs_lap dim nS + dim * nS + j) vol_func_integral M
  let M ← SmallMat.addAt m (dim * nS + i) (dim * nS + j) (tau * s.1) M
  let M ← SmallMat.addAt m (n_dofs_lap dim nS + dim * nS + i) (n_dofs_lap dim nS + dim * nS + j) (tau * s.1) M
  forUp dim (fun d M => do
    let M ← SmallMat.addAt m (d * nS + i) (d * nS + j) vol_integral M
    let M ← SmallMat.addAt m (n_dofs_lap dim nS + d * nS + i) (n_dofs_lap dim nS + d * nS + j) vol_integral M
    let g ← arrGet grad_int_vec d
    let M ← SmallMat.subAt m (dim * nS + i) (d * nS + j) g M
    let M ← SmallMat.subAt m (d * nS + i) (dim * nS + j) g M
    let M ← SmallMat.subAt m (n_dofs_lap dim nS + dim * nS + i) (n_dofs_lap dim nS + d * nS + j) g M
    let M ← SmallMat.subAt m (n_dofs_lap dim nS + d * nS + i) (n_dofs_lap dim nS + dim * nS + j) g M
    let n ← arrGet s.2 d
    let M ← SmallMat.addAt m (dim * nS + i) (d * nS + j) n M
    SmallMat.addAt m (n_dofs_lap dim nS + dim * nS + i) (n_dofs_lap dim nS + d * nS + j) n M) M

/-- `assemble_loc_matrix`: `bilaplacian_ldgh.hxx` 955-1034. -/
def assemble_loc_matrix (m : Mode) (E : Edge dim nS K) (tau time : K) : Res (SmallMat (n_loc_dofs dim nS) (n_loc_dofs dim nS) K) :=
  forUp nS (fun i M => forUp nS (fun j M => locMatrixStep m E tau time i j M) M) (SmallMat.fill _ _ 0)

/-- `assemble_rhs_from_lambda`: `bilaplacian_ldgh.hxx` 1040-1086 (the checks of sizes hold by the types of the model). -/
def assemble_rhs_from_lambda (m : Mode) (E : Edge dim nS K) (nB : Nat) (tau : K) (lambda : LocDofs dim (2 * nB) K) : Res (SmallVec (n_loc_dofs dim nS) K) :=
  forUp nS (fun i v => forUp nB (fun j v => forUp (2 * dim) (fun face (v : SmallVec (n_loc_dofs dim nS) K) => do
    let integral := E.bdr_phipsi i j face
    let l ← arrGet2 lambda face j
    let l' ← arrGet2 lambda face (nB + j)
    let v ← SmallMat.addTo m (dim * nS + i) (tau * l * integral) v
    let v ← SmallMat.addTo m (n_dofs_lap dim nS + dim * nS + i) (tau * l' * integral) v
    forUp dim (fun d v => do
      let n ← arrGet (E.local_normal face) d
      let v ← SmallMat.subFrom m (d * nS + i) (n * l * integral) v
      SmallMat.subFrom m (n_dofs_lap dim nS + d * nS + i) (n * l' * integral) v) v) v) v) (SmallMat.fill _ _ 0)

/-- The contribution of a face of the Dirichlet boundary, `b = 0` or `b = n_dofs_lap` the position of the unknown: `bilaplacian_ldgh.hxx` 1119-1127,
1130-1138. -/
def dirichletRhs (m : Mode) (E : Edge dim nS K) (tau integral : K) (b i face : Nat) (v : SmallVec (n_loc_dofs dim nS) K) : Res (SmallVec (n_loc_dofs dim nS) K) := do
  let v ← SmallMat.addTo m (b + dim * nS + i) (tau * integral) v
  forUp dim (fun d v => do
    let n ← arrGet (E.local_normal face) d
    SmallMat.subFrom m (b + d * nS + i) (n * integral) v) v

/-- `assemble_rhs_from_global_rhs`: `bilaplacian_ldgh.hxx` 1092-1143. -/
def assemble_rhs_from_global_rhs (m : Mode) (E : Edge dim nS K) (tau time : K) : Res (SmallVec (n_loc_dofs dim nS) K) :=
  forUp nS (fun i (v : SmallVec (n_loc_dofs dim nS) K) => do
    let v ← SmallMat.set m (n_dofs_lap dim nS + dim * nS + i) (E.vol_phifunc time i) v
    forUp (2 * dim) (fun face v => do
      let v ← (if is_dirichlet E face then dirichletRhs m E tau (E.bdr_phifunc time i face) 0 i face v else .ok v)
      if is_dirichlet_laplacian E face then dirichletRhs m E tau (E.bdr_phifunc_laplace time i face) (n_dofs_lap dim nS) i face v else .ok v) v)
    (SmallMat.fill _ _ 0)

/-- `assemble_rhs_from_coeffs`: `bilaplacian_ldgh.hxx` 1149-1175. -/
def assemble_rhs_from_coeffs (m : Mode) (E : Edge dim nS K) (coeffs : SmallVec (n_loc_dofs dim nS) K) : Res (SmallVec (n_loc_dofs dim nS) K) :=
  forUp nS (fun i v => forUp nS (fun j (v : SmallVec (n_loc_dofs dim nS) K) => do
    let x ← arrGet coeffs (dim * nS + j)
    SmallMat.addTo m (n_loc_dofs dim nS / 2 + dim * nS + i) (x * E.vol_phiphi i j) v) v) (SmallMat.fill _ _ 0)

/-- `solve_local_problem`: `bilaplacian_ldgh.hxx` 363-387. -/
def solve_local_problem (m : Mode) (gesv : Gesv (n_loc_dofs dim nS) 1 K) (E : Edge dim nS K) (tau : K) (lambda : LocDofs dim (2 * nB) K)
    (solution_type : Nat) (time : K) : Res (SmallVec (n_loc_dofs dim nS) K) :=
  catchLapack m (do
    let rhs ← (if solution_type = 0 then assemble_rhs_from_lambda m E nB tau lambda
      else if solution_type = 1 then do
        let a ← assemble_rhs_from_lambda m E nB tau lambda
        let b ← assemble_rhs_from_global_rhs m E tau time
        SmallMat.add_mat a b
      else do
        hyAssert m (0 = 1)
        return SmallMat.fill _ _ 0)
    let A ← assemble_loc_matrix m E tau time
    solve gesv rhs A)

/-- `solve_mass_problem`: `bilaplacian_ldgh.hxx` 399-416. -/
def solve_mass_problem (m : Mode) (gesv : Gesv (n_loc_dofs dim nS) 1 K) (E : Edge dim nS K) (tau : K) (coeffs : SmallVec (n_loc_dofs dim nS) K) (time : K) :
    Res (SmallVec (n_loc_dofs dim nS) K) :=
  catchLapack m (do
    let rhs ← assemble_rhs_from_coeffs m E coeffs
    let A ← assemble_loc_matrix m E tau time
    solve gesv rhs A)

/-- `primal_at_boundary`: `bilaplacian_ldgh.hxx` 1181-1219.  (The traces of the second unknown come first.) -/
def primal_at_boundary (E : Edge dim nS K) (nB : Nat) (coeffs : SmallVec (n_loc_dofs dim nS) K) : Res (LocDofs dim (2 * nB) K) :=
  forUp nS (fun i b => forUp nB (fun j b => forUp (2 * dim) (fun face (b : LocDofs dim (2 * nB) K) => do
    let x ← arrGet coeffs (dim * nS + i)
    let b ← arrAdd2 face (nB + j) (x * E.bdr_phipsi i j face) b
    let x ← arrGet coeffs (n_dofs_lap dim nS + dim * nS + i)
    arrAdd2 face j (x * E.bdr_phipsi i j face) b) b) b) (fun _ _ => 0)

/-- `dual_at_boundary`: `bilaplacian_ldgh.hxx` 1225-1266.  (The fluxes of the second unknown come first.) -/
def dual_at_boundary (E : Edge dim nS K) (nB : Nat) (coeffs : SmallVec (n_loc_dofs dim nS) K) : Res (LocDofs dim (2 * nB) K) :=
  forUp nS (fun i b => forUp nB (fun j b => forUp (2 * dim) (fun face (b : LocDofs dim (2 * nB) K) => do
    let integral := E.bdr_phipsi i j face
    forUp dim (fun d b => do
      let n ← arrGet (E.local_normal face) d
      let x ← arrGet coeffs (d * nS + i)
      let b ← arrAdd2 face (nB + j) (n * integral * x) b
      let x ← arrGet coeffs (n_dofs_lap dim nS + d * nS + i)
      arrAdd2 face j (n * integral * x) b) b) b) b) (fun _ _ => 0)

/-- The loops setting the degrees of freedom of the Dirichlet boundary to zero: `bilaplacian_ldgh.hxx` 538-543, 605-610, 701-706, 756-761. -/
def zeroDirichlet (E : Edge dim nS K) (i : Nat) (out : LocDofs dim (2 * nB) K) : Res (LocDofs dim (2 * nB) K) := do
  let out ← (if is_dirichlet E i then forUp (2 * nB / 2) (fun j out => arrPut2 out i j 0) out else .ok out)
  if is_dirichlet_laplacian E i then forUp (2 * nB - 2 * nB / 2) (fun j out => arrPut2 out i (2 * nB / 2 + j) 0) out else .ok out

/-- `trace_to_flux`: `bilaplacian_ldgh.hxx` 508-547 (the checks of sizes hold by the types of the model, here and below). -/
def trace_to_flux (m : Mode) (gesv : Gesv (n_loc_dofs dim nS) 1 K) (tau : K) (lambda_in lambda_out : LocDofs dim (2 * nB) K) (E : Edge dim nS K)
    (time : K) : Res (LocDofs dim (2 * nB) K) := do
  let coeffs ← solve_local_problem m gesv E tau lambda_in 0 time
  let primals ← primal_at_boundary E nB coeffs
  let duals ← dual_at_boundary E nB coeffs
  forFin (2 * dim) (fun i out => do
    let out ← forFin (2 * nB) (fun j (out : LocDofs dim (2 * nB) K) => do
      let l ← arrGet (lambda_in i) (if j.1 < nB then j + nB else j - nB)
      .ok (arrSet out i (arrSet (out i) j (duals i j + tau * primals i j - tau * l * E.face_area i)))) out
    zeroDirichlet E i out) lambda_out

/-- `residual_flux`: `bilaplacian_ldgh.hxx` 577-614. -/
def residual_flux (m : Mode) (gesv : Gesv (n_loc_dofs dim nS) 1 K) (tau : K) (lambda_in lambda_out : LocDofs dim (2 * nB) K) (E : Edge dim nS K)
    (time : K) : Res (LocDofs dim (2 * nB) K) := do
  let coeffs ← solve_local_problem m gesv E tau lambda_in 1 time
  let primals ← primal_at_boundary E nB coeffs
  let duals ← dual_at_boundary E nB coeffs
  forFin (2 * dim) (fun i out => do
    let out ← forFin (2 * nB) (fun j (out : LocDofs dim (2 * nB) K) =>
      .ok (arrSet out i (arrSet (out i) j (duals i j + tau * primals i j - tau * lambda_in i j * E.face_area i)))) out
    zeroDirichlet E i out) lambda_out

/-- `make_initial`: `bilaplacian_ldgh.hxx` 627-655.  (The face and the number of the shape function are passed to the integrator in this order.) -/
def make_initial (lambda_values : LocDofs dim (2 * nB) K) (E : Edge dim nS K) (time : K) : Res (LocDofs dim (2 * nB) K) :=
  forFin (2 * dim) (fun i out =>
    if is_dirichlet E i then forFin (2 * nB) (fun j (out : LocDofs dim (2 * nB) K) => .ok (arrSet out i (arrSet (out i) j 0))) out
    else do
      let out ← forUp (2 * nB / 2) (fun j out => arrPut2 out i j (E.bdrUni_psifunc time i j)) out
      forUp (2 * nB - 2 * nB / 2) (fun j out => arrPut2 out i (2 * nB / 2 + j) (E.bdrUni_psifunc_laplace time i (2 * nB / 2 + j))) out) lambda_values

/-- The loop writing the mass fluxes: `bilaplacian_ldgh.hxx` 697-707 and 752-762. -/
def writeMassFlux (E : Edge dim nS K) (tau : K) (primals duals lambda_out : LocDofs dim (2 * nB) K) : Res (LocDofs dim (2 * nB) K) :=
  forFin (2 * dim) (fun i out => do
    let out ← forFin (2 * nB) (fun j (out : LocDofs dim (2 * nB) K) => .ok (arrSet out i (arrSet (out i) j (duals i j + tau * primals i j)))) out
    zeroDirichlet E i out) lambda_out

/-- `trace_to_mass_flux`: `bilaplacian_ldgh.hxx` 673-710. -/
def trace_to_mass_flux (m : Mode) (gesv : Gesv (n_loc_dofs dim nS) 1 K) (tau : K) (lambda_in lambda_out : LocDofs dim (2 * nB) K) (E : Edge dim nS K)
    (time : K) : Res (LocDofs dim (2 * nB) K) := do
  let coeffs ← solve_local_problem m gesv E tau lambda_in 0 time
  let coeffs ← solve_mass_problem m gesv E tau coeffs time
  let primals ← primal_at_boundary E nB coeffs
  let duals ← dual_at_boundary E nB coeffs
  writeMassFlux E tau primals duals lambda_out

/-- `total_numerical_flux_mass`: `bilaplacian_ldgh.hxx` 728-765. -/
def total_numerical_flux_mass (m : Mode) (gesv : Gesv (n_loc_dofs dim nS) 1 K) (tau : K) (lambda_in lambda_out : LocDofs dim (2 * nB) K)
    (E : Edge dim nS K) (time : K) : Res (LocDofs dim (2 * nB) K) := do
  let coeffs ← solve_local_problem m gesv E tau lambda_in 1 time
  let coeffs ← solve_mass_problem m gesv E tau coeffs time
  let primals ← primal_at_boundary E nB coeffs
  let duals ← dual_at_boundary E nB coeffs
  writeMassFlux E tau primals duals lambda_out

/-- `errors`: `bilaplacian_ldgh.hxx` 851-878 (the checks for `NaN` hold in exact arithmetic; the array `coeffs` is not initialised in the code, each entry is
written). -/
def errors [LinearOrder K] (m : Mode) (gesv : Gesv (n_loc_dofs dim nS) 1 K) (tau : K) (lambda : LocDofs dim (2 * nB) K) (E : Edge dim nS K) (time : K) :
    Res (Fin 1 → K) := do
  let coefficients ← solve_local_problem m gesv E tau lambda 1 time
  let coeffs ← forFin nS (fun i (c : Fin nS → K) => do
    let x ← arrGet coefficients (i + dim * nS)
    return arrSet c i x) (fun _ => 0)
  let result := E.vol_diffsquare time coeffs
  hyAssert m (0 ≤ result)
  return fun _ => result

/-- `bulk_values`: `bilaplacian_ldgh.hxx` 1272-1306.  `lin_comb` stands for `shape_fun_t::lin_comb_fct_val(coeffs, point)` of
`tensor_product_polynomials` (asked for as `float` in the code; exact here). -/
def bulk_values (m : Mode) (gesv : Gesv (n_loc_dofs dim nS) 1 K) (lin_comb : (Fin nS → K) → List K → K) (tau : K) (abscissas : List K)
    (lambda : LocDofs dim (2 * nB) K) (E : Edge dim nS K) (time : K) (vals0 : Fin (dim + 1) → Fin (Hypercube.pow dim abscissas.length) → K) :
    Res (Fin (dim + 1) → Fin (Hypercube.pow dim abscissas.length) → K) := do
  let coefficients ← solve_local_problem m gesv E tau lambda 1 time
  let r ← forFin (dim + 1) (fun d (s : (Fin nS → K) × (Fin (dim + 1) → Fin (Hypercube.pow dim abscissas.length) → K)) => do
    let coeffs ← forFin nS (fun i (c : Fin nS → K) => do
      let x ← SmallMat.get m coefficients (d * nS + i)
      return arrSet c i x) s.1
    let vals ← forFin (Hypercube.pow dim abscissas.length) (fun pt (v : Fin (dim + 1) → Fin (Hypercube.pow dim abscissas.length) → K) => do
      let p ← Hypercube.tensorial_pt m dim pt abscissas
      return arrSet v d (arrSet (v d) pt (lin_comb coeffs p))) s.2
    return (coeffs, vals)) (fun _ => 0, vals0)
  return r.2

end Bilaplacian
end HyperHDG

import Verif.Model.LocalSolver
import Verif.Model.Hypercube
import Mathlib.Algebra.Field.Defs
import Mathlib.Order.Defs.LinearOrder
import Mathlib.Data.Fin.VecNotation

/-!
# Model of `include/HyperHDG/local_solver/timoshenko_network.hxx`

The solver asserts that hyperedges have dimension one and that space has dimension three (387, 390); it is modelled for these parameters: `hyEdge_dimT = 1`,
`space_dim = 3`, hence `n_shape_bdr_ = 1`.  `nS` is `n_shape_fct_`.  A hypernode owns six degrees of freedom (displacement and rotation), the local unknowns are
the coefficients of force (blocks 0 to 2), moment (3 to 5), displacement (6 to 8) and rotation (9 to 11).  Not modelled: the parameter structures (24-204),
`error_def` (240-277), the output to `std::cout` before a failed assertion (469).
-/

namespace HyperHDG

namespace Timoshenko

/-- What the local solver asks about a hyperedge.  Arguments are natural numbers as in the code; components of vector-valued data are integers: `1` for the
component along the beam, `-1` and `-2` for the components along the outer normals. -/
structure Edge (nS : Nat) (K : Type) where
  /-- `integrate_vol_phiphi(i, j, geometry)` -/
  vol_phiphi : Nat → Nat → K
  /-- `integrate_vol_nablaphiphi(i, j, geometry)`: the gradient acts on the first function -/
  vol_nablaphiphi : Nat → Nat → Fin 1 → K
  /-- `integrate_bdr_phiphi(i, j, face, geometry)` -/
  bdr_phiphi : Nat → Nat → Nat → K
  /-- `integrate_bdr_phipsi(i, j, face, geometry)` -/
  bdr_phipsi : Nat → Nat → Nat → K
  /-- `integrate_vol_phivecfunccomp<right_hand_side_n>(i, component, geometry, time)` -/
  vol_phi_n : Nat → Int → K → K
  /-- `integrate_vol_phivecfunccomp<right_hand_side_m>(i, component, geometry, time)` -/
  vol_phi_m : Nat → Int → K → K
  /-- `integrate_bdr_phivecfunccomp<dirichlet_value_u>(i, face, component, geometry, time)` -/
  bdr_phi_u : Nat → Nat → Int → K → K
  /-- `integrate_bdr_phivecfunccomp<dirichlet_value_phi>(i, face, component, geometry, time)` -/
  bdr_phi_phi : Nat → Nat → Int → K → K
  /-- `integrate_vol_diffsquare_discanacomp<analytic_result_u>(coeffs, component, geometry, time)` -/
  vol_diffsquare : (Fin nS → K) → Int → K → K
  /-- `geometry.local_normal(face)` -/
  local_normal : Nat → Fin 1 → K
  /-- `geometry.inner_normal(index)` -/
  inner_normal : Nat → Fin 3 → K
  /-- `geometry.outer_normal(index)` -/
  outer_normal : Nat → Fin 3 → K
  /-- `geometry.extra_data()` if `geometry.has_extra_data()` -/
  extra_data : Option (List K)
  /-- `node_descriptor[face]` -/
  node_descriptor : Nat → Nat
  /-- `parameters::dirichlet_nodes` -/
  dirichlet_nodes : List Nat

variable {K : Type} {nS : Nat}

/-- `n_loc_dofs_`: `timoshenko_network.hxx` 329. -/
abbrev n_loc_dofs (nS : Nat) : Nat := 12 * nS

/-- `is_dirichlet(hyper_edge.node_descriptor[face])`: `timoshenko_network.hxx` 307-312. -/
def is_dirichlet (E : Edge nS K) (face : Nat) : Bool := E.dirichlet_nodes.contains (E.node_descriptor face)

section Frame
variable [CommRing K]

/-- The loops adding one component in the frame of the beam: `timoshenko_network.hxx` 397-402 (`k = 0`) and 408-413 (`k = 1 + ind`). -/
def addComponent (normal_vec : Fin 3 → K) (k : Nat) (glob loc : LocDofs 1 6 K) : Res (LocDofs 1 6 K) :=
  forUp 2 (fun i loc => forUp 3 (fun d loc => do
    let n ← arrGet normal_vec d
    let x ← arrGet2 glob i d
    let loc ← arrAdd2 i k (n * x) loc
    let y ← arrGet2 glob i (d + 3)
    arrAdd2 i (k + 3) (n * y) loc) loc) loc

/-- `node_dof_to_edge_dof`: `timoshenko_network.hxx` 381-417 (the assertions hold for the dimensions of the model). -/
def node_dof_to_edge_dof (E : Edge nS K) (glob_lambda : LocDofs 1 6 K) : Res (LocDofs 1 6 K) := do
  let loc ← addComponent (E.inner_normal 0) 0 glob_lambda (fun _ _ => 0)
  forUp 2 (fun ind loc => addComponent (E.outer_normal ind) (1 + ind) glob_lambda loc) loc

/-- The loops distributing one component: `timoshenko_network.hxx` 427-432 (`k = 0`) and 438-443 (`k = 1 + ind`). -/
def spreadComponent (normal_vec : Fin 3 → K) (k : Nat) (loc glob : LocDofs 1 6 K) : Res (LocDofs 1 6 K) :=
  forUp 2 (fun i glob => forUp 3 (fun d glob => do
    let n ← arrGet normal_vec d
    let x ← arrGet2 loc i k
    let glob ← arrAdd2 i d (n * x) glob
    let y ← arrGet2 loc i (k + 3)
    arrAdd2 i (d + 3) (n * y) glob) glob) glob

/-- `edge_dof_to_node_dof`: `timoshenko_network.hxx` 419-447.  (Adds to what `glob_lambda` contains.) -/
def edge_dof_to_node_dof (E : Edge nS K) (loc_lambda glob_lambda : LocDofs 1 6 K) : Res (LocDofs 1 6 K) := do
  let glob ← spreadComponent (E.inner_normal 0) 0 loc_lambda glob_lambda
  forUp 2 (fun ind glob => spreadComponent (E.outer_normal ind) (1 + ind) loc_lambda glob) glob

/-- `assemble_rhs_from_lambda`: `timoshenko_network.hxx` 831-868 (the checks of sizes hold by the types of the model). -/
def assemble_rhs_from_lambda (m : Mode) (E : Edge nS K) (tau : K) (lambda : LocDofs 1 6 K) : Res (SmallVec (n_loc_dofs nS) K) :=
  forUp nS (fun i v => forUp 1 (fun j v => forUp 2 (fun face v => do
    let integral := E.bdr_phipsi i j face
    forUp 6 (fun d (v : SmallVec (n_loc_dofs nS) K) => do
      let l ← arrGet2 lambda face (j + d)
      let v ← SmallMat.addTo m ((6 + d) * nS + i) (tau * l * integral) v
      let n ← arrGet (E.local_normal face) 0
      SmallMat.subFrom m (d * nS + i) (n * l * integral) v) v) v) v) (SmallMat.fill _ _ 0)

/-- What a face of the Dirichlet boundary adds for one component `d`: for example `timoshenko_network.hxx` 935-937. -/
def dirichletComponent (m : Mode) (E : Edge nS K) (tau : K) (i face d : Nat) (integral : K) (v : SmallVec (n_loc_dofs nS) K) : Res (SmallVec (n_loc_dofs nS) K) := do
  let n ← arrGet (E.local_normal face) 0
  let v ← SmallMat.subFrom m (d * nS + i) (n * integral) v
  SmallMat.addTo m ((6 + d) * nS + i) (tau * integral) v

/-- `assemble_rhs_from_global_rhs`: `timoshenko_network.hxx` 886-983.  The second argument of the code is not used; all data are evaluated at time zero.  (The
time is converted to `unsigned int` for this argument, 462 and 887, which is undefined for negative or large values in C++; not modelled.) -/
def assemble_rhs_from_global_rhs (m : Mode) (E : Edge nS K) (tau : K) : Res (SmallVec (n_loc_dofs nS) K) :=
  forUp nS (fun i (v : SmallVec (n_loc_dofs nS) K) => do
    let v ← SmallMat.set m (6 * nS + i) (E.vol_phi_n i 1 0) v
    let v ← SmallMat.set m (7 * nS + i) (E.vol_phi_n i (-1) 0) v
    let v ← SmallMat.set m (8 * nS + i) (E.vol_phi_n i (-2) 0) v
    let v ← SmallMat.set m (9 * nS + i) (E.vol_phi_m i 1 0) v
    let v ← SmallMat.set m (10 * nS + i) (E.vol_phi_m i (-1) 0) v
    let v ← SmallMat.set m (11 * nS + i) (E.vol_phi_m i (-2) 0) v
    forUp 2 (fun face v =>
      if is_dirichlet E face then do
        let v ← dirichletComponent m E tau i face 0 (E.bdr_phi_u i face 1 0) v
        let v ← dirichletComponent m E tau i face 1 (E.bdr_phi_u i face (-1) 0) v
        let v ← dirichletComponent m E tau i face 2 (E.bdr_phi_u i face (-2) 0) v
        let v ← dirichletComponent m E tau i face 3 (E.bdr_phi_phi i face 1 0) v
        let v ← dirichletComponent m E tau i face 4 (E.bdr_phi_phi i face (-1) 0) v
        dirichletComponent m E tau i face 5 (E.bdr_phi_phi i face (-2) 0) v
      else .ok v) v) (SmallMat.fill _ _ 0)

/-- `extract_fluxes_from_coeffs`: `timoshenko_network.hxx` 476-498. -/
def extract_fluxes_from_coeffs (m : Mode) (E : Edge nS K) (tau : K) (coeffs : SmallVec (n_loc_dofs nS) K) : Res (SmallMat 2 6 K) :=
  forUp nS (fun i b => forUp 1 (fun j b => forUp 2 (fun face b => do
    let integral := E.bdr_phipsi i j face
    forUp 6 (fun d (b : SmallMat 2 6 K) => do
      let n ← arrGet (E.local_normal face) 0
      let q ← SmallMat.get m coeffs (d * nS + i)
      let u ← SmallMat.get m coeffs ((6 + d) * nS + i)
      SmallMat.addAt m face (j + d) (n * integral * q + tau * u * integral) b) b) b) b) (SmallMat.fill _ _ 0)

end Frame

section Solve
variable [Field K] [LinearOrder K]

/-- `std::abs`. -/
def absVal (x : K) : K := if x < 0 then -x else x

/-- Division.  Floating-point division by zero returns infinity or `NaN`, which have no counterpart in exact arithmetic: a distinct outcome. -/
def divide (a b : K) : Res K := if b = 0 then .ub else .ok (a / b)

/-- The coefficients from the data of the beam, before taking absolute values: `timoshenko_network.hxx` 735-762. -/
def materialCoeffs (m : Mode) (E : Edge nS K) (extra_data : List K) : Res (Fin 6 → K) := do
  let e6 ← vget extra_data 6
  let e7 ← vget extra_data 7
  let e8 ← vget extra_data 8
  let normal1 : SmallVec 3 K := ![e6, e7, e8]
  let e9 ← vget extra_data 9
  let e10 ← vget extra_data 10
  let e11 ← vget extra_data 11
  let normal2 : SmallVec 3 K := ![e9, e10, e11]
  let outer1 : SmallVec 3 K := E.outer_normal 0
  let outer2 : SmallVec 3 K := E.outer_normal 1
  let e0 ← vget extra_data 0
  let e1 ← vget extra_data 1
  let e2 ← vget extra_data 2
  let e3 ← vget extra_data 3
  let e4 ← vget extra_data 4
  let e5 ← vget extra_data 5
  let o11 ← SmallMat.scalar_product m outer1 normal1
  let o12 ← SmallMat.scalar_product m outer1 normal2
  let o21 ← SmallMat.scalar_product m outer2 normal1
  let o22 ← SmallMat.scalar_product m outer2 normal2
  return ![e0 * 10 ^ 4, (e1 * o11 + e2 * o12) * 10 ^ 4, (e1 * o21 + e2 * o22) * 10 ^ 4,
    e3 * 10 ^ 12, (e4 * o11 + e5 * o12) * 10 ^ 12, (e4 * o21 + e5 * o22) * 10 ^ 12]

/-- The material coefficients: `timoshenko_network.hxx` 731-766. -/
def extra_coeffs (m : Mode) (E : Edge nS K) : Res (Fin 6 → K) := do
  let c ← (match E.extra_data with
    | none => (Res.ok fun _ => 1 : Res (Fin 6 → K))
    | some extra_data => materialCoeffs m E extra_data)
  forFin 6 (fun i (c : Fin 6 → K) => .ok (arrSet c i (absVal (c i)))) c

/-- Body of the loops of `assemble_loc_matrix` over `i` and `j`: `timoshenko_network.hxx` 774-808. -/
def locMatrixStep (m : Mode) (E : Edge nS K) (tau : K) (coeffs : Fin 6 → K) (i j : Nat)
    (M : SmallMat (n_loc_dofs nS) (n_loc_dofs nS) K) : Res (SmallMat (n_loc_dofs nS) (n_loc_dofs nS) K) := do
  let vol_integral := E.vol_phiphi i j
  let grad_int_vec := E.vol_nablaphiphi i j
  let s ← forUp 2 (fun face (s : K × (Fin 1 → K)) => do
    let helper := E.bdr_phiphi i j face
    return (s.1 + helper, fun d => s.2 d + helper * E.local_normal face d)) (0, fun _ => 0)
  let M ← forUp 6 (fun d M => do
    let c ← arrGet coeffs d
    let x ← divide vol_integral c
    let M ← SmallMat.addAt m (d * nS + i) (d * nS + j) x M
    let g ← arrGet grad_int_vec 0
    let M ← SmallMat.subAt m (d * nS + i) ((6 + d) * nS + j) g M
    let n ← arrGet s.2 0
    let M ← SmallMat.addAt m ((6 + d) * nS + i) (d * nS + j) (n - g) M
    SmallMat.addAt m ((6 + d) * nS + i) ((6 + d) * nS + j) (tau * s.1) M) M
  let M ← SmallMat.subAt m (2 * nS + i) ((3 * 3 + 1) * nS + j) vol_integral M
  let M ← SmallMat.addAt m (1 * nS + i) ((3 * 3 + 2) * nS + j) vol_integral M
  let M ← SmallMat.subAt m ((3 * 3 + 2) * nS + i) (1 * nS + j) vol_integral M
  SmallMat.addAt m ((3 * 3 + 1) * nS + i) (2 * nS + j) vol_integral M

/-- `assemble_loc_matrix`: `timoshenko_network.hxx` 724-813. -/
def assemble_loc_matrix (m : Mode) (E : Edge nS K) (tau : K) : Res (SmallMat (n_loc_dofs nS) (n_loc_dofs nS) K) := do
  let coeffs ← extra_coeffs m E
  forUp nS (fun i M => forUp nS (fun j M => locMatrixStep m E tau coeffs i j M) M) (SmallMat.fill _ _ 0)

/-- `solve_local_problem`: `timoshenko_network.hxx` 449-474. -/
def solve_local_problem (m : Mode) (gesv : Gesv (n_loc_dofs nS) 1 K) (E : Edge nS K) (tau : K) (lambda : LocDofs 1 6 K) (solution_type : Nat) :
    Res (SmallVec (n_loc_dofs nS) K) :=
  catchLapack m (do
    let rhs ← (if solution_type = 0 then assemble_rhs_from_lambda m E tau lambda
      else if solution_type = 1 then do
        let a ← assemble_rhs_from_lambda m E tau lambda
        let b ← assemble_rhs_from_global_rhs m E tau
        SmallMat.add_mat a b
      else do
        hyAssert m (0 = 1)
        return SmallMat.fill _ _ 0)
    let A ← assemble_loc_matrix m E tau
    solve gesv rhs A)

/-- What `trace_to_flux` (`solution_type = 0`) and `residual_flux` (`solution_type = 1`) do after the checks of sizes, which hold by the types of the model:
`timoshenko_network.hxx` 517-549 and 569-584. -/
def fluxOf (m : Mode) (gesv : Gesv (n_loc_dofs nS) 1 K) (tau : K) (solution_type : Nat) (lambda_in lambda_out : LocDofs 1 6 K) (E : Edge nS K) : Res (LocDofs 1 6 K) := do
  let loc ← node_dof_to_edge_dof E lambda_in
  let coeffs ← solve_local_problem m gesv E tau loc solution_type
  let result ← extract_fluxes_from_coeffs m E tau coeffs
  let loc ← forFin 2 (fun i loc => forFin 6 (fun j (loc : LocDofs 1 6 K) => do
    let x ← SmallMat.at' m result i j
    return arrSet loc i (arrSet (loc i) j (x - tau * loc i j))) loc) loc
  let out ← edge_dof_to_node_dof E loc lambda_out
  forFin 2 (fun i (out : LocDofs 1 6 K) => .ok (if is_dirichlet E i then arrSet out i (fun _ => 0) else out)) out

/-- `trace_to_flux`: `timoshenko_network.hxx` 500-550.  (The time is not used.) -/
def trace_to_flux (m : Mode) (gesv : Gesv (n_loc_dofs nS) 1 K) (tau : K) (lambda_in lambda_out : LocDofs 1 6 K) (E : Edge nS K) (_time : K) : Res (LocDofs 1 6 K) :=
  fluxOf m gesv tau 0 lambda_in lambda_out E

/-- `residual_flux`: `timoshenko_network.hxx` 552-585.  (The time is not used.) -/
def residual_flux (m : Mode) (gesv : Gesv (n_loc_dofs nS) 1 K) (tau : K) (lambda_in lambda_out : LocDofs 1 6 K) (E : Edge nS K) (_time : K) : Res (LocDofs 1 6 K) :=
  fluxOf m gesv tau 1 lambda_in lambda_out E

/-- The loops copying the coefficients of displacement `d`: `timoshenko_network.hxx` 616-617, 623-624, 630-631 (the array is not initialised in the code, each entry
is written). -/
def displacementCoeffs (m : Mode) (coefficients : SmallVec (n_loc_dofs nS) K) (d : Nat) (c : Fin nS → K) : Res (Fin nS → K) :=
  forFin nS (fun i (c : Fin nS → K) => do
    let x ← SmallMat.get m coefficients (i + (6 + d) * nS)
    return arrSet c i x) c

/-- `errors`: `timoshenko_network.hxx` 596-641. -/
def errors (m : Mode) (gesv : Gesv (n_loc_dofs nS) 1 K) (tau : K) (lambda : LocDofs 1 6 K) (E : Edge nS K) (time : K) : Res (Fin 1 → K) := do
  let loc ← node_dof_to_edge_dof E lambda
  let coefficients ← solve_local_problem m gesv E tau loc 1
  let c0 ← displacementCoeffs m coefficients 0 (fun _ => 0)
  let error := 0 + E.vol_diffsquare c0 1 time
  let c1 ← displacementCoeffs m coefficients 1 c0
  let error := error + E.vol_diffsquare c1 (-1) time
  let c2 ← displacementCoeffs m coefficients 2 c1
  let error := error + E.vol_diffsquare c2 (-2) time
  return fun _ => error

/-- `bulk_values`: `timoshenko_network.hxx` 655-705.  `lin_comb` stands for `shape_fun_t::lin_comb_fct_val(coeffs, point)` of `tensor_product_polynomials` (asked for
as `float` in the code; exact here).  `point_vals0`, `result0` are the uninitialised arrays. -/
def bulk_values (m : Mode) (gesv : Gesv (n_loc_dofs nS) 1 K) (lin_comb : (Fin nS → K) → List K → K) (tau : K) (abscissas : List K) (lambda : LocDofs 1 6 K)
    (E : Edge nS K) (_time : K) (point_vals0 result0 : Fin 3 → Fin (Hypercube.pow 1 abscissas.length) → K) : Res (Fin 3 → Fin (Hypercube.pow 1 abscissas.length) → K) := do
  let loc ← node_dof_to_edge_dof E lambda
  let coefficients ← solve_local_problem m gesv E tau loc 1
  let r ← forFin 3 (fun d (s : (Fin nS → K) × (Fin 3 → Fin (Hypercube.pow 1 abscissas.length) → K)) => do
    let coeffs ← forFin nS (fun i (c : Fin nS → K) => do
      let x ← SmallMat.get m coefficients ((6 + d) * nS + i)
      return arrSet c i x) s.1
    let vals ← forFin (Hypercube.pow 1 abscissas.length) (fun pt (v : Fin 3 → Fin (Hypercube.pow 1 abscissas.length) → K) => do
      let p ← Hypercube.tensorial_pt m 1 pt abscissas
      return arrSet v d (arrSet (v d) pt (lin_comb coeffs p))) s.2
    return (coeffs, vals)) (fun _ => 0, point_vals0)
  let point_vals := r.2
  let result ← forFin 3 (fun d result => forFin (Hypercube.pow 1 abscissas.length) (fun q (result : Fin 3 → Fin (Hypercube.pow 1 abscissas.length) → K) =>
    .ok (arrSet result d (arrSet (result d) q (point_vals 0 q * E.inner_normal 0 d)))) result) result0
  let result ← forFin 3 (fun d result => forFin (Hypercube.pow 1 abscissas.length) (fun q (result : Fin 3 → Fin (Hypercube.pow 1 abscissas.length) → K) =>
    .ok (arrSet result d (arrSet (result d) q (result d q + point_vals 1 q * E.outer_normal 0 d)))) result) result
  forFin 3 (fun d result => forFin (Hypercube.pow 1 abscissas.length) (fun q (result : Fin 3 → Fin (Hypercube.pow 1 abscissas.length) → K) =>
    .ok (arrSet result d (arrSet (result d) q (result d q + point_vals 2 q * E.outer_normal 1 d)))) result) result

end Solve

end Timoshenko
end HyperHDG

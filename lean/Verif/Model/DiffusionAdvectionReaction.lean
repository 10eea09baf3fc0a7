import Verif.Model.Diffusion

/-!
# Model of `include/HyperHDG/local_solver/diffusion_advection_reaction_ldg.hxx`

The class `DiffusionAdvectionReaction` repeats the class `Diffusion` (`diffusion_ldgh.hxx`, modelled in `Verif/Model/Diffusion.lean`) with another local matrix: its functions
`is_dirichlet` (244-249), `assemble_rhs_from_lambda` (1013-1052), `assemble_rhs_from_global_rhs` (1058-1096), `assemble_rhs_from_coeffs` (1102-1124), `primal_at_boundary` (1130-1156),
`dual_at_boundary` (1162-1192), `node_types` (545-558), `make_initial` (620-645) and the loops writing the results have the same text, and the model uses the definitions of
`Verif/Model/Diffusion.lean` for them.  Not modelled: `errors_temp` and `solve_loc_prob_cor`, which is only used there.
-/

namespace HyperHDG

namespace DAR

/-- What the local solver asks about a hyperedge. -/
structure Edge (dim nS : Nat) (K : Type) extends Diffusion.Edge dim nS K where
  /-- `integrate_vol_phiphifunc<reaction_rate>(i, j, geometry, time)` -/
  vol_phiphireact : K → Nat → Nat → K
  /-- `integrate_vol_phiphivecfunc<advective_velocity>(i, j, dim, geometry, time)` (default of `time`: 0) -/
  vol_phiphivecfunc : K → Nat → Nat → Nat → K

variable {K : Type} {dim nS nB : Nat} [CommRing K]

/-- Body of the loops of `assemble_loc_matrix` over `i` and `j`: `diffusion_advection_reaction_ldg.hxx` 962-1003.  The integral of the advective velocity is asked for without
`time`. -/
def locMatrixStep (m : Mode) (E : Edge dim nS K) (tau time : K) (i j : Nat)
    (local_mat : SmallMat ((dim + 1) * nS) ((dim + 1) * nS) K) : Res (SmallMat ((dim + 1) * nS) ((dim + 1) * nS) K) := do
  let vol_integral := E.vol_phiphifunc time i j
  let grad_int_vec := E.vol_nablaphiphi i j
  let s ← forUp (2 * dim) (fun face (s : K × (Fin dim → K)) => do
    let helper := E.bdr_phiphi i j face
    return (s.1 + helper, fun d => s.2 d + helper * E.local_normal face d)) (0, fun _ => 0)
  let local_mat ← SmallMat.addAt m (dim * nS + i) (dim * nS + j) (tau * s.1 + E.vol_phiphireact time i j) local_mat
  forUp dim (fun d M => do
    let M ← SmallMat.addAt m (d * nS + i) (d * nS + j) vol_integral M
    let g ← arrGet grad_int_vec d
    let M ← SmallMat.subAt m (dim * nS + i) (d * nS + j) g M
    let M ← SmallMat.subAt m (d * nS + i) (dim * nS + j) g M
    let n ← arrGet s.2 d
    let M ← SmallMat.addAt m (dim * nS + i) (d * nS + j) n M
    SmallMat.subAt m (d * nS + i) (dim * nS + j) (E.vol_phiphivecfunc 0 i j d) M) local_mat

/-- `assemble_loc_matrix`: `diffusion_advection_reaction_ldg.hxx` 940-1007. -/
def assemble_loc_matrix (m : Mode) (E : Edge dim nS K) (tau time : K) : Res (SmallMat ((dim + 1) * nS) ((dim + 1) * nS) K) :=
  forUp nS (fun i M => forUp nS (fun j M => locMatrixStep m E tau time i j M) M) (SmallMat.fill _ _ 0)

/-- `solve_local_problem`: `diffusion_advection_reaction_ldg.hxx` 363-387. -/
def solve_local_problem (m : Mode) (gesv : Gesv ((dim + 1) * nS) 1 K) (E : Edge dim nS K) (tau : K) (lambda : LocDofs dim nB K) (solution_type : Nat)
    (time : K) : Res (SmallVec ((dim + 1) * nS) K) :=
  catchLapack m (do
    let rhs ← (if solution_type = 0 then Diffusion.assemble_rhs_from_lambda m E.toEdge tau lambda
      else if solution_type = 1 then do
        let a ← Diffusion.assemble_rhs_from_lambda m E.toEdge tau lambda
        let b ← Diffusion.assemble_rhs_from_global_rhs m E.toEdge tau time
        SmallMat.add_mat a b
      else do
        hyAssert m (0 = 1)
        return SmallMat.fill _ _ 0)
    let A ← assemble_loc_matrix m E tau time
    solve gesv rhs A)

/-- `solve_mass_problem`: `diffusion_advection_reaction_ldg.hxx` 400-416. -/
def solve_mass_problem (m : Mode) (gesv : Gesv ((dim + 1) * nS) 1 K) (E : Edge dim nS K) (tau : K) (coeffs : SmallVec ((dim + 1) * nS) K) (time : K) :
    Res (SmallVec ((dim + 1) * nS) K) :=
  catchLapack m (do
    let rhs ← Diffusion.assemble_rhs_from_coeffs m E.toEdge coeffs
    let A ← assemble_loc_matrix m E tau time
    solve gesv rhs A)

/-- `trace_to_flux`: `diffusion_advection_reaction_ldg.hxx` 507-541 (the checks of sizes hold by the types of the model, here and below). -/
def trace_to_flux (m : Mode) (gesv : Gesv ((dim + 1) * nS) 1 K) (tau : K) (lambda_in lambda_out : LocDofs dim nB K) (E : Edge dim nS K) (time : K) :
    Res (LocDofs dim nB K) := do
  let coeffs ← solve_local_problem m gesv E tau lambda_in 0 time
  let primals ← Diffusion.primal_at_boundary m E.toEdge nB coeffs
  let duals ← Diffusion.dual_at_boundary m E.toEdge nB coeffs
  Diffusion.writeFlux m E.toEdge tau primals duals lambda_in lambda_out

/-- `residual_flux`: `diffusion_advection_reaction_ldg.hxx` 571-607. -/
def residual_flux (m : Mode) (gesv : Gesv ((dim + 1) * nS) 1 K) (tau : K) (lambda_in lambda_out : LocDofs dim nB K) (E : Edge dim nS K) (time : K) :
    Res (LocDofs dim nB K) := do
  let coeffs ← solve_local_problem m gesv E tau lambda_in 1 time
  let primals ← Diffusion.primal_at_boundary m E.toEdge nB coeffs
  let duals ← Diffusion.dual_at_boundary m E.toEdge nB coeffs
  Diffusion.writeFlux m E.toEdge tau primals duals lambda_in lambda_out

/-- `trace_to_mass_flux`: `diffusion_advection_reaction_ldg.hxx` 736-771. -/
def trace_to_mass_flux (m : Mode) (gesv : Gesv ((dim + 1) * nS) 1 K) (tau : K) (lambda_in lambda_out : LocDofs dim nB K) (E : Edge dim nS K) (time : K) :
    Res (LocDofs dim nB K) := do
  let coeffs ← solve_local_problem m gesv E tau lambda_in 0 time
  let coeffs ← solve_mass_problem m gesv E tau coeffs time
  let primals ← Diffusion.primal_at_boundary m E.toEdge nB coeffs
  let duals ← Diffusion.dual_at_boundary m E.toEdge nB coeffs
  Diffusion.writeMassFlux m E.toEdge tau primals duals lambda_out

/-- `total_numerical_flux_mass`: `diffusion_advection_reaction_ldg.hxx` 786-821. -/
def total_numerical_flux_mass (m : Mode) (gesv : Gesv ((dim + 1) * nS) 1 K) (tau : K) (lambda_in lambda_out : LocDofs dim nB K) (E : Edge dim nS K)
    (time : K) : Res (LocDofs dim nB K) := do
  let coeffs ← solve_local_problem m gesv E tau lambda_in 1 time
  let coeffs ← solve_mass_problem m gesv E tau coeffs time
  let primals ← Diffusion.primal_at_boundary m E.toEdge nB coeffs
  let duals ← Diffusion.dual_at_boundary m E.toEdge nB coeffs
  Diffusion.writeMassFlux m E.toEdge tau primals duals lambda_out

/-- `errors`: `diffusion_advection_reaction_ldg.hxx` 832-853 (the array `coeffs` is not initialised in the code; each entry is written). -/
def errors (m : Mode) (gesv : Gesv ((dim + 1) * nS) 1 K) (tau : K) (lambda : LocDofs dim nB K) (E : Edge dim nS K) (time : K) : Res (Fin 1 → K) := do
  let coefficients ← solve_local_problem m gesv E tau lambda 1 time
  let coeffs ← forFin nS (fun i (c : Fin nS → K) => do
    let x ← SmallMat.get m coefficients (i + dim * nS)
    return arrSet c i x) (fun _ => 0)
  return fun _ => E.vol_diffsquare time coeffs

/-- `bulk_values`: `diffusion_advection_reaction_ldg.hxx` 1198-1237.  `lin_comb` stands for `shape_fun_t::lin_comb_fct_val(coeffs, point)` of
`tensor_product_polynomials` (asked for as `float` in the code; exact here). -/
def bulk_values (m : Mode) (gesv : Gesv ((dim + 1) * nS) 1 K) (lin_comb : (Fin nS → K) → List K → K) (tau : K) (abscissas : List K)
    (lambda : LocDofs dim nB K) (E : Edge dim nS K) (time : K) (vals0 : Fin (dim + 1) → Fin (Hypercube.pow dim abscissas.length) → K) :
    Res (Fin (dim + 1) → Fin (Hypercube.pow dim abscissas.length) → K) := do
  let coefficients ← solve_local_problem m gesv E tau lambda 1 time
  let r ← forFin (dim + 1) (fun d (s : (Fin nS → K) × (Fin (dim + 1) → Fin (Hypercube.pow dim abscissas.length) → K)) => do
    let coeffs ← forFin nS (fun i (c : Fin nS → K) => do
      let x ← SmallMat.get m coefficients (d * nS + i)
      return arrSet c i x) s.1
    let vals ← forFin (Hypercube.pow dim abscissas.length) (fun pt (v : Fin (dim + 1) → Fin (Hypercube.pow dim abscissas.length) → K) => do
      let p ← Hypercube.tensorial_pt m dim pt abscissas
      return arrSet v d (arrSet (v d) pt (lin_comb coeffs p))) s.2
    return (coeffs, vals)) (fun _ => 0, vals0)
  return r.2

end DAR
end HyperHDG

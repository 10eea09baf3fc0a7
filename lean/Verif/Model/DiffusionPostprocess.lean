import Verif.Model.Diffusion

/-!
# Model of `include/HyperHDG/local_solver/diffusion_ldgh_pp.hxx`

The class `DiffusionPostprocess` repeats the class `Diffusion` (`diffusion_ldgh.hxx`, modelled in `Verif/Model/Diffusion.lean`): its functions `assemble_loc_matrix`
(636-696), `assemble_rhs_from_lambda` (699-740), `assemble_rhs_from_global_rhs` (743-783), `primal_at_boundary` (813-841), `dual_at_boundary` (844-877), `solve_local_problem` (346-377),
`trace_to_flux` (441-478), `node_types` (483-495), `residual_flux` (507-541) and `bulk_values` (880-923) have the same text, up to the argument `tau`, which is the member `tau_` here.  The model uses the definitions of
`Verif/Model/Diffusion.lean` for them.  New is `errors`, which compares the analytic result with a postprocessed solution of degree `poly_deg + 1`; `nP` is the number
`n_shape_pp` of its shape functions.
-/

namespace HyperHDG

namespace DiffusionPostprocess

/-- What the local solver asks about a hyperedge. -/
structure Edge (dim nS nP : Nat) (K : Type) extends Diffusion.Edge dim nS K where
  /-- `integrator_pp::integrate_vol_nablaphinablaphifunc<diffusion_coeff>(i, j, geometry, time)` -/
  pp_nablaphinablaphifunc : K → Nat → Nat → K
  /-- `integrator_pp::integrate_vol_phiphi(i, j, geometry)` -/
  pp_phiphi : Nat → Nat → K
  /-- `integrator_pp::integrate_vol_nablaphiphi<poly_deg + 1, poly_deg>(i, j, geometry)`: the gradient acts on the first function, of degree `poly_deg + 1` -/
  pp_nablaphiphi : Nat → Nat → Fin dim → K
  /-- `integrator_pp::integrate_vol_diffsquare_discana<analytic_result>(coeffs, geometry, time)` -/
  pp_diffsquare : K → (Fin nP → K) → K

variable {K : Type} {dim nS nP nB : Nat} [CommRing K]

/-- The matrix of the postprocessing: `diffusion_ldgh_pp.hxx` 571-578. -/
def ppMatrix (m : Mode) (E : Edge dim nS nP K) (time : K) : Res (SmallMat nP nP K) := do
  let matrix ← forUp nP (fun i M => forUp nP (fun j (M : SmallMat nP nP K) => SmallMat.setAt m i j (E.pp_nablaphinablaphifunc time i j) M) M)
    (SmallMat.fill nP nP 0)
  SmallMat.setAt m 0 0 (E.pp_phiphi 0 0) matrix

/-- The right-hand side of the postprocessing: `diffusion_ldgh_pp.hxx` 580-594. -/
def ppVector (m : Mode) (E : Edge dim nS nP K) (coefficients : SmallVec ((dim + 1) * nS) K) : Res (SmallVec nP K) := do
  let vector ← forUp nP (fun i v => forUp nS (fun j v => do
    let grad_int_vec := E.pp_nablaphiphi i j
    forUp dim (fun d (v : SmallVec nP K) => do
      let x ← SmallMat.get m coefficients (d * nS + j)
      let g ← arrGet grad_int_vec d
      SmallMat.subFrom m i (x * g) v) v) v) (SmallMat.fill nP 1 0)
  let x ← SmallMat.get m coefficients (dim * nS)
  SmallMat.set m 0 (x * E.pp_phiphi 0 0) vector

/-- `errors`: `diffusion_ldgh_pp.hxx` 553-602 (the checks of sizes hold by the types of the model).  The exception of the second solve is not caught. -/
def errors (m : Mode) (gesv : Gesv ((dim + 1) * nS) 1 K) (gesv_pp : Gesv nP 1 K) (tau : K) (lambda : LocDofs dim nB K) (E : Edge dim nS nP K) (time : K) :
    Res (Fin 1 → K) := do
  let coefficients ← Diffusion.solve_local_problem m gesv E.toEdge tau lambda 1 time
  let matrix ← ppMatrix m E time
  let vector ← ppVector m E coefficients
  let sol ← solve gesv_pp vector matrix
  return fun _ => E.pp_diffsquare time fun i : Fin nP => sol ⟨i.1, by omega⟩

end DiffusionPostprocess
end HyperHDG

import Verif.Model.Bilaplacian

/-!
# Model of `include/HyperHDG/local_solver/bilaplacian_eigs_ldgh.hxx`

`dim`, `nS`, `nB` and the numbering of the unknowns as in `Bilaplacian`.  `assemble_rhs_from_lambda` (748-793), `primal_at_boundary` (799-837), `dual_at_boundary` (843-884), `node_types`
(441-454), `is_dirichlet`, `is_dirichlet_laplacian` and the loops setting the degrees of freedom of the Dirichlet boundary to zero (423-428, 542-547, 573-578) are those of `bilaplacian_ldgh.hxx`, letter
by letter; their model is shared.  `errors` (594-620) uses a variable `time` which is not declared, so it cannot be instantiated; it is not modelled.
-/

namespace HyperHDG

namespace BilaplacianEigs

open Bilaplacian (n_loc_dofs n_dofs_lap is_dirichlet is_dirichlet_laplacian assemble_rhs_from_lambda primal_at_boundary dual_at_boundary zeroDirichlet)

/-- What the local solver asks about a hyperedge. -/
structure Edge (dim nS : Nat) (K : Type) extends stat : Bilaplacian.Edge dim nS K where
  /-- `geometry.area()` -/
  area : K

variable {K : Type} {dim nS nB : Nat}

/-- `node_types`: `bilaplacian_eigs_ldgh.hxx` 441-454. -/
def node_types (E : Edge dim nS K) : Res (Fin (2 * dim) → Nat) := Bilaplacian.node_types E.stat

variable [CommRing K]

/-- Body of the loops of `assemble_loc_matrix` over `i` and `j`: `bilaplacian_eigs_ldgh.hxx` 685-737. -/
def locMatrixStep (m : Mode) (E : Edge dim nS K) (tau eig : K) (i j : Nat)
    (M : SmallMat (n_loc_dofs dim nS) (n_loc_dofs dim nS) K) : Res (SmallMat (n_loc_dofs dim nS) (n_loc_dofs dim nS) K) := do
  let vol_integral := E.vol_phiphi i j
  let vol_func_integral := E.vol_phiphifunc eig i j
  let grad_int_vec := E.vol_nablaphiphi i j
  let s ← forUp (2 * dim) (fun face (s : K × (Fin dim → K)) => do
    let helper := E.bdr_phiphi i j face
    let normal_int_vec ← forUp dim (fun d (n : Fin dim → K) => do
      let x ← arrGet n d
      let y ← arrGet (E.local_normal face) d
      arrPut n d (x + y * helper)) s.2
    return (s.1 + helper, normal_int_vec)) (0, fun _ => 0)
  let M ← SmallMat.subAt m (dim * nS + i) (n_dofs_lap dim nS + dim * nS + j) vol_func_integral M
  let M ← SmallMat.addAt m (dim * nS + i) (dim * nS + j) (tau * s.1) M
  let M ← SmallMat.addAt m (n_dofs_lap dim nS + dim * nS + i) (n_dofs_lap dim nS + dim * nS + j) (tau * s.1) M
  let M ← forUp dim (fun d M => do
    let M ← SmallMat.addAt m (d * nS + i) (d * nS + j) vol_integral M
    let M ← SmallMat.addAt m (n_dofs_lap dim nS + d * nS + i) (n_dofs_lap dim nS + d * nS + j) vol_integral M
    let g ← arrGet grad_int_vec d
    let M ← SmallMat.subAt m (dim * nS + i) (d * nS + j) g M
    let M ← SmallMat.subAt m (d * nS + i) (dim * nS + j) g M
    let M ← SmallMat.subAt m (n_dofs_lap dim nS + dim * nS + i) (n_dofs_lap dim nS + d * nS + j) g M
    let M ← SmallMat.subAt m (n_dofs_lap dim nS + d * nS + i) (n_dofs_lap dim nS + dim * nS + j) g M
    let n ← arrGet s.2 d
    let M ← SmallMat.addAt m (dim * nS + i) (d * nS + j) n M
    SmallMat.addAt m (n_dofs_lap dim nS + dim * nS + i) (n_dofs_lap dim nS + d * nS + j) n M) M
  SmallMat.subAt m (n_dofs_lap dim nS + dim * nS + i) (dim * nS + j) (eig * E.vol_phiphi i j) M

/-- `assemble_loc_matrix`: `bilaplacian_eigs_ldgh.hxx` 659-742.  (The parameter `tau` is always `tau_`.) -/
def assemble_loc_matrix (m : Mode) (E : Edge dim nS K) (tau eig : K) : Res (SmallMat (n_loc_dofs dim nS) (n_loc_dofs dim nS) K) :=
  forUp nS (fun i M => forUp nS (fun j M => locMatrixStep m E tau eig i j M) M) (SmallMat.fill _ _ 0)

/-- `solve_local_problem`: `bilaplacian_eigs_ldgh.hxx` 316-332. -/
def solve_local_problem (m : Mode) (gesv : Gesv (n_loc_dofs dim nS) 1 K) (E : Edge dim nS K) (tau : K) (lambda : LocDofs dim (2 * nB) K) (eig : K) :
    Res (SmallVec (n_loc_dofs dim nS) K) :=
  catchLapack m (do
    let rhs ← assemble_rhs_from_lambda m E.stat nB tau lambda
    let A ← assemble_loc_matrix m E tau eig
    solve gesv rhs A)

/-- The loop writing the fluxes: `bilaplacian_eigs_ldgh.hxx` 416-429 and 535-548. -/
def writeFlux (E : Edge dim nS K) (tau : K) (primals duals lambda_in lambda_out : LocDofs dim (2 * nB) K) : Res (LocDofs dim (2 * nB) K) :=
  forFin (2 * dim) (fun i out => do
    let out ← forFin (2 * nB) (fun j (out : LocDofs dim (2 * nB) K) => do
      let l ← arrGet (lambda_in i) (if j.1 < nB then j + nB else j - nB)
      .ok (arrSet out i (arrSet (out i) j (duals i j + tau * primals i j - tau * l * E.face_area i)))) out
    zeroDirichlet E.stat i out) lambda_out

/-- `trace_to_flux`: `bilaplacian_eigs_ldgh.hxx` 394-432 (the checks of sizes hold by the types of the model, here and below). -/
def trace_to_flux (m : Mode) (gesv : Gesv (n_loc_dofs dim nS) 1 K) (tau : K) (lambda_in lambda_out : LocDofs dim (2 * nB) K) (E : Edge dim nS K) (eig : K) :
    Res (LocDofs dim (2 * nB) K) := do
  let coeffs ← solve_local_problem m gesv E tau lambda_in eig
  let primals ← primal_at_boundary E.stat nB coeffs
  let duals ← dual_at_boundary E.stat nB coeffs
  writeFlux E tau primals duals lambda_in lambda_out

/-- `make_initial`: `bilaplacian_eigs_ldgh.hxx` 465-494.  (In the second half the number of the coefficient, not reduced by `nB`, is passed as the number of the shape function.) -/
def make_initial (lambda_values : LocDofs dim (2 * nB) K) (E : Edge dim nS K) (time : K) : Res (LocDofs dim (2 * nB) K) :=
  forFin (2 * dim) (fun i out =>
    if is_dirichlet E.stat i then forFin (2 * nB) (fun j (out : LocDofs dim (2 * nB) K) => .ok (arrSet out i (arrSet (out i) j 0))) out
    else do
      let out ← forUp (2 * nB / 2) (fun j out => arrPut2 out i j (E.bdrUni_psifunc time j i)) out
      forUp (2 * nB - 2 * nB / 2) (fun j out => arrPut2 out i (2 * nB / 2 + j) (E.bdrUni_psifunc_laplace time (2 * nB / 2 + j) i)) out) lambda_values

/-- The loops preparing the second right-hand side in `jacobian_of_trace_to_flux`: `bilaplacian_eigs_ldgh.hxx` 556-561. -/
def eigRhs (E : Edge dim nS K) (eig : K) (coeffs : SmallVec (n_loc_dofs dim nS) K) : Res (SmallVec (n_loc_dofs dim nS) K) := do
  let coeffs ← forUp nS (fun i (c : SmallVec (n_loc_dofs dim nS) K) => do
    let x ← arrGet c (dim * nS + i)
    arrPut c (n_loc_dofs dim nS / 2 + dim * nS + i) (eig * x * E.area)) coeffs
  forUp (n_loc_dofs dim nS / 2 + dim * nS) (fun i c => arrPut c i 0) coeffs

/-- The loop adding the second fluxes in `jacobian_of_trace_to_flux`: `bilaplacian_eigs_ldgh.hxx` 569-579. -/
def addFlux (E : Edge dim nS K) (tau : K) (primals duals lambda_out : LocDofs dim (2 * nB) K) : Res (LocDofs dim (2 * nB) K) :=
  forFin (2 * dim) (fun i out => do
    let out ← forFin (2 * nB) (fun j (out : LocDofs dim (2 * nB) K) =>
      .ok (arrSet out i (arrSet (out i) j (out i j + (duals i j + tau * primals i j))))) out
    zeroDirichlet E.stat i out) lambda_out

/-- `jacobian_of_trace_to_flux`: `bilaplacian_eigs_ldgh.hxx` 511-582.  The second system is solved outside of the `try` block. -/
def jacobian_of_trace_to_flux (m : Mode) (gesv : Gesv (n_loc_dofs dim nS) 1 K) (tau : K) (lambda_in lambda_out : LocDofs dim (2 * nB) K) (eig : K)
    (lambda_vals : LocDofs dim (2 * nB) K) (eig_val : K) (E : Edge dim nS K) : Res (LocDofs dim (2 * nB) K) := do
  let coeffs ← solve_local_problem m gesv E tau lambda_in eig_val
  let primals ← primal_at_boundary E.stat nB coeffs
  let duals ← dual_at_boundary E.stat nB coeffs
  let out ← writeFlux E tau primals duals lambda_in lambda_out
  let coeffs ← solve_local_problem m gesv E tau lambda_vals eig_val
  let coeffs ← eigRhs E eig coeffs
  let A ← assemble_loc_matrix m E tau eig_val
  let coeffs ← solve gesv coeffs A
  let primals ← primal_at_boundary E.stat nB coeffs
  let duals ← dual_at_boundary E.stat nB coeffs
  addFlux E tau primals duals out

/-- `bulk_values`: `bilaplacian_eigs_ldgh.hxx` 890-925 (`time` is used as eigenvalue).  `lin_comb` stands for `shape_fun_t::lin_comb_fct_val(coeffs, point)` of
`tensor_product_polynomials` (asked for as `float` in the code; exact here). -/
def bulk_values (m : Mode) (gesv : Gesv (n_loc_dofs dim nS) 1 K) (lin_comb : (Fin nS → K) → List K → K) (tau : K) (abscissas : List K)
    (lambda : LocDofs dim (2 * nB) K) (E : Edge dim nS K) (time : K) (vals0 : Fin (dim + 1) → Fin (Hypercube.pow dim abscissas.length) → K) :
    Res (Fin (dim + 1) → Fin (Hypercube.pow dim abscissas.length) → K) := do
  let coefficients ← solve_local_problem m gesv E tau lambda time
  let r ← forFin (dim + 1) (fun d (s : (Fin nS → K) × (Fin (dim + 1) → Fin (Hypercube.pow dim abscissas.length) → K)) => do
    let coeffs ← forFin nS (fun i (c : Fin nS → K) => do
      let x ← SmallMat.get m coefficients (d * nS + i)
      return arrSet c i x) s.1
    let vals ← forFin (Hypercube.pow dim abscissas.length) (fun pt (v : Fin (dim + 1) → Fin (Hypercube.pow dim abscissas.length) → K) => do
      let p ← Hypercube.tensorial_pt m dim pt abscissas
      return arrSet v d (arrSet (v d) pt (lin_comb coeffs p))) s.2
    return (coeffs, vals)) (fun _ => 0, vals0)
  return r.2

end BilaplacianEigs
end HyperHDG

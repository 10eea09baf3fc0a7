import Verif.Model.Diffusion

/-!
# Model of `include/HyperHDG/local_solver/diffusion_eigs_ldgh.hxx`

`dim` is `hyEdge_dimT`, `nS` is `n_shape_fct_`, `nB` is `n_shape_bdr_`.  The queries about a hyperedge are those of `Diffusion.Edge` and its volume; what the code
passes to the coefficient as its time is the eigenvalue.  `std::array<lSol_float_t, n_loc_dofs_>` is the content of a `SmallVec`, accessed without checks
(`arrGet`, `arrPut`).  Not modelled: `errors`, which mentions an undeclared variable `time` and cannot be instantiated.
-/

namespace HyperHDG

namespace DiffusionEigs

/-- What the local solver asks about a hyperedge. -/
structure Edge (dim nS : Nat) (K : Type) extends Diffusion.Edge dim nS K where
  /-- `geometry.area()` -/
  area : K

variable {K : Type} {dim nS nB : Nat}

/-- `is_dirichlet(hyper_edge.node_descriptor[face])`: `diffusion_eigs_ldgh.hxx` 210-215. -/
def is_dirichlet (E : Edge dim nS K) (face : Nat) : Bool := E.dirichlet_nodes.contains (E.node_descriptor face)

/-- `node_types`: `diffusion_eigs_ldgh.hxx` 403-416. -/
def node_types (E : Edge dim nS K) : Res (Fin (2 * dim) → Nat) :=
  forFin (2 * dim) (fun i result => .ok (if is_dirichlet E i then arrSet result i 1 else result)) (fun _ => 0)

variable [CommRing K]

/-- Body of the loops of `assemble_loc_matrix` over `i` and `j`: `diffusion_eigs_ldgh.hxx` 613-651. -/
def locMatrixStep (m : Mode) (E : Edge dim nS K) (tau eig : K) (i j : Nat)
    (local_mat : SmallMat ((dim + 1) * nS) ((dim + 1) * nS) K) : Res (SmallMat ((dim + 1) * nS) ((dim + 1) * nS) K) := do
  let vol_integral := E.vol_phiphifunc eig i j
  let grad_int_vec := E.vol_nablaphiphi i j
  let s ← forUp (2 * dim) (fun face (s : K × (Fin dim → K)) => do
    let helper := E.bdr_phiphi i j face
    return (s.1 + helper, fun d => s.2 d + E.local_normal face d * helper)) (0, fun _ => 0)
  let local_mat ← SmallMat.addAt m (dim * nS + i) (dim * nS + j) (tau * s.1) local_mat
  let local_mat ← forUp dim (fun d M => do
    let M ← SmallMat.addAt m (d * nS + i) (d * nS + j) vol_integral M
    let g ← arrGet grad_int_vec d
    let M ← SmallMat.subAt m (dim * nS + i) (d * nS + j) g M
    let M ← SmallMat.subAt m (d * nS + i) (dim * nS + j) g M
    let n ← arrGet s.2 d
    SmallMat.addAt m (dim * nS + i) (d * nS + j) n M) local_mat
  SmallMat.subAt m (dim * nS + i) (dim * nS + j) (eig * E.vol_phiphi i j) local_mat

/-- `assemble_loc_matrix`: `diffusion_eigs_ldgh.hxx` 591-655. -/
def assemble_loc_matrix (m : Mode) (E : Edge dim nS K) (tau eig : K) : Res (SmallMat ((dim + 1) * nS) ((dim + 1) * nS) K) :=
  forUp nS (fun i M => forUp nS (fun j M => locMatrixStep m E tau eig i j M) M) (SmallMat.fill _ _ 0)

/-- `assemble_rhs_from_lambda`: `diffusion_eigs_ldgh.hxx` 661-698 (the checks of sizes hold by the types of the model). -/
def assemble_rhs_from_lambda (m : Mode) (E : Edge dim nS K) (tau : K) (lambda : LocDofs dim nB K) : Res (SmallVec ((dim + 1) * nS) K) :=
  forUp nS (fun i v => forUp nB (fun j v => forUp (2 * dim) (fun face (v : SmallVec ((dim + 1) * nS) K) => do
    let integral := E.bdr_phipsi i j face
    let l ← arrGet2 lambda face j
    let v ← SmallMat.addTo m (dim * nS + i) (tau * l * integral) v
    forUp dim (fun d v => do
      let n ← arrGet (E.local_normal face) d
      SmallMat.subFrom m (d * nS + i) (n * l * integral) v) v) v) v) (SmallMat.fill _ _ 0)

/-- `solve_local_problem`: `diffusion_eigs_ldgh.hxx` 284-300. -/
def solve_local_problem (m : Mode) (gesv : Gesv ((dim + 1) * nS) 1 K) (E : Edge dim nS K) (tau : K) (lambda : LocDofs dim nB K) (eig : K) :
    Res (SmallVec ((dim + 1) * nS) K) :=
  catchLapack m (do
    let rhs ← assemble_rhs_from_lambda m E tau lambda
    let A ← assemble_loc_matrix m E tau eig
    solve gesv rhs A)

/-- `primal_at_boundary`: `diffusion_eigs_ldgh.hxx` 704-734. -/
def primal_at_boundary (E : Edge dim nS K) (nB : Nat) (coeffs : SmallVec ((dim + 1) * nS) K) : Res (LocDofs dim nB K) :=
  forUp nS (fun i b => forUp nB (fun j b => forUp (2 * dim) (fun face (b : LocDofs dim nB K) => do
    let x ← arrGet coeffs (dim * nS + i)
    arrAdd2 face j (x * E.bdr_phipsi i j face) b) b) b) (fun _ _ => 0)

/-- `dual_at_boundary`: `diffusion_eigs_ldgh.hxx` 740-774. -/
def dual_at_boundary (E : Edge dim nS K) (nB : Nat) (coeffs : SmallVec ((dim + 1) * nS) K) : Res (LocDofs dim nB K) :=
  forUp nS (fun i b => forUp nB (fun j b => forUp (2 * dim) (fun face (b : LocDofs dim nB K) => do
    let integral := E.bdr_phipsi i j face
    forUp dim (fun d b => do
      let n ← arrGet (E.local_normal face) d
      let x ← arrGet coeffs (d * nS + i)
      arrAdd2 face j (n * integral * x) b) b) b) b) (fun _ _ => 0)

/-- The loop writing the flux: `diffusion_eigs_ldgh.hxx` 384-392 and 491-499. -/
def writeFlux (E : Edge dim nS K) (tau : K) (primals duals lambda_in lambda_out : LocDofs dim nB K) : Res (LocDofs dim nB K) :=
  forFin (2 * dim) (fun i out =>
    if is_dirichlet E i then forFin nB (fun j (out : LocDofs dim nB K) => .ok (arrSet out i (arrSet (out i) j 0))) out
    else forFin nB (fun j (out : LocDofs dim nB K) =>
      .ok (arrSet out i (arrSet (out i) j (duals i j + tau * primals i j - tau * lambda_in i j * E.face_area i)))) out) lambda_out

/-- `trace_to_flux`: `diffusion_eigs_ldgh.hxx` 361-395 (the checks of sizes hold by the types of the model, here and below). -/
def trace_to_flux (m : Mode) (gesv : Gesv ((dim + 1) * nS) 1 K) (tau : K) (lambda_in lambda_out : LocDofs dim nB K) (E : Edge dim nS K) (eig : K) :
    Res (LocDofs dim nB K) := do
  let coeffs ← solve_local_problem m gesv E tau lambda_in eig
  let primals ← primal_at_boundary E nB coeffs
  let duals ← dual_at_boundary E nB coeffs
  writeFlux E tau primals duals lambda_in lambda_out

/-- `make_initial`: `diffusion_eigs_ldgh.hxx` 427-449. -/
def make_initial (lambda_values : LocDofs dim nB K) (E : Edge dim nS K) (time : K) : Res (LocDofs dim nB K) :=
  forFin (2 * dim) (fun i out =>
    if is_dirichlet E i then forFin nB (fun j (out : LocDofs dim nB K) => .ok (arrSet out i (arrSet (out i) j 0))) out
    else forFin nB (fun j (out : LocDofs dim nB K) => .ok (arrSet out i (arrSet (out i) j (E.bdrUni_psifunc time j i)))) out) lambda_values

/-- The right-hand side of the second system of the Jacobian: `diffusion_eigs_ldgh.hxx` 503-506. -/
def eigRhs (E : Edge dim nS K) (eig : K) (coeffs : SmallVec ((dim + 1) * nS) K) : Res (SmallVec ((dim + 1) * nS) K) := do
  let coeffs ← forUp (dim * nS) (fun i (c : SmallVec ((dim + 1) * nS) K) => arrPut c i 0) coeffs
  forUp nS (fun i (c : SmallVec ((dim + 1) * nS) K) => do
    let x ← arrGet c (dim * nS + i)
    arrPut c (dim * nS + i) (x * (eig * E.area))) coeffs

/-- The loop adding the second part of the Jacobian: `diffusion_eigs_ldgh.hxx` 515-521. -/
def addFlux (E : Edge dim nS K) (tau : K) (primals duals lambda_out : LocDofs dim nB K) : Res (LocDofs dim nB K) :=
  forFin (2 * dim) (fun i out =>
    if is_dirichlet E i then forFin nB (fun j (out : LocDofs dim nB K) => .ok (arrSet out i (arrSet (out i) j (out i j + 0)))) out
    else forFin nB (fun j (out : LocDofs dim nB K) => .ok (arrSet out i (arrSet (out i) j (out i j + (duals i j + tau * primals i j))))) out) lambda_out

/-- `jacobian_of_trace_to_flux`: `diffusion_eigs_ldgh.hxx` 466-524.  The second system is solved outside of a `try` block. -/
def jacobian_of_trace_to_flux (m : Mode) (gesv : Gesv ((dim + 1) * nS) 1 K) (tau : K) (lambda_in lambda_out : LocDofs dim nB K) (eig : K)
    (lambda_vals : LocDofs dim nB K) (eig_val : K) (E : Edge dim nS K) : Res (LocDofs dim nB K) := do
  let coeffs ← solve_local_problem m gesv E tau lambda_in eig_val
  let primals ← primal_at_boundary E nB coeffs
  let duals ← dual_at_boundary E nB coeffs
  let out ← writeFlux E tau primals duals lambda_in lambda_out
  let coeffs ← solve_local_problem m gesv E tau lambda_vals eig_val
  let rhs ← eigRhs E eig coeffs
  let A ← assemble_loc_matrix m E tau eig_val
  let coeffs ← solve gesv rhs A
  let primals ← primal_at_boundary E nB coeffs
  let duals ← dual_at_boundary E nB coeffs
  addFlux E tau primals duals out

/-- `bulk_values`: `diffusion_eigs_ldgh.hxx` 780-817; its parameter `time` is used as the eigenvalue.  `lin_comb` stands for
`shape_fun_t::lin_comb_fct_val(coeffs, point)` of `tensor_product_polynomials` (asked for as `float` in the code; exact here). -/
def bulk_values (m : Mode) (gesv : Gesv ((dim + 1) * nS) 1 K) (lin_comb : (Fin nS → K) → List K → K) (tau : K) (abscissas : List K)
    (lambda : LocDofs dim nB K) (E : Edge dim nS K) (time : K) (vals0 : Fin (dim + 1) → Fin (Hypercube.pow dim abscissas.length) → K) :
    Res (Fin (dim + 1) → Fin (Hypercube.pow dim abscissas.length) → K) := do
  let coefficients ← solve_local_problem m gesv E tau lambda time
  let r ← forFin (dim + 1) (fun d (s : (Fin nS → K) × (Fin (dim + 1) → Fin (Hypercube.pow dim abscissas.length) → K)) => do
    let coeffs ← forFin nS (fun i (c : Fin nS → K) => do
      let x ← SmallMat.get m coefficients (d * nS + i)
      return arrSet c i x) s.1
    let vals ← forFin (Hypercube.pow dim abscissas.length) (fun pt (v : Fin (dim + 1) → Fin (Hypercube.pow dim abscissas.length) → K) => do
      let p ← Hypercube.tensorial_pt m dim pt abscissas
      return arrSet v d (arrSet (v d) pt (lin_comb coeffs p))) s.2
    return (coeffs, vals)) (fun _ => 0, vals0)
  return r.2

end DiffusionEigs
end HyperHDG

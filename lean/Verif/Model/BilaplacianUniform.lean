import Verif.Model.LocalSolver
import Verif.Model.Hypercube

/-!
# Model of `include/HyperHDG/local_solver/bilaplacian_uniform_ldgh.hxx`

`dim` is `hyEdge_dimT`, `nS` is `n_shape_fct_`, `nB` is `n_shape_bdr_`.  The local unknowns are two copies of those of the diffusion problem (`dim + 1`
blocks of `nS` coefficients each); a hypernode owns `2 * nB` degrees of freedom: `nB` for the trace of the primal unknown, then `nB` for that of the
(negative) Laplacian.
-/

namespace HyperHDG

namespace BilaplacianUniform

/-- `n_shape_bdr_`: `bilaplacian_uniform_ldgh.hxx` 126. -/
def n_shape_bdr (dim poly_deg : Nat) : Nat := Hypercube.pow (dim - 1) (poly_deg + 1)

/-- `n_glob_dofs_per_node()`: `bilaplacian_uniform_ldgh.hxx` 101-104. -/
def n_glob_dofs_per_node (dim poly_deg : Nat) : Nat := u32 (2 * Hypercube.pow (dim - 1) (poly_deg + 1))

variable {K : Type} [CommRing K] {dim nS nB : Nat}

/-- `n_loc_dofs_`: `bilaplacian_uniform_ldgh.hxx` 130. -/
abbrev n_loc_dofs (dim nS : Nat) : Nat := 2 * (dim + 1) * nS

/-- `n_dofs_lap = n_loc_dofs_ / 2`: `bilaplacian_uniform_ldgh.hxx` 363, 436, 491, 535. -/
def n_dofs_lap (dim nS : Nat) : Nat := n_loc_dofs dim nS / 2

/-- Body of the loops of `assemble_loc_matrix` over `i` and `j`: `bilaplacian_uniform_ldgh.hxx` 371-415. -/
def locMatrixStep (m : Mode) (I : Integrator K) (dim nS : Nat) (tau : K) (i j : Nat)
    (M : SmallMat (n_loc_dofs dim nS) (n_loc_dofs dim nS) K) : Res (SmallMat (n_loc_dofs dim nS) (n_loc_dofs dim nS) K) := do
  let integral := I.vol_phiphi i j
  let M ← SmallMat.subAt m (dim * nS + i) (n_dofs_lap dim nS + dim * nS + j) integral M
  let M ← forUp dim (fun d M => do
    let M ← SmallMat.addAt m (d * nS + i) (d * nS + j) integral M
    SmallMat.addAt m (n_dofs_lap dim nS + d * nS + i) (n_dofs_lap dim nS + d * nS + j) integral M) M
  forUp dim (fun d M => do
    let integral := I.vol_Dphiphi i j d
    let M ← SmallMat.subAt m (dim * nS + i) (d * nS + j) integral M
    let M ← SmallMat.subAt m (d * nS + i) (dim * nS + j) integral M
    let M ← SmallMat.subAt m (n_dofs_lap dim nS + dim * nS + i) (n_dofs_lap dim nS + d * nS + j) integral M
    let M ← SmallMat.subAt m (n_dofs_lap dim nS + d * nS + i) (n_dofs_lap dim nS + dim * nS + j) integral M
    let integral := I.bdr_phiphi i j (2 * d + 1)
    let M ← SmallMat.addAt m (dim * nS + i) (d * nS + j) integral M
    let M ← SmallMat.addAt m (n_dofs_lap dim nS + dim * nS + i) (n_dofs_lap dim nS + d * nS + j) integral M
    let M ← SmallMat.addAt m (dim * nS + i) (dim * nS + j) (tau * integral) M
    let M ← SmallMat.addAt m (n_dofs_lap dim nS + dim * nS + i) (n_dofs_lap dim nS + dim * nS + j) (tau * integral) M
    let integral := I.bdr_phiphi i j (2 * d + 0)
    let M ← SmallMat.subAt m (dim * nS + i) (d * nS + j) integral M
    let M ← SmallMat.subAt m (n_dofs_lap dim nS + dim * nS + i) (n_dofs_lap dim nS + d * nS + j) integral M
    let M ← SmallMat.addAt m (dim * nS + i) (dim * nS + j) (tau * integral) M
    SmallMat.addAt m (n_dofs_lap dim nS + dim * nS + i) (n_dofs_lap dim nS + dim * nS + j) (tau * integral) M) M

/-- `assemble_loc_matrix`: `bilaplacian_uniform_ldgh.hxx` 354-420. -/
def assemble_loc_matrix (m : Mode) (I : Integrator K) (dim nS : Nat) (tau : K) :
    Res (SmallMat (n_loc_dofs dim nS) (n_loc_dofs dim nS) K) :=
  forUp nS (fun i M => forUp nS (fun j M => locMatrixStep m I dim nS tau i j M) M) (SmallMat.fill _ _ 0)

/-- `assemble_rhs`: `bilaplacian_uniform_ldgh.hxx` 426-474 (the two checks of sizes hold by the types of the model). -/
def assemble_rhs (m : Mode) (I : Integrator K) (nS nB : Nat) (tau : K) (lambda : LocDofs dim (2 * nB) K) : Res (SmallVec (n_loc_dofs dim nS) K) :=
  forUp nS (fun i v => forUp nB (fun j v => forUp dim (fun d (v : SmallVec (n_loc_dofs dim nS) K) => do
    let integral := I.bdr_phipsi i j (2 * d + 0)
    let l ← arrGet2 lambda (2 * d + 0) j
    let l' ← arrGet2 lambda (2 * d + 0) (nB + j)
    let v ← SmallMat.addTo m (d * nS + i) (l * integral) v
    let v ← SmallMat.addTo m (dim * nS + i) (tau * l * integral) v
    let v ← SmallMat.addTo m (n_dofs_lap dim nS + d * nS + i) (l' * integral) v
    let v ← SmallMat.addTo m (n_dofs_lap dim nS + dim * nS + i) (tau * l' * integral) v
    let integral := I.bdr_phipsi i j (2 * d + 1)
    let l ← arrGet2 lambda (2 * d + 1) j
    let l' ← arrGet2 lambda (2 * d + 1) (nB + j)
    let v ← SmallMat.subFrom m (d * nS + i) (l * integral) v
    let v ← SmallMat.addTo m (dim * nS + i) (tau * l * integral) v
    let v ← SmallMat.subFrom m (n_dofs_lap dim nS + d * nS + i) (l' * integral) v
    SmallMat.addTo m (n_dofs_lap dim nS + dim * nS + i) (tau * l' * integral) v) v) v) (SmallMat.fill _ _ 0)

/-- `solve_local_problem`: `bilaplacian_uniform_ldgh.hxx` 196-211. -/
def solve_local_problem (m : Mode) (I : Integrator K) (gesv : Gesv (n_loc_dofs dim nS) 1 K) (tau : K)
    (loc_mat : SmallMat (n_loc_dofs dim nS) (n_loc_dofs dim nS) K) (lambda : LocDofs dim (2 * nB) K) : Res (SmallVec (n_loc_dofs dim nS) K) :=
  catchLapack m (do
    let rhs ← assemble_rhs m I nS nB tau lambda
    solve gesv rhs loc_mat)

/-- `primal_at_boundary`: `bilaplacian_uniform_ldgh.hxx` 480-518. -/
def primal_at_boundary (I : Integrator K) (dim nS nB : Nat) (coeffs : SmallVec (n_loc_dofs dim nS) K) : Res (LocDofs dim (2 * nB) K) :=
  forUp nS (fun i b => forUp nB (fun j b => forUp dim (fun d (b : LocDofs dim (2 * nB) K) => do
    let integral := I.bdr_phipsi i j (2 * d + 0)
    let x ← arrGet coeffs (dim * nS + i)
    let b ← arrAdd2 (2 * d + 0) j (x * integral) b
    let x ← arrGet coeffs (n_dofs_lap dim nS + dim * nS + i)
    let b ← arrAdd2 (2 * d + 0) (nB + j) (x * integral) b
    let integral := I.bdr_phipsi i j (2 * d + 1)
    let x ← arrGet coeffs (dim * nS + i)
    let b ← arrAdd2 (2 * d + 1) j (x * integral) b
    let x ← arrGet coeffs (n_dofs_lap dim nS + dim * nS + i)
    arrAdd2 (2 * d + 1) (nB + j) (x * integral) b) b) b) (fun _ _ => 0)

/-- `dual_at_boundary`: `bilaplacian_uniform_ldgh.hxx` 524-562. -/
def dual_at_boundary (I : Integrator K) (dim nS nB : Nat) (coeffs : SmallVec (n_loc_dofs dim nS) K) : Res (LocDofs dim (2 * nB) K) :=
  forUp nS (fun i b => forUp nB (fun j b => forUp dim (fun d (b : LocDofs dim (2 * nB) K) => do
    let integral := I.bdr_phipsi i j (2 * d + 0)
    let x ← arrGet coeffs (d * nS + i)
    let b ← arrSub2 (2 * d + 0) j (x * integral) b
    let x ← arrGet coeffs (n_dofs_lap dim nS + d * nS + i)
    let b ← arrSub2 (2 * d + 0) (nB + j) (x * integral) b
    let integral := I.bdr_phipsi i j (2 * d + 1)
    let x ← arrGet coeffs (d * nS + i)
    let b ← arrAdd2 (2 * d + 1) j (x * integral) b
    let x ← arrGet coeffs (n_dofs_lap dim nS + d * nS + i)
    arrAdd2 (2 * d + 1) (nB + j) (x * integral) b) b) b) (fun _ _ => 0)

/-- A `BilaplacianUniform` object: `bilaplacian_uniform_ldgh.hxx` 156-163. -/
structure Solver (dim nS : Nat) (K : Type) where
  tau : K
  loc_mat : SmallMat (n_loc_dofs dim nS) (n_loc_dofs dim nS) K

/-- Constructor: `bilaplacian_uniform_ldgh.hxx` 244-247. -/
def construct (m : Mode) (I : Integrator K) (dim nS : Nat) (tau : K) : Res (Solver dim nS K) := do
  let A ← assemble_loc_matrix m I dim nS tau
  return ⟨tau, A⟩

/-- `trace_to_flux`: `bilaplacian_uniform_ldgh.hxx` 263-288 (the checks of sizes hold by the types of the model). -/
def trace_to_flux (m : Mode) (I : Integrator K) (gesv : Gesv (n_loc_dofs dim nS) 1 K) (S : Solver dim nS K)
    (lambda_in lambda_out : LocDofs dim (2 * nB) K) : Res (LocDofs dim (2 * nB) K) := do
  let coeffs ← solve_local_problem m I gesv S.tau S.loc_mat lambda_in
  let primals ← primal_at_boundary I dim nS nB coeffs
  let duals ← dual_at_boundary I dim nS nB coeffs
  forFin (2 * dim) (fun i out => forFin (2 * nB) (fun j (out : LocDofs dim (2 * nB) K) =>
    .ok (arrSet out i (arrSet (out i) j (duals i j + S.tau * (primals i j - lambda_in i j))))) out) lambda_out

/-- `residual_flux`: `bilaplacian_uniform_ldgh.hxx` 299-305 (the returned reference is the assigned object itself). -/
def residual_flux (m : Mode) (I : Integrator K) (gesv : Gesv (n_loc_dofs dim nS) 1 K) (S : Solver dim nS K)
    (lambda_in lambda_out : LocDofs dim (2 * nB) K) : Res (LocDofs dim (2 * nB) K) :=
  trace_to_flux m I gesv S lambda_in lambda_out

/-- `errors`: `bilaplacian_uniform_ldgh.hxx` 313-318. -/
def errors : Fin 1 → K := fun _ => 0

/-- `bulk_values`: `bilaplacian_uniform_ldgh.hxx` 568-598.  `lin_comb` stands for `shape_fun_t::lin_comb_fct_val(coeffs, point)` of
`tensor_product_polynomials` (asked for as `float` in the code; exact here); `system_dim` is `dim + 1`. -/
def bulk_values (m : Mode) (I : Integrator K) (gesv : Gesv (n_loc_dofs dim nS) 1 K) (lin_comb : (Fin nS → K) → List K → K) (S : Solver dim nS K)
    (abscissas : List K) (lambda : LocDofs dim (2 * nB) K) (vals0 : Fin (dim + 1) → Fin (Hypercube.pow dim abscissas.length) → K) :
    Res (Fin (dim + 1) → Fin (Hypercube.pow dim abscissas.length) → K) := do
  let coefficients ← solve_local_problem m I gesv S.tau S.loc_mat lambda
  let r ← forFin (dim + 1) (fun d (s : (Fin nS → K) × (Fin (dim + 1) → Fin (Hypercube.pow dim abscissas.length) → K)) => do
    let coeffs ← forFin nS (fun i (c : Fin nS → K) => do
      let x ← SmallMat.get m coefficients (d * nS + i)
      return arrSet c i x) s.1
    let vals ← forFin (Hypercube.pow dim abscissas.length) (fun pt (v : Fin (dim + 1) → Fin (Hypercube.pow dim abscissas.length) → K) => do
      let p ← Hypercube.tensorial_pt m dim pt abscissas
      return arrSet v d (arrSet (v d) pt (lin_comb coeffs p))) s.2
    return (coeffs, vals)) (fun _ => 0, vals0)
  return r.2

end BilaplacianUniform
end HyperHDG

import Verif.Model.LocalSolver
import Verif.Model.Hypercube

/-!
# Model of `include/HyperHDG/local_solver/diffusion_uniform_ldgh.hxx`

`dim` is `hyEdge_dimT`, `nS` is `n_shape_fct_`, `nB` is `n_shape_bdr_`; they are related by the template parameter `poly_deg`, see `n_shape_fct` below.
-/

namespace HyperHDG

namespace DiffusionUniform

/-- `n_glob_dofs_per_node()` and `n_shape_bdr_`: `diffusion_uniform_ldgh.hxx` 111-114, 136. -/
def n_glob_dofs_per_node (dim poly_deg : Nat) : Nat := Hypercube.pow (dim - 1) (poly_deg + 1)

/-- `n_shape_fct_`: `diffusion_uniform_ldgh.hxx` 132. -/
def n_shape_fct (dim poly_deg : Nat) : Nat := u32 (n_glob_dofs_per_node dim poly_deg * (poly_deg + 1))

variable {K : Type} [CommRing K] {dim nS nB : Nat}

/-- Body of the loops of `assemble_loc_matrix` over `i` and `j`: `diffusion_uniform_ldgh.hxx` 382-405. -/
def locMatrixStep (m : Mode) (I : Integrator K) (dim nS : Nat) (tau : K) (i j : Nat)
    (M : SmallMat ((dim + 1) * nS) ((dim + 1) * nS) K) : Res (SmallMat ((dim + 1) * nS) ((dim + 1) * nS) K) := do
  let M ← forUp dim (fun d M => SmallMat.addAt m (d * nS + i) (d * nS + j) (I.vol_phiphi i j) M) M
  forUp dim (fun d M => do
    let integral := I.vol_Dphiphi i j d
    let M ← SmallMat.subAt m (dim * nS + i) (d * nS + j) integral M
    let M ← SmallMat.subAt m (d * nS + i) (dim * nS + j) integral M
    let integral := I.bdr_phiphi i j (2 * d + 1)
    let M ← SmallMat.addAt m (dim * nS + i) (d * nS + j) integral M
    let M ← SmallMat.addAt m (dim * nS + i) (dim * nS + j) (tau * integral) M
    let integral := I.bdr_phiphi i j (2 * d + 0)
    let M ← SmallMat.subAt m (dim * nS + i) (d * nS + j) integral M
    SmallMat.addAt m (dim * nS + i) (dim * nS + j) (tau * integral) M) M

/-- `assemble_loc_matrix`: `diffusion_uniform_ldgh.hxx` 371-410. -/
def assemble_loc_matrix (m : Mode) (I : Integrator K) (dim nS : Nat) (tau : K) :
    Res (SmallMat ((dim + 1) * nS) ((dim + 1) * nS) K) :=
  forUp nS (fun i M => forUp nS (fun j M => locMatrixStep m I dim nS tau i j M) M) (SmallMat.fill _ _ 0)

/-- `assemble_rhs`: `diffusion_uniform_ldgh.hxx` 423-456 (the two checks of sizes hold by the types of the model). -/
def assemble_rhs (m : Mode) (I : Integrator K) (nS : Nat) (tau : K) (lambda : LocDofs dim nB K) :
    Res (SmallVec ((dim + 1) * nS) K) :=
  forUp nS (fun i v => forUp nB (fun j v => forUp dim (fun d (v : SmallVec ((dim + 1) * nS) K) => do
    let integral := I.bdr_phipsi i j (2 * d + 0)
    let l ← arrGet2 lambda (2 * d + 0) j
    let v ← SmallMat.addTo m (d * nS + i) (l * integral) v
    let v ← SmallMat.addTo m (dim * nS + i) (tau * l * integral) v
    let integral := I.bdr_phipsi i j (2 * d + 1)
    let l ← arrGet2 lambda (2 * d + 1) j
    let v ← SmallMat.subFrom m (d * nS + i) (l * integral) v
    SmallMat.addTo m (dim * nS + i) (tau * l * integral) v) v) v) (SmallMat.fill _ _ 0)

/-- `solve_local_problem`: `diffusion_uniform_ldgh.hxx` 206-220. -/
def solve_local_problem (m : Mode) (I : Integrator K) (gesv : Gesv ((dim + 1) * nS) 1 K) (tau : K)
    (loc_mat : SmallMat ((dim + 1) * nS) ((dim + 1) * nS) K) (lambda : LocDofs dim nB K) : Res (SmallVec ((dim + 1) * nS) K) :=
  catchLapack m (do
    let rhs ← assemble_rhs m I nS tau lambda
    solve gesv rhs loc_mat)

/-- `primal_at_boundary`: `diffusion_uniform_ldgh.hxx` 470-495. -/
def primal_at_boundary (I : Integrator K) (dim nS nB : Nat) (coeffs : SmallVec ((dim + 1) * nS) K) : Res (LocDofs dim nB K) :=
  forUp nS (fun i b => forUp nB (fun j b => forUp dim (fun d (b : LocDofs dim nB K) => do
    let integral := I.bdr_phipsi i j (2 * d + 0)
    let x ← arrGet coeffs (dim * nS + i)
    let b ← arrAdd2 (2 * d + 0) j (x * integral) b
    let integral := I.bdr_phipsi i j (2 * d + 1)
    let x ← arrGet coeffs (dim * nS + i)
    arrAdd2 (2 * d + 1) j (x * integral) b) b) b) (fun _ _ => 0)

/-- `dual_at_boundary`: `diffusion_uniform_ldgh.hxx` 509-534. -/
def dual_at_boundary (I : Integrator K) (dim nS nB : Nat) (coeffs : SmallVec ((dim + 1) * nS) K) : Res (LocDofs dim nB K) :=
  forUp nS (fun i b => forUp nB (fun j b => forUp dim (fun d (b : LocDofs dim nB K) => do
    let integral := I.bdr_phipsi i j (2 * d + 0)
    let x ← arrGet coeffs (d * nS + i)
    let b ← arrSub2 (2 * d + 0) j (x * integral) b
    let integral := I.bdr_phipsi i j (2 * d + 1)
    let x ← arrGet coeffs (d * nS + i)
    arrAdd2 (2 * d + 1) j (x * integral) b) b) b) (fun _ _ => 0)

/-- A `DiffusionUniform` object: `diffusion_uniform_ldgh.hxx` 169-173. -/
structure Solver (dim nS : Nat) (K : Type) where
  tau : K
  loc_mat : SmallMat ((dim + 1) * nS) ((dim + 1) * nS) K

/-- Constructor: `diffusion_uniform_ldgh.hxx` 254-257. -/
def construct (m : Mode) (I : Integrator K) (dim nS : Nat) (tau : K) : Res (Solver dim nS K) := do
  let A ← assemble_loc_matrix m I dim nS tau
  return ⟨tau, A⟩

/-- `trace_to_flux`: `diffusion_uniform_ldgh.hxx` 273-298 (the checks of sizes hold by the types of the model). -/
def trace_to_flux (m : Mode) (I : Integrator K) (gesv : Gesv ((dim + 1) * nS) 1 K) (S : Solver dim nS K)
    (lambda_in lambda_out : LocDofs dim nB K) : Res (LocDofs dim nB K) := do
  let coeffs ← solve_local_problem m I gesv S.tau S.loc_mat lambda_in
  let primals ← primal_at_boundary I dim nS nB coeffs
  let duals ← dual_at_boundary I dim nS nB coeffs
  forFin (2 * dim) (fun i out => forFin nB (fun j (out : LocDofs dim nB K) =>
    .ok (arrSet out i (arrSet (out i) j (duals i j + S.tau * (primals i j - lambda_in i j))))) out) lambda_out

/-- `residual_flux`: `diffusion_uniform_ldgh.hxx` 309-315 (the returned reference is the assigned object itself). -/
def residual_flux (m : Mode) (I : Integrator K) (gesv : Gesv ((dim + 1) * nS) 1 K) (S : Solver dim nS K)
    (lambda_in lambda_out : LocDofs dim nB K) : Res (LocDofs dim nB K) :=
  trace_to_flux m I gesv S lambda_in lambda_out

/-- `errors`: `diffusion_uniform_ldgh.hxx` 324-329. -/
def errors : Fin 1 → K := fun _ => 0

/-- `bulk_values`: `diffusion_uniform_ldgh.hxx` 547-570.  `lin_comb` stands for `shape_fun_t::lin_comb_fct_val(coeffs, point)` of
`tensor_product_polynomials`; `n_pts` is `Hypercube<dim>::pow(abscissas.size())`.  (The code asks for the result as `float`; exact here.) -/
def bulk_values (m : Mode) (I : Integrator K) (gesv : Gesv ((dim + 1) * nS) 1 K) (lin_comb : (Fin nS → K) → List K → K) (S : Solver dim nS K)
    (abscissas : List K) (lambda : LocDofs dim nB K) (vals0 : Fin (dim + 1) → Fin (Hypercube.pow dim abscissas.length) → K) :
    Res (Fin (dim + 1) → Fin (Hypercube.pow dim abscissas.length) → K) := do
  let coefficients ← solve_local_problem m I gesv S.tau S.loc_mat lambda
  let r ← forFin (dim + 1) (fun d (s : (Fin nS → K) × (Fin (dim + 1) → Fin (Hypercube.pow dim abscissas.length) → K)) => do
    let coeffs ← forFin nS (fun i (c : Fin nS → K) => do
      let x ← SmallMat.get m coefficients (d * nS + i)
      return arrSet c i x) s.1
    let vals ← forFin (Hypercube.pow dim abscissas.length) (fun pt (v : Fin (dim + 1) → Fin (Hypercube.pow dim abscissas.length) → K) => do
      let p ← Hypercube.tensorial_pt m dim pt abscissas
      return arrSet v d (arrSet (v d) pt (lin_comb coeffs p))) s.2
    return (coeffs, vals)) (fun _ => 0, vals0)
  return r.2

end DiffusionUniform
end HyperHDG

import Verif.Model.Bilaplacian

/-!
# Model of `include/HyperHDG/local_solver/bilaplacian_parab_ldgh.hxx`

`dim`, `nS`, `nB` and the numbering of the unknowns as in `Bilaplacian`.  `primal_at_boundary` (936-977), `dual_at_boundary` (980-1024), `is_dirichlet` (183-188),
`is_dirichlet_laplacian` (189-195) and the loops setting the degrees of freedom of the Dirichlet boundary to zero (491-496, 546-551) are those of `bilaplacian_ldgh.hxx`,
letter by letter; their model is shared.
-/

namespace HyperHDG

namespace BilaplacianParab

open Bilaplacian (n_loc_dofs n_dofs_lap is_dirichlet is_dirichlet_laplacian primal_at_boundary dual_at_boundary zeroDirichlet)

/-- What the local solver asks about a hyperedge. -/
structure Edge (dim nS : Nat) (K : Type) extends stat : Bilaplacian.Edge dim nS K where
  /-- `integrate_volUni_phifunc<initial>(i, geometry, time)` -/
  volUni_initial : K → Nat → K

/-- The parameters of a solver: `bilaplacian_parab_ldgh.hxx` 202-213. -/
structure Solver (K : Type) where
  tau : K
  theta : K
  delta_t : K

/-- The constructor: `bilaplacian_parab_ldgh.hxx` 440-443.  `constru[i]` is not checked. -/
def Solver.mk' {K : Type} (constru : List K) : Res (Solver K) := do
  let tau ← vget constru 0
  let theta ← vget constru 1
  let delta_t ← vget constru 2
  return ⟨tau, theta, delta_t⟩

variable {K : Type} {dim nS nB : Nat}

/-- `data_type`: `bilaplacian_parab_ldgh.hxx` 381-384. -/
abbrev Data (dim nS : Nat) (K : Type) := SmallVec (n_loc_dofs dim nS) K

variable [CommRing K]

/-- Body of the loops of `assemble_loc_matrix` over `i` and `j`: `bilaplacian_parab_ldgh.hxx` 723-777. -/
def locMatrixStep (m : Mode) (S : Solver K) (E : Edge dim nS K) (time : K) (i j : Nat)
    (M : SmallMat (n_loc_dofs dim nS) (n_loc_dofs dim nS) K) : Res (SmallMat (n_loc_dofs dim nS) (n_loc_dofs dim nS) K) := do
  let vol_integral := E.vol_phiphi i j
  let vol_func_integral := E.vol_phiphifunc time i j
  let grad_int_vec := E.vol_nablaphiphi i j
  let s ← forUp (2 * dim) (fun face (s : K × (Fin dim → K)) => do
    let helper := E.bdr_phiphi i j face
    let normal_int_vec ← forUp dim (fun d (n : Fin dim → K) => do
      let x ← arrGet n d
      let y ← arrGet (E.local_normal face) d
      arrPut n d (x + y * helper)) s.2
    return (s.1 + helper, normal_int_vec)) (0, fun _ => 0)
  let M ← SmallMat.subAt m (dim * nS + i) (n_dofs_lap dim nS + dim * nS + j) vol_func_integral M
  let M ← SmallMat.addAt m (dim * nS + i) (dim * nS + j) (S.tau * s.1) M
  let M ← SmallMat.addAt m (n_dofs_lap dim nS + dim * nS + i) (n_dofs_lap dim nS + dim * nS + j) (S.tau * S.theta * S.delta_t * s.1) M
  let M ← forUp dim (fun d M => do
    let M ← SmallMat.addAt m (d * nS + i) (d * nS + j) vol_integral M
    let M ← SmallMat.addAt m (n_dofs_lap dim nS + d * nS + i) (n_dofs_lap dim nS + d * nS + j) vol_integral M
    let g ← arrGet grad_int_vec d
    let M ← SmallMat.subAt m (dim * nS + i) (d * nS + j) g M
    let M ← SmallMat.subAt m (d * nS + i) (dim * nS + j) g M
    let M ← SmallMat.subAt m (n_dofs_lap dim nS + dim * nS + i) (n_dofs_lap dim nS + d * nS + j) (S.theta * S.delta_t * g) M
    let M ← SmallMat.subAt m (n_dofs_lap dim nS + d * nS + i) (n_dofs_lap dim nS + dim * nS + j) g M
    let n ← arrGet s.2 d
    let M ← SmallMat.addAt m (dim * nS + i) (d * nS + j) n M
    SmallMat.addAt m (n_dofs_lap dim nS + dim * nS + i) (n_dofs_lap dim nS + d * nS + j) (S.theta * S.delta_t * n) M) M
  SmallMat.addAt m (n_dofs_lap dim nS + dim * nS + i) (dim * nS + j) (E.vol_phiphi i j) M

/-- `assemble_loc_matrix`: `bilaplacian_parab_ldgh.hxx` 696-781.  (The parameter `tau` is always `tau_`.) -/
def assemble_loc_matrix (m : Mode) (S : Solver K) (E : Edge dim nS K) (time : K) : Res (SmallMat (n_loc_dofs dim nS) (n_loc_dofs dim nS) K) :=
  forUp nS (fun i M => forUp nS (fun j M => locMatrixStep m S E time i j M) M) (SmallMat.fill _ _ 0)

/-- `assemble_rhs_from_lambda`: `bilaplacian_parab_ldgh.hxx` 786-832 (the checks of sizes hold by the types of the model, here and below). -/
def assemble_rhs_from_lambda (m : Mode) (S : Solver K) (E : Edge dim nS K) (nB : Nat) (lambda : LocDofs dim (2 * nB) K) : Res (SmallVec (n_loc_dofs dim nS) K) :=
  forUp nS (fun i v => forUp nB (fun j v => forUp (2 * dim) (fun face (v : SmallVec (n_loc_dofs dim nS) K) => do
    let integral := E.bdr_phipsi i j face
    let l ← arrGet2 lambda face j
    let l' ← arrGet2 lambda face (nB + j)
    let v ← SmallMat.addTo m (dim * nS + i) (S.tau * l * integral) v
    let v ← SmallMat.addTo m (n_dofs_lap dim nS + dim * nS + i) (S.tau * S.theta * S.delta_t * l' * integral) v
    forUp dim (fun d v => do
      let n ← arrGet (E.local_normal face) d
      let v ← SmallMat.subFrom m (d * nS + i) (n * l * integral) v
      SmallMat.subFrom m (n_dofs_lap dim nS + d * nS + i) (n * l' * integral) v) v) v) v) (SmallMat.fill _ _ 0)

/-- The contribution of a face of the Dirichlet boundary, `b = 0` or `b = n_dofs_lap` the position of the unknown, `factor` in front of the integral:
`bilaplacian_parab_ldgh.hxx` 875-882, 886-894. -/
def dirichletRhs (m : Mode) (E : Edge dim nS K) (factor integral : K) (b i face : Nat) (v : SmallVec (n_loc_dofs dim nS) K) : Res (SmallVec (n_loc_dofs dim nS) K) := do
  let v ← SmallMat.addTo m (b + dim * nS + i) (factor * integral) v
  forUp dim (fun d v => do
    let n ← arrGet (E.local_normal face) d
    SmallMat.subFrom m (b + d * nS + i) (n * integral) v) v

/-- `assemble_rhs_from_coeffs`: `bilaplacian_parab_ldgh.hxx` 904-933. -/
def assemble_rhs_from_coeffs (m : Mode) (coeffs : SmallVec (n_loc_dofs dim nS) K) (E : Edge dim nS K) : Res (SmallVec (n_loc_dofs dim nS) K) :=
  forUp nS (fun i v => forUp nS (fun j (v : SmallVec (n_loc_dofs dim nS) K) => do
    let x ← arrGet coeffs (dim * nS + j)
    SmallMat.addTo m (n_loc_dofs dim nS / 2 + dim * nS + i) (x * E.vol_phiphi i j) v) v) (SmallMat.fill _ _ 0)

/-- `assemble_rhs_from_global_rhs`: `bilaplacian_parab_ldgh.hxx` 837-899. -/
def assemble_rhs_from_global_rhs (m : Mode) (S : Solver K) (E : Edge dim nS K) (data : Data dim nS K) (time : K) : Res (SmallVec (n_loc_dofs dim nS) K) := do
  let v ← forUp nS (fun i (v : SmallVec (n_loc_dofs dim nS) K) => do
    let v ← SmallMat.set m (n_dofs_lap dim nS + dim * nS + i)
      (S.theta * S.delta_t * E.vol_phifunc time i + (1 - S.theta) * S.delta_t * E.vol_phifunc (time - S.delta_t) i) v
    forUp (2 * dim) (fun face v => do
      let v ← (if is_dirichlet E.stat face then dirichletRhs m E S.tau (E.bdr_phifunc time i face) 0 i face v else .ok v)
      if is_dirichlet_laplacian E.stat face then dirichletRhs m E (S.tau * S.theta * S.delta_t) (E.bdr_phifunc_laplace time i face) (n_dofs_lap dim nS) i face v
      else .ok v) v)
    (SmallMat.fill _ _ 0)
  let w ← assemble_rhs_from_coeffs m data E
  SmallMat.add_mat v w

/-- `solve_local_problem`: `bilaplacian_parab_ldgh.hxx` 318-341. -/
def solve_local_problem (m : Mode) (gesv : Gesv (n_loc_dofs dim nS) 1 K) (S : Solver K) (E : Edge dim nS K) (data : Data dim nS K) (lambda : LocDofs dim (2 * nB) K)
    (solution_type : Nat) (time : K) : Res (SmallVec (n_loc_dofs dim nS) K) :=
  catchLapack m (do
    let rhs ← (if solution_type = 0 then assemble_rhs_from_lambda m S E nB lambda
      else if solution_type = 1 then do
        let a ← assemble_rhs_from_lambda m S E nB lambda
        let b ← assemble_rhs_from_global_rhs m S E data time
        SmallMat.add_mat a b
      else do
        hyAssert m (0 = 1)
        return SmallMat.fill _ _ 0)
    let A ← assemble_loc_matrix m S E time
    solve gesv rhs A)

/-- `trace_to_flux`: `bilaplacian_parab_ldgh.hxx` 462-501. -/
def trace_to_flux (m : Mode) (gesv : Gesv (n_loc_dofs dim nS) 1 K) (S : Solver K) (lambda_in lambda_out : LocDofs dim (2 * nB) K) (E : Edge dim nS K)
    (data : Data dim nS K) (time : K) : Res (LocDofs dim (2 * nB) K) := do
  let coeffs ← solve_local_problem m gesv S E data lambda_in 0 time
  let primals ← primal_at_boundary E.stat nB coeffs
  let duals ← dual_at_boundary E.stat nB coeffs
  forFin (2 * dim) (fun i out => do
    let out ← forFin (2 * nB) (fun j (out : LocDofs dim (2 * nB) K) => do
      let l ← arrGet (lambda_in i) (if j.1 < nB then j + nB else j - nB)
      .ok (arrSet out i (arrSet (out i) j (duals i j + S.tau * primals i j - S.tau * l * E.face_area i)))) out
    zeroDirichlet E.stat i out) lambda_out

/-- `residual_flux`: `bilaplacian_parab_ldgh.hxx` 519-555. -/
def residual_flux (m : Mode) (gesv : Gesv (n_loc_dofs dim nS) 1 K) (S : Solver K) (lambda_in lambda_out : LocDofs dim (2 * nB) K) (E : Edge dim nS K)
    (data : Data dim nS K) (time : K) : Res (LocDofs dim (2 * nB) K) := do
  let coeffs ← solve_local_problem m gesv S E data lambda_in 1 time
  let primals ← primal_at_boundary E.stat nB coeffs
  let duals ← dual_at_boundary E.stat nB coeffs
  forFin (2 * dim) (fun i out => do
    let out ← forFin (2 * nB) (fun j (out : LocDofs dim (2 * nB) K) =>
      .ok (arrSet out i (arrSet (out i) j (duals i j + S.tau * primals i j - S.tau * lambda_in i j * E.face_area i)))) out
    zeroDirichlet E.stat i out) lambda_out

/-- `set_data`: `bilaplacian_parab_ldgh.hxx` 565-574.  Returns the new data. -/
def set_data (m : Mode) (gesv : Gesv (n_loc_dofs dim nS) 1 K) (S : Solver K) (lambda : LocDofs dim (2 * nB) K) (E : Edge dim nS K) (data : Data dim nS K) (time : K) :
    Res (Data dim nS K) :=
  solve_local_problem m gesv S E data lambda 1 time

/-- `make_initial`: `bilaplacian_parab_ldgh.hxx` 586-619.  Returns the trace and the new data.  (The face and the number of the shape function are passed to the integrator in this
order.) -/
def make_initial (lambda_values : LocDofs dim (2 * nB) K) (E : Edge dim nS K) (data : Data dim nS K) (time : K) : Res (LocDofs dim (2 * nB) K × Data dim nS K) := do
  let out ← forFin (2 * dim) (fun i (out : LocDofs dim (2 * nB) K) =>
    if is_dirichlet E.stat i then forFin (2 * nB) (fun j (out : LocDofs dim (2 * nB) K) => .ok (arrSet out i (arrSet (out i) j 0))) out
    else do
      let out ← forUp (2 * nB / 2) (fun j out => arrPut2 out i j (E.bdrUni_psifunc time i j)) out
      forUp (2 * nB - 2 * nB / 2) (fun j out => arrPut2 out i (2 * nB / 2 + j) (E.bdrUni_psifunc_laplace time i (2 * nB / 2 + j))) out) lambda_values
  let data ← forUp nS (fun i (c : Data dim nS K) => arrPut c (dim * nS + i) (E.volUni_initial time i)) data
  return (out, data)

/-- `errors`: `bilaplacian_parab_ldgh.hxx` 632-660 (the checks for `NaN` hold in exact arithmetic; the array `coeffs` is not initialised in the code, each entry is
written). -/
def errors [LinearOrder K] (m : Mode) (gesv : Gesv (n_loc_dofs dim nS) 1 K) (S : Solver K) (lambda : LocDofs dim (2 * nB) K) (E : Edge dim nS K) (data : Data dim nS K)
    (time : K) : Res (Fin 1 → K) := do
  let coefficients ← solve_local_problem m gesv S E data lambda 1 time
  let coeffs ← forFin nS (fun i (c : Fin nS → K) => do
    let x ← arrGet coefficients (i + dim * nS)
    return arrSet c i x) (fun _ => 0)
  let result := E.vol_diffsquare time coeffs
  hyAssert m (0 ≤ result)
  return fun _ => result

/-- `bulk_values`: `bilaplacian_parab_ldgh.hxx` 1029-1065.  `lin_comb` stands for `shape_fun_t::lin_comb_fct_val(coeffs, point)` of `tensor_product_polynomials` (asked for as
`float` in the code; exact here). -/
def bulk_values (m : Mode) (gesv : Gesv (n_loc_dofs dim nS) 1 K) (lin_comb : (Fin nS → K) → List K → K) (S : Solver K) (abscissas : List K)
    (lambda : LocDofs dim (2 * nB) K) (E : Edge dim nS K) (data : Data dim nS K) (time : K) (vals0 : Fin (dim + 1) → Fin (Hypercube.pow dim abscissas.length) → K) :
    Res (Fin (dim + 1) → Fin (Hypercube.pow dim abscissas.length) → K) := do
  let coefficients ← solve_local_problem m gesv S E data lambda 1 time
  let r ← forFin (dim + 1) (fun d (s : (Fin nS → K) × (Fin (dim + 1) → Fin (Hypercube.pow dim abscissas.length) → K)) => do
    let coeffs ← forFin nS (fun i (c : Fin nS → K) => do
      let x ← SmallMat.get m coefficients (d * nS + i)
      return arrSet c i x) s.1
    let vals ← forFin (Hypercube.pow dim abscissas.length) (fun pt (v : Fin (dim + 1) → Fin (Hypercube.pow dim abscissas.length) → K) => do
      let p ← Hypercube.tensorial_pt m dim pt abscissas
      return arrSet v d (arrSet (v d) pt (lin_comb coeffs p))) s.2
    return (coeffs, vals)) (fun _ => 0, vals0)
  return r.2

end BilaplacianParab
end HyperHDG

import Verif.Model.Diffusion

/-!
# Model of `include/HyperHDG/local_solver/diffusion_parab_ldgh.hxx`

`dim` is `hyEdge_dimT`, `nS` is `n_shape_fct_`, `nB` is `n_shape_bdr_`.  The queries about a hyperedge are those of `Diffusion.Edge` and some more.
`std::array<lSol_float_t, n_loc_dofs_>` is the content of a `SmallVec`, accessed without checks (`arrGet`).  Not modelled: `assemble_rhs_from_coeffs`, which
nobody calls.
-/

namespace HyperHDG

namespace DiffusionParab

/-- What the local solver asks about a hyperedge. -/
structure Edge (dim nS : Nat) (K : Type) extends Diffusion.Edge dim nS K where
  /-- `geometry.area()` -/
  area : K
  /-- `integrate_volUni_phifunc<initial>(i, geometry, time)` -/
  volUni_initial : K → Nat → K
  /-- `integrate_vol_derphifunc<initial>(i, dim, geometry, time)` -/
  vol_derphi_initial : K → Nat → Nat → K
  /-- `integrate_bdr_phifunc<initial>(i, face, geometry, time)` -/
  bdr_initial : K → Nat → Nat → K

/-- `data_type`: `diffusion_parab_ldgh.hxx` 361-365. -/
structure Data (dim nS nB : Nat) (K : Type) where
  u_old : SmallVec nS K
  flux_old : SmallVec nS K
  boundary_flux_old : SmallMat nB (2 * dim) K

/-- The parameters of a solver: `diffusion_parab_ldgh.hxx` 366-410 and the constructor 421-424. -/
structure Solver (K : Type) where
  tau : K
  theta : K
  delta_t : K

variable {K : Type} {dim nS nB : Nat}

/-- `is_dirichlet(hyper_edge.node_descriptor[face])`: `diffusion_parab_ldgh.hxx` 170-175. -/
def is_dirichlet (E : Edge dim nS K) (face : Nat) : Bool := E.dirichlet_nodes.contains (E.node_descriptor face)

/-- The data of a new hyperedge: the default constructors of the matrices fill them with zeros. -/
def Data.init [Zero K] : Data dim nS nB K := ⟨SmallMat.fill _ _ 0, SmallMat.fill _ _ 0, SmallMat.fill _ _ 0⟩

variable [CommRing K]

/-- Body of the loops of `assemble_loc_matrix` over `i` and `j`: `diffusion_parab_ldgh.hxx` 830-870. -/
def locMatrixStep (m : Mode) (S : Solver K) (E : Edge dim nS K) (time : K) (i j : Nat)
    (local_mat : SmallMat ((dim + 1) * nS) ((dim + 1) * nS) K) : Res (SmallMat ((dim + 1) * nS) ((dim + 1) * nS) K) := do
  let vol_integral := E.vol_phiphifunc time i j
  let grad_int_vec := E.vol_nablaphiphi i j
  let s ← forUp (2 * dim) (fun face (s : K × (Fin dim → K)) => do
    let helper := E.bdr_phiphi i j face
    return (s.1 + helper, fun d => s.2 d + E.local_normal face d * helper)) (0, fun _ => 0)
  let local_mat ← SmallMat.addAt m (dim * nS + i) (dim * nS + j) (S.tau * S.theta * S.delta_t * s.1) local_mat
  let local_mat ← forUp dim (fun d M => do
    let M ← SmallMat.addAt m (d * nS + i) (d * nS + j) vol_integral M
    let g ← arrGet grad_int_vec d
    let M ← SmallMat.subAt m (d * nS + i) (dim * nS + j) g M
    let M ← SmallMat.subAt m (dim * nS + i) (d * nS + j) (S.theta * S.delta_t * g) M
    let n ← arrGet s.2 d
    SmallMat.addAt m (dim * nS + i) (d * nS + j) (S.theta * S.delta_t * n) M) local_mat
  SmallMat.addAt m (dim * nS + i) (dim * nS + j) (E.vol_phiphi i j) local_mat

/-- `assemble_loc_matrix`: `diffusion_parab_ldgh.hxx` 817-874. -/
def assemble_loc_matrix (m : Mode) (S : Solver K) (E : Edge dim nS K) (time : K) : Res (SmallMat ((dim + 1) * nS) ((dim + 1) * nS) K) :=
  forUp nS (fun i M => forUp nS (fun j M => locMatrixStep m S E time i j M) M) (SmallMat.fill _ _ 0)

/-- `assemble_rhs_from_lambda`: `diffusion_parab_ldgh.hxx` 890-917 (the checks of sizes hold by the types of the model). -/
def assemble_rhs_from_lambda (m : Mode) (S : Solver K) (E : Edge dim nS K) (lambda : LocDofs dim nB K) : Res (SmallVec ((dim + 1) * nS) K) :=
  forUp nS (fun i v => forUp nB (fun j v => forUp (2 * dim) (fun face (v : SmallVec ((dim + 1) * nS) K) => do
    let integral := E.bdr_phipsi i j face
    let l ← arrGet2 lambda face j
    let v ← SmallMat.addTo m (dim * nS + i) (S.tau * S.theta * S.delta_t * l * integral) v
    forUp dim (fun d v => do
      let n ← arrGet (E.local_normal face) d
      SmallMat.subFrom m (d * nS + i) (n * l * integral) v) v) v) v) (SmallMat.fill _ _ 0)

/-- `assemble_rhs_from_global_rhs`: `diffusion_parab_ldgh.hxx` 933-975. -/
def assemble_rhs_from_global_rhs (m : Mode) (S : Solver K) (E : Edge dim nS K) (data : Data dim nS nB K) (time : K) :
    Res (SmallVec ((dim + 1) * nS) K) := do
  let v ← forUp nS (fun i (v : SmallVec ((dim + 1) * nS) K) => do
    let v ← SmallMat.set m (dim * nS + i) (S.theta * S.delta_t * E.vol_phifunc time i) v
    forUp (2 * dim) (fun face v =>
      if ¬ is_dirichlet E face then .ok v
      else do
        let integral := E.bdr_phifunc time i face
        let v ← SmallMat.addTo m (dim * nS + i)
          (S.tau * S.theta * S.delta_t * integral + S.tau * (1 - S.theta) * S.delta_t * E.bdr_phifunc (time - S.delta_t) i face) v
        forUp dim (fun d v => do
          let n ← arrGet (E.local_normal face) d
          SmallMat.subFrom m (d * nS + i) (n * integral) v) v) v) (SmallMat.fill _ _ 0)
  forUp nS (fun i (v : SmallVec ((dim + 1) * nS) K) => do
    let u ← SmallMat.get m data.u_old i
    let f ← SmallMat.get m data.flux_old i
    SmallMat.addTo m (dim * nS + i) (u * E.area + S.delta_t * (1 - S.theta) * f) v) v

/-- `solve_local_problem`: `diffusion_parab_ldgh.hxx` 298-322. -/
def solve_local_problem (m : Mode) (gesv : Gesv ((dim + 1) * nS) 1 K) (S : Solver K) (E : Edge dim nS K) (data : Data dim nS nB K)
    (lambda : LocDofs dim nB K) (solution_type : Nat) (time : K) : Res (SmallVec ((dim + 1) * nS) K) :=
  catchLapack m (do
    let rhs ← (if solution_type = 0 then assemble_rhs_from_lambda m S E lambda
      else if solution_type = 1 then do
        let a ← assemble_rhs_from_lambda m S E lambda
        let b ← assemble_rhs_from_global_rhs m S E data time
        SmallMat.add_mat a b
      else do
        hyAssert m (0 = 1)
        return SmallMat.fill _ _ 0)
    let A ← assemble_loc_matrix m S E time
    solve gesv rhs A)

/-- `primal_at_boundary`: `diffusion_parab_ldgh.hxx` 1023-1043. -/
def primal_at_boundary (E : Edge dim nS K) (nB : Nat) (coeffs : SmallVec ((dim + 1) * nS) K) : Res (LocDofs dim nB K) :=
  forUp nS (fun i b => forUp nB (fun j b => forUp (2 * dim) (fun face (b : LocDofs dim nB K) => do
    let x ← arrGet coeffs (dim * nS + i)
    arrAdd2 face j (x * E.bdr_phipsi i j face) b) b) b) (fun _ _ => 0)

/-- `dual_at_boundary`: `diffusion_parab_ldgh.hxx` 1060-1083. -/
def dual_at_boundary (E : Edge dim nS K) (nB : Nat) (coeffs : SmallVec ((dim + 1) * nS) K) : Res (LocDofs dim nB K) :=
  forUp nS (fun i b => forUp nB (fun j b => forUp (2 * dim) (fun face (b : LocDofs dim nB K) => do
    let integral := E.bdr_phipsi i j face
    forUp dim (fun d b => do
      let n ← arrGet (E.local_normal face) d
      let x ← arrGet coeffs (d * nS + i)
      arrAdd2 face j (n * integral * x) b) b) b) b) (fun _ _ => 0)

/-- `trace_to_flux`: `diffusion_parab_ldgh.hxx` 443-480 (the checks of sizes hold by the types of the model, here and below). -/
def trace_to_flux (m : Mode) (gesv : Gesv ((dim + 1) * nS) 1 K) (S : Solver K) (lambda_in lambda_out : LocDofs dim nB K) (E : Edge dim nS K)
    (data : Data dim nS nB K) (time : K) : Res (LocDofs dim nB K) := do
  let coeffs ← solve_local_problem m gesv S E data lambda_in 0 time
  let primals ← primal_at_boundary E nB coeffs
  let duals ← dual_at_boundary E nB coeffs
  forFin (2 * dim) (fun i out =>
    if is_dirichlet E i then forFin nB (fun j (out : LocDofs dim nB K) => .ok (arrSet out i (arrSet (out i) j 0))) out
    else forFin nB (fun j (out : LocDofs dim nB K) =>
      let x := duals i j + S.tau * primals i j - S.tau * lambda_in i j * E.face_area i
      let x := x * S.theta
      .ok (arrSet out i (arrSet (out i) j x))) out) lambda_out

/-- `residual_flux`: `diffusion_parab_ldgh.hxx` 498-538. -/
def residual_flux (m : Mode) (gesv : Gesv ((dim + 1) * nS) 1 K) (S : Solver K) (lambda_in lambda_out : LocDofs dim nB K) (E : Edge dim nS K)
    (data : Data dim nS nB K) (time : K) : Res (LocDofs dim nB K) := do
  let coeffs ← solve_local_problem m gesv S E data lambda_in 1 time
  let primals ← primal_at_boundary E nB coeffs
  let duals ← dual_at_boundary E nB coeffs
  forFin (2 * dim) (fun i out =>
    if is_dirichlet E i then forFin nB (fun j (out : LocDofs dim nB K) => .ok (arrSet out i (arrSet (out i) j 0))) out
    else forFin nB (fun j (out : LocDofs dim nB K) => do
      let x := duals i j + S.tau * primals i j - S.tau * lambda_in i j * E.face_area i
      let x := x * S.theta
      let b ← SmallMat.at' m data.boundary_flux_old j i
      return arrSet out i (arrSet (out i) j (x + (1 - S.theta) * b))) out) lambda_out

/-- Body of the loop over `i` in "Fill flux_old!": `diffusion_parab_ldgh.hxx` 571-597 and 685-712. -/
def fluxEntry (m : Mode) (S : Solver K) (E : Edge dim nS K) (q_components : Fin dim → SmallVec nS K) (u_old : SmallVec nS K) (lambda : LocDofs dim nB K)
    (time : K) (i : Nat) (v : SmallVec nS K) : Res (SmallVec nS K) := do
  let v ← SmallMat.set m i (E.vol_phifunc time i) v
  let v ← forUp nS (fun j (v : SmallVec nS K) => do
    let grad_int_vec := E.vol_nablaphiphi i j
    let v ← forUp dim (fun d (v : SmallVec nS K) => do
      let q ← arrGet q_components d
      let x ← SmallMat.get m q j
      let g ← arrGet grad_int_vec d
      SmallMat.addTo m i (x * g) v) v
    forUp (2 * dim) (fun face (v : SmallVec nS K) => do
      let helper := E.bdr_phiphi i j face
      let v ← forUp dim (fun d (v : SmallVec nS K) => do
        let q ← arrGet q_components d
        let x ← SmallMat.get m q j
        let n ← arrGet (E.local_normal face) d
        SmallMat.subFrom m i (x * n * helper) v) v
      let u ← SmallMat.get m u_old j
      SmallMat.subFrom m i (S.tau * u * helper) v) v) v
  forUp nB (fun j (v : SmallVec nS K) => forUp (2 * dim) (fun face (v : SmallVec nS K) => do
    let l ← arrGet2 lambda face j
    SmallMat.addTo m i (S.tau * l * E.bdr_phipsi i j face) v) v) v

/-- "Fill flux_old!": `diffusion_parab_ldgh.hxx` 568-597 and 682-712. -/
def fillFlux (m : Mode) (S : Solver K) (E : Edge dim nS K) (q_components : Fin dim → SmallVec nS K) (u_old : SmallVec nS K) (lambda : LocDofs dim nB K)
    (time : K) (flux_old : SmallVec nS K) : Res (SmallVec nS K) := forUp nS (fluxEntry m S E q_components u_old lambda time) flux_old

/-- The loop filling `boundary_flux_old`: `diffusion_parab_ldgh.hxx` 603-614 and 728-739. -/
def fillBoundaryFlux (m : Mode) (S : Solver K) (E : Edge dim nS K) (primals duals lambda : LocDofs dim nB K) (old : SmallMat nB (2 * dim) K) :
    Res (SmallMat nB (2 * dim) K) :=
  forFin (2 * dim) (fun i out =>
    if is_dirichlet E i then forFin nB (fun j (out : SmallMat nB (2 * dim) K) => SmallMat.setAt m j i 0 out) out
    else forFin nB (fun j (out : SmallMat nB (2 * dim) K) =>
      SmallMat.setAt m j i (duals i j + S.tau * primals i j - S.tau * lambda i j * E.face_area i) out) out) old

/-- `set_data`: `diffusion_parab_ldgh.hxx` 547-616.  Returns the new data. -/
def set_data (m : Mode) (gesv : Gesv ((dim + 1) * nS) 1 K) (S : Solver K) (lambda : LocDofs dim nB K) (E : Edge dim nS K) (data : Data dim nS nB K)
    (time : K) : Res (Data dim nS nB K) := do
  let coeffs ← solve_local_problem m gesv S E data lambda 1 time
  let u_old ← forUp nS (fun i (u : SmallVec nS K) => do
    let x ← arrGet coeffs (dim * nS + i)
    SmallMat.set m i x u) data.u_old
  let q_components ← forFin dim (fun d (q : Fin dim → SmallVec nS K) => do
    let qd ← forUp nS (fun i (qd : SmallVec nS K) => do
      let x ← arrGet coeffs (d * nS + i)
      SmallMat.set m i x qd) (q d)
    return arrSet q d qd) (fun _ => SmallMat.fill _ _ 0)
  let flux_old ← fillFlux m S E q_components u_old lambda time data.flux_old
  let primals ← primal_at_boundary E nB coeffs
  let duals ← dual_at_boundary E nB coeffs
  let boundary_flux_old ← fillBoundaryFlux m S E primals duals lambda data.boundary_flux_old
  return ⟨u_old, flux_old, boundary_flux_old⟩

/-- The initial trace: `diffusion_parab_ldgh.hxx` 633-645. -/
def initialTrace (lambda_values : LocDofs dim nB K) (E : Edge dim nS K) (time : K) : Res (LocDofs dim nB K) :=
  forFin (2 * dim) (fun i out =>
    if is_dirichlet E i then forFin nB (fun j (out : LocDofs dim nB K) => .ok (arrSet out i (arrSet (out i) j 0))) out
    else forFin nB (fun j (out : LocDofs dim nB K) => .ok (arrSet out i (arrSet (out i) j (E.bdrUni_psifunc time j i)))) out) lambda_values

/-- The matrix `mass_flux`: `diffusion_parab_ldgh.hxx` 654-661. -/
def massFlux (m : Mode) (E : Edge dim nS K) (time : K) : Res (SmallMat nS nS K) :=
  forUp nS (fun i M => forUp nS (fun j (M : SmallMat nS nS K) => SmallMat.setAt m i j (E.vol_phiphifunc time i j) M) M) (SmallMat.fill _ _ 0)

/-- The vector `local_rhs` for direction `d`: `diffusion_parab_ldgh.hxx` 667-679. -/
def initialRhs (m : Mode) (E : Edge dim nS K) (time : K) (d : Nat) (local_rhs : SmallVec nS K) : Res (SmallVec nS K) :=
  forUp nS (fun i (v : SmallVec nS K) => do
    let v ← SmallMat.set m i (E.vol_derphi_initial time i d) v
    forUp (2 * dim) (fun face (v : SmallVec nS K) => do
      let n ← arrGet (E.local_normal face) d
      SmallMat.subFrom m i (E.bdr_initial time i face * n) v) v) local_rhs

/-- The components of the initial dual unknown: `diffusion_parab_ldgh.hxx` 662-680. -/
def initialDual (m : Mode) (gesv : Gesv nS 1 K) (E : Edge dim nS K) (time : K) : Res (Fin dim → SmallVec nS K) := do
  let mass_mat ← massFlux m E time
  let r ← forFin dim (fun d (s : SmallVec nS K × (Fin dim → SmallVec nS K)) => do
    let local_rhs ← initialRhs m E time d s.1
    let q ← solve gesv local_rhs mass_mat
    return (local_rhs, arrSet s.2 d q)) (SmallMat.fill _ _ 0, fun _ => SmallMat.fill _ _ 0)
  return r.2

/-- The array `coeffs` of `make_initial`: `diffusion_parab_ldgh.hxx` 714-720 (not initialised in the code; each entry is written). -/
def initialCoeffs (m : Mode) (q_components : Fin dim → SmallVec nS K) (u_old : SmallVec nS K) : Res (SmallVec ((dim + 1) * nS) K) := do
  let c ← forUp dim (fun d c => forUp nS (fun i (c : SmallVec ((dim + 1) * nS) K) => do
    let q ← arrGet q_components d
    let x ← SmallMat.get m q i
    arrPut c (d * nS + i) x) c) (SmallMat.fill _ _ 0)
  forUp nS (fun i (c : SmallVec ((dim + 1) * nS) K) => do
    let x ← SmallMat.get m u_old i
    arrPut c (dim * nS + i) x) c

/-- `make_initial`: `diffusion_parab_ldgh.hxx` 627-743.  Returns the trace and the new data. -/
def make_initial (m : Mode) (gesv : Gesv nS 1 K) (S : Solver K) (lambda_values : LocDofs dim nB K) (E : Edge dim nS K) (data : Data dim nS nB K)
    (time : K) : Res (LocDofs dim nB K × Data dim nS nB K) := do
  let lambda ← initialTrace lambda_values E time
  let u_old ← forUp nS (fun i (u : SmallVec nS K) => SmallMat.set m i (E.volUni_initial time i) u) data.u_old
  let q_components ← initialDual m gesv E time
  let flux_old ← fillFlux m S E q_components u_old lambda time data.flux_old
  let coeffs ← initialCoeffs m q_components u_old
  let primals ← primal_at_boundary E nB coeffs
  let duals ← dual_at_boundary E nB coeffs
  let boundary_flux_old ← fillBoundaryFlux m S E primals duals lambda data.boundary_flux_old
  return (lambda, ⟨u_old, flux_old, boundary_flux_old⟩)

/-- `errors`: `diffusion_parab_ldgh.hxx` 754-766. -/
def errors (E : Edge dim nS K) (data : Data dim nS nB K) (time : K) : Fin 1 → K :=
  fun _ => E.vol_diffsquare time (fun i => data.u_old (i.cast (Nat.mul_one nS).symm))

/-- `bulk_values`: `diffusion_parab_ldgh.hxx` 1087-1126.  `lin_comb` stands for `shape_fun_t::lin_comb_fct_val(coeffs, point)` of
`tensor_product_polynomials` (asked for as `float` in the code; exact here). -/
def bulk_values (m : Mode) (gesv : Gesv ((dim + 1) * nS) 1 K) (lin_comb : (Fin nS → K) → List K → K) (S : Solver K) (abscissas : List K)
    (lambda : LocDofs dim nB K) (E : Edge dim nS K) (data : Data dim nS nB K) (time : K)
    (vals0 : Fin (dim + 1) → Fin (Hypercube.pow dim abscissas.length) → K) : Res (Fin (dim + 1) → Fin (Hypercube.pow dim abscissas.length) → K) := do
  let coefficients ← solve_local_problem m gesv S E data lambda 1 time
  let r ← forFin (dim + 1) (fun d (s : (Fin nS → K) × (Fin (dim + 1) → Fin (Hypercube.pow dim abscissas.length) → K)) => do
    let coeffs ← forFin nS (fun i (c : Fin nS → K) => do
      let x ← SmallMat.get m coefficients (d * nS + i)
      return arrSet c i x) s.1
    let vals ← forFin (Hypercube.pow dim abscissas.length) (fun pt (v : Fin (dim + 1) → Fin (Hypercube.pow dim abscissas.length) → K) => do
      let p ← Hypercube.tensorial_pt m dim pt abscissas
      return arrSet v d (arrSet (v d) pt (lin_comb coeffs p))) s.2
    return (coeffs, vals)) (fun _ => 0, vals0)
  return r.2

end DiffusionParab
end HyperHDG

import Mathlib.Order.Defs.LinearOrder
import Verif.Model.Diffusion

/-!
# Model of `include/HyperHDG/local_solver/advection_parab_ldgh.hxx`

`dim` is `hyEdge_dimT`, `nS` is `n_shape_fct_` (which is `n_loc_dofs_`), `nB` is `n_shape_bdr_`.  `std::array<lSol_float_t, n_loc_dofs_>` is the content of a `SmallVec`,
accessed without checks (`arrGet`).  The integrals of `tensor_product_polynomials` (whose source is not part of the repository) are queries about the hyperedge.
-/

namespace HyperHDG

namespace AdvectionParab

/-- What the local solver asks about a hyperedge. -/
structure Edge (dim nS : Nat) (K : Type) where
  /-- `node_descriptor[face]` -/
  node_descriptor : Nat → Nat
  /-- `parameters::dirichlet_nodes` -/
  dirichlet_nodes : List Nat
  /-- `parameters::boundary_nodes` -/
  boundary_nodes : List Nat
  /-- `parameters::outflow_nodes` -/
  outflow_nodes : List Nat
  /-- `scalar_product(geometry.inner_normal(face), parameters::velocity(geometry.face_barycenter(face), time))` -/
  wind : K → Nat → K
  /-- `geometry.area()` -/
  area : K
  /-- `integrate_vol_phiphi(i, j, geometry)` -/
  vol_phiphi : Nat → Nat → K
  /-- `integrate_vol_nablaphiphivecfunc<velocity>(i, j, geometry, time)` -/
  vol_nablaphiphivec : K → Nat → Nat → K
  /-- `integrate_bdr_phiphinuvecfunc_cutwind<velocity>(i, j, face, geometry, time)` -/
  bdr_phiphinu : K → Nat → Nat → Nat → K
  /-- `integrate_bdr_phiphi_cutwind<velocity>(i, j, face, geometry, time)` -/
  bdr_phiphi : K → Nat → Nat → Nat → K
  /-- `integrate_bdr_phipsinuvecfunc_cutwind<velocity>(i, j, face, geometry, time)` -/
  bdr_phipsinu : K → Nat → Nat → Nat → K
  /-- `integrate_bdr_phipsi_cutdownwind<velocity>(i, j, face, geometry, time)` -/
  bdr_phipsi : K → Nat → Nat → Nat → K
  /-- `integrate_bdr_psiphinuvecfunc_cutwind<velocity>(i, j, face, geometry, time)` -/
  bdr_psiphinu : K → Nat → Nat → Nat → K
  /-- `integrate_bdr_psiphi_cutwind<velocity>(i, j, face, geometry, time)` -/
  bdr_psiphi : K → Nat → Nat → Nat → K
  /-- `integrate_bdr_psipsinuvecfunc_cutwind<velocity>(i, j, face, geometry, time)` -/
  bdr_psipsinu : K → Nat → Nat → Nat → K
  /-- `integrate_bdr_psipsi_cutdownwind<velocity>(i, j, face, geometry, time)` -/
  bdr_psipsi : K → Nat → Nat → Nat → K
  /-- `integrate_bdr_phifuncnuvecfunc_cutwind<dirichlet_value, velocity>(i, face, geometry, time)` -/
  bdr_dirichlet : K → Nat → Nat → K
  /-- `integrate_vol_phifunc<right_hand_side>(i, geometry, time)` -/
  vol_phifunc : K → Nat → K
  /-- `integrate_volUni_phifunc<initial>(i, geometry, time)` -/
  volUni_initial : K → Nat → K
  /-- `integrate_bdrUni_psifunc<initial>(j, face, geometry, time)` -/
  bdrUni_initial : K → Nat → Nat → K
  /-- `integrate_vol_diffsquare_discana<analytic_result>(coeffs, geometry, time)` -/
  vol_diffsquare : K → (Fin nS → K) → K

/-- `data_type`: `advection_parab_ldgh.hxx` 357-361. -/
structure Data (dim nS nB : Nat) (K : Type) where
  u_old : SmallVec nS K
  flux_old : SmallVec nS K
  boundary_flux_old : SmallMat nB (2 * dim) K

/-- The parameters of a solver: `advection_parab_ldgh.hxx` 208-219. -/
structure Solver (K : Type) where
  tau : K
  theta : K
  delta_t : K

variable {K : Type} {dim nS nB : Nat}

/-- Constructor: `advection_parab_ldgh.hxx` 417-420.  `constru[k]` of `std::vector` is not checked. -/
def Solver.make (constru : List K) : Res (Solver K) := do
  let tau ← vget constru 0
  let theta ← vget constru 1
  let delta_t ← vget constru 2
  return ⟨tau, theta, delta_t⟩

/-- The data of a new hyperedge: the default constructors of the matrices fill them with zeros. -/
def Data.init [Zero K] : Data dim nS nB K := ⟨SmallMat.fill _ _ 0, SmallMat.fill _ _ 0, SmallMat.fill _ _ 0⟩

variable [CommRing K] [LinearOrder K]

/-- `is_dirichlet(edge, face, time)`: `advection_parab_ldgh.hxx` 170-185. -/
def is_dirichlet (E : Edge dim nS K) (face : Nat) (time : K) : Bool :=
  let node_type := E.node_descriptor face
  if E.dirichlet_nodes.contains node_type then true
  else if ¬ E.boundary_nodes.contains node_type then false
  else decide (E.wind time face ≤ 0)

/-- `is_outflow(edge, face, time)`: `advection_parab_ldgh.hxx` 187-202. -/
def is_outflow (E : Edge dim nS K) (face : Nat) (time : K) : Bool :=
  let node_type := E.node_descriptor face
  if E.outflow_nodes.contains node_type then true
  else if ¬ E.boundary_nodes.contains node_type then false
  else decide (E.wind time face > 0)

omit [LinearOrder K] in
/-- Body of the loops of `assemble_loc_matrix` over `i` and `j`: `advection_parab_ldgh.hxx` 848-875. -/
def locMatrixStep (m : Mode) (S : Solver K) (E : Edge dim nS K) (time : K) (i j : Nat) (local_mat : SmallMat nS nS K) : Res (SmallMat nS nS K) := do
  let local_mat ← SmallMat.addAt m i j (E.vol_phiphi i j) local_mat
  let local_mat ← SmallMat.subAt m i j (S.theta * S.delta_t * E.vol_nablaphiphivec time i j) local_mat
  forUp (2 * dim) (fun face M =>
    SmallMat.addAt m i j (S.theta * S.delta_t * (E.bdr_phiphinu time i j face + S.tau * E.bdr_phiphi time i j face)) M) local_mat

omit [LinearOrder K] in
/-- `assemble_loc_matrix`: `advection_parab_ldgh.hxx` 840-879. -/
def assemble_loc_matrix (m : Mode) (S : Solver K) (E : Edge dim nS K) (time : K) : Res (SmallMat nS nS K) :=
  forUp nS (fun i M => forUp nS (fun j M => locMatrixStep m S E time i j M) M) (SmallMat.fill _ _ 0)

omit [LinearOrder K] in
/-- `assemble_rhs_from_lambda`: `advection_parab_ldgh.hxx` 896-926 (the checks of sizes hold by the types of the model). -/
def assemble_rhs_from_lambda (m : Mode) (S : Solver K) (E : Edge dim nS K) (lambda : LocDofs dim nB K) (time : K) : Res (SmallVec nS K) :=
  forUp nS (fun i v => forUp nB (fun j v => forUp (2 * dim) (fun face (v : SmallVec nS K) => do
    let l ← arrGet2 lambda face j
    SmallMat.subFrom m i (S.theta * S.delta_t * l * (E.bdr_phipsinu time i j face - S.tau * E.bdr_phipsi time i j face)) v) v) v) (SmallMat.fill _ _ 0)

/-- `assemble_rhs_from_global_rhs`: `advection_parab_ldgh.hxx` 943-974. -/
def assemble_rhs_from_global_rhs (m : Mode) (S : Solver K) (E : Edge dim nS K) (data : Data dim nS nB K) (time : K) : Res (SmallVec nS K) := do
  let v ← forUp nS (fun i (v : SmallVec nS K) => do
    let v ← SmallMat.set m i (S.theta * S.delta_t * E.vol_phifunc time i) v
    forUp (2 * dim) (fun face v =>
      if is_dirichlet E face time then SmallMat.subFrom m i (S.theta * S.delta_t * E.bdr_dirichlet time i face) v
      else .ok v) v) (SmallMat.fill _ _ 0)
  forUp nS (fun i (v : SmallVec nS K) => do
    let u ← SmallMat.get m data.u_old i
    let f ← SmallMat.get m data.flux_old i
    SmallMat.addTo m i (u * E.area + S.delta_t * (1 - S.theta) * f) v) v

/-- `solve_local_problem`: `advection_parab_ldgh.hxx` 305-328. -/
def solve_local_problem (m : Mode) (gesv : Gesv nS 1 K) (S : Solver K) (E : Edge dim nS K) (data : Data dim nS nB K) (lambda : LocDofs dim nB K)
    (solution_type : Nat) (time : K) : Res (SmallVec nS K) :=
  catchLapack m (do
    let rhs ← (if solution_type = 0 then assemble_rhs_from_lambda m S E lambda time
      else if solution_type = 1 then do
        let a ← assemble_rhs_from_lambda m S E lambda time
        let b ← assemble_rhs_from_global_rhs m S E data time
        SmallMat.add_mat a b
      else do
        hyAssert m (0 = 1)
        return SmallMat.fill _ _ 0)
    let A ← assemble_loc_matrix m S E time
    solve gesv rhs A)

/-- The first loop of `flux_at_boundary`: `advection_parab_ldgh.hxx` 1005-1025. -/
def fluxOfPrimal (S : Solver K) (E : Edge dim nS K) (nB : Nat) (coeffs : SmallVec nS K) (time : K) (b : LocDofs dim nB K) : Res (LocDofs dim nB K) :=
  forUp nB (fun i b => forUp nS (fun j b => forUp (2 * dim) (fun face (b : LocDofs dim nB K) =>
    if ¬ is_outflow E face time then do
      let x ← arrGet coeffs j
      arrAdd2 face i (x * (E.bdr_psiphinu time i j face + S.tau * E.bdr_psiphi time i j face)) b
    else do
      let x ← arrGet coeffs j
      arrAdd2 face i (S.tau * x * E.bdr_psiphi time i j face) b) b) b) b

/-- The second loop of `flux_at_boundary`: `advection_parab_ldgh.hxx` 1027-1047. -/
def fluxOfTrace (S : Solver K) (E : Edge dim nS K) (lambda : LocDofs dim nB K) (time : K) (b : LocDofs dim nB K) : Res (LocDofs dim nB K) :=
  forUp nB (fun i b => forUp nB (fun j b => forUp (2 * dim) (fun face (b : LocDofs dim nB K) =>
    if ¬ is_outflow E face time then do
      let l ← arrGet2 lambda face j
      arrAdd2 face i (l * (E.bdr_psipsinu time i j face - S.tau * E.bdr_psipsi time i j face)) b
    else do
      let l ← arrGet2 lambda face j
      arrSub2 face i (l * S.tau * E.bdr_psipsi time i j face) b) b) b) b

/-- `flux_at_boundary`: `advection_parab_ldgh.hxx` 992-1057. -/
def flux_at_boundary (m : Mode) (S : Solver K) (E : Edge dim nS K) (data : Data dim nS nB K) (lambda : LocDofs dim nB K) (coeffs : SmallVec nS K) (residual : Bool)
    (time : K) : Res (LocDofs dim nB K) := do
  let bdr_values ← fluxOfPrimal S E nB coeffs time (fun _ _ => 0)
  let bdr_values ← fluxOfTrace S E lambda time bdr_values
  forFin (2 * dim) (fun face b => forFin nB (fun i (b : LocDofs dim nB K) => do
    let b := arrSet b face (arrSet (b face) i (b face i * S.theta))
    if residual then do
      let old ← SmallMat.at' m data.boundary_flux_old i face
      return arrSet b face (arrSet (b face) i (b face i + (1 - S.theta) * old))
    else return b) b) bdr_values

/-- The last loop of `trace_to_flux` and `residual_flux`: `advection_parab_ldgh.hxx` 460-466 and 510-518. -/
def writeFlux (E : Edge dim nS K) (time : K) (primals lambda_out : LocDofs dim nB K) : Res (LocDofs dim nB K) :=
  forFin (2 * dim) (fun i out =>
    if is_dirichlet E i time then forFin nB (fun j (out : LocDofs dim nB K) => .ok (arrSet out i (arrSet (out i) j 0))) out
    else forFin nB (fun j (out : LocDofs dim nB K) => .ok (arrSet out i (arrSet (out i) j (primals i j)))) out) lambda_out

/-- `trace_to_flux`: `advection_parab_ldgh.hxx` 439-469 (the checks of sizes hold by the types of the model, here and below). -/
def trace_to_flux (m : Mode) (gesv : Gesv nS 1 K) (S : Solver K) (lambda_in lambda_out : LocDofs dim nB K) (E : Edge dim nS K) (data : Data dim nS nB K) (time : K) :
    Res (LocDofs dim nB K) := do
  let coeffs ← solve_local_problem m gesv S E data lambda_in 0 time
  let primals ← flux_at_boundary m S E data lambda_in coeffs false time
  writeFlux E time primals lambda_out

/-- `residual_flux`: `advection_parab_ldgh.hxx` 488-521. -/
def residual_flux (m : Mode) (gesv : Gesv nS 1 K) (S : Solver K) (lambda_in lambda_out : LocDofs dim nB K) (E : Edge dim nS K) (data : Data dim nS nB K) (time : K) :
    Res (LocDofs dim nB K) := do
  let coeffs ← solve_local_problem m gesv S E data lambda_in 1 time
  let primals ← flux_at_boundary m S E data lambda_in coeffs true time
  writeFlux E time primals lambda_out

/-- Body of the loop over `i` filling `flux_old`: `advection_parab_ldgh.hxx` 541-586 and 673-718. -/
def fluxEntry (m : Mode) (S : Solver K) (E : Edge dim nS K) (u_old : SmallVec nS K) (lambda : LocDofs dim nB K) (time : K) (i : Nat) (v : SmallVec nS K) :
    Res (SmallVec nS K) := do
  let v ← SmallMat.set m i (E.vol_phifunc time i) v
  let v ← forUp nS (fun j (v : SmallVec nS K) => do
    let u ← SmallMat.get m u_old j
    let v ← SmallMat.addTo m i (E.vol_nablaphiphivec time i j * u) v
    forUp (2 * dim) (fun face (v : SmallVec nS K) =>
      SmallMat.subFrom m i (u * (E.bdr_phiphinu time i j face + S.tau * E.bdr_phiphi time i j face)) v) v) v
  forUp (2 * dim) (fun face (v : SmallVec nS K) =>
    if ¬ is_dirichlet E face time then forUp nB (fun j (v : SmallVec nS K) => do
      let l ← arrGet2 lambda face j
      SmallMat.subFrom m i (l * (E.bdr_phipsinu time i j face - S.tau * E.bdr_phipsi time i j face)) v) v
    else SmallMat.subFrom m i (E.bdr_dirichlet time i face) v) v

/-- Body of the loops over `i` and `face` filling `boundary_flux_old`: `advection_parab_ldgh.hxx` 588-634 and 720-766. -/
def boundaryEntry (m : Mode) (S : Solver K) (E : Edge dim nS K) (u_old : SmallVec nS K) (lambda : LocDofs dim nB K) (time : K) (i face : Nat)
    (M : SmallMat nB (2 * dim) K) : Res (SmallMat nB (2 * dim) K) := do
  let M ← (if ¬ is_outflow E face time then forUp nS (fun j (M : SmallMat nB (2 * dim) K) => do
      let u ← SmallMat.get m u_old j
      SmallMat.addAt m i face (u * (E.bdr_psiphinu time i j face + S.tau * E.bdr_psiphi time i j face)) M) M
    else forUp nS (fun j (M : SmallMat nB (2 * dim) K) => do
      let u ← SmallMat.get m u_old j
      SmallMat.addAt m i face (S.tau * u * E.bdr_psiphi time i j face) M) M)
  if ¬ is_outflow E face time then forUp nB (fun j (M : SmallMat nB (2 * dim) K) => do
      let l ← arrGet2 lambda face j
      SmallMat.addAt m i face (l * (E.bdr_psipsinu time i j face - S.tau * E.bdr_psipsi time i j face)) M) M
    else forUp nB (fun j (M : SmallMat nB (2 * dim) K) => do
      let l ← arrGet2 lambda face j
      SmallMat.subAt m i face (l * S.tau * E.bdr_psipsi time i j face) M) M

/-- "Fill flux vector!": `advection_parab_ldgh.hxx` 539-634 and 671-766 (`boundary_flux_old` is set to zero first).  Returns the new data. -/
def fillData (m : Mode) (S : Solver K) (E : Edge dim nS K) (u_old : SmallVec nS K) (lambda : LocDofs dim nB K) (time : K) (flux_old : SmallVec nS K) :
    Res (Data dim nS nB K) := do
  let flux_old ← forUp nS (fluxEntry m S E u_old lambda time) flux_old
  let boundary_flux_old ← forUp nB (fun i M => forUp (2 * dim) (fun face M => boundaryEntry m S E u_old lambda time i face M) M) (SmallMat.fill _ _ 0)
  return ⟨u_old, flux_old, boundary_flux_old⟩

/-- `set_data`: `advection_parab_ldgh.hxx` 530-636.  Returns the new data. -/
def set_data (m : Mode) (gesv : Gesv nS 1 K) (S : Solver K) (lambda : LocDofs dim nB K) (E : Edge dim nS K) (data : Data dim nS nB K) (time : K) :
    Res (Data dim nS nB K) := do
  let u_old ← solve_local_problem m gesv S E data lambda 1 time
  fillData m S E u_old lambda time data.flux_old

/-- The initial trace: `advection_parab_ldgh.hxx` 652-664. -/
def initialTrace (lambda_values : LocDofs dim nB K) (E : Edge dim nS K) (time : K) : Res (LocDofs dim nB K) :=
  forFin (2 * dim) (fun i out =>
    if is_dirichlet E i time then forFin nB (fun j (out : LocDofs dim nB K) => .ok (arrSet out i (arrSet (out i) j 0))) out
    else forFin nB (fun j (out : LocDofs dim nB K) => .ok (arrSet out i (arrSet (out i) j (E.bdrUni_initial time j i)))) out) lambda_values

/-- `make_initial`: `advection_parab_ldgh.hxx` 645-768.  Returns the trace and the new data. -/
def make_initial (m : Mode) (S : Solver K) (lambda_values : LocDofs dim nB K) (E : Edge dim nS K) (data : Data dim nS nB K) (time : K) :
    Res (LocDofs dim nB K × Data dim nS nB K) := do
  let lambda ← initialTrace lambda_values E time
  let u_old ← forUp nS (fun i (u : SmallVec nS K) => SmallMat.set m i (E.volUni_initial time i) u) data.u_old
  let data ← fillData m S E u_old lambda time data.flux_old
  return (lambda, data)

omit [LinearOrder K] in
/-- `errors`: `advection_parab_ldgh.hxx` 778-790. -/
def errors (E : Edge dim nS K) (data : Data dim nS nB K) (time : K) : Fin 1 → K :=
  fun _ => E.vol_diffsquare time (fun i => data.u_old (i.cast (Nat.mul_one nS).symm))

omit [LinearOrder K] [CommRing K] in
/-- `bulk_values`: `advection_parab_ldgh.hxx` 1075-1097 with `system_dim = 1`.  `lin_comb` stands for `shape_fun_t::lin_comb_fct_val(coeffs, point)` of
`tensor_product_polynomials` (asked for as `float` in the code; exact here). -/
def bulk_values (m : Mode) (lin_comb : (Fin nS → K) → List K → K) (abscissas : List K) (data : Data dim nS nB K)
    (vals0 : Fin 1 → Fin (Hypercube.pow dim abscissas.length) → K) : Res (Fin 1 → Fin (Hypercube.pow dim abscissas.length) → K) :=
  forFin 1 (fun d (v : Fin 1 → Fin (Hypercube.pow dim abscissas.length) → K) =>
    forFin (Hypercube.pow dim abscissas.length) (fun pt (v : Fin 1 → Fin (Hypercube.pow dim abscissas.length) → K) => do
      let p ← Hypercube.tensorial_pt m dim pt abscissas
      return arrSet v d (arrSet (v d) pt (lin_comb (fun i => data.u_old (i.cast (Nat.mul_one nS).symm)) p))) v) vals0

end AdvectionParab
end HyperHDG

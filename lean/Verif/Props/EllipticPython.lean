import Verif.Proofs.EllipticPython
import Verif.Props.GlobalClasses
/-!
# Property C95: the Python programs for elliptic problems

`program W setup solvers` (`Verif/Model/EllipticPython.lean`) are the calls the Python programs make.  `Accurate tol` and `Local` (`Verif/Spec/EllipticPython.lean`) describe the linear solvers called with
tolerance `tol`.
-/

namespace HyperHDG.EllipticPython

open ParabolicProgram (LinearSolver negated solve exists_ofFn negated_ofFn getElem?_fin Complete Total)
open HyGraph Spec Finset

variable {K : Type} {dim n N : Nat}

/-- What the theorems need to know of a local solver: on each hyperedge `e` its `trace_to_flux` returns and is a linear map `L e`, its `residual_flux` returns `R0 e` for the zero trace, and both return zero on the
faces whose hypernode is of Dirichlet type. -/
structure IsLinear [CommRing K] (G : HyGraph dim n) (nodes : Fin G.n_hyEdges → Fin (2 * dim) → Fin G.n_hyNodes) (D : Fin G.n_hyNodes → Prop) (ttf res : LocalFun dim n K)
    (L : Fin G.n_hyEdges → LocDofs dim n K →ₗ[K] LocDofs dim n K) (R0 : Fin G.n_hyEdges → LocDofs dim n K) : Prop where
  flux : ∀ (e : Fin G.n_hyEdges) (u : LocDofs dim n K), ttf e u (fun _ _ => 0) = .ok (L e u)
  residual : ∀ e : Fin G.n_hyEdges, res e (fun _ _ => 0) (fun _ _ => 0) = .ok (R0 e)
  flux_zero : ∀ e u f, D (nodes e f) → L e u f = 0
  residual_zero : ∀ e f, D (nodes e f) → R0 e f = 0

section
variable [Field K] [LinearOrder K] [IsStrictOrderedRing K] (m : Mode) (G : HyGraph dim n) (nodes : Fin G.n_hyEdges → Fin (2 * dim) → Fin G.n_hyNodes) (hwf : G.WF nodes)
  (D : Fin G.n_hyNodes → Prop) {ttf res : LocalFun dim n K} {L : Fin G.n_hyEdges → LocDofs dim n K →ₗ[K] LocDofs dim n K} {R0 : Fin G.n_hyEdges → LocDofs dim n K}
  (hL : IsLinear G nodes D ttf res L R0) (err : Nat → LocDofs dim n K → Res (Fin N → K)) (sqrt : K → K) (old0 new0 : LocDofs dim n K)

include hwf hL

omit [LinearOrder K] [IsStrictOrderedRing K] in
theorem flux_eq (x : Fin (G.n_hyNodes * n) → K) : (wrapper m G ttf res err sqrt old0 new0).trace_to_flux (List.ofFn x) = .ok (List.ofFn (assemble nodes fun e => L e (faceValues nodes x e))) := by
  show (Elliptic.mk' G).apply m ttf old0 new0 _ = _
  rw [C23_fresh]
  exact mat_vec_eq m G nodes hwf ttf x _ (fun e => hL.flux e _) old0 new0

omit [LinearOrder K] [IsStrictOrderedRing K] hL in
theorem zero_eq : (wrapper m G ttf res err sqrt old0 new0).zero_vector = List.ofFn (0 : Fin (G.n_hyNodes * n) → K) := by
  show List.replicate G.n_global_dofs 0 = _
  rw [n_global_dofs_eq G hwf.fits, ← List.ofFn_const]
  rfl

omit [LinearOrder K] [IsStrictOrderedRing K] in
theorem rhs_eq : (wrapper m G ttf res err sqrt old0 new0).residual_flux (wrapper m G ttf res err sqrt old0 new0).zero_vector = .ok (List.ofFn (assemble nodes R0)) := by
  rw [zero_eq m G nodes hwf err sqrt old0 new0]
  show (Elliptic.mk' G).apply m res old0 new0 _ = _
  rw [C23_fresh]
  exact mat_vec_eq m G nodes hwf res 0 R0 (fun e => hL.residual e) old0 new0

omit [LinearOrder K] [IsStrictOrderedRing K] in
/-- **C95** (setting up the system).  If the number of triplets fits into `unsigned int`, the assembled matrix is accepted by SciPy, and multiplies all vectors of the right length as the operator does; the
`LinearOperator` does so by definition. -/
theorem C95_system (setup : Setup) (hsize : setup = .matrix → G.n_hyEdges * (2 * dim * n) ^ 2 < U32) :
    ∃ A, setup.system (wrapper m G ttf res err sqrt old0 new0) = .ok A ∧
      ∀ x : List K, x.length = (wrapper m G ttf res err sqrt old0 new0).size_of_system → A x = (wrapper m G ttf res err sqrt old0 new0).trace_to_flux x := by
  cases setup with
  | operator => exact ⟨_, rfl, fun _ _ => rfl⟩
  | matrix =>
    obtain ⟨mat, h1, h2, h3, h4, h5, h6, h7⟩ := C17_matrix_agrees m G nodes hwf ttf L hL.flux (hsize rfl) old0 new0
    have hM : (wrapper m G ttf res err sqrt old0 new0).sparse_stiff_mat = .ok (mat.col_vec, mat.row_vec, mat.value_vec) := by
      show (do
        let mat ← G.mat_generate m ttf old0 new0
        return (mat.col_vec, mat.row_vec, mat.value_vec)) = _
      rw [h1]
      rfl
    refine ⟨fun x => if x.length = G.n_global_dofs then .ok ((mat.row_vec.zip (mat.col_vec.zip mat.value_vec)).foldl (addTriplet x) (List.replicate G.n_global_dofs 0)) else .throw .invalidArgument, ?_, ?_⟩
    · show (do
        let (col_ind, row_ind, vals) ← (wrapper m G ttf res err sqrt old0 new0).sparse_stiff_mat
        csr_matrix (wrapper m G ttf res err sqrt old0 new0).size_of_system vals row_ind col_ind) = _
      rw [hM, Res.ok_bind]
      show csr_matrix G.n_global_dofs _ _ _ = _
      unfold csr_matrix
      rw [if_pos ⟨by rw [h2, h4], by rw [h3, h4], h5, h6⟩]
    · intro x hx
      replace hx : x.length = G.n_global_dofs := hx
      show (if x.length = G.n_global_dofs then _ else _) = _
      rw [if_pos hx, csr_product h5 hx]
      have h8 := h7 fun j => x.getD j 0
      rw [map_getD_range hx] at h8
      show _ = (Elliptic.mk' G).apply m ttf old0 new0 x
      rw [C23_fresh, h8]

omit [LinearOrder K] [IsStrictOrderedRing K] in
/-- **C95** (matrix or operator).  With linear solvers which use the matrix only to multiply vectors of the right length, the programs with the assembled matrix do exactly what those with the `LinearOperator` do. -/
theorem C95_matrix (hsize : G.n_hyEdges * (2 * dim * n) ^ 2 < U32) {solvers : List (LinearSolver K)} (hl : ∀ s ∈ solvers, Local s) :
    program (wrapper m G ttf res err sqrt old0 new0) .matrix solvers = program (wrapper m G ttf res err sqrt old0 new0) .operator solvers := by
  obtain ⟨A, h1, h2⟩ := C95_system m G nodes hwf D hL err sqrt old0 new0 .matrix fun _ => hsize
  unfold program
  rw [rhs_eq m G nodes hwf D hL err sqrt old0 new0, Res.ok_bind, Res.ok_bind]
  dsimp only
  rw [h1, show Setup.operator.system (wrapper m G ttf res err sqrt old0 new0) = .ok (wrapper m G ttf res err sqrt old0 new0).trace_to_flux from rfl, Res.ok_bind, Res.ok_bind,
    solve_congr hl fun x hx => h2 x ?_]
  rw [hx, negated_ofFn, List.length_ofFn]
  exact (n_global_dofs_eq G hwf.fits).symm

omit [IsStrictOrderedRing K] in
/-- **C95** (the result).  If the program ends without exception, the vector it returns vanishes at the Dirichlet nodes and solves the discrete problem up to the tolerance of the solvers:
with `y` what `trace_to_flux` returns for it and `r` what `residual_flux` returns for the zero vector, the norm of `y + r` is at most `tol` times the norm of `r`.  The error it reports is the first number which `errors`
returns for this vector.  If on each hyperedge `residual_flux` is the sum of `trace_to_flux` and its value for the zero trace, `y + r` is what `residual_flux` returns for this vector. -/
theorem C95_result (setup : Setup) (hsize : setup = .matrix → G.n_hyEdges * (2 * dim * n) ^ 2 < U32) {solvers : List (LinearSolver K)} {tol : K} (hs : ∀ s ∈ solvers, Accurate tol s) {x : List K} {error : K}
    (h : program (wrapper m G ttf res err sqrt old0 new0) setup solvers = .ok (x, error)) : ∃ X y r : Fin (G.n_hyNodes * n) → K, x = List.ofFn X ∧ VanishesAt D X ∧
      (Elliptic.mk' G).apply m ttf old0 new0 (List.ofFn X) = .ok (List.ofFn y) ∧ (Elliptic.mk' G).apply m res old0 new0 (zero_vector G) = .ok (List.ofFn r) ∧
      ∑ k, (y k + r k) ^ 2 ≤ tol ^ 2 * ∑ k, r k ^ 2 ∧ (∃ rest, (wrapper m G ttf res err sqrt old0 new0).errors x = .ok (error :: rest)) ∧
      ((∀ (e : Fin G.n_hyEdges) u, res e u (fun _ _ => 0) = .ok (L e u + R0 e)) → (Elliptic.mk' G).apply m res old0 new0 (List.ofFn X) = .ok (List.ofFn (y + r))) := by
  obtain ⟨A, hA1, hA2⟩ := C95_system m G nodes hwf D hL err sqrt old0 new0 setup hsize
  have hN : (wrapper m G ttf res err sqrt old0 new0).size_of_system = G.n_hyNodes * n := n_global_dofs_eq G hwf.fits
  rw [hN] at hA2
  unfold program at h
  rw [rhs_eq m G nodes hwf D hL err sqrt old0 new0, Res.ok_bind] at h
  dsimp only at h
  rw [hA1, Res.ok_bind, negated_ofFn] at h
  obtain ⟨x', h1, h⟩ := Res.bind_eq_ok.mp h
  obtain ⟨errs, h2, h⟩ := Res.bind_eq_ok.mp h
  cases errs with
  | nil => cases h
  | cons e rest =>
    obtain ⟨rfl, rfl⟩ := Prod.mk.inj (Res.ok.inj h)
    obtain ⟨s, hs1, hs2⟩ := solve_mem h1
    obtain ⟨k1, ⟨y, k2, k3, k4⟩, k5⟩ := hs s hs1 A _ x' hs2
    rw [List.length_ofFn] at k1
    obtain ⟨X, rfl⟩ := exists_ofFn k1
    rw [hA2 _ (by simp), flux_eq m G nodes hwf D hL] at k2
    cases k2
    rw [zipWith_ofFn, normSq_ofFn, normSq_ofFn] at k4
    refine ⟨X, _, _, rfl, fun v hv j => ?_, flux_eq m G nodes hwf D hL err sqrt old0 new0 X, rhs_eq m G nodes hwf D hL err sqrt old0 new0, ?_, ⟨rest, h2⟩, fun haff => ?_⟩
    · have := k5 (dof v j).1 (by rw [getElem?_fin, Pi.neg_apply, assemble_vanishes nodes D _ (fun e f h => hL.residual_zero e f h) v hv j, neg_zero]) fun y' z hy' hz' => by
        rw [List.length_ofFn] at hy'
        obtain ⟨y', rfl⟩ := exists_ofFn hy'
        rw [hA2 _ (by simp), flux_eq m G nodes hwf D hL] at hz'
        rw [← Res.ok.inj hz', getElem?_fin, assemble_vanishes nodes D _ (fun e f h => hL.flux_zero e _ f h) v hv j]
      rw [getElem?_fin] at this
      exact Option.some.inj this
    · refine le_of_eq_of_le (Finset.sum_congr rfl fun k _ => ?_) (k4.trans_eq (congrArg _ (Finset.sum_congr rfl fun k _ => ?_)))
      · rw [Pi.neg_apply]; ring
      · rw [Pi.neg_apply, neg_sq]
    · rw [C23_fresh, mat_vec_eq m G nodes hwf res X _ (fun e => haff e _) old0 new0, assemble_sum_add]

omit [LinearOrder K] [IsStrictOrderedRing K] in
/-- **C95** (failure).  If none of the linear solvers claims success, the program ends with an exception. -/
theorem C95_failure (setup : Setup) (hsize : setup = .matrix → G.n_hyEdges * (2 * dim * n) ^ 2 < U32) {solvers : List (LinearSolver K)} (hs : ∀ s ∈ solvers, ∀ A b, ∃ x info, s A b = .ok (x, info) ∧ info ≠ 0) :
    program (wrapper m G ttf res err sqrt old0 new0) setup solvers = .throw .solve := by
  obtain ⟨A, hA1, hA2⟩ := C95_system m G nodes hwf D hL err sqrt old0 new0 setup hsize
  unfold program
  rw [rhs_eq m G nodes hwf D hL err sqrt old0 new0, Res.ok_bind]
  dsimp only
  rw [hA1, Res.ok_bind, solve_fails fun s h => hs s h _ _]
  rfl

section
variable (hone : ∃! y : Fin (G.n_hyNodes * n) → K, VanishesAt D y ∧ (Elliptic.mk' G).apply m ttf old0 new0 (List.ofFn y) = .ok (List.ofFn (-assemble nodes R0)))
include hone

omit [LinearOrder K] [IsStrictOrderedRing K] hL in
/-- Uniqueness does not depend on the right-hand side. -/
theorem surjective (hflux : ∀ (e : Fin G.n_hyEdges) (u : LocDofs dim n K), ttf e u (fun _ _ => 0) = .ok (L e u)) (hzero : ∀ e u f, D (nodes e f) → L e u f = 0)
    (b : Fin (G.n_hyNodes * n) → K) (hb : VanishesAt D b) : ∃ z : Fin (G.n_hyNodes * n) → K, G.mat_vec_multiply m ttf old0 new0 (List.ofFn z) = .ok (List.ofFn b) := by
  obtain ⟨A, hA⟩ := C18_linear m G nodes hwf old0 new0 ttf L hflux
  have hAx : ∀ x, A x = assemble nodes (fun e => L e (faceValues nodes x e)) := by
    intro x
    have h1 := mat_vec_eq m G nodes hwf ttf x _ (fun e => hflux e _) old0 new0
    rw [hA x] at h1
    exact List.ofFn_injective (Res.ok.inj h1)
  obtain ⟨y, ⟨hy1, hy2⟩, hy3⟩ := hone
  rw [C23_fresh, hA] at hy2
  have hy2' := List.ofFn_injective (Res.ok.inj hy2)
  let W : Submodule K (Fin (G.n_hyNodes * n) → K) :=
    { carrier := {x | VanishesAt D x}
      add_mem' := fun {x y} hx hy v hv j => by
        show x _ + y _ = 0
        rw [hx v hv j, hy v hv j, add_zero]
      zero_mem' := fun v hv j => rfl
      smul_mem' := fun a {x} hx v hv j => by
        show a * x _ = 0
        rw [hx v hv j, mul_zero] }
  have hAW : ∀ x, A x ∈ W := fun x => by
    rw [hAx]
    exact assemble_vanishes nodes D _ fun e f h => hzero e _ f h
  let B : W →ₗ[K] W := LinearMap.codRestrict W (A.comp W.subtype) fun x => hAW x
  have hinj : Function.Injective B := by
    rw [← LinearMap.ker_eq_bot, LinearMap.ker_eq_bot']
    intro x hx
    have h1 : A x.1 = 0 := congrArg Subtype.val hx
    have h2 := hy3 (y + x.1) ⟨W.add_mem hy1 x.2, by rw [C23_fresh, hA, map_add, hy2', h1, add_zero]⟩
    exact Subtype.ext (left_eq_add.mp h2.symm)
  obtain ⟨z, hz⟩ := LinearMap.surjective_of_injective hinj ⟨b, hb⟩
  exact ⟨z.1, by rw [hA, show A z.1 = b from congrArg Subtype.val hz]⟩

omit [IsStrictOrderedRing K] in
/-- **C95** (the program returns).  Let the discrete problem have exactly one solution, let one of the linear solvers find solutions of solvable systems and let none of them raise exceptions of its own; if `errors`
returns, so does the program. -/
theorem C95_returns (setup : Setup) (hsize : setup = .matrix → G.n_hyEdges * (2 * dim * n) ^ 2 < U32) {solvers : List (LinearSolver K)} {s : LinearSolver K} (hs : s ∈ solvers) (hc : Complete s)
    (ht : ∀ s ∈ solvers, Total s) (hl : ∀ s ∈ solvers, Local s) {tol : K} (hacc : ∀ s ∈ solvers, Accurate tol s)
    (hN : 0 < N) (herr : ∀ (e : Fin G.n_hyEdges) u, ∃ a, err e u = .ok a) :
    ∃ x error, program (wrapper m G ttf res err sqrt old0 new0) setup solvers = .ok (x, error) := by
  have key : ∃ x error, program (wrapper m G ttf res err sqrt old0 new0) .operator solvers = .ok (x, error) := by
    have hsurj := surjective m G nodes hwf D old0 new0 hone hL.flux hL.flux_zero
    obtain ⟨k1, k2⟩ := ParabolicProgram.solution_iff' m G nodes hwf old0 new0 ttf (fun e => L e) hL.flux D hL.flux_zero (assemble nodes R0)
      (assemble_vanishes nodes D _ fun e f h => hL.residual_zero e f h) hsurj
    obtain ⟨y, ⟨hy1, hy2⟩, _⟩ := hone
    rw [C23_fresh] at hy2
    have hop : (wrapper m G ttf res err sqrt old0 new0).trace_to_flux = G.mat_vec_multiply m ttf old0 new0 := funext fun x => C23_fresh m G ttf old0 new0 x
    obtain ⟨x, hx⟩ := ParabolicProgram.solve_ok hs hc (fun s' hs' => ht s' hs' _ _ k1) ((k2 _).mpr ⟨y, rfl, hy1, hy2⟩)
    obtain ⟨s', hs', hx'⟩ := solve_mem hx
    have hlen := (hacc s' hs' _ _ _ hx').1
    rw [negated_ofFn, List.length_ofFn] at hlen
    obtain ⟨X, rfl⟩ := exists_ofFn hlen
    choose a ha using herr
    have he := C40_fold m G nodes hwf (arrayErrorDef N sqrt) err old0 X (fun e => a e (faceValues nodes X e)) fun e => ha e _
    unfold program
    rw [rhs_eq m G nodes hwf D hL err sqrt old0 new0, Res.ok_bind]
    dsimp only
    rw [show Setup.operator.system (wrapper m G ttf res err sqrt old0 new0) = .ok (wrapper m G ttf res err sqrt old0 new0).trace_to_flux from rfl, Res.ok_bind, hop, hx, Res.ok_bind]
    have he' : (wrapper m G ttf res err sqrt old0 new0).errors (List.ofFn X) = .ok (List.ofFn ((arrayErrorDef N sqrt).postprocess_error
        ((List.ofFn fun e => a e (faceValues nodes X e)).foldl (arrayErrorDef N sqrt).sum_error (arrayErrorDef N sqrt).initial_error))) := by
      show (do
        let result ← G.errors m (arrayErrorDef N sqrt) err old0 (List.ofFn X)
        return List.ofFn result) = _
      rw [he]
      rfl
    rw [he', Res.ok_bind]
    obtain ⟨N', rfl⟩ := Nat.exists_eq_succ_of_ne_zero hN.ne'
    rw [List.ofFn_succ]
    exact ⟨_, _, rfl⟩
  cases setup with
  | operator => exact key
  | matrix => rw [C95_matrix m G nodes hwf D hL err sqrt old0 new0 (hsize rfl) hl]; exact key

/-- **C95** (exact solvers).  With linear solvers which are exact, the vector the program returns is the only solution of the discrete problem. -/
theorem C95_exact (setup : Setup) (hsize : setup = .matrix → G.n_hyEdges * (2 * dim * n) ^ 2 < U32) {solvers : List (LinearSolver K)} (hs : ∀ s ∈ solvers, Accurate 0 s) {x : List K} {error : K}
    (h : program (wrapper m G ttf res err sqrt old0 new0) setup solvers = .ok (x, error)) (y : Fin (G.n_hyNodes * n) → K) (hy : VanishesAt D y)
    (hy' : (Elliptic.mk' G).apply m ttf old0 new0 (List.ofFn y) = .ok (List.ofFn (-assemble nodes R0))) : x = List.ofFn y := by
  obtain ⟨X, z, r, rfl, h1, h2, h3, h4, _, _⟩ := C95_result m G nodes hwf D hL err sqrt old0 new0 setup hsize hs h
  have h5 := rhs_eq m G nodes hwf D hL err sqrt old0 new0
  rw [show (wrapper m G ttf res err sqrt old0 new0).residual_flux (wrapper m G ttf res err sqrt old0 new0).zero_vector = (Elliptic.mk' G).apply m res old0 new0 (zero_vector G) from rfl, h3] at h5
  have h6 := List.ofFn_injective (Res.ok.inj h5)
  rw [zero_pow (by decide), zero_mul] at h4
  have h7 := (Finset.sum_eq_zero_iff_of_nonneg fun k _ => sq_nonneg (z k + r k)).mp (le_antisymm h4 (Finset.sum_nonneg fun k _ => sq_nonneg _))
  have h8 : z = -assemble nodes R0 := funext fun k => by
    rw [Pi.neg_apply, ← h6]
    exact eq_neg_of_add_eq_zero_left (pow_eq_zero_iff (by decide) |>.mp (h7 k (Finset.mem_univ k)))
  rw [h8] at h2
  exact congrArg List.ofFn (hone.unique ⟨h1, h2⟩ ⟨hy, hy'⟩)

end

end

end HyperHDG.EllipticPython

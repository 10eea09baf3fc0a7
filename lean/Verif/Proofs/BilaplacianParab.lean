import Verif.Spec.BilaplacianParab
import Verif.Proofs.Bilaplacian

/-!
# Lemmas about the local solver for the time-dependent bilaplacian
-/

set_option linter.unusedSectionVars false

namespace HyperHDG.BilaplacianParab

open Spec Finset Matrix LDG DiffusionUniform Mixed Bilaplacian

variable {K : Type} {dim nS nB : Nat}

section Assembly
variable [CommRing K] (m : Mode) (S : Solver K) (E : Edge dim nS K)

theorem locMatrixStep_eq (time : K) (i j : Fin nS) (M : SmallMat (n_loc_dofs dim nS) (n_loc_dofs dim nS) K) :
    locMatrixStep m S E time i j M = .ok (M + blockMat i j (mixedAdd (S.tau * ∑ f : Fin (2 * dim), E.bdr_phiphi i j f)
      (S.theta * S.delta_t * S.tau * ∑ f : Fin (2 * dim), E.bdr_phiphi i j f) (-E.vol_phiphifunc time i j) (E.vol_phiphi i j) (E.vol_phiphi i j)
      (fun d => -E.vol_nablaphiphi i j d + ∑ f : Fin (2 * dim), E.local_normal f d * E.bdr_phiphi i j f)
      (fun d => S.theta * S.delta_t * (-E.vol_nablaphiphi i j d + ∑ f : Fin (2 * dim), E.local_normal f d * E.bdr_phiphi i j f))
      (fun d => -E.vol_nablaphiphi i j d))) := by
  unfold locMatrixStep n_dofs_lap
  have hface : forUp (2 * dim) (fun face (s : K × (Fin dim → K)) => do
      let helper := E.bdr_phiphi i j face
      let normal_int_vec ← forUp dim (fun d (n : Fin dim → K) => do
        let x ← arrGet n d
        let y ← arrGet (E.local_normal face) d
        arrPut n d (x + y * helper)) s.2
      return (s.1 + helper, normal_int_vec)) (0, fun _ => 0) =
      .ok (∑ f : Fin (2 * dim), E.bdr_phiphi i j f, fun d => ∑ f : Fin (2 * dim), E.local_normal f d * E.bdr_phiphi i j f) := by
    rw [forUp_add (2 * dim) _ (fun f => ((E.bdr_phiphi i j f, fun d => E.local_normal f d * E.bdr_phiphi i j f) : K × (Fin dim → K)))]
    · refine congrArg Res.ok (Prod.ext ?_ ?_)
      · simp [Prod.fst_sum]
      · funext d; simp [Prod.snd_sum, Finset.sum_apply]
    · intro f s
      dsimp only
      rw [forUp_add dim _ (fun d => Pi.single d (E.local_normal f d * E.bdr_phiphi i j f)), Finset.univ_sum_single, Res.ok_bind]
      · rfl
      · intro d n
        rw [arrGet_lt _ d.2, Res.ok_bind, arrGet_lt _ d.2, Res.ok_bind, arrPut_lt _ d.2]
        exact congrArg Res.ok (arrSet_add n d _)
  dsimp only
  rw [hface, Res.ok_bind, subAt_block m M _ _ i j (row_l i) (row_l' j), Res.ok_bind, addAt_block m _ _ _ i j (row_l i) (row_l j), Res.ok_bind,
    addAt_block m _ _ _ i j (row_l' i) (row_l' j), Res.ok_bind]
  rw [forUp_add dim _ (fun d => blockMat i j (.single (ix 0 d.castSucc) (ix 0 d.castSucc) (E.vol_phiphi i j) +
    .single (ix 1 d.castSucc) (ix 1 d.castSucc) (E.vol_phiphi i j) + .single (ix 0 (Fin.last dim)) (ix 0 d.castSucc) (-E.vol_nablaphiphi i j d) +
    .single (ix 0 d.castSucc) (ix 0 (Fin.last dim)) (-E.vol_nablaphiphi i j d) +
    .single (ix 1 (Fin.last dim)) (ix 1 d.castSucc) (-(S.theta * S.delta_t * E.vol_nablaphiphi i j d)) +
    .single (ix 1 d.castSucc) (ix 1 (Fin.last dim)) (-E.vol_nablaphiphi i j d) +
    .single (ix 0 (Fin.last dim)) (ix 0 d.castSucc) (∑ f : Fin (2 * dim), E.local_normal f d * E.bdr_phiphi i j f) +
    .single (ix 1 (Fin.last dim)) (ix 1 d.castSucc) (S.theta * S.delta_t * ∑ f : Fin (2 * dim), E.local_normal f d * E.bdr_phiphi i j f)))]
  · rw [Res.ok_bind, addAt_block m _ _ _ i j (row_l' i) (row_l j)]
    simp only [add_assoc M]
    rw [← blockMat_sum, ← blockMat_add, ← blockMat_add, ← blockMat_add, ← blockMat_add]
    refine congrArg Res.ok (congrArg _ (congrArg _ ?_))
    unfold mixedAdd
    rw [show S.tau * S.theta * S.delta_t * ∑ f : Fin (2 * dim), E.bdr_phiphi i j f = S.theta * S.delta_t * S.tau * ∑ f : Fin (2 * dim), E.bdr_phiphi i j f by ring]
    simp only [mul_add, mul_neg, Matrix.single_add, Finset.sum_add_distrib]
    abel
  · intro d M
    dsimp only
    rw [addAt_block m M _ _ i j (row_d d i) (row_d d j), Res.ok_bind, addAt_block m _ _ _ i j (row_d' d i) (row_d' d j), Res.ok_bind, arrGet_lt _ d.2, Res.ok_bind,
      subAt_block m _ _ _ i j (row_l i) (row_d d j), Res.ok_bind, subAt_block m _ _ _ i j (row_d d i) (row_l j), Res.ok_bind,
      subAt_block m _ _ _ i j (row_l' i) (row_d' d j), Res.ok_bind, subAt_block m _ _ _ i j (row_d' d i) (row_l' j), Res.ok_bind, arrGet_lt _ d.2, Res.ok_bind,
      addAt_block m _ _ _ i j (row_l i) (row_d d j), Res.ok_bind, addAt_block m _ _ _ i j (row_l' i) (row_d' d j)]
    simp only [blockMat_add, ← add_assoc]

theorem assemble_loc_matrix_spec (nB : Nat) (time : K) : ∃ A, assemble_loc_matrix m S E time = .ok A ∧
    IsMixedMat (form E.stat nB) (coupling E.stat time) (form E.stat nB).mass0 S.tau (S.theta * S.delta_t) (toMat A) := by
  obtain ⟨A, h1, h2⟩ := matrix_loop (fun i j M => locMatrixStep m S E time i j M) _ (fun i j M => locMatrixStep_eq m S E time i j M)
  exact ⟨A, h1, isMixedMat_of _ _ _ _ _ _ h2⟩

theorem rhs_lambda_spec (lambda : LocDofs dim (2 * nB) K) : ∃ v, assemble_rhs_from_lambda m S E nB lambda = .ok v ∧
    IsMixedRhs (form E.stat nB) S.tau (S.theta * S.delta_t) (moments (form E.stat nB) (upper lambda)) (moments (form E.stat nB) (lower lambda)) 0 0 (toMat v) := by
  obtain ⟨v, h1, h2⟩ := vec_loop (N := 2 * (dim + 1)) (nS := nS) (fun i v => forUp nB (fun j v => forUp (2 * dim) (fun face (v : SmallVec (n_loc_dofs dim nS) K) => do
    let integral := E.bdr_phipsi i j face
    let l ← arrGet2 lambda face j
    let l' ← arrGet2 lambda face (nB + j)
    let v ← SmallMat.addTo m (dim * nS + i) (S.tau * l * integral) v
    let v ← SmallMat.addTo m (n_dofs_lap dim nS + dim * nS + i) (S.tau * S.theta * S.delta_t * l' * integral) v
    forUp dim (fun d v => do
      let n ← arrGet (E.local_normal face) d
      let v ← SmallMat.subFrom m (d * nS + i) (n * l * integral) v
      SmallMat.subFrom m (n_dofs_lap dim nS + d * nS + i) (n * l' * integral) v) v) v) v)
    (fun i => ∑ j : Fin nB, ∑ f : Fin (2 * dim), mixedVec (S.tau * upper lambda f j * E.bdr_phipsi i j f)
      (S.tau * S.theta * S.delta_t * lower lambda f j * E.bdr_phipsi i j f)
      (fun d => -(E.local_normal f d * upper lambda f j * E.bdr_phipsi i j f)) (fun d => -(E.local_normal f d * lower lambda f j * E.bdr_phipsi i j f)))
    (fun i v => vec_add i _ _ (fun j v => vec_add i _ _ (fun f v => by
      unfold n_dofs_lap
      dsimp only
      rw [arrGet2_lt lambda f.2 (up_lt j), Res.ok_bind, arrGet2_lt lambda f.2 (lo_lt j), Res.ok_bind, addTo_block m v _ i (row_l i), Res.ok_bind,
        addTo_block m _ _ i (row_l' i), Res.ok_bind, forUp_add dim _ (fun d => blockVec i
          (Pi.single (ix 0 d.castSucc) (-(E.local_normal f d * upper lambda f j * E.bdr_phipsi i j f)) +
          Pi.single (ix 1 d.castSucc) (-(E.local_normal f d * lower lambda f j * E.bdr_phipsi i j f))))]
      · simp only [add_assoc v]
        rw [← blockVec_sum, ← blockVec_add, ← blockVec_add]
        rfl
      · intro d v
        rw [arrGet_lt _ d.2, Res.ok_bind, subFrom_block m v _ i (row_d d i), Res.ok_bind, subFrom_block m _ _ i (row_d' d i), blockVec_add, ← add_assoc]
        rfl) v) v)
  refine ⟨v, h1, isMixedRhs_of _ _ _ _ _ _ _ _ (fun b i => ?_)⟩
  rw [h2]
  simp only [mixedVec_sum]
  refine congrFun ?_ b
  simp only [moments, mulVec, dotProduct, form, Matrix.of_apply, Pi.zero_apply, zero_add, Finset.mul_sum]
  congr 1
  · rw [Finset.sum_comm]
    refine Finset.sum_congr rfl fun f _ => Finset.sum_congr rfl fun j _ => by ring
  · rw [Finset.sum_comm]
    refine Finset.sum_congr rfl fun f _ => Finset.sum_congr rfl fun j _ => by ring
  · funext d
    simp only [Finset.sum_apply]
    rw [Finset.sum_comm, ← Finset.sum_neg_distrib]
    refine Finset.sum_congr rfl fun f _ => ?_
    rw [← Finset.sum_neg_distrib]
    refine Finset.sum_congr rfl fun j _ => by ring
  · funext d
    simp only [Finset.sum_apply]
    rw [Finset.sum_comm, ← Finset.sum_neg_distrib]
    refine Finset.sum_congr rfl fun f _ => ?_
    rw [← Finset.sum_neg_distrib]
    refine Finset.sum_congr rfl fun j _ => by ring

theorem dirichletRhs_eq (factor integral : K) (b i face : Nat) (v : SmallVec (n_loc_dofs dim nS) K) :
    dirichletRhs m E factor integral b i face v = Bilaplacian.dirichletRhs m E.stat factor integral b i face v := rfl

theorem rhs_coeffs_spec (nB : Nat) (x : SmallVec (n_loc_dofs dim nS) K) : ∃ v, assemble_rhs_from_coeffs m x E = .ok v ∧
    IsMixedRhs (form E.stat nB) S.tau (S.theta * S.delta_t) 0 0 0 ((form E.stat nB).mass0 *ᵥ uOf (half 0 (toMat x))) (toMat v) := by
  obtain ⟨v, h1, h2⟩ := vec_loop (N := 2 * (dim + 1)) (nS := nS) (fun i v => forUp nS (fun j (v : SmallVec (n_loc_dofs dim nS) K) => do
    let x ← arrGet x (dim * nS + j)
    SmallMat.addTo m (n_loc_dofs dim nS / 2 + dim * nS + i) (x * E.vol_phiphi i j) v) v)
    (fun i => ∑ j : Fin nS, mixedVec 0 (uOf (half 0 (toMat x)) j * E.vol_phiphi i j) 0 0)
    (fun i v => vec_add i _ _ (fun j v => by
      rw [get_l x j, Res.ok_bind, addTo_block m v _ i (row_l' i)]
      simp [mixedVec]) v)
  refine ⟨v, h1, isMixedRhs_of _ _ _ _ _ _ _ _ (fun b i => ?_)⟩
  rw [h2, mixedVec_sum]
  refine congrFun ?_ b
  congr 1
  · simp
  · simp [mulVec, dotProduct, form, mul_comm]
  · funext d; simp
  · funext d; simp

theorem rhs_global_spec (nB : Nat) (data : Data dim nS K) (time : K) : ∃ v, assemble_rhs_from_global_rhs m S E data time = .ok v ∧
    IsMixedRhs (form E.stat nB) S.tau (S.theta * S.delta_t) (dirichletMoments E.stat time) (laplacianMoments E.stat time) 0
      (stepSource S E nB (uOf (half 0 (toMat data))) time) (toMat v) := by
  let s : Fin nS → K := (S.theta * S.delta_t) • source E.stat time + ((1 - S.theta) * S.delta_t) • source E.stat (time - S.delta_t)
  obtain ⟨v, h1, h2⟩ := vec_loop_zero (N := 2 * (dim + 1)) (nS := nS) (fun i (v : SmallVec (n_loc_dofs dim nS) K) => do
    let v ← SmallMat.set m (n_dofs_lap dim nS + dim * nS + i)
      (S.theta * S.delta_t * E.vol_phifunc time i + (1 - S.theta) * S.delta_t * E.vol_phifunc (time - S.delta_t) i) v
    forUp (2 * dim) (fun face v => do
      let v ← (if is_dirichlet E.stat face then dirichletRhs m E S.tau (E.bdr_phifunc time i face) 0 i face v else .ok v)
      if is_dirichlet_laplacian E.stat face then dirichletRhs m E (S.tau * S.theta * S.delta_t) (E.bdr_phifunc_laplace time i face) (n_dofs_lap dim nS) i face v
      else .ok v) v)
    (fun i => mixedVec 0 (s i) 0 0 + ∑ f : Fin (2 * dim), mixedVec (S.tau * dirichletMoments E.stat time f i)
      (S.tau * S.theta * S.delta_t * laplacianMoments E.stat time f i)
      (fun d => -(E.local_normal f d * dirichletMoments E.stat time f i)) (fun d => -(E.local_normal f d * laplacianMoments E.stat time f i)))
    (fun i v hv => by
      have hset := set_block m v (ix 1 (Fin.last dim)) i (row_l' i) (s i) (hv _)
      have hset' : SmallMat.set m (n_dofs_lap dim nS + dim * nS + i)
          (S.theta * S.delta_t * E.vol_phifunc time i + (1 - S.theta) * S.delta_t * E.vol_phifunc (time - S.delta_t) i) v =
          .ok (v + blockVec i (mixedVec 0 (s i) 0 0)) := by
        refine hset.trans (congrArg Res.ok (congrArg _ (congrArg _ ?_)))
        simp [mixedVec]
      rw [hset', Res.ok_bind, vec_add i _ (fun f : Fin (2 * dim) => mixedVec (S.tau * dirichletMoments E.stat time f i)
        (S.tau * S.theta * S.delta_t * laplacianMoments E.stat time f i)
        (fun d => -(E.local_normal f d * dirichletMoments E.stat time f i)) (fun d => -(E.local_normal f d * laplacianMoments E.stat time f i)))]
      · rw [add_assoc v, ← blockVec_add]
      · intro f v
        have e1 : (if is_dirichlet E.stat f then dirichletRhs m E S.tau (E.bdr_phifunc time i f) 0 i f v else .ok v) =
            .ok (v + blockVec i (mixedVec (S.tau * dirichletMoments E.stat time f i) 0 (fun d => -(E.local_normal f d * dirichletMoments E.stat time f i)) 0)) := by
          by_cases h : IsDirichlet E.stat f
          · rw [if_pos ((is_dirichlet_iff E.stat f).mpr h), dirichletRhs_eq, dirichletRhs_zero]
            simp [dirichletMoments, h]
          · rw [if_neg (by rw [is_dirichlet_iff]; exact h)]
            have e : dirichletMoments E.stat time f i = 0 := by simp [dirichletMoments, h]
            rw [e]
            simp only [mul_zero, neg_zero]
            rw [show (fun _ : Fin dim => (0 : K)) = 0 from rfl, mixedVec_zero, blockVec_zero, add_zero]
        have e2 : ∀ v, (if is_dirichlet_laplacian E.stat f then
              dirichletRhs m E (S.tau * S.theta * S.delta_t) (E.bdr_phifunc_laplace time i f) (n_dofs_lap dim nS) i f v else .ok v) =
            .ok (v + blockVec i (mixedVec 0 (S.tau * S.theta * S.delta_t * laplacianMoments E.stat time f i) 0
              (fun d => -(E.local_normal f d * laplacianMoments E.stat time f i)))) := by
          intro v
          by_cases h : IsDirichletLaplacian E.stat f
          · rw [if_pos ((is_dirichlet_laplacian_iff E.stat f).mpr h), dirichletRhs_eq, dirichletRhs_one]
            simp [laplacianMoments, h]
          · rw [if_neg (by rw [is_dirichlet_laplacian_iff]; exact h)]
            have e : laplacianMoments E.stat time f i = 0 := by simp [laplacianMoments, h]
            rw [e]
            simp only [mul_zero, neg_zero]
            rw [show (fun _ : Fin dim => (0 : K)) = 0 from rfl, mixedVec_zero, blockVec_zero, add_zero]
        rw [e1, Res.ok_bind, e2, add_assoc v, ← blockVec_add, ← mixedVec_add]
        simp)
  have h3 : IsMixedRhs (form E.stat nB) S.tau (S.theta * S.delta_t) (dirichletMoments E.stat time) (laplacianMoments E.stat time) 0 s (toMat v) := by
    refine isMixedRhs_of _ _ _ _ _ _ _ _ (fun b i => ?_)
    rw [h2]
    rw [mixedVec_sum, ← mixedVec_add]
    refine congrFun ?_ b
    simp only [form, Pi.zero_apply, zero_add, Finset.mul_sum]
    congr 1
    · congr 1
      exact Finset.sum_congr rfl fun f _ => by ring
    · funext d; simp [Finset.sum_apply]
    · funext d; simp [Finset.sum_apply]
  obtain ⟨w, k1, k2⟩ := rhs_coeffs_spec m S E nB data
  refine ⟨v + w, ?_, ?_⟩
  · show (forUp nS _ (SmallMat.fill _ _ 0) >>= _) = _
    rw [h1, Res.ok_bind, k1, Res.ok_bind, Diffusion.add_mat_spec]
  · have := isMixedRhs_add h3 k2
    simpa [stepSource, s] using this

end Assembly

section Solve
variable [Field K]

/-- The data of the local problem for the two types of solution. -/
noncomputable def dataOf (S : Solver K) (E : Edge dim nS K) (data : Data dim nS K) (time : K) (lambda : LocDofs dim (2 * nB) K) (solution_type : Nat) :
    (Fin (2 * dim) → Fin nS → K) × (Fin (2 * dim) → Fin nS → K) × (Fin nS → K) :=
  if solution_type = 0 then (moments (form E.stat nB) (upper lambda), moments (form E.stat nB) (lower lambda), 0)
  else (moments (form E.stat nB) (upper lambda) + dirichletMoments E.stat time, moments (form E.stat nB) (lower lambda) + laplacianMoments E.stat time,
    stepSource S E nB (uOf (half 0 (toMat data))) time)

theorem solve_local_problem_spec (m : Mode) (gesv : Gesv (n_loc_dofs dim nS) 1 K) (hg : GesvSpec gesv) (S : Solver K) (E : Edge dim nS K) (data : Data dim nS K) (time : K)
    (lambda : LocDofs dim (2 * nB) K) (t : Nat) (ht : t = 0 ∨ t = 1) :
    (StepSolvable S E nB time → ∃ x, solve_local_problem m gesv S E data lambda t time = .ok x ∧
      StepSolution (nB := nB) S E time (dataOf S E data time lambda t).1 (dataOf S E data time lambda t).2.1 (dataOf S E data time lambda t).2.2
        (qOf (half 0 (toMat x))) (uOf (half 0 (toMat x))) (qOf (half 1 (toMat x))) (uOf (half 1 (toMat x)))) ∧
    (¬ StepSolvable S E nB time → solve_local_problem m gesv S E data lambda t time = solveFailure m) := by
  obtain ⟨A, hA1, hA2⟩ := assemble_loc_matrix_spec m S E nB time
  obtain ⟨v, hv1, hv2⟩ := rhs_lambda_spec m S E lambda
  obtain ⟨w, hw1, hw2⟩ := rhs_global_spec m S E nB data time
  have key : ∃ rhs, IsMixedRhs (form E.stat nB) S.tau (S.theta * S.delta_t) (dataOf S E data time lambda t).1 (dataOf S E data time lambda t).2.1 0
        (dataOf S E data time lambda t).2.2 (toMat rhs) ∧
      solve_local_problem m gesv S E data lambda t time = catchLapack m (solve gesv rhs A) := by
    rcases ht with rfl | rfl
    · refine ⟨v, by simpa [dataOf] using hv2, ?_⟩
      simp [solve_local_problem, hv1, hA1]
    · refine ⟨v + w, by simpa [dataOf] using isMixedRhs_add hv2 hw2, ?_⟩
      simp [solve_local_problem, hv1, hA1, hw1, Diffusion.add_mat_spec]
  obtain ⟨rhs, hr1, hr2⟩ := key
  obtain ⟨h1, h2⟩ := mixed_solve_spec (form E.stat nB) (coupling E.stat time) (form E.stat nB).mass0 S.tau (S.theta * S.delta_t) gesv hg A hA2 rhs
  refine ⟨fun hs => ?_, fun hs => ?_⟩
  · obtain ⟨x, hx1, hx2⟩ := h1 hs
    exact ⟨x, by rw [hr2, hx1]; rfl, hx2 _ _ _ _ hr1⟩
  · rw [hr2, h2 hs, Diffusion.catch_throw]

end Solve

/-! ## The mixed problem of a step -/

section
variable [CommRing K]

theorem mixed_lin {F : Form dim nS nB K} {B C : Matrix (Fin nS) (Fin nS) K} {tau sigma : K} {g h g' h' : Fin (2 * dim) → Fin nS → K} {s t s' t' : Fin nS → K}
    {q p q' p' : Fin dim → Fin nS → K} {u w u' w' : Fin nS → K} (a b : K) (h1 : IsMixedSolution F B C tau sigma g h s t q u p w)
    (h2 : IsMixedSolution F B C tau sigma g' h' s' t' q' u' p' w') :
    IsMixedSolution F B C tau sigma (a • g + b • g') (a • h + b • h') (a • s + b • s') (a • t + b • t') (a • q + b • q') (a • u + b • u') (a • p + b • p')
      (a • w + b • w') := by
  refine ⟨?_, ?_⟩
  · have := solution_lin a b h1.first h2.first
    rwa [show a • (s + B *ᵥ w) + b • (s' + B *ᵥ w') = a • s + b • s' + B *ᵥ (a • w + b • w') by
      rw [mulVec_add, mulVec_smul, mulVec_smul]; module] at this
  · have := solution_lin a b h1.second h2.second
    rwa [show a • (t - C *ᵥ u) + b • (t' - C *ᵥ u') = a • t + b • t' - C *ᵥ (a • u + b • u') by
      rw [mulVec_add, mulVec_smul, mulVec_smul]; module] at this

theorem mixed_unique {F : Form dim nS nB K} {B C : Matrix (Fin nS) (Fin nS) K} {tau sigma : K} (hs : MixedSolvable F B C tau sigma)
    {g h : Fin (2 * dim) → Fin nS → K} {s t : Fin nS → K}
    {q p q' p' : Fin dim → Fin nS → K} {u w u' w' : Fin nS → K} (h1 : IsMixedSolution F B C tau sigma g h s t q u p w)
    (h2 : IsMixedSolution F B C tau sigma g h s t q' u' p' w') : q = q' ∧ u = u' ∧ p = p' ∧ w = w' := by
  have h3 := mixed_lin 1 (-1) h1 h2
  simp only [one_smul, neg_smul, add_neg_cancel] at h3
  obtain ⟨e1, e2, e3, e4⟩ := hs _ _ _ _ h3
  exact ⟨add_neg_eq_zero.mp e1, add_neg_eq_zero.mp e2, add_neg_eq_zero.mp e3, add_neg_eq_zero.mp e4⟩

theorem storesU_iff (c : Data dim nS K) (u : Fin nS → K) : StoresU c u ↔ uOf (half 0 (toMat c)) = u := by
  refine ⟨fun h => funext fun i => ?_, fun h i => by rw [get_l, h]⟩
  have := h i
  rw [get_l] at this
  exact Res.ok.inj this

theorem lap_eq : n_dofs_lap dim nS = (dim + 1) * nS := by
  unfold n_dofs_lap n_loc_dofs
  rw [Nat.mul_assoc, Nat.mul_div_cancel_left _ (by decide)]

theorem stores_of (c : Data dim nS K) (lambda : LocDofs dim (2 * nB) K) :
    Stores c ⟨qOf (half 0 (toMat c)), uOf (half 0 (toMat c)), qOf (half 1 (toMat c)), uOf (half 1 (toMat c)), lambda⟩ :=
  ⟨fun d i => get_d c d i, fun i => get_l c i, fun d i => by rw [← lap_eq]; exact get_d' c d i, fun i => by rw [← lap_eq]; exact get_l' c i⟩

theorem Stores.toU {c : Data dim nS K} {x : State dim nS nB K} (h : Stores c x) : StoresU c x.u := h.u

/-- The local problem with data says that the state is a step. -/
theorem step_iff (S : Solver K) (E : Edge dim nS K) (time : K) (u_old : Fin nS → K) (x : State dim nS nB K) :
    StepSolution (nB := nB) S E time (x.traceU E time) (x.traceW E time) (stepSource S E nB u_old time) x.q x.u x.p x.w ↔ Step S E time u_old x := by
  have e1 : ∀ (g : Fin (2 * dim) → Fin nS → K) (p : Fin dim → Fin nS → K) (w : Fin nS → K),
      -(∑ d, (form E.stat nB).grad d *ᵥ p d) + ∑ f, ((form E.stat nB).bdr f *ᵥ (∑ d, (form E.stat nB).normal f d • p d + S.tau • w) - S.tau • g f) =
        laplace (form E.stat nB) S.tau g p w := fun _ _ _ => rfl
  constructor
  · intro h
    have h1 := h.first.primal
    have h2 := h.second.primal
    rw [e1] at h1 h2
    rw [zero_smul, zero_add] at h1 h2
    rw [one_smul, zero_add] at h1
    refine ⟨⟨h.first.flux, h.second.flux, h1⟩, ?_⟩
    rw [mulVec_sub]
    unfold rate
    unfold stepSource at h2
    have : (form E.stat nB).mass0 *ᵥ x.u = (S.theta * S.delta_t) • source E.stat time + ((1 - S.theta) * S.delta_t) • source E.stat (time - S.delta_t) +
        (form E.stat nB).mass0 *ᵥ u_old - (S.theta * S.delta_t) • laplace (form E.stat nB) S.tau (x.traceW E time) x.p x.w := by
      rw [h2]; abel
    rw [this]
    module
  · intro h
    refine ⟨⟨h.constraints.gradient_u, ?_⟩, ⟨h.constraints.gradient_w, ?_⟩⟩
    · rw [e1, h.constraints.laplace_u]
      simp
    · rw [e1]
      have h2 := h.primal
      rw [mulVec_sub] at h2
      unfold rate at h2
      have : (form E.stat nB).mass0 *ᵥ x.u = (form E.stat nB).mass0 *ᵥ u_old + S.delta_t • (S.theta • (source E.stat time -
          laplace (form E.stat nB) S.tau (x.traceW E time) x.p x.w) + (1 - S.theta) • source E.stat (time - S.delta_t)) := by
        rw [← h2]; abel
      rw [this, stepSource]
      module

end

end HyperHDG.BilaplacianParab

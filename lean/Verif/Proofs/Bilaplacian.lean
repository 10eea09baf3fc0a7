import Verif.Spec.Bilaplacian
import Verif.Proofs.Mixed
import Verif.Proofs.Diffusion
import Verif.Proofs.BulkValues

/-!
# Lemmas about the local solver for the bilaplacian
-/

set_option linter.unusedSectionVars false

namespace HyperHDG.Bilaplacian

open Spec Finset Matrix LDG DiffusionUniform Mixed

variable {K : Type} {dim nS nB : Nat}

theorem is_dirichlet_iff (E : Edge dim nS K) (f : Nat) : is_dirichlet E f = true ↔ IsDirichlet E f := by
  simp [is_dirichlet, IsDirichlet]

theorem is_dirichlet_laplacian_iff (E : Edge dim nS K) (f : Nat) : is_dirichlet_laplacian E f = true ↔ IsDirichletLaplacian E f := by
  simp [is_dirichlet_laplacian, IsDirichletLaplacian]

section Assembly
variable [CommRing K]

theorem locMatrixStep_eq (m : Mode) (E : Edge dim nS K) (tau time : K) (i j : Fin nS) (M : SmallMat (n_loc_dofs dim nS) (n_loc_dofs dim nS) K) :
    locMatrixStep m E tau time i j M = .ok (M + blockMat i j (mixedAdd (tau * ∑ f : Fin (2 * dim), E.bdr_phiphi i j f)
      (1 * tau * ∑ f : Fin (2 * dim), E.bdr_phiphi i j f) (-E.vol_phiphifunc time i j) 0 (E.vol_phiphi i j)
      (fun d => -E.vol_nablaphiphi i j d + ∑ f : Fin (2 * dim), E.local_normal f d * E.bdr_phiphi i j f)
      (fun d => 1 * (-E.vol_nablaphiphi i j d + ∑ f : Fin (2 * dim), E.local_normal f d * E.bdr_phiphi i j f))
      (fun d => -E.vol_nablaphiphi i j d))) := by
  unfold locMatrixStep n_dofs_lap
  have hface : forUp (2 * dim) (fun face (s : K × (Fin dim → K)) => do
      let helper := E.bdr_phiphi i j face
      let normal_int_vec ← forUp dim (fun d (n : Fin dim → K) => do
        let x ← arrGet n d
        let y ← arrGet (E.local_normal face) d
        arrPut n d (x + y * helper)) s.2
      return (s.1 + helper, normal_int_vec)) (0, fun _ => 0) =
      .ok (∑ f : Fin (2 * dim), E.bdr_phiphi i j f, fun d => ∑ f : Fin (2 * dim), E.local_normal f d * E.bdr_phiphi i j f) := by
    rw [forUp_add (2 * dim) _ (fun f => ((E.bdr_phiphi i j f, fun d => E.local_normal f d * E.bdr_phiphi i j f) : K × (Fin dim → K)))]
    · refine congrArg Res.ok (Prod.ext ?_ ?_)
      · simp [Prod.fst_sum]
      · funext d; simp [Prod.snd_sum, Finset.sum_apply]
    · intro f s
      dsimp only
      rw [forUp_add dim _ (fun d => Pi.single d (E.local_normal f d * E.bdr_phiphi i j f)), Finset.univ_sum_single, Res.ok_bind]
      · rfl
      · intro d n
        rw [arrGet_lt _ d.2, Res.ok_bind, arrGet_lt _ d.2, Res.ok_bind, arrPut_lt _ d.2]
        exact congrArg Res.ok (arrSet_add n d _)
  dsimp only
  rw [hface, Res.ok_bind, subAt_block m M _ _ i j (row_l i) (row_l' j), Res.ok_bind, addAt_block m _ _ _ i j (row_l i) (row_l j), Res.ok_bind,
    addAt_block m _ _ _ i j (row_l' i) (row_l' j), Res.ok_bind]
  rw [forUp_add dim _ (fun d => blockMat i j (.single (ix 0 d.castSucc) (ix 0 d.castSucc) (E.vol_phiphi i j) +
    .single (ix 1 d.castSucc) (ix 1 d.castSucc) (E.vol_phiphi i j) + .single (ix 0 (Fin.last dim)) (ix 0 d.castSucc) (-E.vol_nablaphiphi i j d) +
    .single (ix 0 d.castSucc) (ix 0 (Fin.last dim)) (-E.vol_nablaphiphi i j d) + .single (ix 1 (Fin.last dim)) (ix 1 d.castSucc) (-E.vol_nablaphiphi i j d) +
    .single (ix 1 d.castSucc) (ix 1 (Fin.last dim)) (-E.vol_nablaphiphi i j d) +
    .single (ix 0 (Fin.last dim)) (ix 0 d.castSucc) (∑ f : Fin (2 * dim), E.local_normal f d * E.bdr_phiphi i j f) +
    .single (ix 1 (Fin.last dim)) (ix 1 d.castSucc) (∑ f : Fin (2 * dim), E.local_normal f d * E.bdr_phiphi i j f)))]
  · simp only [add_assoc M]
    rw [← blockMat_sum, ← blockMat_add, ← blockMat_add, ← blockMat_add]
    refine congrArg Res.ok (congrArg _ (congrArg _ ?_))
    unfold mixedAdd
    simp only [one_mul, Matrix.single_add, Matrix.single_zero, Finset.sum_add_distrib]
    abel
  · intro d M
    dsimp only
    rw [addAt_block m M _ _ i j (row_d d i) (row_d d j), Res.ok_bind, addAt_block m _ _ _ i j (row_d' d i) (row_d' d j), Res.ok_bind, arrGet_lt _ d.2, Res.ok_bind,
      subAt_block m _ _ _ i j (row_l i) (row_d d j), Res.ok_bind, subAt_block m _ _ _ i j (row_d d i) (row_l j), Res.ok_bind,
      subAt_block m _ _ _ i j (row_l' i) (row_d' d j), Res.ok_bind, subAt_block m _ _ _ i j (row_d' d i) (row_l' j), Res.ok_bind, arrGet_lt _ d.2, Res.ok_bind,
      addAt_block m _ _ _ i j (row_l i) (row_d d j), Res.ok_bind, addAt_block m _ _ _ i j (row_l' i) (row_d' d j)]
    simp only [blockMat_add, ← add_assoc]

theorem assemble_loc_matrix_spec (m : Mode) (E : Edge dim nS K) (nB : Nat) (tau time : K) :
    ∃ A, assemble_loc_matrix m E tau time = .ok A ∧ IsMixedMat (form E nB) (coupling E time) 0 tau 1 (toMat A) := by
  obtain ⟨A, h1, h2⟩ := matrix_loop (fun i j M => locMatrixStep m E tau time i j M) _ (fun i j M => locMatrixStep_eq m E tau time i j M)
  exact ⟨A, h1, isMixedMat_of _ _ _ _ _ _ h2⟩

/-- One face: values `x`, `y` of the two unknowns times a shape function. -/
theorem rhs_lambda_spec (m : Mode) (E : Edge dim nS K) (tau : K) (lambda : LocDofs dim (2 * nB) K) :
    ∃ v, assemble_rhs_from_lambda m E nB tau lambda = .ok v ∧
      IsMixedRhs (form E nB) tau 1 (moments (form E nB) (upper lambda)) (moments (form E nB) (lower lambda)) 0 0 (toMat v) := by
  obtain ⟨v, h1, h2⟩ := vec_loop (N := 2 * (dim + 1)) (nS := nS) (fun i v => forUp nB (fun j v => forUp (2 * dim) (fun face (v : SmallVec (n_loc_dofs dim nS) K) => do
    let integral := E.bdr_phipsi i j face
    let l ← arrGet2 lambda face j
    let l' ← arrGet2 lambda face (nB + j)
    let v ← SmallMat.addTo m (dim * nS + i) (tau * l * integral) v
    let v ← SmallMat.addTo m (n_dofs_lap dim nS + dim * nS + i) (tau * l' * integral) v
    forUp dim (fun d v => do
      let n ← arrGet (E.local_normal face) d
      let v ← SmallMat.subFrom m (d * nS + i) (n * l * integral) v
      SmallMat.subFrom m (n_dofs_lap dim nS + d * nS + i) (n * l' * integral) v) v) v) v)
    (fun i => ∑ j : Fin nB, ∑ f : Fin (2 * dim), mixedVec (tau * upper lambda f j * E.bdr_phipsi i j f) (tau * lower lambda f j * E.bdr_phipsi i j f)
      (fun d => -(E.local_normal f d * upper lambda f j * E.bdr_phipsi i j f)) (fun d => -(E.local_normal f d * lower lambda f j * E.bdr_phipsi i j f)))
    (fun i v => vec_add i _ _ (fun j v => vec_add i _ _ (fun f v => by
      unfold n_dofs_lap
      dsimp only
      rw [arrGet2_lt lambda f.2 (up_lt j), Res.ok_bind, arrGet2_lt lambda f.2 (lo_lt j), Res.ok_bind, addTo_block m v _ i (row_l i), Res.ok_bind,
        addTo_block m _ _ i (row_l' i), Res.ok_bind, forUp_add dim _ (fun d => blockVec i
          (Pi.single (ix 0 d.castSucc) (-(E.local_normal f d * upper lambda f j * E.bdr_phipsi i j f)) +
          Pi.single (ix 1 d.castSucc) (-(E.local_normal f d * lower lambda f j * E.bdr_phipsi i j f))))]
      · simp only [add_assoc v]
        rw [← blockVec_sum, ← blockVec_add, ← blockVec_add]
        rfl
      · intro d v
        rw [arrGet_lt _ d.2, Res.ok_bind, subFrom_block m v _ i (row_d d i), Res.ok_bind, subFrom_block m _ _ i (row_d' d i), blockVec_add, ← add_assoc]
        rfl) v) v)
  refine ⟨v, h1, isMixedRhs_of _ _ _ _ _ _ _ _ (fun b i => ?_)⟩
  rw [h2]
  simp only [mixedVec_sum]
  refine congrFun ?_ b
  simp only [moments, mulVec, dotProduct, form, Matrix.of_apply, Pi.zero_apply, zero_add, Finset.mul_sum, one_mul]
  congr 1
  · rw [Finset.sum_comm]
    refine Finset.sum_congr rfl fun f _ => Finset.sum_congr rfl fun j _ => by ring
  · rw [Finset.sum_comm]
    refine Finset.sum_congr rfl fun f _ => Finset.sum_congr rfl fun j _ => by ring
  · funext d
    simp only [Finset.sum_apply]
    rw [Finset.sum_comm, ← Finset.sum_neg_distrib]
    refine Finset.sum_congr rfl fun f _ => ?_
    rw [← Finset.sum_neg_distrib]
    refine Finset.sum_congr rfl fun j _ => by ring
  · funext d
    simp only [Finset.sum_apply]
    rw [Finset.sum_comm, ← Finset.sum_neg_distrib]
    refine Finset.sum_congr rfl fun f _ => ?_
    rw [← Finset.sum_neg_distrib]
    refine Finset.sum_congr rfl fun j _ => by ring

theorem dirichletRhs_zero (m : Mode) (E : Edge dim nS K) (tau x : K) (i : Fin nS) (face : Nat) (v : SmallVec (n_loc_dofs dim nS) K) :
    dirichletRhs m E tau x 0 i face v = .ok (v + blockVec i (mixedVec (tau * x) 0 (fun d => -(E.local_normal face d * x)) 0)) := by
  unfold dirichletRhs
  simp only [Nat.zero_add]
  rw [addTo_block m v _ i (row_l i), Res.ok_bind, forUp_add dim _ (fun d => blockVec i (Pi.single (ix 0 d.castSucc) (-(E.local_normal face d * x))))]
  · rw [add_assoc v, ← blockVec_sum, ← blockVec_add]
    simp [mixedVec]
  · intro d v
    rw [arrGet_lt _ d.2, Res.ok_bind, subFrom_block m v _ i (row_d d i)]

theorem dirichletRhs_one (m : Mode) (E : Edge dim nS K) (tau x : K) (i : Fin nS) (face : Nat) (v : SmallVec (n_loc_dofs dim nS) K) :
    dirichletRhs m E tau x (n_dofs_lap dim nS) i face v = .ok (v + blockVec i (mixedVec 0 (tau * x) 0 (fun d => -(E.local_normal face d * x)))) := by
  unfold dirichletRhs n_dofs_lap
  rw [addTo_block m v _ i (row_l' i), Res.ok_bind, forUp_add dim _ (fun d => blockVec i (Pi.single (ix 1 d.castSucc) (-(E.local_normal face d * x))))]
  · rw [add_assoc v, ← blockVec_sum, ← blockVec_add]
    simp [mixedVec]
  · intro d v
    rw [arrGet_lt _ d.2, Res.ok_bind, subFrom_block m v _ i (row_d' d i)]

theorem rhs_global_spec (m : Mode) (E : Edge dim nS K) (nB : Nat) (tau time : K) :
    ∃ v, assemble_rhs_from_global_rhs m E tau time = .ok v ∧
      IsMixedRhs (form E nB) tau 1 (dirichletMoments E time) (laplacianMoments E time) 0 (source E time) (toMat v) := by
  obtain ⟨v, h1, h2⟩ := vec_loop_zero (N := 2 * (dim + 1)) (nS := nS) (fun i (v : SmallVec (n_loc_dofs dim nS) K) => do
    let v ← SmallMat.set m (n_dofs_lap dim nS + dim * nS + i) (E.vol_phifunc time i) v
    forUp (2 * dim) (fun face v => do
      let v ← (if is_dirichlet E face then dirichletRhs m E tau (E.bdr_phifunc time i face) 0 i face v else .ok v)
      if is_dirichlet_laplacian E face then dirichletRhs m E tau (E.bdr_phifunc_laplace time i face) (n_dofs_lap dim nS) i face v else .ok v) v)
    (fun i => mixedVec 0 (source E time i) 0 0 + ∑ f : Fin (2 * dim), mixedVec (tau * dirichletMoments E time f i) (tau * laplacianMoments E time f i)
      (fun d => -(E.local_normal f d * dirichletMoments E time f i)) (fun d => -(E.local_normal f d * laplacianMoments E time f i)))
    (fun i v hv => by
      have hset := set_block m v (ix 1 (Fin.last dim)) i (row_l' i) (E.vol_phifunc time i) (hv _)
      have hset' : SmallMat.set m (n_dofs_lap dim nS + dim * nS + i) (E.vol_phifunc time i) v = .ok (v + blockVec i (mixedVec 0 (source E time i) 0 0)) := by
        refine hset.trans (congrArg Res.ok (congrArg _ (congrArg _ ?_)))
        simp [mixedVec, source]
      rw [hset', Res.ok_bind, vec_add i _ (fun f : Fin (2 * dim) => mixedVec (tau * dirichletMoments E time f i) (tau * laplacianMoments E time f i)
        (fun d => -(E.local_normal f d * dirichletMoments E time f i)) (fun d => -(E.local_normal f d * laplacianMoments E time f i)))]
      · rw [add_assoc v, ← blockVec_add]
      · intro f v
        have e1 : (if is_dirichlet E f then dirichletRhs m E tau (E.bdr_phifunc time i f) 0 i f v else .ok v) =
            .ok (v + blockVec i (mixedVec (tau * dirichletMoments E time f i) 0 (fun d => -(E.local_normal f d * dirichletMoments E time f i)) 0)) := by
          by_cases h : IsDirichlet E f
          · rw [if_pos ((is_dirichlet_iff E f).mpr h), dirichletRhs_zero]
            simp [dirichletMoments, h]
          · rw [if_neg (by rw [is_dirichlet_iff]; exact h)]
            have e : dirichletMoments E time f i = 0 := by simp [dirichletMoments, h]
            rw [e]
            simp only [mul_zero, neg_zero]
            rw [show (fun _ : Fin dim => (0 : K)) = 0 from rfl, mixedVec_zero, blockVec_zero, add_zero]
        have e2 : ∀ v, (if is_dirichlet_laplacian E f then dirichletRhs m E tau (E.bdr_phifunc_laplace time i f) (n_dofs_lap dim nS) i f v else .ok v) =
            .ok (v + blockVec i (mixedVec 0 (tau * laplacianMoments E time f i) 0 (fun d => -(E.local_normal f d * laplacianMoments E time f i)))) := by
          intro v
          by_cases h : IsDirichletLaplacian E f
          · rw [if_pos ((is_dirichlet_laplacian_iff E f).mpr h), dirichletRhs_one]
            simp [laplacianMoments, h]
          · rw [if_neg (by rw [is_dirichlet_laplacian_iff]; exact h)]
            have e : laplacianMoments E time f i = 0 := by simp [laplacianMoments, h]
            rw [e]
            simp only [mul_zero, neg_zero]
            rw [show (fun _ : Fin dim => (0 : K)) = 0 from rfl, mixedVec_zero, blockVec_zero, add_zero]
        rw [e1, Res.ok_bind, e2, add_assoc v, ← blockVec_add, ← mixedVec_add]
        simp)
  refine ⟨v, h1, isMixedRhs_of _ _ _ _ _ _ _ _ (fun b i => ?_)⟩
  rw [h2]
  rw [mixedVec_sum, ← mixedVec_add]
  refine congrFun ?_ b
  simp only [form, Pi.zero_apply, zero_add, Finset.mul_sum, one_mul]
  congr 1
  · funext d; simp [Finset.sum_apply]
  · funext d; simp [Finset.sum_apply]

theorem rhs_coeffs_spec (m : Mode) (E : Edge dim nS K) (nB : Nat) (tau : K) (x : SmallVec (n_loc_dofs dim nS) K) :
    ∃ v, assemble_rhs_from_coeffs m E x = .ok v ∧
      IsMixedRhs (form E nB) tau 1 0 0 0 ((form E nB).mass0 *ᵥ uOf (half 0 (toMat x))) (toMat v) := by
  obtain ⟨v, h1, h2⟩ := vec_loop (N := 2 * (dim + 1)) (nS := nS) (fun i v => forUp nS (fun j (v : SmallVec (n_loc_dofs dim nS) K) => do
    let x ← arrGet x (dim * nS + j)
    SmallMat.addTo m (n_loc_dofs dim nS / 2 + dim * nS + i) (x * E.vol_phiphi i j) v) v)
    (fun i => ∑ j : Fin nS, mixedVec 0 (uOf (half 0 (toMat x)) j * E.vol_phiphi i j) 0 0)
    (fun i v => vec_add i _ _ (fun j v => by
      have hj : dim * nS + j.1 < n_loc_dofs dim nS := by rw [row_l j]; exact (ix (ix (0 : Fin 2) (Fin.last dim)) j).2
      rw [coeffs_get x hj, Res.ok_bind, addTo_block m v _ i (row_l' i)]
      have : (⟨dim * nS + j.1, hj⟩ : Fin (n_loc_dofs dim nS)) = emb 0 (ix (Fin.last dim) j) := by
        rw [emb_ix]; exact Fin.ext (row_l j)
      rw [this]
      simp [mixedVec, uOf, half]) v)
  refine ⟨v, h1, isMixedRhs_of _ _ _ _ _ _ _ _ (fun b i => ?_)⟩
  rw [h2, mixedVec_sum]
  refine congrFun ?_ b
  congr 1
  · simp
  · simp [mulVec, dotProduct, form, mul_comm]
  · funext d; simp
  · funext d; simp

/-! ## Traces -/

theorem get_l (x : SmallVec (n_loc_dofs dim nS) K) (i : Fin nS) : arrGet x (dim * nS + i) = .ok (uOf (half 0 (toMat x)) i) := by
  have hj : dim * nS + i.1 < n_loc_dofs dim nS := by rw [row_l i]; exact (ix (ix (0 : Fin 2) (Fin.last dim)) i).2
  rw [coeffs_get x hj]
  have : (⟨dim * nS + i.1, hj⟩ : Fin (n_loc_dofs dim nS)) = emb 0 (ix (Fin.last dim) i) := by rw [emb_ix]; exact Fin.ext (row_l i)
  rw [this]; rfl

theorem get_l' (x : SmallVec (n_loc_dofs dim nS) K) (i : Fin nS) : arrGet x (n_dofs_lap dim nS + dim * nS + i) = .ok (uOf (half 1 (toMat x)) i) := by
  have hj : n_loc_dofs dim nS / 2 + dim * nS + i.1 < n_loc_dofs dim nS := by rw [row_l' i]; exact (ix (ix (1 : Fin 2) (Fin.last dim)) i).2
  unfold n_dofs_lap
  rw [coeffs_get x hj]
  have : (⟨n_loc_dofs dim nS / 2 + dim * nS + i.1, hj⟩ : Fin (n_loc_dofs dim nS)) = emb 1 (ix (Fin.last dim) i) := by rw [emb_ix]; exact Fin.ext (row_l' i)
  rw [this]; rfl

theorem get_d (x : SmallVec (n_loc_dofs dim nS) K) (d : Fin dim) (i : Fin nS) : arrGet x (d * nS + i) = .ok (qOf (half 0 (toMat x)) d i) := by
  have hj : d * nS + i.1 < n_loc_dofs dim nS := by rw [row_d d i]; exact (ix (ix (0 : Fin 2) d.castSucc) i).2
  rw [coeffs_get x hj]
  have : (⟨d * nS + i.1, hj⟩ : Fin (n_loc_dofs dim nS)) = emb 0 (ix d.castSucc i) := by rw [emb_ix]; exact Fin.ext (row_d d i)
  rw [this]; rfl

theorem get_d' (x : SmallVec (n_loc_dofs dim nS) K) (d : Fin dim) (i : Fin nS) :
    arrGet x (n_dofs_lap dim nS + d * nS + i) = .ok (qOf (half 1 (toMat x)) d i) := by
  have hj : n_loc_dofs dim nS / 2 + d * nS + i.1 < n_loc_dofs dim nS := by rw [row_d' d i]; exact (ix (ix (1 : Fin 2) d.castSucc) i).2
  unfold n_dofs_lap
  rw [coeffs_get x hj]
  have : (⟨n_loc_dofs dim nS / 2 + d * nS + i.1, hj⟩ : Fin (n_loc_dofs dim nS)) = emb 1 (ix d.castSucc i) := by rw [emb_ix]; exact Fin.ext (row_d' d i)
  rw [this]; rfl

theorem primal_spec (E : Edge dim nS K) (nB : Nat) (x : SmallVec (n_loc_dofs dim nS) K) :
    primal_at_boundary E nB x = .ok (halves (fun f => ((form E nB).psi f)ᵀ *ᵥ uOf (half 1 (toMat x))) (fun f => ((form E nB).psi f)ᵀ *ᵥ uOf (half 0 (toMat x)))) := by
  obtain ⟨b, h1, h2⟩ := face_loop (fun i j face (b : LocDofs dim (2 * nB) K) => do
    let y ← arrGet x (dim * nS + i)
    let b ← arrAdd2 face (nB + j) (y * E.bdr_phipsi i j face) b
    let y ← arrGet x (n_dofs_lap dim nS + dim * nS + i)
    arrAdd2 face j (y * E.bdr_phipsi i j face) b) (fun (i : Fin nS) j f => uOf (half 1 (toMat x)) i * E.bdr_phipsi i j f)
      (fun (i : Fin nS) j f => uOf (half 0 (toMat x)) i * E.bdr_phipsi i j f) (fun i j f b => by
      rw [get_l, Res.ok_bind, arrAdd2_lt _ f.2 (lo_lt j), Res.ok_bind, get_l', Res.ok_bind, arrAdd2_lt _ f.2 (up_lt j), add_assoc, add_comm (single2 _ _ _)]
      rfl)
  refine h1.trans ?_
  rw [h2]
  refine congrArg Res.ok (congrArg₂ halves ?_ ?_) <;>
  · funext f j
    simp [mulVec, dotProduct, form, mul_comm]

theorem single2_sum' {n k : Nat} {ι : Type} (s : Finset ι) (a : Fin n) (b : Fin k) (g : ι → K) : ∑ c ∈ s, single2 a b (g c) = single2 a b (∑ c ∈ s, g c) := by
  funext a' b'
  simp only [Finset.sum_apply, single2]
  split <;> simp

theorem dual_spec (E : Edge dim nS K) (nB : Nat) (x : SmallVec (n_loc_dofs dim nS) K) :
    dual_at_boundary E nB x = .ok (halves (fun f => ((form E nB).psi f)ᵀ *ᵥ ∑ d, (form E nB).normal f d • qOf (half 1 (toMat x)) d)
      (fun f => ((form E nB).psi f)ᵀ *ᵥ ∑ d, (form E nB).normal f d • qOf (half 0 (toMat x)) d)) := by
  obtain ⟨b, h1, h2⟩ := face_loop (fun i j face (b : LocDofs dim (2 * nB) K) => do
    let integral := E.bdr_phipsi i j face
    forUp dim (fun d b => do
      let n ← arrGet (E.local_normal face) d
      let y ← arrGet x (d * nS + i)
      let b ← arrAdd2 face (nB + j) (n * integral * y) b
      let y ← arrGet x (n_dofs_lap dim nS + d * nS + i)
      arrAdd2 face j (n * integral * y) b) b)
      (fun (i : Fin nS) j f => ∑ d : Fin dim, E.local_normal f d * E.bdr_phipsi i j f * qOf (half 1 (toMat x)) d i)
      (fun (i : Fin nS) j f => ∑ d : Fin dim, E.local_normal f d * E.bdr_phipsi i j f * qOf (half 0 (toMat x)) d i) (fun i j f b => by
      dsimp only
      rw [forUp_add dim _ (fun d => single2 f (up j) (E.local_normal f d * E.bdr_phipsi i j f * qOf (half 1 (toMat x)) d i) +
        single2 f (lo j) (E.local_normal f d * E.bdr_phipsi i j f * qOf (half 0 (toMat x)) d i)), Finset.sum_add_distrib, single2_sum', single2_sum']
      intro d b
      rw [arrGet_lt _ d.2, Res.ok_bind, get_d, Res.ok_bind, arrAdd2_lt _ f.2 (lo_lt j), Res.ok_bind, get_d', Res.ok_bind, arrAdd2_lt _ f.2 (up_lt j),
        add_assoc, add_comm (single2 _ _ _)]
      rfl)
  refine h1.trans ?_
  rw [h2]
  refine congrArg Res.ok (congrArg₂ halves ?_ ?_) <;>
  · funext f j
    simp only [mulVec, dotProduct, form, Matrix.transpose_apply, Matrix.of_apply, Finset.sum_apply, Pi.smul_apply, smul_eq_mul, Finset.mul_sum]
    refine Finset.sum_congr rfl fun i _ => Finset.sum_congr rfl fun d _ => ?_
    ring

end Assembly

/-! ## Writing the result -/

section Write
variable [CommRing K]

theorem row_set {n k : Nat} (i : Fin n) (g : Fin k → K) (f : Fin k → (Fin n → Fin k → K) → Res (Fin n → Fin k → K))
    (hf : ∀ j out, f j out = .ok (arrSet out i (arrSet (out i) j (g j)))) (out : Fin n → Fin k → K) : forFin k f out = .ok (arrSet out i g) := by
  obtain ⟨o, h1, h2, h3⟩ := forFin_inv k f out (fun l o => (∀ a, a ≠ i → o a = out a) ∧ ∀ j : Fin k, j.1 < l → o i j = g j)
    ⟨fun _ _ => rfl, fun j hj => absurd hj (Nat.not_lt_zero _)⟩ (fun l o ho => ⟨_, hf l o, fun a ha => by simp [arrSet, ha, ho.1 a ha], fun j hj => by
      by_cases hjl : j = l
      · subst hjl; simp [arrSet]
      · have : j.1 ≠ l.1 := fun h => hjl (Fin.ext h)
        simp [arrSet, hjl, ho.2 j (by omega)]⟩)
  rw [h1]
  refine congrArg Res.ok (funext fun a => ?_)
  by_cases ha : a = i
  · subst ha; funext j; rw [h3 j j.2]; simp [arrSet]
  · rw [h2 a ha]; simp [arrSet, ha]

theorem put_loop {n k : Nat} (i : Fin n) (c l : Nat) (h : c + l ≤ k) (g : Nat → K) (out : Fin n → Fin k → K) :
    forUp l (fun j out => arrPut2 out i (c + j) (g (c + j))) out = .ok (arrSet out i (fun j => if c ≤ j.1 ∧ j.1 < c + l then g j else out i j)) := by
  obtain ⟨o, h1, h2, h3⟩ := forUp_inv l (fun j out => arrPut2 out i (c + j) (g (c + j))) out
    (fun r o => (∀ a, a ≠ i → o a = out a) ∧ ∀ j : Fin k, o i j = if c ≤ j.1 ∧ j.1 < c + r then g j else out i j)
    ⟨fun _ _ => rfl, fun j => by rw [if_neg (by omega)]⟩ (fun r hr o ho => by
      refine ⟨_, arrPut2_lt o i.2 (show c + r < k by omega) _, fun a ha => by simp [arrSet, ha, ho.1 a ha], fun j => ?_⟩
      by_cases hj : j = ⟨c + r, by omega⟩
      · subst hj; simp [arrSet]
      · have : j.1 ≠ c + r := fun h => hj (Fin.ext h)
        have e : (c ≤ j.1 ∧ j.1 < c + (r + 1)) ↔ (c ≤ j.1 ∧ j.1 < c + r) := by omega
        simp only [arrSet, Fin.eta, if_true, hj, if_false, ho.2 j, e])
  rw [h1]
  refine congrArg Res.ok (funext fun a => ?_)
  by_cases ha : a = i
  · subst ha; funext j; rw [h3 j]; simp [arrSet]
  · rw [h2 a ha]; simp [arrSet, ha]

theorem zero_loop {n k : Nat} (i : Fin n) (c l : Nat) (h : c + l ≤ k) (out : Fin n → Fin k → K) :
    forUp l (fun j out => arrPut2 out i (c + j) 0) out = .ok (arrSet out i (fun j => if c ≤ j.1 ∧ j.1 < c + l then 0 else out i j)) :=
  put_loop i c l h (fun _ => 0) out

open Classical in
theorem offDirichlet_up (E : Edge dim nS K) (y z : LocDofs dim nB K) (f : Fin (2 * dim)) (k : Fin nB) :
    offDirichlet E y z f (up k) = if IsDirichlet E f then 0 else y f k := by
  unfold offDirichlet; rw [halves_up]

open Classical in
theorem offDirichlet_lo (E : Edge dim nS K) (y z : LocDofs dim nB K) (f : Fin (2 * dim)) (k : Fin nB) :
    offDirichlet E y z f (lo k) = if IsDirichletLaplacian E f then 0 else z f k := by
  unfold offDirichlet; rw [halves_lo]

theorem zeroDirichlet_eq (E : Edge dim nS K) (i : Fin (2 * dim)) (out : LocDofs dim (2 * nB) K) :
    zeroDirichlet E i out = .ok (arrSet out i (offDirichlet E (upper out) (lower out) i)) := by
  have e : 2 * nB / 2 = nB := by omega
  have e' : 2 * nB - nB = nB := by omega
  unfold zeroDirichlet
  rw [e, e']
  have h1 : (if is_dirichlet E i then forUp nB (fun j out => arrPut2 out i j 0) out else .ok out) =
      .ok (arrSet out i (fun j => by classical exact if IsDirichlet E i ∧ j.1 < nB then 0 else out i j)) := by
    by_cases h : IsDirichlet E i
    · rw [if_pos ((is_dirichlet_iff E i).mpr h)]
      have := zero_loop i 0 nB (by omega) out
      simp only [Nat.zero_add, Nat.zero_le, true_and] at this
      rw [this]
      simp [h]
    · rw [if_neg (by rw [is_dirichlet_iff]; exact h)]
      refine congrArg Res.ok (funext fun a => ?_)
      by_cases ha : a = i
      · subst ha; simp [arrSet, h]
      · simp [arrSet, ha]
  rw [h1, Res.ok_bind]
  by_cases h : IsDirichletLaplacian E i
  · rw [if_pos ((is_dirichlet_laplacian_iff E i).mpr h), zero_loop i nB nB (by omega)]
    refine congrArg Res.ok (funext fun a => ?_)
    by_cases ha : a = i
    · subst ha
      funext j
      obtain ⟨k, rfl | rfl⟩ := halves_cases j
      · have h2 : ¬ (nB ≤ k.1) := by omega
        simp only [arrSet, if_true, offDirichlet_up]; by_cases hd : IsDirichlet E a.1 <;> simp [up, upper, hd]
      · have h2 : nB + k.1 < nB + nB := by omega
        simp only [arrSet, if_true, offDirichlet_lo]; simp [lo, h, h2]
    · simp [arrSet, ha]
  · rw [if_neg (by rw [is_dirichlet_laplacian_iff]; exact h)]
    refine congrArg Res.ok (funext fun a => ?_)
    by_cases ha : a = i
    · subst ha
      funext j
      obtain ⟨k, rfl | rfl⟩ := halves_cases j
      · simp only [arrSet, if_true, offDirichlet_up]; by_cases hd : IsDirichlet E a.1 <;> simp [up, upper, hd]
      · simp only [arrSet, if_true, offDirichlet_lo]; simp [lo, h, lower]
    · simp [arrSet, ha]

theorem faces_loop (E : Edge dim nS K) (g : LocDofs dim (2 * nB) K) (f : Fin (2 * dim) → Fin (2 * nB) → LocDofs dim (2 * nB) K → Res (LocDofs dim (2 * nB) K))
    (hf : ∀ i j out, f i j out = .ok (arrSet out i (arrSet (out i) j (g i j)))) (v : LocDofs dim (2 * nB) K) :
    forFin (2 * dim) (fun i out => do
      let out ← forFin (2 * nB) (fun j (out : LocDofs dim (2 * nB) K) => f i j out) out
      zeroDirichlet E i out) v = .ok (offDirichlet E (upper g) (lower g)) := by
  refine forFin_write (2 * dim) _ _ (fun i out => ?_) v
  rw [row_set i (g i) (fun j out => f i j out) (hf i), Res.ok_bind, zeroDirichlet_eq]
  refine congrArg Res.ok (funext fun a => ?_)
  by_cases ha : a = i
  · subst ha
    funext j
    obtain ⟨k, rfl | rfl⟩ := halves_cases j
    · simp only [arrSet, if_true, offDirichlet_up, upper]
    · simp only [arrSet, if_true, offDirichlet_lo, lower]
  · simp [arrSet, ha]

open Classical in
theorem make_initial_eq (E : Edge dim nS K) (time : K) (lambda : LocDofs dim (2 * nB) K) :
    make_initial lambda E time = .ok (fun f j => if IsDirichlet E f then 0 else if j.1 < nB then E.bdrUni_psifunc time f j else E.bdrUni_psifunc_laplace time f j) := by
  have e : 2 * nB / 2 = nB := by omega
  have e' : 2 * nB - nB = nB := by omega
  refine forFin_write (2 * dim) _ _ (fun i out => ?_) lambda
  simp only [e, e']
  by_cases hd : IsDirichlet E i
  · rw [if_pos ((is_dirichlet_iff E i).mpr hd), row_set i (fun _ => 0) _ (fun _ _ => rfl)]
    simp [hd]
  · rw [if_neg (by rw [is_dirichlet_iff]; exact hd)]
    have h1 := put_loop i 0 nB (by omega) (fun j => E.bdrUni_psifunc time i j) out
    simp only [Nat.zero_add, Nat.zero_le, true_and] at h1
    rw [h1, Res.ok_bind, put_loop i nB nB (by omega) (fun j => E.bdrUni_psifunc_laplace time i j)]
    refine congrArg Res.ok (funext fun a => ?_)
    by_cases ha : a = i
    · subst ha
      funext j
      simp only [arrSet, if_true, hd, if_false]
      have := j.2
      by_cases hj : j.1 < nB
      · rw [if_neg (by omega), if_pos hj, if_pos hj]
      · rw [if_pos (by omega), if_neg hj]
    · simp [arrSet, ha]

end Write

section Solve
variable [Field K]

/-- The data of the local problem for the two types of solution. -/
noncomputable def dataOf (E : Edge dim nS K) (time : K) (lambda : LocDofs dim (2 * nB) K) (solution_type : Nat) :
    (Fin (2 * dim) → Fin nS → K) × (Fin (2 * dim) → Fin nS → K) × (Fin nS → K) :=
  if solution_type = 0 then (moments (form E nB) (upper lambda), moments (form E nB) (lower lambda), 0)
  else (moments (form E nB) (upper lambda) + dirichletMoments E time, moments (form E nB) (lower lambda) + laplacianMoments E time, source E time)

/-- The four parts of a solution vector. -/
def Solves (E : Edge dim nS K) (nB : Nat) (tau time : K) (g h : Fin (2 * dim) → Fin nS → K) (t : Fin nS → K) (x : SmallVec (n_loc_dofs dim nS) K) : Prop :=
  IsMixedSolution (form E nB) (coupling E time) 0 tau 1 g h 0 t (qOf (half 0 (toMat x))) (uOf (half 0 (toMat x))) (qOf (half 1 (toMat x))) (uOf (half 1 (toMat x)))

theorem solve_local_problem_spec (m : Mode) (gesv : Gesv (n_loc_dofs dim nS) 1 K) (hg : GesvSpec gesv) (E : Edge dim nS K) (tau time : K)
    (lambda : LocDofs dim (2 * nB) K) (t : Nat) (ht : t = 0 ∨ t = 1) :
    (Solvable (form E nB) tau 0 1 → ∃ x, solve_local_problem m gesv E tau lambda t time = .ok x ∧
      Solves E nB tau time (dataOf E time lambda t).1 (dataOf E time lambda t).2.1 (dataOf E time lambda t).2.2 x) ∧
    (¬ Solvable (form E nB) tau 0 1 → solve_local_problem m gesv E tau lambda t time = solveFailure m) := by
  obtain ⟨A, hA1, hA2⟩ := assemble_loc_matrix_spec m E nB tau time
  obtain ⟨v, hv1, hv2⟩ := rhs_lambda_spec m E tau lambda
  obtain ⟨w, hw1, hw2⟩ := rhs_global_spec m E nB tau time
  have key : ∃ rhs, IsMixedRhs (form E nB) tau 1 (dataOf E time lambda t).1 (dataOf E time lambda t).2.1 0 (dataOf E time lambda t).2.2 (toMat rhs) ∧
      solve_local_problem m gesv E tau lambda t time = catchLapack m (solve gesv rhs A) := by
    rcases ht with rfl | rfl
    · refine ⟨v, by simpa [dataOf] using hv2, ?_⟩
      simp [solve_local_problem, hv1, hA1]
    · refine ⟨v + w, by simpa [dataOf] using isMixedRhs_add hv2 hw2, ?_⟩
      simp [solve_local_problem, hv1, hA1, hw1, Diffusion.add_mat_spec]
  obtain ⟨rhs, hr1, hr2⟩ := key
  obtain ⟨h1, h2⟩ := mixed_solve_spec (form E nB) (coupling E time) 0 tau 1 gesv hg A hA2 rhs
  rw [mixedSolvable_iff] at h1 h2
  refine ⟨fun hs => ?_, fun hs => ?_⟩
  · obtain ⟨x, hx1, hx2⟩ := h1 hs
    exact ⟨x, by rw [hr2, hx1]; rfl, hx2 _ _ _ _ hr1⟩
  · rw [hr2, h2 hs, Diffusion.catch_throw]

theorem solve_mass_problem_spec (m : Mode) (gesv : Gesv (n_loc_dofs dim nS) 1 K) (hg : GesvSpec gesv) (E : Edge dim nS K) (tau time : K)
    (y : SmallVec (n_loc_dofs dim nS) K) (hs : Solvable (form E nB) tau 0 1) :
    ∃ x, solve_mass_problem m gesv E tau y time = .ok x ∧ Solves E nB tau time 0 0 ((form E nB).mass0 *ᵥ uOf (half 0 (toMat y))) x := by
  obtain ⟨A, hA1, hA2⟩ := assemble_loc_matrix_spec m E nB tau time
  obtain ⟨v, hv1, hv2⟩ := rhs_coeffs_spec m E nB tau y
  obtain ⟨x, hx1, hx2⟩ := (mixed_solve_spec (form E nB) (coupling E time) 0 tau 1 gesv hg A hA2 v).1 ((mixedSolvable_iff _ _ _).mpr hs)
  exact ⟨x, by simp [solve_mass_problem, hv1, hA1, hx1, Diffusion.catch_ok], hx2 _ _ _ _ hv2⟩

theorem writeFlux_eq (E : Edge dim nS K) (tau : K) (x : SmallVec (n_loc_dofs dim nS) K) (lambda out : LocDofs dim (2 * nB) K) :
    (do
      let primals ← primal_at_boundary E nB x
      let duals ← dual_at_boundary E nB x
      forFin (2 * dim) (fun i out => do
        let out ← forFin (2 * nB) (fun j (out : LocDofs dim (2 * nB) K) => do
          let l ← arrGet (lambda i) (if j.1 < nB then j + nB else j - nB)
          .ok (arrSet out i (arrSet (out i) j (duals i j + tau * primals i j - tau * l * E.face_area i)))) out
        zeroDirichlet E i out) out) =
    .ok (offDirichlet E (faceFlux (form E nB) tau (lower lambda) (qOf (half 1 (toMat x))) (uOf (half 1 (toMat x))))
      (faceFlux (form E nB) tau (upper lambda) (qOf (half 0 (toMat x))) (uOf (half 0 (toMat x))))) := by
  rw [primal_spec, dual_spec, Res.ok_bind, Res.ok_bind]
  rw [faces_loop E (halves (faceFlux (form E nB) tau (lower lambda) (qOf (half 1 (toMat x))) (uOf (half 1 (toMat x))))
      (faceFlux (form E nB) tau (upper lambda) (qOf (half 0 (toMat x))) (uOf (half 0 (toMat x)))))]
  · rw [upper_halves, lower_halves]
  · intro i j out
    obtain ⟨k, rfl | rfl⟩ := halves_cases j
    · have h : (if (up k).1 < nB then (up k).1 + nB else (up k).1 - nB) = (lo k).1 := by
        rw [if_pos (show (up k).1 < nB from k.2)]; simp [up, lo]; omega
      rw [h, arrGet_lt _ (lo k).2, Res.ok_bind, halves_up, halves_up, halves_up]
      simp only [faceFlux, mulVec_add, mulVec_smul, Pi.sub_apply, Pi.add_apply, Pi.smul_apply, smul_eq_mul]
      rw [mul_right_comm tau]
      rfl
    · have h : (if (lo k).1 < nB then (lo k).1 + nB else (lo k).1 - nB) = (up k).1 := by
        rw [if_neg (show ¬ (lo k).1 < nB by simp [lo])]; simp [up, lo]
      rw [h, arrGet_lt _ (up k).2, Res.ok_bind, halves_lo, halves_lo, halves_lo]
      simp only [faceFlux, mulVec_add, mulVec_smul, Pi.sub_apply, Pi.add_apply, Pi.smul_apply, smul_eq_mul]
      rw [mul_right_comm tau]
      rfl

/-- The same without exchanging the halves of the trace. -/
theorem writeResidual_eq (E : Edge dim nS K) (tau : K) (x : SmallVec (n_loc_dofs dim nS) K) (lambda out : LocDofs dim (2 * nB) K) :
    (do
      let primals ← primal_at_boundary E nB x
      let duals ← dual_at_boundary E nB x
      forFin (2 * dim) (fun i out => do
        let out ← forFin (2 * nB) (fun j (out : LocDofs dim (2 * nB) K) =>
          .ok (arrSet out i (arrSet (out i) j (duals i j + tau * primals i j - tau * lambda i j * E.face_area i)))) out
        zeroDirichlet E i out) out) =
    .ok (offDirichlet E (faceFlux (form E nB) tau (upper lambda) (qOf (half 1 (toMat x))) (uOf (half 1 (toMat x))))
      (faceFlux (form E nB) tau (lower lambda) (qOf (half 0 (toMat x))) (uOf (half 0 (toMat x))))) := by
  rw [primal_spec, dual_spec, Res.ok_bind, Res.ok_bind]
  rw [faces_loop E (halves (faceFlux (form E nB) tau (upper lambda) (qOf (half 1 (toMat x))) (uOf (half 1 (toMat x))))
      (faceFlux (form E nB) tau (lower lambda) (qOf (half 0 (toMat x))) (uOf (half 0 (toMat x)))))]
  · rw [upper_halves, lower_halves]
  · intro i j out
    obtain ⟨k, rfl | rfl⟩ := halves_cases j
    · rw [halves_up, halves_up, halves_up]
      simp only [faceFlux, mulVec_add, mulVec_smul, Pi.sub_apply, Pi.add_apply, Pi.smul_apply, smul_eq_mul]
      rw [mul_right_comm tau]
      rfl
    · rw [halves_lo, halves_lo, halves_lo]
      simp only [faceFlux, mulVec_add, mulVec_smul, Pi.sub_apply, Pi.add_apply, Pi.smul_apply, smul_eq_mul]
      rw [mul_right_comm tau]
      rfl

theorem writeMassFlux_eq (E : Edge dim nS K) (tau : K) (x : SmallVec (n_loc_dofs dim nS) K) (out : LocDofs dim (2 * nB) K) :
    (do
      let primals ← primal_at_boundary E nB x
      let duals ← dual_at_boundary E nB x
      writeMassFlux E tau primals duals out) =
    .ok (offDirichlet E (faceFlux (form E nB) tau 0 (qOf (half 1 (toMat x))) (uOf (half 1 (toMat x))))
      (faceFlux (form E nB) tau 0 (qOf (half 0 (toMat x))) (uOf (half 0 (toMat x))))) := by
  rw [primal_spec, dual_spec, Res.ok_bind, Res.ok_bind]
  unfold writeMassFlux
  rw [faces_loop E (halves (faceFlux (form E nB) tau 0 (qOf (half 1 (toMat x))) (uOf (half 1 (toMat x))))
      (faceFlux (form E nB) tau 0 (qOf (half 0 (toMat x))) (uOf (half 0 (toMat x)))))]
  · rw [upper_halves, lower_halves]
  · intro i j out
    obtain ⟨k, rfl | rfl⟩ := halves_cases j
    · rw [halves_up, halves_up, halves_up]
      simp only [faceFlux, mulVec_add, mulVec_smul, Pi.sub_apply, Pi.add_apply, Pi.smul_apply, Pi.zero_apply, smul_eq_mul, mul_zero, sub_zero]
    · rw [halves_lo, halves_lo, halves_lo]
      simp only [faceFlux, mulVec_add, mulVec_smul, Pi.sub_apply, Pi.add_apply, Pi.smul_apply, Pi.zero_apply, smul_eq_mul, mul_zero, sub_zero]

end Solve

end HyperHDG.Bilaplacian

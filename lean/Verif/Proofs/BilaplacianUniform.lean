import Verif.Model.BilaplacianUniform
import Verif.Proofs.Mixed
import Verif.Proofs.BulkValues
import Verif.Proofs.Bilaplacian

/-!
# Lemmas about the local solver for the bilaplacian on the reference cube
-/

set_option linter.unusedSectionVars false

namespace HyperHDG.BilaplacianUniform

open Spec Finset Matrix LDG DiffusionUniform Mixed

variable {K : Type} {dim nS nB : Nat}

section Assembly
variable [CommRing K]

theorem axis_low (d : Fin dim) : axis (lowFace d) = d := Fin.ext (by simp [axis, lowFace])
theorem axis_high (d : Fin dim) : axis (highFace d) = d := Fin.ext (by simp only [axis, highFace]; omega)
theorem normal_low (d : Fin dim) : normal (K := K) (lowFace d) = -1 := by simp [normal, lowFace]
theorem normal_high (d : Fin dim) : normal (K := K) (highFace d) = 1 := by simp [normal, highFace, Nat.add_mod]

/-- A sum over the faces with the normals of the cube has two terms. -/
theorem sum_normal (I : Integrator K) (d : Fin dim) (g : Fin (2 * dim) → K) :
    ∑ f, (cubeForm I dim nS nB).normal f d * g f = g (highFace d) - g (lowFace d) := by
  rw [sum_faces, Finset.sum_eq_single d]
  · simp only [cubeForm, axis_low, axis_high, normal_low, normal_high, if_true]; ring
  · intro e _ he
    simp [cubeForm, axis_low, axis_high, he]
  · simp

theorem locMatrixStep_eq (m : Mode) (I : Integrator K) (tau : K) (i j : Fin nS) (M : SmallMat (n_loc_dofs dim nS) (n_loc_dofs dim nS) K) :
    locMatrixStep m I dim nS tau i j M = .ok (M + blockMat i j (mixedAdd (tau * ∑ f : Fin (2 * dim), I.bdr_phiphi i j f)
      (1 * tau * ∑ f : Fin (2 * dim), I.bdr_phiphi i j f) (-I.vol_phiphi i j) 0 (I.vol_phiphi i j)
      (fun d => -I.vol_Dphiphi i j d + ∑ f : Fin (2 * dim), (cubeForm I dim nS nB).normal f d * I.bdr_phiphi i j f)
      (fun d => 1 * (-I.vol_Dphiphi i j d + ∑ f : Fin (2 * dim), (cubeForm I dim nS nB).normal f d * I.bdr_phiphi i j f))
      (fun d => -I.vol_Dphiphi i j d))) := by
  unfold locMatrixStep n_dofs_lap
  dsimp only
  rw [subAt_block m M _ _ i j (row_l i) (row_l' j), Res.ok_bind]
  rw [forUp_add dim _ (fun d => blockMat i j (.single (ix 0 d.castSucc) (ix 0 d.castSucc) (I.vol_phiphi i j) +
    .single (ix 1 d.castSucc) (ix 1 d.castSucc) (I.vol_phiphi i j)))]
  · rw [Res.ok_bind]
    rw [forUp_add dim _ (fun d => blockMat i j (.single (ix 0 (Fin.last dim)) (ix 0 d.castSucc) (-I.vol_Dphiphi i j d) +
      .single (ix 0 d.castSucc) (ix 0 (Fin.last dim)) (-I.vol_Dphiphi i j d) + .single (ix 1 (Fin.last dim)) (ix 1 d.castSucc) (-I.vol_Dphiphi i j d) +
      .single (ix 1 d.castSucc) (ix 1 (Fin.last dim)) (-I.vol_Dphiphi i j d) +
      .single (ix 0 (Fin.last dim)) (ix 0 d.castSucc) (I.bdr_phiphi i j (2 * d + 1)) +
      .single (ix 1 (Fin.last dim)) (ix 1 d.castSucc) (I.bdr_phiphi i j (2 * d + 1)) +
      .single (ix 0 (Fin.last dim)) (ix 0 (Fin.last dim)) (tau * I.bdr_phiphi i j (2 * d + 1)) +
      .single (ix 1 (Fin.last dim)) (ix 1 (Fin.last dim)) (tau * I.bdr_phiphi i j (2 * d + 1)) +
      .single (ix 0 (Fin.last dim)) (ix 0 d.castSucc) (-I.bdr_phiphi i j (2 * d + 0)) +
      .single (ix 1 (Fin.last dim)) (ix 1 d.castSucc) (-I.bdr_phiphi i j (2 * d + 0)) +
      .single (ix 0 (Fin.last dim)) (ix 0 (Fin.last dim)) (tau * I.bdr_phiphi i j (2 * d + 0)) +
      .single (ix 1 (Fin.last dim)) (ix 1 (Fin.last dim)) (tau * I.bdr_phiphi i j (2 * d + 0))))]
    · simp only [add_assoc M]
      rw [← blockMat_sum, ← blockMat_sum, ← blockMat_add, ← blockMat_add]
      refine congrArg Res.ok (congrArg _ (congrArg _ ?_))
      unfold mixedAdd
      have hs : ∀ b : Fin (2 * (dim + 1)), Matrix.single b b (tau * ∑ f : Fin (2 * dim), I.bdr_phiphi i j f) =
          ∑ d : Fin dim, (Matrix.single b b (tau * I.bdr_phiphi i j (2 * d + 0)) + Matrix.single b b (tau * I.bdr_phiphi i j (2 * d + 1))) := by
        intro b
        rw [Finset.mul_sum, sum_faces (fun f : Fin (2 * dim) => tau * I.bdr_phiphi i j f)]
        simp only [← Matrix.single_add]
        exact map_sum (Matrix.singleAddMonoidHom b b) _ _
      simp only [one_mul, sum_normal, hs, Matrix.single_add, Matrix.single_zero, sub_eq_add_neg, Finset.sum_add_distrib, lowFace, highFace]
      abel
    · intro d M
      rw [subAt_block m M _ _ i j (row_l i) (row_d d j), Res.ok_bind, subAt_block m _ _ _ i j (row_d d i) (row_l j), Res.ok_bind,
        subAt_block m _ _ _ i j (row_l' i) (row_d' d j), Res.ok_bind, subAt_block m _ _ _ i j (row_d' d i) (row_l' j), Res.ok_bind,
        addAt_block m _ _ _ i j (row_l i) (row_d d j), Res.ok_bind, addAt_block m _ _ _ i j (row_l' i) (row_d' d j), Res.ok_bind,
        addAt_block m _ _ _ i j (row_l i) (row_l j), Res.ok_bind, addAt_block m _ _ _ i j (row_l' i) (row_l' j), Res.ok_bind,
        subAt_block m _ _ _ i j (row_l i) (row_d d j), Res.ok_bind, subAt_block m _ _ _ i j (row_l' i) (row_d' d j), Res.ok_bind,
        addAt_block m _ _ _ i j (row_l i) (row_l j), Res.ok_bind, addAt_block m _ _ _ i j (row_l' i) (row_l' j)]
      simp only [blockMat_add, ← add_assoc]
  · intro d M
    rw [addAt_block m M _ _ i j (row_d d i) (row_d d j), Res.ok_bind, addAt_block m _ _ _ i j (row_d' d i) (row_d' d j)]
    simp only [blockMat_add, ← add_assoc]

/-- The coupling matrix: the integrals of `phi_i phi_j`. -/
def mass (I : Integrator K) (nS : Nat) : Matrix (Fin nS) (Fin nS) K := .of fun i j => I.vol_phiphi i j

theorem assemble_loc_matrix_spec (m : Mode) (I : Integrator K) (dim nS nB : Nat) (tau : K) :
    ∃ A, assemble_loc_matrix m I dim nS tau = .ok A ∧ IsMixedMat (cubeForm I dim nS nB) (mass I nS) 0 tau 1 (toMat A) := by
  obtain ⟨A, h1, h2⟩ := matrix_loop (fun i j M => locMatrixStep m I dim nS tau i j M) _ (fun i j M => locMatrixStep_eq (nB := nB) m I tau i j M)
  exact ⟨A, h1, isMixedMat_of _ _ _ _ _ _ h2⟩

theorem rhs_spec (m : Mode) (I : Integrator K) (nS : Nat) (tau : K) (lambda : LocDofs dim (2 * nB) K) :
    ∃ v, assemble_rhs m I nS nB tau lambda = .ok v ∧ IsMixedRhs (cubeForm I dim nS nB) tau 1 (moments (cubeForm I dim nS nB) (upper lambda))
      (moments (cubeForm I dim nS nB) (lower lambda)) 0 0 (toMat v) := by
  obtain ⟨v, h1, h2⟩ := vec_loop (N := 2 * (dim + 1)) (nS := nS) (fun i v => forUp nB (fun j v => forUp dim (fun d (v : SmallVec (n_loc_dofs dim nS) K) => do
    let integral := I.bdr_phipsi i j (2 * d + 0)
    let l ← arrGet2 lambda (2 * d + 0) j
    let l' ← arrGet2 lambda (2 * d + 0) (nB + j)
    let v ← SmallMat.addTo m (d * nS + i) (l * integral) v
    let v ← SmallMat.addTo m (dim * nS + i) (tau * l * integral) v
    let v ← SmallMat.addTo m (n_dofs_lap dim nS + d * nS + i) (l' * integral) v
    let v ← SmallMat.addTo m (n_dofs_lap dim nS + dim * nS + i) (tau * l' * integral) v
    let integral := I.bdr_phipsi i j (2 * d + 1)
    let l ← arrGet2 lambda (2 * d + 1) j
    let l' ← arrGet2 lambda (2 * d + 1) (nB + j)
    let v ← SmallMat.subFrom m (d * nS + i) (l * integral) v
    let v ← SmallMat.addTo m (dim * nS + i) (tau * l * integral) v
    let v ← SmallMat.subFrom m (n_dofs_lap dim nS + d * nS + i) (l' * integral) v
    SmallMat.addTo m (n_dofs_lap dim nS + dim * nS + i) (tau * l' * integral) v) v) v)
    (fun i => ∑ j : Fin nB, ∑ d : Fin dim, (
      Pi.single (ix 0 d.castSucc) (upper lambda (lowFace d) j * I.bdr_phipsi i j (lowFace d)) +
      Pi.single (ix 0 (Fin.last dim)) (tau * upper lambda (lowFace d) j * I.bdr_phipsi i j (lowFace d)) +
      Pi.single (ix 1 d.castSucc) (lower lambda (lowFace d) j * I.bdr_phipsi i j (lowFace d)) +
      Pi.single (ix 1 (Fin.last dim)) (tau * lower lambda (lowFace d) j * I.bdr_phipsi i j (lowFace d)) +
      Pi.single (ix 0 d.castSucc) (-(upper lambda (highFace d) j * I.bdr_phipsi i j (highFace d))) +
      Pi.single (ix 0 (Fin.last dim)) (tau * upper lambda (highFace d) j * I.bdr_phipsi i j (highFace d)) +
      Pi.single (ix 1 d.castSucc) (-(lower lambda (highFace d) j * I.bdr_phipsi i j (highFace d))) +
      Pi.single (ix 1 (Fin.last dim)) (tau * lower lambda (highFace d) j * I.bdr_phipsi i j (highFace d))))
    (fun i v => vec_add i _ _ (fun j v => vec_add i _ _ (fun d v => by
      unfold n_dofs_lap
      dsimp only
      rw [arrGet2_lt lambda (low_lt d) (up_lt j), Res.ok_bind, arrGet2_lt lambda (low_lt d) (lo_lt j), Res.ok_bind,
        addTo_block m v _ i (row_d d i), Res.ok_bind, addTo_block m _ _ i (row_l i), Res.ok_bind,
        addTo_block m _ _ i (row_d' d i), Res.ok_bind, addTo_block m _ _ i (row_l' i), Res.ok_bind,
        arrGet2_lt lambda (high_lt d) (up_lt j), Res.ok_bind, arrGet2_lt lambda (high_lt d) (lo_lt j), Res.ok_bind,
        subFrom_block m _ _ i (row_d d i), Res.ok_bind, addTo_block m _ _ i (row_l i), Res.ok_bind,
        subFrom_block m _ _ i (row_d' d i), Res.ok_bind, addTo_block m _ _ i (row_l' i)]
      simp only [blockVec_add, ← add_assoc]
      rfl) v) v)
  refine ⟨v, h1, isMixedRhs_of _ _ _ _ _ _ _ _ (fun b i => ?_)⟩
  rw [h2]
  refine congrFun ?_ b
  have hm : ∀ (l : Fin (2 * dim) → Fin nB → K) f, moments (cubeForm I dim nS nB) l f i = ∑ j : Fin nB, l f j * I.bdr_phipsi i j f := by
    intro l f
    simp only [moments, mulVec, dotProduct, cubeForm, Matrix.of_apply]
    exact Finset.sum_congr rfl fun j _ => mul_comm _ _
  unfold mixedVec
  simp only [sum_normal, neg_sub]
  simp only [hm, Pi.zero_apply, zero_add, one_mul, sum_faces]
  have hps : ∀ (ι : Type) (s : Finset ι) (b : Fin (2 * (dim + 1))) (g : ι → K), Pi.single b (∑ a ∈ s, g a) = ∑ a ∈ s, (Pi.single b (g a) : Fin (2 * (dim + 1)) → K) :=
    fun ι s b g => map_sum (AddMonoidHom.single (fun _ : Fin (2 * (dim + 1)) => K) b) g s
  simp only [Finset.mul_sum, mul_add, sub_eq_add_neg, Pi.single_add, hps, Pi.single_neg, Finset.sum_add_distrib]
  have hc : ∀ g : Fin nB → Fin dim → Fin (2 * (dim + 1)) → K, ∑ j, ∑ d, g j d = ∑ d, ∑ j, g j d := fun g => Finset.sum_comm
  simp only [hc, ← mul_assoc, Finset.sum_neg_distrib]
  abel

theorem get_l (x : SmallVec (n_loc_dofs dim nS) K) (i : Fin nS) : arrGet x (dim * nS + i) = .ok (uOf (half 0 (toMat x)) i) := Bilaplacian.get_l x i
theorem get_l' (x : SmallVec (n_loc_dofs dim nS) K) (i : Fin nS) : arrGet x (n_dofs_lap dim nS + dim * nS + i) = .ok (uOf (half 1 (toMat x)) i) := Bilaplacian.get_l' x i
theorem get_d (x : SmallVec (n_loc_dofs dim nS) K) (d : Fin dim) (i : Fin nS) : arrGet x (d * nS + i) = .ok (qOf (half 0 (toMat x)) d i) := Bilaplacian.get_d x d i
theorem get_d' (x : SmallVec (n_loc_dofs dim nS) K) (d : Fin dim) (i : Fin nS) : arrGet x (n_dofs_lap dim nS + d * nS + i) = .ok (qOf (half 1 (toMat x)) d i) :=
  Bilaplacian.get_d' x d i

/-- The loops of `primal_at_boundary` and `dual_at_boundary`. -/
theorem cube_loop (f : Nat → Nat → Nat → LocDofs dim (2 * nB) K → Res (LocDofs dim (2 * nB) K)) (x y : Fin nS → Fin nB → Fin (2 * dim) → K)
    (hf : ∀ (i : Fin nS) (j : Fin nB) (d : Fin dim) b, f i j d b = .ok (b + (single2 (lowFace d) (up j) (x i j (lowFace d)) + single2 (lowFace d) (lo j) (y i j (lowFace d)) +
      single2 (highFace d) (up j) (x i j (highFace d)) + single2 (highFace d) (lo j) (y i j (highFace d))))) :
    forUp nS (fun i b => forUp nB (fun j b => forUp dim (fun k b => f i j k b) b) b) (fun _ _ => 0) =
      .ok (halves (fun k j => ∑ i, x i j k) (fun k j => ∑ i, y i j k)) := by
  refine (forUp_add nS _ (fun i => ∑ j, ∑ d, (single2 (lowFace d) (up j) (x i j (lowFace d)) + single2 (lowFace d) (lo j) (y i j (lowFace d)) +
      single2 (highFace d) (up j) (x i j (highFace d)) + single2 (highFace d) (lo j) (y i j (highFace d))))
    (fun i M => forUp_add nB _ (fun j => ∑ d, (single2 (lowFace d) (up j) (x i j (lowFace d)) + single2 (lowFace d) (lo j) (y i j (lowFace d)) +
      single2 (highFace d) (up j) (x i j (highFace d)) + single2 (highFace d) (lo j) (y i j (highFace d))))
    (fun j M => forUp_add dim _ _ (fun d M => hf i j d M) M) M) _).trans (congrArg Res.ok ?_)
  have hk : ∀ i j, ∑ d : Fin dim, (single2 (lowFace d) (up j) (x i j (lowFace d)) + single2 (lowFace d) (lo j) (y i j (lowFace d)) +
      single2 (highFace d) (up j) (x i j (highFace d)) + single2 (highFace d) (lo j) (y i j (highFace d))) =
      ∑ k : Fin (2 * dim), (single2 k (up j) (x i j k) + single2 k (lo j) (y i j k)) := by
    intro i j
    rw [sum_faces]
    exact Finset.sum_congr rfl fun d _ => by abel
  simp only [hk]
  refine eq_halves (fun k j => ?_) (fun k j => ?_)
  · simp only [Pi.add_apply, Finset.sum_apply, single2, zero_add, up_ne_lo, and_false, if_false, add_zero, up_inj]
    refine Finset.sum_congr rfl fun i _ => ?_
    rw [Finset.sum_eq_single j, Finset.sum_eq_single k] <;> simp +contextual [eq_comm]
  · simp only [Pi.add_apply, Finset.sum_apply, single2, zero_add, (up_ne_lo _ _).symm, and_false, if_false, zero_add, lo_inj]
    refine Finset.sum_congr rfl fun i _ => ?_
    rw [Finset.sum_eq_single j, Finset.sum_eq_single k] <;> simp +contextual [eq_comm]

theorem primal_spec (I : Integrator K) (x : SmallVec (n_loc_dofs dim nS) K) : primal_at_boundary I dim nS nB x =
    .ok (halves (fun f => ((cubeForm I dim nS nB).psi f)ᵀ *ᵥ uOf (half 0 (toMat x))) (fun f => ((cubeForm I dim nS nB).psi f)ᵀ *ᵥ uOf (half 1 (toMat x)))) := by
  unfold primal_at_boundary
  rw [cube_loop _ (fun i j f => uOf (half 0 (toMat x)) i * I.bdr_phipsi i j f) (fun i j f => uOf (half 1 (toMat x)) i * I.bdr_phipsi i j f)]
  · refine congrArg Res.ok ?_
    congr 1 <;> (funext f j; simp only [mulVec, dotProduct, cubeForm, Matrix.transpose_apply, Matrix.of_apply]; exact Finset.sum_congr rfl fun i _ => mul_comm _ _)
  · intro i j d b
    dsimp only
    rw [get_l, Res.ok_bind, arrAdd2_lt _ (low_lt d) (up_lt j), Res.ok_bind, get_l', Res.ok_bind, arrAdd2_lt _ (low_lt d) (lo_lt j), Res.ok_bind, Res.ok_bind,
      arrAdd2_lt _ (high_lt d) (up_lt j), Res.ok_bind, Res.ok_bind, arrAdd2_lt _ (high_lt d) (lo_lt j)]
    simp only [← add_assoc]
    rfl

theorem dual_spec (I : Integrator K) (x : SmallVec (n_loc_dofs dim nS) K) : dual_at_boundary I dim nS nB x =
    .ok (halves (fun f => ((cubeForm I dim nS nB).psi f)ᵀ *ᵥ ∑ d, (cubeForm I dim nS nB).normal f d • qOf (half 0 (toMat x)) d)
      (fun f => ((cubeForm I dim nS nB).psi f)ᵀ *ᵥ ∑ d, (cubeForm I dim nS nB).normal f d • qOf (half 1 (toMat x)) d)) := by
  unfold dual_at_boundary
  have hn : ∀ (q : Fin dim → Fin nS → K) (f : Fin (2 * dim)) (i : Fin nS), (∑ d, (cubeForm I dim nS nB).normal f d • q d) i = normal f * q (axis f) i := by
    intro q f i
    rw [Finset.sum_apply, Finset.sum_eq_single (axis f)] <;> simp +contextual [cubeForm, eq_comm]
  rw [cube_loop _ (fun i j f => normal f * qOf (half 0 (toMat x)) (axis f) i * I.bdr_phipsi i j f) (fun i j f => normal f * qOf (half 1 (toMat x)) (axis f) i * I.bdr_phipsi i j f)]
  · refine congrArg Res.ok ?_
    congr 1 <;> (funext f j; simp only [mulVec, dotProduct, hn]; simp only [cubeForm, Matrix.transpose_apply, Matrix.of_apply]; exact Finset.sum_congr rfl fun i _ => mul_comm _ _)
  · intro i j d b
    dsimp only
    rw [get_d, Res.ok_bind, arrSub2_lt _ (low_lt d) (up_lt j), Res.ok_bind, get_d', Res.ok_bind, arrSub2_lt _ (low_lt d) (lo_lt j), Res.ok_bind, Res.ok_bind,
      arrAdd2_lt _ (high_lt d) (up_lt j), Res.ok_bind, Res.ok_bind, arrAdd2_lt _ (high_lt d) (lo_lt j)]
    simp only [axis_low, axis_high, normal_low, normal_high, neg_mul, one_mul, ← add_assoc]
    rfl

end Assembly

section Field
variable [Field K]

theorem writeFlux_eq (tau : K) (primals duals lambda out : LocDofs dim (2 * nB) K) :
    forFin (2 * dim) (fun i out => forFin (2 * nB) (fun j (out : LocDofs dim (2 * nB) K) =>
      .ok (arrSet out i (arrSet (out i) j (duals i j + tau * (primals i j - lambda i j))))) out) out = .ok (fun f j => duals f j + tau * (primals f j - lambda f j)) :=
  forFin_set2 _ _


theorem solve_local_problem_spec (m : Mode) (I : Integrator K) (gesv : Gesv (n_loc_dofs dim nS) 1 K) (hg : GesvSpec gesv) (tau : K)
    (A : SmallMat (n_loc_dofs dim nS) (n_loc_dofs dim nS) K) (hA : assemble_loc_matrix m I dim nS tau = .ok A) (lambda : LocDofs dim (2 * nB) K) :
    (Solvable (cubeForm I dim nS nB) tau 0 1 → ∃ x, solve_local_problem m I gesv tau A lambda = .ok x ∧
      IsMixedSolution (cubeForm I dim nS nB) (mass I nS) 0 tau 1 (moments (cubeForm I dim nS nB) (upper lambda)) (moments (cubeForm I dim nS nB) (lower lambda)) 0 0
        (qOf (half 0 (toMat x))) (uOf (half 0 (toMat x))) (qOf (half 1 (toMat x))) (uOf (half 1 (toMat x)))) ∧
    (¬ Solvable (cubeForm I dim nS nB) tau 0 1 → solve_local_problem m I gesv tau A lambda = solveFailure m) := by
  obtain ⟨A', hA1, hA2⟩ := assemble_loc_matrix_spec m I dim nS nB tau
  rw [hA] at hA1
  injection hA1 with hA1
  subst hA1
  obtain ⟨v, hv1, hv2⟩ := rhs_spec m I nS tau lambda
  obtain ⟨h1, h2⟩ := mixed_solve_spec _ _ _ _ _ gesv hg A hA2 v
  rw [mixedSolvable_iff] at h1 h2
  unfold solve_local_problem
  rw [hv1, Res.ok_bind]
  refine ⟨fun hs => ?_, fun hs => ?_⟩
  · obtain ⟨x, hx1, hx2⟩ := h1 hs
    exact ⟨x, by rw [hx1]; rfl, hx2 _ _ _ _ hv2⟩
  · rw [h2 hs]; cases m <;> rfl

end Field
end HyperHDG.BilaplacianUniform

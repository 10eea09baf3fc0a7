import Verif.Model.DiffusionEigs
import Verif.Proofs.DiffusionParab

/-!
# Lemmas about the local solver for eigenvalue problems
-/

set_option linter.unusedSectionVars false

namespace HyperHDG.DiffusionEigs

open Spec Finset Matrix LDG DiffusionUniform Diffusion

variable {K : Type} {dim nS nB : Nat}

section Assembly
variable [CommRing K]

/-- The same hyperedge as seen by the parabolic solver. -/
def toParab (E : Edge dim nS K) : DiffusionParab.Edge dim nS K := ⟨E.toEdge, E.area, fun _ _ => 0, fun _ _ _ => 0, fun _ _ _ => 0⟩

theorem locMatrixStep_eq (m : Mode) (E : Edge dim nS K) (tau eig : K) (i j : Fin nS) (M : SmallMat ((dim + 1) * nS) ((dim + 1) * nS) K) :
    locMatrixStep m E tau eig i j M = .ok (M + locAdd (tau * (∑ f : Fin (2 * dim), E.bdr_phiphi i j f) + -(eig * E.vol_phiphi i j)) (E.vol_phiphifunc eig i j)
      (fun d => -(E.vol_nablaphiphi i j d) + ∑ f : Fin (2 * dim), E.local_normal f d * E.bdr_phiphi i j f)
      (fun d => -E.vol_nablaphiphi i j d) i j) := by
  unfold locMatrixStep
  have hface : forUp (2 * dim) (fun face (s : K × (Fin dim → K)) => do
      let helper := E.bdr_phiphi i j face
      return (s.1 + helper, fun d => s.2 d + E.local_normal face d * helper)) (0, fun _ => 0) =
      .ok (∑ f : Fin (2 * dim), E.bdr_phiphi i j f, fun d => ∑ f : Fin (2 * dim), E.local_normal f d * E.bdr_phiphi i j f) := by
    rw [forUp_add (2 * dim) _ (fun f => ((E.bdr_phiphi i j f, fun d => E.local_normal f d * E.bdr_phiphi i j f) : K × (Fin dim → K))) (fun _ _ => rfl)]
    refine congrArg Res.ok (Prod.ext ?_ ?_)
    · simp [Prod.fst_sum]
    · funext d; simp [Prod.snd_sum, Finset.sum_apply]
  dsimp only
  rw [hface, Res.ok_bind, addAt_single m _ (hl i) (hl j), Res.ok_bind]
  dsimp only
  rw [forUp_add dim _ (fun d => singleMat (ix d.castSucc i) (ix d.castSucc j) (E.vol_phiphifunc eig i j) +
    singleMat (ix (Fin.last dim) i) (ix d.castSucc j) (-(E.vol_nablaphiphi i j d)) +
    singleMat (ix d.castSucc i) (ix (Fin.last dim) j) (-E.vol_nablaphiphi i j d) +
    singleMat (ix (Fin.last dim) i) (ix d.castSucc j) (∑ f : Fin (2 * dim), E.local_normal f d * E.bdr_phiphi i j f)),
    Res.ok_bind, subAt_single m _ (hl i) (hl j)]
  · unfold Diffusion.locAdd
    rw [mk_last, mk_last]
    have hadd : ∀ (a b : Fin ((dim + 1) * nS)) (x y : K), singleMat a b (x + y) = singleMat a b x + singleMat a b y := fun a b x y => Pi.single_add _ _ _
    refine congrArg Res.ok ?_
    rw [hadd, add_assoc, add_assoc, add_assoc, add_comm (∑ d, _) (singleMat _ _ _)]
    refine congrArg _ (congrArg _ (congrArg _ (Finset.sum_congr rfl fun d _ => ?_)))
    rw [hadd]
    abel
  · intro d M
    rw [addAt_single m M (hd d i) (hd d j), Res.ok_bind, arrGet_lt _ d.2, Res.ok_bind, subAt_single m _ (hl i) (hd d j), Res.ok_bind,
      subAt_single m _ (hd d i) (hl j), Res.ok_bind, arrGet_lt _ d.2, Res.ok_bind, addAt_single m _ (hl i) (hd d j)]
    refine congrArg Res.ok ?_
    simp only [← add_assoc]
    rfl

theorem assemble_loc_matrix_spec (m : Mode) (E : Edge dim nS K) (nB : Nat) (tau eig : K) :
    ∃ A, assemble_loc_matrix m E tau eig = .ok A ∧ IsMat (form E.toEdge nB eig) tau (-eig) 1 (toMat A) := by
  obtain ⟨A, h1, h2⟩ := matrix_loop (fun i j M => locMatrixStep m E tau eig i j M) _ _ _ _ (fun i j M => locMatrixStep_eq m E tau eig i j M)
  refine ⟨A, h1, fun b i c j => ?_⟩
  rw [h2]
  unfold block
  split
  next h =>
    split
    next h' => split <;> simp [form]
    next h' => simp [form]
  next h =>
    split
    next h' => simp [form, Matrix.sum_apply]
    next h' =>
      simp [form, Matrix.sum_apply]
      ring

theorem rhs_lambda_spec (m : Mode) (E : Edge dim nS K) (tau eig : K) (lambda : LocDofs dim nB K) :
    ∃ v, assemble_rhs_from_lambda m E tau lambda = .ok v ∧
      IsRhs (form E.toEdge nB eig) tau 1 (moments (form E.toEdge nB eig) lambda) 0 (toMat v) := Diffusion.rhs_lambda_spec m E.toEdge tau eig lambda

theorem primal_spec (E : Edge dim nS K) (nB : Nat) (eig : K) (x : SmallVec ((dim + 1) * nS) K) :
    ∃ b, primal_at_boundary E nB x = .ok b ∧ ∀ f j, b f j = (((form E.toEdge nB eig).psi f)ᵀ *ᵥ uOf (toMat x)) j :=
  DiffusionParab.primal_spec (toParab E) nB eig x

theorem dual_spec (E : Edge dim nS K) (nB : Nat) (eig : K) (x : SmallVec ((dim + 1) * nS) K) :
    ∃ b, dual_at_boundary E nB x = .ok b ∧
      ∀ f j, b f j = (((form E.toEdge nB eig).psi f)ᵀ *ᵥ ∑ d, (form E.toEdge nB eig).normal f d • qOf (toMat x) d) j :=
  DiffusionParab.dual_spec (toParab E) nB eig x

theorem eigRhs_spec (E : Edge dim nS K) (eig : K) (c : SmallVec ((dim + 1) * nS) K) :
    ∃ c', eigRhs E eig c = .ok c' ∧ qOf (toMat c') = 0 ∧ uOf (toMat c') = (eig * E.area) • uOf (toMat c) := by
  have hput : ∀ (c : SmallVec ((dim + 1) * nS) K) {k : Nat} (hk : k < (dim + 1) * nS) (x : K), arrPut c k x = .ok (arrSet c (pos ⟨k, hk⟩ (0 : Fin 1)) x) := by
    intro c k hk x
    rw [arrPut_lt c (by omega)]
    congr 2
    simp [pos]
  have hk : ∀ k : Fin (dim * nS), k.1 < (dim + 1) * nS := fun k => lt_of_lt_of_le k.2 (Nat.mul_le_mul_right _ (Nat.le_succ _))
  obtain ⟨c1, h1, h2, h3⟩ := setLoop1 (n := dim * nS) (fun i (c : SmallVec ((dim + 1) * nS) K) => arrPut c i 0)
    (fun k => pos (⟨k, hk k⟩ : Fin ((dim + 1) * nS)) (0 : Fin 1)) (fun k k' h => by
      have := (pos_inj.mp h).1
      simpa [Fin.ext_iff] using this) (fun k _ => 0) (fun k c => hput c (hk k) _) c
  obtain ⟨c2, k1, k2, k3⟩ := setLoop1 (n := nS) (fun i (c : SmallVec ((dim + 1) * nS) K) => do
    let x ← arrGet c (dim * nS + i)
    arrPut c (dim * nS + i) (x * (eig * E.area))) (fun i => pos (ix (Fin.last dim) i) (0 : Fin 1)) (fun i i' h => (ix_inj.mp (pos_inj.mp h).1).2)
    (fun i x => x * (eig * E.area))
    (fun i c => by
      rw [coeffs_get c (hl i), Res.ok_bind, hput c (hl i)]
      rfl) c1
  refine ⟨c2, ?_, ?_, ?_⟩
  · unfold eigRhs
    rw [h1, Res.ok_bind, k1]
  · funext d i
    show c2 (pos (ix d.castSucc i) 0) = _
    rw [k3]
    · exact h2 ⟨d * nS + i, by
        have : (d.1 + 1) * nS ≤ dim * nS := Nat.mul_le_mul_right _ d.2
        have := i.2
        rw [Nat.add_mul] at *
        omega⟩
    · intro i' h
      exact Fin.castSucc_ne_last d (ix_inj.mp (pos_inj.mp h).1).1.symm
  · funext i
    show c2 (pos (ix (Fin.last dim) i) 0) = _
    rw [k2, h3]
    · simp only [Pi.smul_apply, smul_eq_mul, mul_comm]
      rfl
    · intro k h
      have := congrArg Fin.val (pos_inj.mp h).1
      have h4 := k.2
      simp [ix] at this
      omega

end Assembly

section Solve
variable [Field K]

theorem solve_local_problem_spec (m : Mode) (gesv : Gesv ((dim + 1) * nS) 1 K) (hg : GesvSpec gesv) (E : Edge dim nS K) (tau eig : K)
    (lambda : LocDofs dim nB K) :
    (Solvable (form E.toEdge nB eig) tau (-eig) 1 → ∃ x, solve_local_problem m gesv E tau lambda eig = .ok x ∧
      IsSolution (form E.toEdge nB eig) tau (-eig) 1 (moments (form E.toEdge nB eig) lambda) 0 (qOf (toMat x)) (uOf (toMat x))) ∧
    (¬ Solvable (form E.toEdge nB eig) tau (-eig) 1 → solve_local_problem m gesv E tau lambda eig = solveFailure m) := by
  obtain ⟨A, hA1, hA2⟩ := assemble_loc_matrix_spec m E nB tau eig
  obtain ⟨v, hv1, hv2⟩ := rhs_lambda_spec m E tau eig lambda
  have hr2 : solve_local_problem m gesv E tau lambda eig = catchLapack m (solve gesv v A) := by
    simp [solve_local_problem, hv1, hA1]
  obtain ⟨h1, h2⟩ := solve_spec (form E.toEdge nB eig) tau (-eig) 1 gesv hg A hA2 v
  refine ⟨fun hs => ?_, fun hs => ?_⟩
  · obtain ⟨x, hx1, hx2⟩ := h1 hs
    exact ⟨x, by rw [hr2, hx1]; rfl, hx2 _ _ hv2⟩
  · rw [hr2, h2 hs, catch_throw]

theorem writeFlux_eq (E : Edge dim nS K) (tau eig : K) (x : SmallVec ((dim + 1) * nS) K) (lambda out : LocDofs dim nB K) :
    (do
      let primals ← primal_at_boundary E nB x
      let duals ← dual_at_boundary E nB x
      writeFlux E tau primals duals lambda out) =
    .ok (offDirichlet E.toEdge (faceFlux (form E.toEdge nB eig) tau lambda (qOf (toMat x)) (uOf (toMat x)))) := by
  obtain ⟨p, hp1, hp2⟩ := primal_spec E nB eig x
  obtain ⟨d, hd1, hd2⟩ := dual_spec E nB eig x
  rw [hp1, hd1, Res.ok_bind, Res.ok_bind]
  unfold writeFlux
  refine faces_loop E.toEdge _ (fun i j (out : LocDofs dim nB K) =>
      .ok (arrSet out i (arrSet (out i) j (d i j + tau * p i j - tau * lambda i j * E.face_area i)))) (fun i j out => ?_) out
  rw [hp2, hd2]
  simp only [faceFlux, mulVec_add, mulVec_smul, Pi.sub_apply, Pi.add_apply, Pi.smul_apply, smul_eq_mul]
  rw [show (form E.toEdge nB eig).area i = E.face_area i from rfl, mul_right_comm]

theorem addFlux_eq (E : Edge dim nS K) (tau eig : K) (x : SmallVec ((dim + 1) * nS) K) (y : LocDofs dim nB K) :
    (do
      let primals ← primal_at_boundary E nB x
      let duals ← dual_at_boundary E nB x
      addFlux E tau primals duals y) =
    .ok (y + offDirichlet E.toEdge (faceFlux (form E.toEdge nB eig) tau 0 (qOf (toMat x)) (uOf (toMat x)))) := by
  obtain ⟨p, hp1, hp2⟩ := primal_spec E nB eig x
  obtain ⟨d, hd1, hd2⟩ := dual_spec E nB eig x
  rw [hp1, hd1, Res.ok_bind, Res.ok_bind]
  unfold addFlux
  let g : LocDofs dim nB K := offDirichlet E.toEdge (faceFlux (form E.toEdge nB eig) tau 0 (qOf (toMat x)) (uOf (toMat x)))
  have hbody : ∀ (i : Fin (2 * dim)) (out : LocDofs dim nB K),
      (if is_dirichlet E i then forFin nB (fun j (out : LocDofs dim nB K) => .ok (arrSet out i (arrSet (out i) j (out i j + 0)))) out
        else forFin nB (fun j (out : LocDofs dim nB K) => .ok (arrSet out i (arrSet (out i) j (out i j + (d i j + tau * p i j))))) out) =
      .ok (out + ∑ j, single2 i j (g i j)) := by
    intro i out
    have hs : ∀ (out : LocDofs dim nB K) (j : Fin nB) (x : K), arrSet out i (arrSet (out i) j (out i j + x)) = out + single2 i j x := by
      intro out j x
      funext a b
      by_cases ha : a = i
      · subst ha
        by_cases hb : b = j
        · subst hb; simp [arrSet, single2]
        · simp [arrSet, single2, hb]
      · simp [arrSet, single2, ha]
    by_cases hdir : IsDirichlet E.toEdge i
    · rw [if_pos (show is_dirichlet E i = true from (is_dirichlet_iff E.toEdge i).mpr hdir),
        forFin_add nB _ (fun j => single2 i j (g i j)) (fun j out => by
          rw [hs]
          congr 3
          simp [g, offDirichlet, hdir])]
    · rw [if_neg (by intro h; exact hdir ((is_dirichlet_iff E.toEdge i).mp h)),
        forFin_add nB _ (fun j => single2 i j (g i j)) (fun j out => by
          rw [hs, hp2, hd2]
          congr 3
          simp [g, offDirichlet, hdir, faceFlux, mulVec_add, mulVec_smul])]
  rw [forFin_add (2 * dim) _ _ hbody]
  refine congrArg Res.ok (congrArg _ ?_)
  funext a b
  simp only [Finset.sum_apply]
  rw [Finset.sum_eq_single a, Finset.sum_eq_single b] <;> simp +contextual [single2, eq_comm, g]

end Solve

end HyperHDG.DiffusionEigs

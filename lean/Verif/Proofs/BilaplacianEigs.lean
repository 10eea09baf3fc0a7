import Verif.Spec.BilaplacianEigs
import Verif.Proofs.Bilaplacian
import Verif.Proofs.BilaplacianParab
import Verif.Proofs.EigenDeriv
import Mathlib.Tactic.Module

/-!
# Lemmas about the local solver for eigenvalue problems of the bilaplacian
-/

set_option linter.unusedSectionVars false

namespace HyperHDG.BilaplacianEigs

open Spec Finset Matrix LDG DiffusionUniform Mixed Bilaplacian
open BilaplacianParab (mixed_lin mixed_unique)

variable {K : Type} {dim nS nB : Nat}

section Assembly
variable [CommRing K] (m : Mode) (E : Edge dim nS K) (tau eig : K)

theorem locMatrixStep_eq (i j : Fin nS) (M : SmallMat (n_loc_dofs dim nS) (n_loc_dofs dim nS) K) :
    locMatrixStep m E tau eig i j M = .ok (M + blockMat i j (mixedAdd (tau * ∑ f : Fin (2 * dim), E.bdr_phiphi i j f)
      (tau * ∑ f : Fin (2 * dim), E.bdr_phiphi i j f) (-E.vol_phiphifunc eig i j) (-(eig * E.vol_phiphi i j)) (E.vol_phiphi i j)
      (fun d => -E.vol_nablaphiphi i j d + ∑ f : Fin (2 * dim), E.local_normal f d * E.bdr_phiphi i j f)
      (fun d => -E.vol_nablaphiphi i j d + ∑ f : Fin (2 * dim), E.local_normal f d * E.bdr_phiphi i j f)
      (fun d => -E.vol_nablaphiphi i j d))) := by
  unfold locMatrixStep n_dofs_lap
  have hface : forUp (2 * dim) (fun face (s : K × (Fin dim → K)) => do
      let helper := E.bdr_phiphi i j face
      let normal_int_vec ← forUp dim (fun d (n : Fin dim → K) => do
        let x ← arrGet n d
        let y ← arrGet (E.local_normal face) d
        arrPut n d (x + y * helper)) s.2
      return (s.1 + helper, normal_int_vec)) (0, fun _ => 0) =
      .ok (∑ f : Fin (2 * dim), E.bdr_phiphi i j f, fun d => ∑ f : Fin (2 * dim), E.local_normal f d * E.bdr_phiphi i j f) := by
    rw [forUp_add (2 * dim) _ (fun f => ((E.bdr_phiphi i j f, fun d => E.local_normal f d * E.bdr_phiphi i j f) : K × (Fin dim → K)))]
    · refine congrArg Res.ok (Prod.ext ?_ ?_)
      · simp [Prod.fst_sum]
      · funext d; simp [Prod.snd_sum, Finset.sum_apply]
    · intro f s
      dsimp only
      rw [forUp_add dim _ (fun d => Pi.single d (E.local_normal f d * E.bdr_phiphi i j f)), Finset.univ_sum_single, Res.ok_bind]
      · rfl
      · intro d n
        rw [arrGet_lt _ d.2, Res.ok_bind, arrGet_lt _ d.2, Res.ok_bind, arrPut_lt _ d.2]
        exact congrArg Res.ok (arrSet_add n d _)
  dsimp only
  rw [hface, Res.ok_bind, subAt_block m M _ _ i j (row_l i) (row_l' j), Res.ok_bind, addAt_block m _ _ _ i j (row_l i) (row_l j), Res.ok_bind,
    addAt_block m _ _ _ i j (row_l' i) (row_l' j), Res.ok_bind]
  rw [forUp_add dim _ (fun d => blockMat i j (.single (ix 0 d.castSucc) (ix 0 d.castSucc) (E.vol_phiphi i j) +
    .single (ix 1 d.castSucc) (ix 1 d.castSucc) (E.vol_phiphi i j) + .single (ix 0 (Fin.last dim)) (ix 0 d.castSucc) (-E.vol_nablaphiphi i j d) +
    .single (ix 0 d.castSucc) (ix 0 (Fin.last dim)) (-E.vol_nablaphiphi i j d) +
    .single (ix 1 (Fin.last dim)) (ix 1 d.castSucc) (-E.vol_nablaphiphi i j d) +
    .single (ix 1 d.castSucc) (ix 1 (Fin.last dim)) (-E.vol_nablaphiphi i j d) +
    .single (ix 0 (Fin.last dim)) (ix 0 d.castSucc) (∑ f : Fin (2 * dim), E.local_normal f d * E.bdr_phiphi i j f) +
    .single (ix 1 (Fin.last dim)) (ix 1 d.castSucc) (∑ f : Fin (2 * dim), E.local_normal f d * E.bdr_phiphi i j f)))]
  · rw [Res.ok_bind, subAt_block m _ _ _ i j (row_l' i) (row_l j)]
    simp only [add_assoc M]
    rw [← blockMat_sum, ← blockMat_add, ← blockMat_add, ← blockMat_add, ← blockMat_add]
    refine congrArg Res.ok (congrArg _ (congrArg _ ?_))
    unfold mixedAdd
    simp only [Matrix.single_add, Finset.sum_add_distrib]
    abel
  · intro d M
    dsimp only
    rw [addAt_block m M _ _ i j (row_d d i) (row_d d j), Res.ok_bind, addAt_block m _ _ _ i j (row_d' d i) (row_d' d j), Res.ok_bind, arrGet_lt _ d.2, Res.ok_bind,
      subAt_block m _ _ _ i j (row_l i) (row_d d j), Res.ok_bind, subAt_block m _ _ _ i j (row_d d i) (row_l j), Res.ok_bind,
      subAt_block m _ _ _ i j (row_l' i) (row_d' d j), Res.ok_bind, subAt_block m _ _ _ i j (row_d' d i) (row_l' j), Res.ok_bind, arrGet_lt _ d.2, Res.ok_bind,
      addAt_block m _ _ _ i j (row_l i) (row_d d j), Res.ok_bind, addAt_block m _ _ _ i j (row_l' i) (row_d' d j)]
    simp only [blockMat_add, ← add_assoc]

theorem assemble_loc_matrix_spec (nB : Nat) : ∃ A, assemble_loc_matrix m E tau eig = .ok A ∧
    IsMixedMat (form E.stat nB) (coupling E.stat eig) (-(eig • (form E.stat nB).mass0)) tau 1 (toMat A) := by
  obtain ⟨A, h1, h2⟩ := matrix_loop (fun i j M => locMatrixStep m E tau eig i j M) _ (fun i j M => locMatrixStep_eq m E tau eig i j M)
  refine ⟨A, h1, isMixedMat_of _ _ _ _ _ _ ?_⟩
  simp only [one_mul]
  exact h2

/-- The local problem as a mixed problem. -/
theorem eigSolution_iff (nB : Nat) (g h : Fin (2 * dim) → Fin nS → K) (t : Fin nS → K) (q : Fin dim → Fin nS → K) (u : Fin nS → K) (p : Fin dim → Fin nS → K) (w : Fin nS → K) :
    EigSolution E nB tau eig g h t q u p w ↔
      IsMixedSolution (form E.stat nB) (coupling E.stat eig) (-(eig • (form E.stat nB).mass0)) tau 1 g h 0 t q u p w := by
  have e : t - -(eig • (form E.stat nB).mass0) *ᵥ u = eig • ((form E.stat nB).mass0 *ᵥ u) + t := by
    rw [neg_mulVec, smul_mulVec, sub_neg_eq_add, add_comm]
  constructor
  · rintro ⟨h1, h2⟩
    exact ⟨by rwa [zero_add], by rwa [e]⟩
  · rintro ⟨h1, h2⟩
    rw [zero_add] at h1
    rw [e] at h2
    exact ⟨h1, h2⟩

theorem eigSolvable_iff (nB : Nat) : EigSolvable E nB tau eig ↔ MixedSolvable (form E.stat nB) (coupling E.stat eig) (-(eig • (form E.stat nB).mass0)) tau 1 := by
  unfold EigSolvable MixedSolvable
  exact forall_congr' fun q => forall_congr' fun u => forall_congr' fun p => forall_congr' fun w => by rw [eigSolution_iff]

theorem eig_lin {E : Edge dim nS K} {tau eig : K} {g h g' h' : Fin (2 * dim) → Fin nS → K} {t t' : Fin nS → K} {q p q' p' : Fin dim → Fin nS → K} {u w u' w' : Fin nS → K} (a b : K)
    (h1 : EigSolution E nB tau eig g h t q u p w) (h2 : EigSolution E nB tau eig g' h' t' q' u' p' w') :
    EigSolution E nB tau eig (a • g + b • g') (a • h + b • h') (a • t + b • t') (a • q + b • q') (a • u + b • u') (a • p + b • p') (a • w + b • w') := by
  rw [eigSolution_iff] at *
  have := mixed_lin a b h1 h2
  rwa [smul_zero, smul_zero, add_zero] at this

theorem eig_unique {E : Edge dim nS K} {tau eig : K} (hs : EigSolvable E nB tau eig) {g h : Fin (2 * dim) → Fin nS → K} {t : Fin nS → K} {q p q' p' : Fin dim → Fin nS → K} {u w u' w' : Fin nS → K}
    (h1 : EigSolution E nB tau eig g h t q u p w) (h2 : EigSolution E nB tau eig g h t q' u' p' w') : q = q' ∧ u = u' ∧ p = p' ∧ w = w' := by
  rw [eigSolution_iff] at h1 h2
  rw [eigSolvable_iff] at hs
  exact mixed_unique hs h1 h2

theorem eigRhs_spec (c : SmallVec (n_loc_dofs dim nS) K) :
    ∃ c', eigRhs E eig c = .ok c' ∧ half 0 (toMat c') = 0 ∧ qOf (half 1 (toMat c')) = 0 ∧ uOf (half 1 (toMat c')) = (eig * E.area) • uOf (half 0 (toMat c)) := by
  have hput : ∀ (c : SmallVec (n_loc_dofs dim nS) K) {k : Nat} (hk : k < n_loc_dofs dim nS) (x : K), arrPut c k x = .ok (arrSet c (pos ⟨k, hk⟩ (0 : Fin 1)) x) := by
    intro c k hk x
    rw [arrPut_lt c (by omega)]
    congr 2
    simp [pos]
  have hlap : n_loc_dofs dim nS / 2 = (dim + 1) * nS := BilaplacianParab.lap_eq
  have hN : n_loc_dofs dim nS = (dim + 1) * nS + (dim * nS + nS) := by unfold n_loc_dofs; ring
  have hk : ∀ k : Fin (n_loc_dofs dim nS / 2 + dim * nS), k.1 < n_loc_dofs dim nS := fun k => by have := k.2; omega
  let pl : Fin nS → Fin (n_loc_dofs dim nS * 1) := fun i => pos (ix (ix (1 : Fin 2) (Fin.last dim)) i) (0 : Fin 1)
  have hread : ∀ (N : SmallVec (n_loc_dofs dim nS) K), (∀ r, (∀ k, pl k ≠ r) → N r = c r) → uOf (half 0 (toMat N)) = uOf (half 0 (toMat c)) := by
    intro N hN
    funext i
    refine hN (pos (emb 0 (ix (Fin.last dim) i)) 0) fun k h => ?_
    have := (pos_inj.mp h).1
    rw [emb_ix] at this
    exact absurd (ix_inj.mp (ix_inj.mp this).1).1 (by decide)
  obtain ⟨c1, k1, k2, k3⟩ := forUp_inv nS (fun i (c' : SmallVec (n_loc_dofs dim nS) K) => do
    let x ← arrGet c' (dim * nS + i)
    arrPut c' (n_loc_dofs dim nS / 2 + dim * nS + i) (eig * x * E.area)) c
    (fun i N => (∀ k : Fin nS, k.1 < i → N (pl k) = eig * uOf (half 0 (toMat c)) k * E.area) ∧ ∀ r, (∀ k, pl k ≠ r) → N r = c r)
    ⟨fun k hk => absurd hk (Nat.not_lt_zero _), fun r _ => rfl⟩
    (fun i hi N ⟨ha, hb⟩ => by
      have hl := row_l' (dim := dim) (⟨i, hi⟩ : Fin nS)
      have h1 := get_l N ⟨i, hi⟩
      rw [hread N hb] at h1
      refine ⟨arrSet N (pl ⟨i, hi⟩) (eig * uOf (half 0 (toMat c)) ⟨i, hi⟩ * E.area), ?_, fun k hk => ?_, fun r hr => ?_⟩
      · rw [h1, Res.ok_bind, hput N (show _ < n_loc_dofs dim nS from hl ▸ Fin.isLt _)]
        congr 3
        exact Fin.ext hl
      · by_cases h : k = ⟨i, hi⟩
        · subst h; simp [arrSet]
        · have hne : pl k ≠ pl ⟨i, hi⟩ := fun h' => h (ix_inj.mp (pos_inj.mp h').1).2
          rw [arrSet, if_neg hne]
          exact ha k (by
            have : k.1 ≠ i := fun h' => h (Fin.ext h')
            omega)
      · rw [arrSet, if_neg (hr ⟨i, hi⟩).symm]
        exact hb r hr)
  obtain ⟨c2, h1, h2, h3⟩ := setLoop1 (n := n_loc_dofs dim nS / 2 + dim * nS) (fun i (c : SmallVec (n_loc_dofs dim nS) K) => arrPut c i 0)
    (fun k => pos (⟨k, hk k⟩ : Fin (n_loc_dofs dim nS)) (0 : Fin 1)) (fun k k' h => by
      have := (pos_inj.mp h).1
      simpa [Fin.ext_iff] using this) (fun k _ => 0) (fun k c => hput c (hk k) _) c1
  have hlow : ∀ (r : Fin (n_loc_dofs dim nS)), r.1 < n_loc_dofs dim nS / 2 + dim * nS → c2 (pos r 0) = 0 := fun r hr => h2 ⟨r, hr⟩
  refine ⟨c2, ?_, ?_, ?_, ?_⟩
  · unfold eigRhs
    rw [k1, Res.ok_bind, h1]
  · funext r l
    obtain rfl : l = 0 := Subsingleton.elim _ _
    refine hlow (emb 0 r) ?_
    have := r.2
    simp only [emb, hlap]
    simp
    omega
  · funext d i
    refine hlow (emb 1 (ix d.castSucc i)) ?_
    have e := row_d' (dim := dim) d i
    rw [emb_ix, ← e]
    have h4 : (d.1 + 1) * nS ≤ dim * nS := Nat.mul_le_mul_right _ d.2
    have h5 := i.2
    rw [Nat.add_mul] at h4
    unfold n_loc_dofs
    omega
  · funext i
    show c2 (pos (emb 1 (ix (Fin.last dim) i)) 0) = _
    have e := row_l' (dim := dim) i
    rw [h3]
    · rw [emb_ix]
      refine (k2 i i.2).trans ?_
      rw [Pi.smul_apply, smul_eq_mul]
      ring
    · intro k h
      have := congrArg Fin.val (pos_inj.mp h).1
      rw [emb_ix, ← e] at this
      have h4 := k.2
      simp only at this
      unfold n_loc_dofs at h4
      omega

end Assembly

section Solve
variable [Field K]

theorem solve_local_problem_spec (m : Mode) (gesv : Gesv (n_loc_dofs dim nS) 1 K) (hg : GesvSpec gesv) (E : Edge dim nS K) (tau eig : K) (lambda : LocDofs dim (2 * nB) K) :
    (EigSolvable E nB tau eig → ∃ x, solve_local_problem m gesv E tau lambda eig = .ok x ∧
      EigSolution E nB tau eig (moments (form E.stat nB) (upper lambda)) (moments (form E.stat nB) (lower lambda)) 0
        (qOf (half 0 (toMat x))) (uOf (half 0 (toMat x))) (qOf (half 1 (toMat x))) (uOf (half 1 (toMat x)))) ∧
    (¬ EigSolvable E nB tau eig → solve_local_problem m gesv E tau lambda eig = solveFailure m) := by
  obtain ⟨A, hA1, hA2⟩ := assemble_loc_matrix_spec m E tau eig nB
  obtain ⟨v, hv1, hv2⟩ := rhs_lambda_spec m E.stat tau lambda
  have hr2 : solve_local_problem m gesv E tau lambda eig = catchLapack m (solve gesv v A) := by
    simp [solve_local_problem, hv1, hA1]
  obtain ⟨h1, h2⟩ := mixed_solve_spec (form E.stat nB) (coupling E.stat eig) (-(eig • (form E.stat nB).mass0)) tau 1 gesv hg A hA2 v
  rw [eigSolvable_iff]
  refine ⟨fun hs => ?_, fun hs => ?_⟩
  · obtain ⟨x, hx1, hx2⟩ := h1 hs
    exact ⟨x, by rw [hr2, hx1]; rfl, (eigSolution_iff _ _ _ _ _ _ _ _ _ _ _).mpr (hx2 _ _ _ _ hv2)⟩
  · rw [hr2, h2 hs, Diffusion.catch_throw]

theorem writeFlux_eq (E : Edge dim nS K) (tau : K) (x : SmallVec (n_loc_dofs dim nS) K) (lambda out : LocDofs dim (2 * nB) K) :
    (do
      let primals ← primal_at_boundary E.stat nB x
      let duals ← dual_at_boundary E.stat nB x
      writeFlux E tau primals duals lambda out) =
    .ok (fluxes E tau lambda (qOf (half 0 (toMat x))) (uOf (half 0 (toMat x))) (qOf (half 1 (toMat x))) (uOf (half 1 (toMat x)))) :=
  Bilaplacian.writeFlux_eq E.stat tau x lambda out

theorem fluxes_lin (E : Edge dim nS K) (tau a b : K) (lambda mu : LocDofs dim (2 * nB) K) (q p q' p' : Fin dim → Fin nS → K) (u w u' w' : Fin nS → K) :
    fluxes E tau (a • lambda + b • mu) (a • q + b • q') (a • u + b • u') (a • p + b • p') (a • w + b • w') =
      a • fluxes E tau lambda q u p w + b • fluxes E tau mu q' u' p' w' := by
  unfold fluxes
  rw [show upper (a • lambda + b • mu) = a • upper lambda + b • upper mu from rfl, show lower (a • lambda + b • mu) = a • lower lambda + b • lower mu from rfl, flux_lin, flux_lin]
  funext f j
  obtain ⟨k, rfl | rfl⟩ := halves_cases j
  · simp only [offDirichlet_up, Pi.add_apply, Pi.smul_apply, smul_eq_mul]
    split <;> simp
  · simp only [offDirichlet_lo, Pi.add_apply, Pi.smul_apply, smul_eq_mul]
    split <;> simp

theorem row_add {n k : Nat} (i : Fin n) (g : Fin k → K) (out : Fin n → Fin k → K) :
    forFin k (fun j (out : Fin n → Fin k → K) => .ok (arrSet out i (arrSet (out i) j (out i j + g j)))) out = .ok (arrSet out i (out i + g)) := by
  obtain ⟨o, h1, h2, h3⟩ := forFin_inv k (fun j (out : Fin n → Fin k → K) => .ok (arrSet out i (arrSet (out i) j (out i j + g j)))) out
    (fun l o => (∀ a, a ≠ i → o a = out a) ∧ ∀ j : Fin k, o i j = if j.1 < l then out i j + g j else out i j)
    ⟨fun _ _ => rfl, fun j => by simp⟩ (fun l o ho => ⟨_, rfl, fun a ha => by simp [arrSet, ha, ho.1 a ha], fun j => by
      by_cases hjl : j = l
      · subst hjl; simp [arrSet, ho.2]
      · have h : j.1 ≠ l.1 := fun h => hjl (Fin.ext h)
        have e : j.1 < l.1 + 1 ↔ j.1 < l.1 := by omega
        simp [arrSet, hjl, ho.2 j, e]⟩)
  rw [h1]
  refine congrArg Res.ok (funext fun a => ?_)
  by_cases ha : a = i
  · subst ha; funext j; rw [h3 j]; simp [arrSet]
  · rw [h2 a ha]; simp [arrSet, ha]

theorem add_loop (E : Bilaplacian.Edge dim nS K) (g y : LocDofs dim (2 * nB) K) :
    forFin (2 * dim) (fun i out => do
      let out ← forFin (2 * nB) (fun j (out : LocDofs dim (2 * nB) K) => .ok (arrSet out i (arrSet (out i) j (out i j + g i j)))) out
      zeroDirichlet E i out) y = .ok (offDirichlet E (upper (y + g)) (lower (y + g))) := by
  obtain ⟨o, h1, h2⟩ := forFin_inv (2 * dim) (fun i out => do
      let out ← forFin (2 * nB) (fun j (out : LocDofs dim (2 * nB) K) => .ok (arrSet out i (arrSet (out i) j (out i j + g i j)))) out
      zeroDirichlet E i out) y (fun l o => ∀ a : Fin (2 * dim), o a = if a.1 < l then offDirichlet E (upper (y + g)) (lower (y + g)) a else y a) (fun a => by simp) (fun i o ho => by
    rw [row_add, Res.ok_bind, zeroDirichlet_eq]
    refine ⟨_, rfl, fun a => ?_⟩
    by_cases ha : a = i
    · subst ha
      have hoa : o a = y a := by rw [ho a, if_neg (lt_irrefl _)]
      rw [if_pos (Nat.lt_succ_self _)]
      funext j
      obtain ⟨k, rfl | rfl⟩ := halves_cases j
      · simp only [arrSet, if_true, offDirichlet_up, upper, hoa]; rfl
      · simp only [arrSet, if_true, offDirichlet_lo, lower, hoa]; rfl
    · have h : a.1 ≠ i.1 := fun h => ha (Fin.ext h)
      have e : a.1 < i.1 + 1 ↔ a.1 < i.1 := by omega
      simp only [arrSet, if_neg ha, ho a, e])
  rw [h1]
  exact congrArg Res.ok (funext fun a => by rw [h2 a, if_pos a.2])

theorem addFlux_eq (E : Edge dim nS K) (tau : K) (x : SmallVec (n_loc_dofs dim nS) K) (y : LocDofs dim (2 * nB) K) (hy : VanishesOnDirichlet E.stat y) :
    (do
      let primals ← primal_at_boundary E.stat nB x
      let duals ← dual_at_boundary E.stat nB x
      addFlux E tau primals duals y) =
    .ok (y + fluxes E tau 0 (qOf (half 0 (toMat x))) (uOf (half 0 (toMat x))) (qOf (half 1 (toMat x))) (uOf (half 1 (toMat x)))) := by
  rw [Bilaplacian.primal_spec, Bilaplacian.dual_spec, Res.ok_bind, Res.ok_bind]
  unfold addFlux
  rw [add_loop E.stat (fun i j => _ + tau * _)]
  refine congrArg Res.ok (funext fun f => funext fun j => ?_)
  rw [fluxes]
  obtain ⟨k, rfl | rfl⟩ := halves_cases j
  · rw [Pi.add_apply, Pi.add_apply, offDirichlet_up, offDirichlet_up]
    split
    next h => rw [show y f (up k) = 0 from (hy f).1 h k, add_zero]
    next h =>
      show y f (up k) + (halves _ _ f (up k) + tau * halves _ _ f (up k)) = _
      rw [halves_up, halves_up]
      simp [faceFlux, mulVec_add, mulVec_smul, lower]
  · rw [Pi.add_apply, Pi.add_apply, offDirichlet_lo, offDirichlet_lo]
    split
    next h => rw [show y f (lo k) = 0 from (hy f).2 h k, add_zero]
    next h =>
      show y f (lo k) + (halves _ _ f (lo k) + tau * halves _ _ f (lo k)) = _
      rw [halves_lo, halves_lo]
      simp [faceFlux, mulVec_add, mulVec_smul, upper]

end Solve

open Classical in
theorem make_initial_eq [CommRing K] (E : Edge dim nS K) (time : K) (lambda : LocDofs dim (2 * nB) K) :
    make_initial lambda E time = .ok (fun f j => if IsDirichlet E.stat f then 0 else if j.1 < nB then E.bdrUni_psifunc time j f else E.bdrUni_psifunc_laplace time j f) := by
  have e : 2 * nB / 2 = nB := by omega
  have e' : 2 * nB - nB = nB := by omega
  refine forFin_write (2 * dim) _ _ (fun i out => ?_) lambda
  simp only [e, e']
  by_cases hd : IsDirichlet E.stat i
  · rw [if_pos ((is_dirichlet_iff E.stat i).mpr hd), row_set i (fun _ => 0) _ (fun _ _ => rfl)]
    simp [hd]
  · rw [if_neg (by rw [is_dirichlet_iff]; exact hd)]
    have h1 := put_loop i 0 nB (by omega) (fun j => E.bdrUni_psifunc time j i) out
    simp only [Nat.zero_add, Nat.zero_le, true_and] at h1
    rw [h1, Res.ok_bind, put_loop i nB nB (by omega) (fun j => E.bdrUni_psifunc_laplace time j i)]
    refine congrArg Res.ok (funext fun a => ?_)
    by_cases ha : a = i
    · subst ha
      funext j
      simp only [arrSet, if_true, hd, if_false]
      have := j.2
      by_cases hj : j.1 < nB
      · rw [if_neg (by omega), if_pos hj, if_pos hj]
      · rw [if_pos (by omega), if_neg hj]
    · simp [arrSet, ha]

/-! ## Dependence of local solutions on trace and eigenvalue -/

theorem isMixedMat_exists [CommRing K] (F : Form dim nS nB K) (B C : Matrix (Fin nS) (Fin nS) K) (tau sigma : K) : ∃ A, IsMixedMat F B C tau sigma A := by
  choose r i h using fun k : Fin (2 * (dim + 1) * nS) => ix_surj k
  choose k b h' using fun r : Fin (2 * (dim + 1)) => ix_surj r
  refine ⟨fun x y => mixedBlock F B C tau sigma (k (r x)) (k (r y)) (b (r x)) (b (r y)) (i x) (i y), fun k0 b0 i0 l0 c0 j0 => ?_⟩
  have h1 := ix_inj.mp (h (ix (ix k0 b0) i0))
  have h2 := ix_inj.mp (h (ix (ix l0 c0) j0))
  have h3 := ix_inj.mp (h' (ix k0 b0))
  have h4 := ix_inj.mp (h' (ix l0 c0))
  dsimp only
  rw [h1.1, h1.2, h2.1, h2.2, h3.1, h3.2, h4.1, h4.2]

/-- A right-hand side vector with given data. -/
def packRhs [CommRing K] (F : Form dim nS nB K) (tau : K) (g h : Fin (2 * dim) → Fin nS → K) (s t : Fin nS → K) : Matrix (Fin (2 * (dim + 1) * nS)) (Fin 1) K :=
  join (packQU (fun d => blockRhs F tau 1 g s d.castSucc) (blockRhs F tau 1 g s (Fin.last dim))) (packQU (fun d => blockRhs F tau 1 h t d.castSucc) (blockRhs F tau 1 h t (Fin.last dim)))

theorem isMixedRhs_pack [CommRing K] (F : Form dim nS nB K) (tau : K) (g h : Fin (2 * dim) → Fin nS → K) (s t : Fin nS → K) : IsMixedRhs F tau 1 g h s t (packRhs F tau g h s t) := by
  refine ⟨?_, ?_⟩
  · rw [packRhs, half_join_zero]; exact isRhs_pack F tau 1 g s
  · rw [packRhs, half_join_one]; exact isRhs_pack F tau 1 h t

/-- The difference of the matrices for two couplings. -/
theorem mixedMat_diff [CommRing K] {F : Form dim nS nB K} {B C C' : Matrix (Fin nS) (Fin nS) K} {tau sigma : K} {A A' : Matrix (Fin (2 * (dim + 1) * nS)) (Fin (2 * (dim + 1) * nS)) K}
    (hA : IsMixedMat F B C tau sigma A) (hA' : IsMixedMat F B C' tau sigma A') (x : Matrix (Fin (2 * (dim + 1) * nS)) (Fin 1) K) :
    half 0 ((A' - A) * x) = 0 ∧ half 1 ((A' - A) * x) = lastBlock ((C' - C) *ᵥ uOf (half 0 x)) := by
  have h1 : ∀ k b i l c j, A (ix (ix k b) i) (ix (ix l c) j) = mixedBlock F B C tau sigma k l b c i j := hA
  have h2 : ∀ k b i l c j, A' (ix (ix k b) i) (ix (ix l c) j) = mixedBlock F B C' tau sigma k l b c i j := hA'
  constructor
  · funext r l
    obtain rfl : l = 0 := Subsingleton.elim _ _
    show ((A' - A) * x) (emb 0 r) 0 = 0
    rw [Matrix.mul_apply, sum_emb, Fin.sum_univ_two]
    obtain ⟨b, i, rfl⟩ := ix_surj r
    rw [sum_ix, sum_ix]
    simp only [emb_ix, Matrix.sub_apply, h1, h2, mixedBlock, if_neg one_ne_zero, if_true, sub_self, zero_mul, Finset.sum_const_zero, add_zero]
  · funext r l
    obtain rfl : l = 0 := Subsingleton.elim _ _
    show ((A' - A) * x) (emb 1 r) 0 = _
    rw [Matrix.mul_apply, sum_emb, Fin.sum_univ_two]
    obtain ⟨b, i, rfl⟩ := ix_surj r
    rw [sum_ix, sum_ix]
    simp only [emb_ix, Matrix.sub_apply, h1, h2, mixedBlock, if_neg one_ne_zero, if_true, sub_self, zero_mul, Finset.sum_const_zero, add_zero]
    induction b using Fin.lastCases with
    | last =>
      rw [Fin.sum_univ_castSucc]
      simp [lastBlock_l, Fin.castSucc_ne_last, mulVec, dotProduct, uOf, half, emb_ix]
    | cast d => simp [lastBlock_c, Fin.castSucc_ne_last]

/-- The right-hand side for a line of traces. -/
theorem isRhs_line [CommRing K] (F : Form dim nS nB K) (tau : K) (l dl : Fin (2 * dim) → Fin nB → K) {v w : Matrix (Fin ((dim + 1) * nS)) (Fin 1) K}
    (hv : IsRhs F tau 1 (moments F l) 0 v) (hw : IsRhs F tau 1 (moments F dl) 0 w) (t : K) : IsRhs F tau 1 (moments F (l + t • dl)) 0 (v + t • w) := by
  intro b i
  rw [Matrix.add_apply, Matrix.smul_apply, hv, hw]
  have hm := moments_lin (F := F) (lambda := l) (mu := dl) 1 t
  simp only [one_smul] at hm
  rw [hm]
  induction b using Fin.lastCases with
  | last =>
    simp only [rhs_l, Pi.add_apply, Pi.smul_apply, Finset.sum_apply, smul_eq_mul, Finset.sum_add_distrib, Finset.mul_sum, Pi.zero_apply, zero_add, mul_add, one_mul]
    congr 1
    exact Finset.sum_congr rfl fun f _ => by ring
  | cast d =>
    simp only [rhs_c, Pi.add_apply, Pi.smul_apply, Finset.sum_apply, smul_eq_mul, Finset.sum_add_distrib, Finset.mul_sum, Pi.neg_apply, mul_add, neg_add, mul_neg]
    congr 2
    exact Finset.sum_congr rfl fun f _ => by ring

open _root_.Topology Filter in
/-- The derivative of local solutions with respect to trace and eigenvalue solves the local problem with the derivative of the trace and a source. -/
theorem mixed_deriv (F : Form dim nS nB ℝ) (B M : Matrix (Fin nS) (Fin nS) ℝ) (tau eig de : ℝ) (l dl k dk : Fin (2 * dim) → Fin nB → ℝ) (hs : MixedSolvable F B (-(eig • M)) tau 1)
    (q : ℝ → Fin dim → Fin nS → ℝ) (u : ℝ → Fin nS → ℝ) (p : ℝ → Fin dim → Fin nS → ℝ) (w : ℝ → Fin nS → ℝ)
    (h : ∀ t : ℝ, MixedSolvable F B (-((eig + t * de) • M)) tau 1 →
      IsMixedSolution F B (-((eig + t * de) • M)) tau 1 (moments F (l + t • dl)) (moments F (k + t • dk)) 0 0 (q t) (u t) (p t) (w t)) :
    (∀ᶠ t in 𝓝 (0 : ℝ), MixedSolvable F B (-((eig + t * de) • M)) tau 1) ∧
    ∀ q' u' p' w', IsMixedSolution F B (-(eig • M)) tau 1 (moments F dl) (moments F dk) 0 (de • M *ᵥ u 0) q' u' p' w' →
      HasDerivAt q q' 0 ∧ HasDerivAt u u' 0 ∧ HasDerivAt p p' 0 ∧ HasDerivAt w w' 0 := by
  obtain ⟨A, hA⟩ := isMixedMat_exists F B (-(eig • M)) tau 1
  obtain ⟨A', hA'⟩ := isMixedMat_exists F B (-((eig + de) • M)) tau 1
  have hAt : ∀ t : ℝ, IsMixedMat F B (-((eig + t * de) • M)) tau 1 (A + t • (A' - A)) := by
    intro t k b i l c j
    rw [Matrix.add_apply, Matrix.smul_apply, Matrix.sub_apply, hA, hA']
    unfold mixedBlock
    split
    · split <;> simp
    · split
      · split
        · simp only [Matrix.neg_apply, Matrix.smul_apply, smul_eq_mul]; ring
        · simp
      · simp
  let v := packRhs F tau (moments F l) (moments F k) 0 0
  let v' := packRhs F tau (moments F dl) (moments F dk) 0 0
  have hv : IsMixedRhs F tau 1 (moments F l) (moments F k) 0 0 v := isMixedRhs_pack F tau _ _ _ _
  have hv' : IsMixedRhs F tau 1 (moments F dl) (moments F dk) 0 0 v' := isMixedRhs_pack F tau _ _ _ _
  have hvw : ∀ t : ℝ, IsMixedRhs F tau 1 (moments F (l + t • dl)) (moments F (k + t • dk)) 0 0 (v + t • v') := fun t =>
    ⟨isRhs_line F tau l dl hv.1 hv'.1 t, isRhs_line F tau k dk hv.2 hv'.2 t⟩
  let x : ℝ → Fin (2 * (dim + 1) * nS) → ℝ := fun t r => join (packQU (q t) (u t)) (packQU (p t) (w t)) r 0
  have hcol : ∀ (M : Matrix (Fin (2 * (dim + 1) * nS)) (Fin (2 * (dim + 1) * nS)) ℝ) (y z : Matrix (Fin (2 * (dim + 1) * nS)) (Fin 1) ℝ),
      M * y = z ↔ M *ᵥ (fun k => y k 0) = fun k => z k 0 := by
    intro M y z
    constructor
    · rintro rfl; rfl
    · intro h
      funext k j
      obtain rfl : j = 0 := Subsingleton.elim _ _
      exact congrFun h k
  have hx : ∀ t : ℝ, IsUnit (A + t • (A' - A)) → (A + t • (A' - A)) *ᵥ x t = (fun k => v k 0) + t • fun k => v' k 0 := by
    intro t ht
    have hs' := (mixed_isUnit_iff F B _ tau 1 _ (hAt t)).mp ht
    have h1 := (mixed_system_iff F B _ tau 1 _ _ _ _ _ (hAt t) _ (hvw t) (join (packQU (q t) (u t)) (packQU (p t) (w t)))).mpr
      (by simpa only [half_join_zero, half_join_one, qOf_pack, uOf_pack] using h t hs')
    exact (hcol _ _ _).mp h1
  obtain ⟨h1, h2⟩ := MatrixDeriv.hasDerivAt_solve A (A' - A) _ _ ((mixed_isUnit_iff F B _ tau 1 A hA).mpr hs) x hx
  refine ⟨h1.mono fun t ht => (mixed_isUnit_iff F B _ tau 1 _ (hAt t)).mp ht, fun q' u' p' w' hq => ?_⟩
  obtain ⟨hd0, hd1⟩ := mixedMat_diff hA hA' (join (packQU (q 0) (u 0)) (packQU (p 0) (w 0)))
  rw [half_join_zero, uOf_pack] at hd1
  have hr : IsMixedRhs F tau 1 (moments F dl) (moments F dk) 0 (de • M *ᵥ u 0) (v' - (A' - A) * join (packQU (q 0) (u 0)) (packQU (p 0) (w 0))) := by
    refine ⟨?_, ?_⟩
    · show IsRhs F tau 1 _ _ (half 0 v' - half 0 ((A' - A) * _))
      rw [hd0, sub_zero]
      exact hv'.1
    · show IsRhs F tau 1 _ _ (half 1 v' - half 1 ((A' - A) * _))
      have := isRhs_last hv'.2 (de • M *ᵥ u 0)
      rw [zero_add] at this
      refine (congrArg (IsRhs F tau 1 _ _) ?_).mp this
      rw [hd1, sub_eq_add_neg]
      congr 1
      have e : (-((eig + de) • M) - -(eig • M)) *ᵥ u 0 = -(de • M *ᵥ u 0) := by
        rw [← smul_mulVec, ← neg_mulVec]; congr 1; module
      rw [e]
      funext r j
      obtain rfl : j = 0 := Subsingleton.elim _ _
      obtain ⟨b, i, rfl⟩ := ix_surj r
      induction b using Fin.lastCases with
      | last => simp [lastBlock_l]
      | cast d => simp [lastBlock_c]
  have h3 := (mixed_system_iff F B _ tau 1 _ _ _ _ A hA _ hr (join (packQU q' u') (packQU p' w'))).mpr
    (by simpa only [half_join_zero, half_join_one, qOf_pack, uOf_pack] using hq)
  have h4 := h2 (fun k => join (packQU q' u') (packQU p' w') k 0) (by
    rw [(hcol _ _ _).mp h3]
    rfl)
  have h5 := hasDerivAt_pi.mp h4
  have e0 : ∀ (q : Fin dim → Fin nS → ℝ) (u : Fin nS → ℝ) (p : Fin dim → Fin nS → ℝ) (w : Fin nS → ℝ) r, join (packQU q u) (packQU p w) (emb 0 r) 0 = packQU q u r 0 := fun q u p w r =>
    congrFun (congrFun (half_join_zero (packQU q u) (packQU p w)) r) 0
  have e1 : ∀ (q : Fin dim → Fin nS → ℝ) (u : Fin nS → ℝ) (p : Fin dim → Fin nS → ℝ) (w : Fin nS → ℝ) r, join (packQU q u) (packQU p w) (emb 1 r) 0 = packQU p w r 0 := fun q u p w r =>
    congrFun (congrFun (half_join_one (packQU q u) (packQU p w)) r) 0
  have ec : ∀ (p : Fin dim → Fin nS → ℝ) (w : Fin nS → ℝ) d i, packQU p w (ix d.castSucc i) 0 = p d i := fun p w d i => congrFun (congrFun (qOf_pack p w) d) i
  have el : ∀ (p : Fin dim → Fin nS → ℝ) (w : Fin nS → ℝ) i, packQU p w (ix (Fin.last dim) i) 0 = w i := fun p w i => congrFun (uOf_pack p w) i
  refine ⟨hasDerivAt_pi.mpr fun d => hasDerivAt_pi.mpr fun i => ?_, hasDerivAt_pi.mpr fun i => ?_, hasDerivAt_pi.mpr fun d => hasDerivAt_pi.mpr fun i => ?_, hasDerivAt_pi.mpr fun i => ?_⟩
  · simpa only [x, e0, ec] using h5 (emb 0 (ix d.castSucc i))
  · simpa only [x, e0, el] using h5 (emb 0 (ix (Fin.last dim) i))
  · simpa only [x, e1, ec] using h5 (emb 1 (ix d.castSucc i))
  · simpa only [x, e1, el] using h5 (emb 1 (ix (Fin.last dim) i))

end HyperHDG.BilaplacianEigs

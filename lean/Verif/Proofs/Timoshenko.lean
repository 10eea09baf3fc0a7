import Verif.Proofs.Beam
import Verif.Proofs.Blocks
import Verif.Proofs.BulkValues

/-!
# What the functions of the local solver for networks of beams compute
-/

set_option linter.unusedSectionVars false

namespace HyperHDG.Timoshenko

open Spec Finset Matrix DiffusionUniform Blocks

variable {K : Type} {nS : Nat}

/-- The block of the forces and moments. -/
def fl (d : Fin 6) : Fin 12 := ⟨d, by omega⟩
/-- The block of the displacements and rotations. -/
def pr (d : Fin 6) : Fin 12 := ⟨6 + d, by omega⟩

theorem fl_inj {d e : Fin 6} : fl d = fl e ↔ d = e := by simp [fl, Fin.ext_iff]
theorem pr_inj {d e : Fin 6} : pr d = pr e ↔ d = e := by simp [pr, Fin.ext_iff]
theorem fl_ne {d e : Fin 6} : (fl d = pr e) = False := by simp [fl, pr, Fin.ext_iff]; omega
theorem pr_ne {d e : Fin 6} : (pr d = fl e) = False := by simp [fl, pr, Fin.ext_iff]; omega

theorem fl_or_pr (b : Fin 12) : (∃ d, b = fl d) ∨ ∃ d, b = pr d := by
  by_cases h : b.1 < 6
  · exact Or.inl ⟨⟨b, h⟩, rfl⟩
  · exact Or.inr ⟨⟨b.1 - 6, by omega⟩, Fin.ext (by simp [pr]; omega)⟩

theorem sum_fl_pr {M : Type} [AddCommMonoid M] (f : Fin 12 → M) : ∑ b, f b = ∑ d, f (fl d) + ∑ d, f (pr d) := Fin.sum_univ_add (a := 6) (b := 6) f

theorem is_dirichlet_iff (E : Edge nS K) (f : Fin (2 * 1)) : is_dirichlet E f = true ↔ IsDirichlet E f := by
  simp [is_dirichlet, IsDirichlet]

section Frame
variable [CommRing K]

theorem sum_two {M : Type} [AddCommMonoid M] (f : Fin (2 * 1) → M) : ∑ i, f i = f 0 + f 1 := Fin.sum_univ_two f

theorem addComponent_eq (n : Fin 3 → K) (k : Nat) (hk : k < 3) (glob loc : LocDofs 1 6 K) : addComponent n k glob loc =
    .ok (loc + ∑ i : Fin 2, ∑ d : Fin 3, (single2 i ⟨k, by omega⟩ (n d * glob i (Fin.castAdd 3 d)) + single2 i ⟨k + 3, by omega⟩ (n d * glob i (Fin.addNat d 3)))) := by
  unfold addComponent
  refine forUp_add 2 _ (fun i => ∑ d : Fin 3, _) (fun i loc => forUp_add 3 _ (fun d => _) (fun d loc => ?_) loc) loc
  have h1 : d.1 < 6 := by omega
  have h2 : d.1 + 3 < 6 := by omega
  rw [arrGet_lt _ d.2, Res.ok_bind, arrGet2_lt _ i.2 h1, Res.ok_bind, arrAdd2_lt _ i.2 (by omega : k < 6), Res.ok_bind, arrGet2_lt _ i.2 h2, Res.ok_bind,
    arrAdd2_lt _ i.2 (by omega : k + 3 < 6), add_assoc]
  rfl

theorem spreadComponent_eq (n : Fin 3 → K) (k : Nat) (hk : k < 3) (loc glob : LocDofs 1 6 K) : spreadComponent n k loc glob =
    .ok (glob + ∑ i : Fin 2, ∑ d : Fin 3, (single2 i (Fin.castAdd 3 d) (n d * loc i ⟨k, by omega⟩) + single2 i (Fin.addNat d 3) (n d * loc i ⟨k + 3, by omega⟩))) := by
  unfold spreadComponent
  refine forUp_add 2 _ (fun i => ∑ d : Fin 3, _) (fun i glob => forUp_add 3 _ (fun d => _) (fun d glob => ?_) glob) glob
  have h1 : d.1 < 6 := by omega
  have h2 : d.1 + 3 < 6 := by omega
  rw [arrGet_lt _ d.2, Res.ok_bind, arrGet2_lt _ i.2 (by omega : k < 6), Res.ok_bind, arrAdd2_lt _ i.2 h1, Res.ok_bind, arrGet2_lt _ i.2 (by omega : k + 3 < 6), Res.ok_bind,
    arrAdd2_lt _ i.2 h2, add_assoc]
  rfl

theorem node_to_edge (E : Edge nS K) (lambda : LocDofs 1 6 K) : node_dof_to_edge_dof E lambda = .ok fun f => inFrame (frame E) (lambda f) := by
  unfold node_dof_to_edge_dof
  rw [addComponent_eq _ 0 (by omega), Res.ok_bind]
  rw [forUp_add 2 _ _ (fun ind loc => addComponent_eq (E.outer_normal ind) (1 + ind) (by omega) lambda loc)]
  refine congrArg Res.ok (funext fun f => funext fun j => ?_)
  fin_cases f <;> fin_cases j <;>
    simp [Fin.sum_univ_two, Fin.sum_univ_three, single2, inFrame, both, linPart, angPart, frame, mulVec, dotProduct, Fin.ext_iff]

theorem edge_to_node (E : Edge nS K) (y out : LocDofs 1 6 K) : edge_dof_to_node_dof E y out = .ok (out + fun f => inSpace (frame E) (y f)) := by
  unfold edge_dof_to_node_dof
  rw [spreadComponent_eq _ 0 (by omega), Res.ok_bind]
  rw [forUp_add 2 _ _ (fun ind loc => spreadComponent_eq (E.outer_normal ind) (1 + ind) (by omega) y loc)]
  refine congrArg Res.ok ?_
  rw [add_assoc]
  refine congrArg _ (funext fun f => funext fun j => ?_)
  fin_cases f <;> fin_cases j <;>
    simp [Fin.sum_univ_two, Fin.sum_univ_three, single2, inSpace, both, linPart, angPart, frame, mulVec, dotProduct, Fin.ext_iff, add_assoc]


theorem rhs_lambda_spec (m : Mode) (E : Edge nS K) (tau : K) (lambda : LocDofs 1 6 K) :
    ∃ v, assemble_rhs_from_lambda m E tau lambda = .ok v ∧ (∀ d, blk v (fl d) = -∑ f, (form E).normal f 0 • beamMoments (form E) lambda f d) ∧
      ∀ d, blk v (pr d) = ∑ f, tau • beamMoments (form E) lambda f d := by
  obtain ⟨v, h1, h2⟩ := vector_loop (D := 12) (fun i v => forUp 1 (fun j v => forUp 2 (fun face v => do
    let integral := E.bdr_phipsi i j face
    forUp 6 (fun d (v : SmallVec (n_loc_dofs nS) K) => do
      let l ← arrGet2 lambda face (j + d)
      let v ← SmallMat.addTo m ((6 + d) * nS + i) (tau * l * integral) v
      let n ← arrGet (E.local_normal face) 0
      SmallMat.subFrom m (d * nS + i) (n * l * integral) v) v) v) v)
    (fun i => ∑ _j : Fin 1, ∑ f : Fin 2, ∑ d : Fin 6, (singleMat (ix (pr d) i) 0 (tau * lambda f d * E.bdr_phipsi i 0 f) +
      singleMat (ix (fl d) i) 0 (-(E.local_normal f 0 * lambda f d * E.bdr_phipsi i 0 f))))
    (fun b i => ∑ f : Fin 2, ∑ d : Fin 6, ((if b = pr d then tau * lambda f d * E.bdr_phipsi i 0 f else 0) + if b = fl d then -(E.local_normal f 0 * lambda f d * E.bdr_phipsi i 0 f) else 0))
    (fun i v _ => by
      refine forUp_add 1 _ (fun _ => _) (fun j v => forUp_add 2 _ (fun f => _) (fun f v => forUp_add 6 _ (fun d => _) (fun d v => ?_) v) v) v
      obtain rfl : j = 0 := Subsingleton.elim _ _
      have h1 : SmallMat.addTo m ((6 + d.1) * nS + i.1) (tau * lambda f d * E.bdr_phipsi i 0 f) v = _ := add_blk m v (pr d) i _
      have h2 : ∀ v : SmallVec (12 * nS) K, SmallMat.subFrom m (d.1 * nS + i.1) (E.local_normal f 0 * lambda f d * E.bdr_phipsi i 0 f) v = _ := fun v => sub_blk m v (fl d) i _
      have h0 : arrGet2 lambda f ((0 : Fin 1).1 + d) = .ok (lambda f d) := by
        rw [show (0 : Fin 1).1 + d.1 = d.1 from Nat.zero_add _, arrGet2_lt _ f.2 d.2]
      have hn : arrGet (E.local_normal f) 0 = .ok (E.local_normal f 0) := arrGet_lt _ (by omega : 0 < 1)
      rw [h0, Res.ok_bind, hn]
      show (SmallMat.addTo m ((6 + d.1) * nS + i.1) (tau * lambda f d * E.bdr_phipsi i 0 f) v >>= fun v =>
        SmallMat.subFrom m (d.1 * nS + i.1) (E.local_normal f 0 * lambda f d * E.bdr_phipsi i 0 f) v) = _
      rw [h1, Res.ok_bind, h2, add_assoc])
    (fun i b i' => by
      simp only [blk_sum, blk_add, Pi.add_apply, blk_single]
      by_cases h : i' = i
      · subst h; simp
      · simp [h])
  refine ⟨v, h1, fun d => ?_, fun d => ?_⟩
  · funext i
    rw [h2]
    simp only [fl_ne, fl_inj, if_false, zero_add, Finset.sum_ite_eq, Finset.mem_univ, if_true]
    simp [beamMoments, moments, form, mulVec, dotProduct, Fin.sum_univ_two]
    ring
  · funext i
    rw [h2]
    simp only [pr_ne, pr_inj, if_false, add_zero, Finset.sum_ite_eq, Finset.mem_univ, if_true]
    simp [beamMoments, moments, form, mulVec, dotProduct, Fin.sum_univ_two]
    ring

theorem set_next (m : Mode) (v : SmallVec (12 * nS) K) (b : Fin 12) (i : Fin nS) (x : K) (w : SmallVec (12 * nS) K) (hv : blk v b i = 0) (hw : blk w b i = 0) :
    SmallMat.set m (b * nS + i) x (v + w) = .ok (v + (w + singleMat (ix b i) 0 x)) := by
  rw [set_blk m (v + w) b i x (by rw [blk_add, Pi.add_apply, Pi.add_apply, hv, hw, add_zero]), add_assoc]

theorem dirichletComponent_eq (m : Mode) (E : Edge nS K) (tau : K) (i : Fin nS) (f : Fin 2) (d : Fin 6) (x : K) (v : SmallVec (12 * nS) K) :
    dirichletComponent m E tau i f d x v = .ok (v + (singleMat (ix (fl d) i) 0 (-(E.local_normal f 0 * x)) + singleMat (ix (pr d) i) 0 (tau * x))) := by
  unfold dirichletComponent
  have hn : arrGet (E.local_normal f) 0 = .ok (E.local_normal f 0) := arrGet_lt _ (by omega : 0 < 1)
  have h1 : ∀ (x : K) (v : SmallVec (12 * nS) K), SmallMat.addTo m ((6 + d.1) * nS + i.1) x v = _ := fun x v => add_blk m v (pr d) i x
  have h2 : ∀ (x : K) (v : SmallVec (12 * nS) K), SmallMat.subFrom m (d.1 * nS + i.1) x v = _ := fun x v => sub_blk m v (fl d) i x
  rw [hn, Res.ok_bind, h2, Res.ok_bind, h1, add_assoc]

/-- Body of the loop of `assemble_rhs_from_global_rhs`. -/
def rhsStep (m : Mode) (E : Edge nS K) (tau : K) : Nat → SmallVec (n_loc_dofs nS) K → Res (SmallVec (n_loc_dofs nS) K) :=
  fun i (v : SmallVec (n_loc_dofs nS) K) => do
    let v ← SmallMat.set m (6 * nS + i) (E.vol_phi_n i 1 0) v
    let v ← SmallMat.set m (7 * nS + i) (E.vol_phi_n i (-1) 0) v
    let v ← SmallMat.set m (8 * nS + i) (E.vol_phi_n i (-2) 0) v
    let v ← SmallMat.set m (9 * nS + i) (E.vol_phi_m i 1 0) v
    let v ← SmallMat.set m (10 * nS + i) (E.vol_phi_m i (-1) 0) v
    let v ← SmallMat.set m (11 * nS + i) (E.vol_phi_m i (-2) 0) v
    forUp 2 (fun face v =>
      if is_dirichlet E face then do
        let v ← dirichletComponent m E tau i face 0 (E.bdr_phi_u i face 1 0) v
        let v ← dirichletComponent m E tau i face 1 (E.bdr_phi_u i face (-1) 0) v
        let v ← dirichletComponent m E tau i face 2 (E.bdr_phi_u i face (-2) 0) v
        let v ← dirichletComponent m E tau i face 3 (E.bdr_phi_phi i face 1 0) v
        let v ← dirichletComponent m E tau i face 4 (E.bdr_phi_phi i face (-1) 0) v
        dirichletComponent m E tau i face 5 (E.bdr_phi_phi i face (-2) 0) v
      else .ok v) v

theorem rhsStep_eq (m : Mode) (E : Edge nS K) (tau : K) (i : Fin nS) (v : SmallVec (12 * nS) K) (hv : ∀ b, blk v b i = 0) : rhsStep m E tau i v =
    .ok (v + (∑ d : Fin 6, singleMat (ix (pr d) i) 0 (source E d i) + ∑ f : Fin 2, ∑ d : Fin 6, (singleMat (ix (fl d) i) 0 (-(E.local_normal f 0 * dirichletMoments E f d i)) +
      singleMat (ix (pr d) i) 0 (tau * dirichletMoments E f d i)))) := by
  classical
  have hs : ∀ (n : Nat) (hn : n < 12) (x : K) (w : SmallVec (12 * nS) K), blk w ⟨n, hn⟩ i = 0 →
      SmallMat.set m (n * nS + i.1) x (v + w) = .ok (v + (w + singleMat (ix ⟨n, hn⟩ i) 0 x)) := fun n hn x w hw => set_next m v ⟨n, hn⟩ i x w (hv _) hw
  have h0 : SmallMat.set m (6 * nS + i.1) (E.vol_phi_n i 1 0) v = .ok (v + (0 + singleMat (ix (pr 0) i) 0 (E.vol_phi_n i 1 0))) := by
    have := hs 6 (by omega) (E.vol_phi_n i 1 0) 0 rfl
    rw [add_zero] at this
    exact this
  have hsing : ∀ (b b' : Fin 12) (x : K) (_ : b' ≠ b), blk (singleMat (ix b i) (0 : Fin 1) x) b' i = 0 := fun b b' x h => by rw [blk_single]; simp [h]
  unfold rhsStep
  rw [h0, Res.ok_bind]
  rw [hs 7 (by omega) _ _ (by simp [hsing, pr]), Res.ok_bind, hs 8 (by omega) _ _ (by simp [blk_add, hsing, pr]), Res.ok_bind,
    hs 9 (by omega) _ _ (by simp [blk_add, hsing, pr]), Res.ok_bind, hs 10 (by omega) _ _ (by simp [blk_add, hsing, pr]), Res.ok_bind,
    hs 11 (by omega) _ _ (by simp [blk_add, hsing, pr]), Res.ok_bind]
  rw [forUp_add 2 _ (fun f => ∑ d : Fin 6, (singleMat (ix (fl d) i) 0 (-(E.local_normal f 0 * dirichletMoments E f d i)) +
    singleMat (ix (pr d) i) 0 (tau * dirichletMoments E f d i))) (fun f v => ?_)]
  · refine congrArg Res.ok ?_
    rw [add_assoc v]
    refine congrArg _ (congrArg (· + _) ?_)
    rw [sum_six, zero_add]
    rfl
  · by_cases hd : IsDirichlet E f
    · rw [if_pos ((is_dirichlet_iff E f).mpr hd)]
      have hc : ∀ (d : Nat) (h : d < 6) (x : K) (v : SmallVec (12 * nS) K), dirichletComponent m E tau i f d x v =
        .ok (v + (singleMat (ix (fl ⟨d, h⟩) i) 0 (-(E.local_normal f 0 * x)) + singleMat (ix (pr ⟨d, h⟩) i) 0 (tau * x))) :=
          fun d h x v => dirichletComponent_eq m E tau i f ⟨d, h⟩ x v
      rw [hc 0 (by omega), Res.ok_bind, hc 1 (by omega), Res.ok_bind, hc 2 (by omega), Res.ok_bind, hc 3 (by omega), Res.ok_bind, hc 4 (by omega), Res.ok_bind, hc 5 (by omega)]
      refine congrArg Res.ok ?_
      simp only [dirichletMoments, if_pos hd, sum_six, add_assoc]
      rfl
    · have hd' : ¬ is_dirichlet E f = true := fun h => hd ((is_dirichlet_iff E f).mp h)
      rw [if_neg hd']
      have : ∀ d, dirichletMoments E f d i = 0 := fun d => by simp [dirichletMoments, if_neg hd]
      have hzero : ∀ b : Fin 12, singleMat (ix b i) (0 : Fin 1) (0 : K) = 0 := fun b => by unfold singleMat; exact Pi.single_zero _
      simp only [this, mul_zero, neg_zero, hzero, add_zero, Finset.sum_const_zero]

theorem rhs_global_spec (m : Mode) (E : Edge nS K) (tau : K) :
    ∃ v, assemble_rhs_from_global_rhs m E tau = .ok v ∧ (∀ d, blk v (fl d) = -∑ f, (form E).normal f 0 • dirichletMoments E f d) ∧
      ∀ d, blk v (pr d) = source E d + ∑ f, tau • dirichletMoments E f d := by
  classical
  obtain ⟨v, h1, h2⟩ := vector_loop (D := 12) _
    (fun i => ∑ d : Fin 6, singleMat (ix (pr d) i) 0 (source E d i) + ∑ f : Fin 2, ∑ d : Fin 6, (singleMat (ix (fl d) i) 0 (-(E.local_normal f 0 * dirichletMoments E f d i)) +
      singleMat (ix (pr d) i) 0 (tau * dirichletMoments E f d i)))
    (fun b i => ∑ d : Fin 6, (if b = pr d then source E d i else 0) + ∑ f : Fin 2, ∑ d : Fin 6, ((if b = fl d then -(E.local_normal f 0 * dirichletMoments E f d i) else 0) +
      if b = pr d then tau * dirichletMoments E f d i else 0))
    (rhsStep_eq m E tau)
    (fun i b i' => by
      simp only [blk_sum, blk_add, Pi.add_apply, blk_single]
      by_cases h : i' = i
      · subst h; simp
      · simp [h])
  refine ⟨v, h1, fun d => ?_, fun d => ?_⟩
  · funext i
    rw [h2]
    simp only [fl_ne, fl_inj, if_false, add_zero, zero_add, Finset.sum_ite_eq, Finset.mem_univ, if_true, Finset.sum_const_zero]
    simp [form, Fin.sum_univ_two]
  · funext i
    rw [h2]
    simp only [pr_ne, pr_inj, if_false, zero_add, Finset.sum_ite_eq, Finset.mem_univ, if_true]
    simp [Fin.sum_univ_two]

theorem sum_ite_two {a b : Nat} (f : Fin a) (d : Fin b) (g : Fin a → Fin b → K) : ∑ f', ∑ d', (if f = f' ∧ d = d' then g f' d' else 0) = g f d := by
  rw [Finset.sum_eq_single f, Finset.sum_eq_single d]
  · simp
  · intro d' _ h; rw [if_neg (fun h' => h h'.2.symm)]
  · simp
  · intro f' _ h; exact Finset.sum_eq_zero fun d' _ => by rw [if_neg (fun h' => h h'.1.symm)]
  · simp

theorem extract_spec (m : Mode) (E : Edge nS K) (tau : K) (x : SmallVec (12 * nS) K) :
    ∃ b, extract_fluxes_from_coeffs m E tau x = .ok b ∧ ∀ (f : Fin 2) (d : Fin 6), toMat b f d = beamFlux (form E) tau 0 (fun d => blk x (fl d)) (fun d => blk x (pr d)) f d := by
  unfold extract_fluxes_from_coeffs
  refine ⟨_, forUp_add nS _ (fun i => ∑ _j : Fin 1, ∑ f : Fin 2, ∑ d : Fin 6, singleMat f d (E.local_normal f 0 * E.bdr_phipsi i 0 f * blk x (fl d) i + tau * blk x (pr d) i * E.bdr_phipsi i 0 f))
    (fun i b => forUp_add 1 _ (fun _ => _) (fun j b => forUp_add 2 _ (fun f => _) (fun f b => forUp_add 6 _ (fun d => _) (fun d b => ?_) b) b) b) _, fun f d => ?_⟩
  · obtain rfl : j = 0 := Subsingleton.elim _ _
    have h1 : SmallMat.get m x (d.1 * nS + i.1) = _ := get_blk m x (fl d) i
    have h2 : SmallMat.get m x ((6 + d.1) * nS + i.1) = _ := get_blk m x (pr d) i
    have hn : arrGet (E.local_normal f) 0 = .ok (E.local_normal f 0) := arrGet_lt _ (by omega : 0 < 1)
    rw [hn, Res.ok_bind, h1, Res.ok_bind, h2, Res.ok_bind]
    have := addAt_single m b f.2 (show (0 : Fin 1).1 + d.1 < 6 by simp) (E.local_normal f 0 * E.bdr_phipsi i 0 f * blk x (fl d) i + tau * blk x (pr d) i * E.bdr_phipsi i 0 f)
    refine this.trans ?_
    simp
  · rw [toMat_add, Matrix.add_apply, toMat_sum]
    have e0 : toMat (SmallMat.fill 2 6 (0 : K)) f d = 0 := rfl
    rw [e0, zero_add]
    simp only [toMat_sum, toMat_singleMat]
    have : ∀ i : Fin nS, ∑ f' : Fin 2, ∑ d' : Fin 6, (if f = f' ∧ d = d' then E.local_normal f' 0 * E.bdr_phipsi i 0 f' * blk x (fl d') i + tau * blk x (pr d') i * E.bdr_phipsi i 0 f' else 0) =
      E.local_normal f 0 * E.bdr_phipsi i 0 f * blk x (fl d) i + tau * blk x (pr d) i * E.bdr_phipsi i 0 f := fun i =>
        sum_ite_two f d (fun f d => E.local_normal f 0 * E.bdr_phipsi i 0 f * blk x (fl d) i + tau * blk x (pr d) i * E.bdr_phipsi i 0 f)
    simp only [this, Finset.univ_unique, Finset.sum_singleton]
    simp [beamFlux, faceFlux, form, mulVec, dotProduct]
    refine Finset.sum_congr rfl fun i _ => ?_
    ring

end Frame

section Solve
variable [Field K] [LinearOrder K]

/-- The blocks of the local matrix. -/
def block (F : Form 1 nS 1 K) (c : Fin 6 → K) (tau : K) (b b' : Fin 12) : Matrix (Fin nS) (Fin nS) K :=
  (∑ d : Fin 6, ((if b = fl d ∧ b' = fl d then (c d)⁻¹ • F.mass else 0) + (if b = fl d ∧ b' = pr d then -F.grad 0 else 0) +
    (if b = pr d ∧ b' = fl d then ∑ f, F.normal f 0 • F.bdr f - F.grad 0 else 0) + (if b = pr d ∧ b' = pr d then tau • ∑ f, F.bdr f else 0))) +
  ((if b = fl 2 ∧ b' = pr 4 then -F.mass else 0) + (if b = fl 1 ∧ b' = pr 5 then F.mass else 0) +
    (if b = pr 5 ∧ b' = fl 1 then -F.mass else 0) + (if b = pr 4 ∧ b' = fl 2 then F.mass else 0))

theorem sum_diag {M : Type} [AddCommMonoid M] (d e : Fin 6) (g : Fin 6 → M) : ∑ d', (if d = d' ∧ e = d' then g d' else 0) = if d = e then g d else 0 := by
  by_cases h : d = e
  · subst h; simp
  · rw [if_neg h]
    exact Finset.sum_eq_zero fun x _ => if_neg fun h' => h (h'.1.trans h'.2.symm)

theorem block_ff (F : Form 1 nS 1 K) (c : Fin 6 → K) (tau : K) (d e : Fin 6) : block F c tau (fl d) (fl e) = if d = e then (c d)⁻¹ • F.mass else 0 := by
  simp only [block, fl_inj, fl_ne, false_and, and_false, if_false, add_zero, sum_diag]

theorem block_fp (F : Form 1 nS 1 K) (c : Fin 6 → K) (tau : K) (d e : Fin 6) : block F c tau (fl d) (pr e) =
    (if d = e then -F.grad 0 else 0) + ((if d = 2 ∧ e = 4 then -F.mass else 0) + if d = 1 ∧ e = 5 then F.mass else 0) := by
  simp only [block, fl_inj, pr_inj, fl_ne, pr_ne, false_and, and_false, if_false, add_zero, zero_add, sum_diag]

theorem block_pf (F : Form 1 nS 1 K) (c : Fin 6 → K) (tau : K) (d e : Fin 6) : block F c tau (pr d) (fl e) =
    (if d = e then ∑ f, F.normal f 0 • F.bdr f - F.grad 0 else 0) + ((if d = 5 ∧ e = 1 then -F.mass else 0) + if d = 4 ∧ e = 2 then F.mass else 0) := by
  simp only [block, fl_inj, pr_inj, fl_ne, pr_ne, false_and, and_false, if_false, add_zero, zero_add, sum_diag]

theorem block_pp (F : Form 1 nS 1 K) (c : Fin 6 → K) (tau : K) (d e : Fin 6) : block F c tau (pr d) (pr e) = if d = e then tau • ∑ f, F.bdr f else 0 := by
  simp only [block, pr_inj, pr_ne, false_and, and_false, if_false, add_zero, zero_add, sum_diag]

theorem sum_one {M : Type} [AddCommMonoid M] (P : Prop) [Decidable P] (a : Fin 6) (g : Fin 6 → M) : ∑ e, (if P ∧ e = a then g e else 0) = if P then g a else 0 := by
  by_cases h : P <;> simp [h]

theorem ite_mulVec (P : Prop) [Decidable P] (A B : Matrix (Fin nS) (Fin nS) K) (v : Fin nS → K) : (if P then A else B) *ᵥ v = if P then A *ᵥ v else B *ᵥ v := by split <;> rfl

theorem row_f (F : Form 1 nS 1 K) (c : Fin 6 → K) (tau : K) (y : Fin 12 → Fin nS → K) (d : Fin 6) : ∑ b, block F c tau (fl d) b *ᵥ y b =
    (c d)⁻¹ • F.mass *ᵥ y (fl d) - F.grad 0 *ᵥ y (pr d) - F.mass *ᵥ shear (fun e => y (pr e)) d := by
  rw [sum_fl_pr]
  simp only [block_ff, block_fp, add_mulVec, Finset.sum_add_distrib, ite_mulVec, zero_mulVec, sum_one, Finset.sum_ite_eq, Finset.mem_univ, if_true, smul_mulVec, neg_mulVec]
  have : F.mass *ᵥ shear (fun e => y (pr e)) d = -((if d = 2 then -(F.mass *ᵥ y (pr 4)) else 0) + if d = 1 then F.mass *ᵥ y (pr 5) else 0) := by
    fin_cases d <;> simp [shear, mulVec_neg]
  rw [this]
  abel

theorem row_p (F : Form 1 nS 1 K) (c : Fin 6 → K) (tau : K) (y : Fin 12 → Fin nS → K) (d : Fin 6) : ∑ b, block F c tau (pr d) b *ᵥ y b =
    -(F.grad 0 *ᵥ y (fl d)) + ∑ f, F.bdr f *ᵥ (F.normal f 0 • y (fl d) + tau • y (pr d)) - F.mass *ᵥ lever (fun e => y (fl e)) d := by
  rw [sum_fl_pr]
  simp only [block_pf, block_pp, add_mulVec, Finset.sum_add_distrib, ite_mulVec, zero_mulVec, sum_one, Finset.sum_ite_eq, Finset.mem_univ, if_true, smul_mulVec, neg_mulVec,
    sub_mulVec, sum_mulVec, mulVec_add, mulVec_smul, Finset.smul_sum]
  have : F.mass *ᵥ lever (fun e => y (fl e)) d = -((if d = 5 then -(F.mass *ᵥ y (fl 1)) else 0) + if d = 4 then F.mass *ᵥ y (fl 2) else 0) := by
    fin_cases d <;> simp [lever, mulVec_neg]
  rw [this]
  abel

/-- The system of the local problem. -/
theorem system_iff (F : Form 1 nS 1 K) (c : Fin 6 → K) (tau : K) (g : Fin (2 * 1) → Fin 6 → Fin nS → K) (s : Fin 6 → Fin nS → K) (y v : Fin 12 → Fin nS → K)
    (hf : ∀ d, v (fl d) = -∑ f, F.normal f 0 • g f d) (hp : ∀ d, v (pr d) = s d + ∑ f, tau • g f d) :
    (∀ b, ∑ b', block F c tau b b' *ᵥ y b' = v b) ↔ IsBeam F c tau g s (fun d => y (fl d)) (fun d => y (pr d)) := by
  have e1 : ∀ d, (∑ b', block F c tau (fl d) b' *ᵥ y b' = v (fl d)) ↔
      (c d)⁻¹ • F.mass *ᵥ y (fl d) - F.grad 0 *ᵥ y (pr d) + ∑ f, F.normal f 0 • g f d = F.mass *ᵥ shear (fun e => y (pr e)) d := by
    intro d
    rw [row_f, hf, eq_neg_iff_add_eq_zero, ← sub_eq_zero (b := F.mass *ᵥ _)]
    exact iff_of_eq (congrArg (· = 0) (by abel))
  have e2 : ∀ d, (∑ b', block F c tau (pr d) b' *ᵥ y b' = v (pr d)) ↔
      -(F.grad 0 *ᵥ y (fl d)) + ∑ f, (F.bdr f *ᵥ (F.normal f 0 • y (fl d) + tau • y (pr d)) - tau • g f d) = s d + F.mass *ᵥ lever (fun e => y (fl e)) d := by
    intro d
    rw [row_p, hp, Finset.sum_sub_distrib, ← sub_eq_zero, ← sub_eq_zero (b := s d + F.mass *ᵥ _)]
    exact iff_of_eq (congrArg (· = 0) (by abel))
  constructor
  · intro h
    exact ⟨fun d => (e1 d).mp (h _), fun d => (e2 d).mp (h _)⟩
  · intro h b
    rcases fl_or_pr b with ⟨d, rfl⟩ | ⟨d, rfl⟩
    · exact (e1 d).mpr (h.strain d)
    · exact (e2 d).mpr (h.balance d)

theorem regular_iff (F : Form 1 nS 1 K) (c : Fin 6 → K) (tau : K) : Regular (block F c tau) ↔ BeamSolvable F c tau := by
  have e := fun y : Fin 12 → Fin nS → K => system_iff F c tau 0 0 y 0 (fun d => by simp) (fun d => by simp)
  constructor
  · intro h q u hb
    let y : Fin 12 → Fin nS → K := fun b => if h : b.1 < 6 then q ⟨b, h⟩ else u ⟨b.1 - 6, by omega⟩
    have e1 : (fun d => y (fl d)) = q := by funext d; simp [y, fl]
    have e2 : (fun d => y (pr d)) = u := by funext d; simp [y, pr]
    have := h y ((e y).mpr (by rw [e1, e2]; exact hb))
    rw [this] at e1 e2
    exact ⟨e1.symm, e2.symm⟩
  · intro h y hy
    obtain ⟨h1, h2⟩ := h _ _ ((e y).mp hy)
    funext b
    rcases fl_or_pr b with ⟨d, rfl⟩ | ⟨d, rfl⟩
    · exact congrFun h1 d
    · exact congrFun h2 d

theorem locMatrixStep_eq (m : Mode) (E : Edge nS K) (tau : K) (c : Fin 6 → K) (hc : ∀ d, c d ≠ 0) (i j : Fin nS) (M : SmallMat (12 * nS) (12 * nS) K) :
    locMatrixStep m E tau c i j M = .ok (M + (∑ d : Fin 6, (singleMat (ix (fl d) i) (ix (fl d) j) (E.vol_phiphi i j / c d) + singleMat (ix (fl d) i) (ix (pr d) j) (-E.vol_nablaphiphi i j 0) +
      singleMat (ix (pr d) i) (ix (fl d) j) ((∑ f : Fin 2, E.bdr_phiphi i j f * E.local_normal f 0) - E.vol_nablaphiphi i j 0) +
      singleMat (ix (pr d) i) (ix (pr d) j) (tau * ∑ f : Fin 2, E.bdr_phiphi i j f)) +
      (singleMat (ix (fl 2) i) (ix (pr 4) j) (-E.vol_phiphi i j) + singleMat (ix (fl 1) i) (ix (pr 5) j) (E.vol_phiphi i j) +
      singleMat (ix (pr 5) i) (ix (fl 1) j) (-E.vol_phiphi i j) + singleMat (ix (pr 4) i) (ix (fl 2) j) (E.vol_phiphi i j)))) := by
  unfold locMatrixStep
  have hs : forUp 2 (fun face (s : K × (Fin 1 → K)) => do
    let helper := E.bdr_phiphi i j face
    return (s.1 + helper, fun d => s.2 d + helper * E.local_normal face d)) (0, fun _ => 0) =
      .ok ((0, fun _ => 0) + ∑ f : Fin 2, ((E.bdr_phiphi i j f, fun d => E.bdr_phiphi i j f * E.local_normal f d) : K × (Fin 1 → K))) :=
    forUp_add 2 _ (fun f => (E.bdr_phiphi i j f, fun d => E.bdr_phiphi i j f * E.local_normal f d)) (fun f s => rfl) _
  dsimp only at hs ⊢
  rw [hs, Res.ok_bind]
  have a1 : ((0, fun _ => 0) + ∑ f : Fin 2, ((E.bdr_phiphi i j f, fun d => E.bdr_phiphi i j f * E.local_normal f d) : K × (Fin 1 → K))).1 = ∑ f : Fin 2, E.bdr_phiphi i j f := by
    simp [Fin.sum_univ_two]
  have a2 : arrGet ((0, fun _ => 0) + ∑ f : Fin 2, ((E.bdr_phiphi i j f, fun d => E.bdr_phiphi i j f * E.local_normal f d) : K × (Fin 1 → K))).2 0 =
      .ok (∑ f : Fin 2, E.bdr_phiphi i j f * E.local_normal f 0) := by
    rw [arrGet_lt _ (by omega : 0 < 1)]
    simp [Fin.sum_univ_two]
  rw [a1]
  have hg : arrGet (E.vol_nablaphiphi i j) 0 = .ok (E.vol_nablaphiphi i j 0) := arrGet_lt _ (by omega : 0 < 1)
  rw [forUp_add 6 _ (fun d => singleMat (ix (fl d) i) (ix (fl d) j) (E.vol_phiphi i j / c d) + singleMat (ix (fl d) i) (ix (pr d) j) (-E.vol_nablaphiphi i j 0) +
      singleMat (ix (pr d) i) (ix (fl d) j) ((∑ f : Fin 2, E.bdr_phiphi i j f * E.local_normal f 0) - E.vol_nablaphiphi i j 0) +
      singleMat (ix (pr d) i) (ix (pr d) j) (tau * ∑ f : Fin 2, E.bdr_phiphi i j f)) (fun d M => ?_)]
  · rw [Res.ok_bind]
    have k1 : ∀ (M : SmallMat (12 * nS) (12 * nS) K) (x : K), SmallMat.subAt m (2 * nS + i.1) ((3 * 3 + 1) * nS + j.1) x M = _ := fun M x => sub_entry m M (fl 2) (pr 4) i j x
    have k2 : ∀ (M : SmallMat (12 * nS) (12 * nS) K) (x : K), SmallMat.addAt m (1 * nS + i.1) ((3 * 3 + 2) * nS + j.1) x M = _ := fun M x => add_entry m M (fl 1) (pr 5) i j x
    have k3 : ∀ (M : SmallMat (12 * nS) (12 * nS) K) (x : K), SmallMat.subAt m ((3 * 3 + 2) * nS + i.1) (1 * nS + j.1) x M = _ := fun M x => sub_entry m M (pr 5) (fl 1) i j x
    have k4 : ∀ (M : SmallMat (12 * nS) (12 * nS) K) (x : K), SmallMat.addAt m ((3 * 3 + 1) * nS + i.1) (2 * nS + j.1) x M = _ := fun M x => add_entry m M (pr 4) (fl 2) i j x
    rw [k1, Res.ok_bind, k2, Res.ok_bind, k3, Res.ok_bind, k4]
    simp only [add_assoc]
  · have hcd : arrGet c d = .ok (c d) := arrGet_lt _ d.2
    have k1 : ∀ (M : SmallMat (12 * nS) (12 * nS) K) (x : K), SmallMat.addAt m (d.1 * nS + i.1) (d.1 * nS + j.1) x M = _ := fun M x => add_entry m M (fl d) (fl d) i j x
    have k2 : ∀ (M : SmallMat (12 * nS) (12 * nS) K) (x : K), SmallMat.subAt m (d.1 * nS + i.1) ((6 + d.1) * nS + j.1) x M = _ := fun M x => sub_entry m M (fl d) (pr d) i j x
    have k3 : ∀ (M : SmallMat (12 * nS) (12 * nS) K) (x : K), SmallMat.addAt m ((6 + d.1) * nS + i.1) (d.1 * nS + j.1) x M = _ := fun M x => add_entry m M (pr d) (fl d) i j x
    have k4 : ∀ (M : SmallMat (12 * nS) (12 * nS) K) (x : K), SmallMat.addAt m ((6 + d.1) * nS + i.1) ((6 + d.1) * nS + j.1) x M = _ := fun M x => add_entry m M (pr d) (pr d) i j x
    rw [hcd, Res.ok_bind, divide, if_neg (hc d), Res.ok_bind, k1, Res.ok_bind, hg, Res.ok_bind, k2, Res.ok_bind, a2, Res.ok_bind, k3, Res.ok_bind, k4]
    simp only [add_assoc]

theorem loc_matrix_spec (m : Mode) (E : Edge nS K) (tau : K) (c : Fin 6 → K) (hE : extra_coeffs m E = .ok c) (hc : ∀ d, c d ≠ 0) :
    ∃ A, assemble_loc_matrix m E tau = .ok A ∧ ∀ b i b' j, toMat A (ix b i) (ix b' j) = block (form E) c tau b b' i j := by
  unfold assemble_loc_matrix
  rw [hE, Res.ok_bind]
  refine Blocks.matrix_loop (D := 12) (fun i j M => locMatrixStep m E tau c i j M) _ (fun b b' i j => block (form E) c tau b b' i j) (fun i j M => locMatrixStep_eq m E tau c hc i j M) (fun i j b b' i' j' => ?_)
  simp only [toMat_add, Matrix.add_apply, toMat_sum, entry_single]
  by_cases h : i' = i ∧ j' = j
  · simp only [if_pos h]
    unfold block
    simp only [Matrix.add_apply, Matrix.sum_apply]
    congr 1
    · refine Finset.sum_congr rfl fun d _ => ?_
      congr 1
      · congr 1
        · congr 1
          · split <;> simp [form, div_eq_inv_mul]
          · split <;> simp [form]
        · split
          · simp [form, mul_comm]
          · simp
      · split
        · simp [form]
        · simp
    · congr 1
      · congr 1
        · congr 1 <;> split <;> simp [form]
        · split <;> simp [form]
      · split <;> simp [form]
  · simp only [if_neg h]
    simp

/-! ## The material -/

theorem absVal_eq [IsStrictOrderedRing K] (x : K) : absVal x = |x| := by
  unfold absVal
  split
  next h => rw [abs_of_neg h]
  next h => rw [abs_of_nonneg (not_lt.mp h)]

theorem abs_loop [IsStrictOrderedRing K] (c : Fin 6 → K) : forFin 6 (fun i (c : Fin 6 → K) => .ok (arrSet c i (absVal (c i)))) c = .ok fun i => |c i| := by
  obtain ⟨t, h1, h2⟩ := forFin_inv 6 (fun i (c : Fin 6 → K) => .ok (arrSet c i (absVal (c i)))) c (fun k t => ∀ i : Fin 6, t i = if i.1 < k then |c i| else c i) (fun i => by simp)
    (fun i t ht => ⟨_, rfl, fun j => by
      unfold arrSet
      by_cases h : j = i
      · subst h
        rw [if_pos rfl, if_pos (Nat.lt_succ_self _), ht, if_neg (lt_irrefl _), absVal_eq]
      · rw [if_neg h, ht]
        have : j.1 ≠ i.1 := fun h' => h (Fin.ext h')
        have : j.1 < i.1 + 1 ↔ j.1 < i.1 := by omega
        simp only [this]⟩)
  rw [h1]
  exact congrArg Res.ok (funext fun i => by rw [h2, if_pos i.2])

theorem scalar_eq (m : Mode) (v w : Fin 3 → K) : SmallMat.scalar_product m (show SmallVec 3 K from v) (show SmallVec 3 K from w) = .ok (v ⬝ᵥ w) := by
  unfold SmallMat.scalar_product
  rw [forUp_add (3 * 1) _ (fun i => v i * w i) (fun i s => by
    have h1 : SmallMat.get m (show SmallVec 3 K from v) i = .ok (v i) := get_fin m _ i
    have h2 : SmallMat.get m (show SmallVec 3 K from w) i = .ok (w i) := get_fin m _ i
    rw [h1, Res.ok_bind, h2]; rfl), zero_add]
  rfl

theorem extra_coeffs_eq [IsStrictOrderedRing K] (m : Mode) (E : Edge nS K) (hE : Complete E) : extra_coeffs m E = .ok (coefficients E) := by
  unfold extra_coeffs coefficients
  cases h : E.extra_data with
  | none =>
    dsimp only
    rw [Res.ok_bind, abs_loop]
    simp
  | some e =>
    have hl : 12 ≤ e.length := hE e h
    have hg : ∀ k, k < 12 → vget e k = .ok (e.getD k 0) := fun k hk => by
      rw [vget_of_lt (by omega : k < e.length), List.getD_eq_getElem?_getD, List.getElem?_eq_getElem (by omega : k < e.length)]; rfl
    dsimp only
    unfold materialCoeffs
    rw [hg 6 (by omega), Res.ok_bind, hg 7 (by omega), Res.ok_bind, hg 8 (by omega), Res.ok_bind, hg 9 (by omega), Res.ok_bind, hg 10 (by omega), Res.ok_bind, hg 11 (by omega), Res.ok_bind,
      hg 0 (by omega), Res.ok_bind, hg 1 (by omega), Res.ok_bind, hg 2 (by omega), Res.ok_bind, hg 3 (by omega), Res.ok_bind, hg 4 (by omega), Res.ok_bind, hg 5 (by omega), Res.ok_bind]
    have hs := scalar_eq (K := K) m
    dsimp only at hs ⊢
    rw [hs, Res.ok_bind, hs, Res.ok_bind, hs, Res.ok_bind, hs, Res.ok_bind]
    show (Res.ok _ >>= _) = _
    rw [Res.ok_bind, abs_loop]
    refine congrArg Res.ok (funext fun i => ?_)
    fin_cases i <;> rfl

/-! ## The local problem -/

/-- The data of the local problem. -/
noncomputable def dataOf (E : Edge nS K) (lambda : LocDofs 1 6 K) (solution_type : Nat) : (Fin (2 * 1) → Fin 6 → Fin nS → K) × (Fin 6 → Fin nS → K) :=
  if solution_type = 0 then (beamMoments (form E) lambda, 0) else (beamMoments (form E) lambda + dirichletMoments E, source E)

theorem rhs_spec (m : Mode) (E : Edge nS K) (tau : K) (lambda : LocDofs 1 6 K) (solution_type : Nat) (ht : solution_type = 0 ∨ solution_type = 1) :
    ∃ v, (if solution_type = 0 then assemble_rhs_from_lambda m E tau lambda
      else if solution_type = 1 then do
        let a ← assemble_rhs_from_lambda m E tau lambda
        let b ← assemble_rhs_from_global_rhs m E tau
        SmallMat.add_mat a b
      else do
        hyAssert m (0 = 1)
        return SmallMat.fill _ _ 0 : Res (SmallVec (n_loc_dofs nS) K)) = .ok v ∧
      (∀ d, blk v (fl d) = -∑ f, (form E).normal f 0 • (dataOf E lambda solution_type).1 f d) ∧
      ∀ d, blk v (pr d) = (dataOf E lambda solution_type).2 d + ∑ f, tau • (dataOf E lambda solution_type).1 f d := by
  obtain ⟨v, h1, h2, h3⟩ := rhs_lambda_spec m E tau lambda
  rcases ht with rfl | rfl
  · refine ⟨v, by rw [if_pos rfl]; exact h1, fun d => h2 d, fun d => ?_⟩
    rw [h3]
    simp [dataOf]
  · obtain ⟨w, k1, k2, k3⟩ := rhs_global_spec m E tau
    refine ⟨v + w, ?_, fun d => ?_, fun d => ?_⟩
    · rw [if_neg (by omega), if_pos rfl, h1, Res.ok_bind, k1, Res.ok_bind, Diffusion.add_mat_spec]
    · rw [blk_add, Pi.add_apply, h2, k2]
      simp only [dataOf, one_ne_zero, if_false, Pi.add_apply, smul_add, Finset.sum_add_distrib, neg_add]
    · rw [blk_add, Pi.add_apply, h3, k3]
      simp only [dataOf, one_ne_zero, if_false, Pi.add_apply, smul_add, Finset.sum_add_distrib]
      abel

/-- What `solve_local_problem` computes. -/
theorem solve_local_problem_spec (m : Mode) (gesv : Gesv (n_loc_dofs nS) 1 K) (hg : GesvSpec gesv) (E : Edge nS K) (tau : K) (c : Fin 6 → K) (hE : extra_coeffs m E = .ok c)
    (hc : ∀ d, c d ≠ 0) (lambda : LocDofs 1 6 K) (solution_type : Nat) (ht : solution_type = 0 ∨ solution_type = 1) :
    (BeamSolvable (form E) c tau → ∃ x, solve_local_problem m gesv E tau lambda solution_type = .ok x ∧
      IsBeam (form E) c tau (dataOf E lambda solution_type).1 (dataOf E lambda solution_type).2 (fun d => blk x (fl d)) (fun d => blk x (pr d))) ∧
    (¬ BeamSolvable (form E) c tau → solve_local_problem m gesv E tau lambda solution_type = solveFailure m) := by
  obtain ⟨v, h1, h2, h3⟩ := rhs_spec m E tau lambda solution_type ht
  obtain ⟨A, k1, k2⟩ := loc_matrix_spec m E tau c hE hc
  unfold solve_local_problem
  rw [h1, Res.ok_bind, k1, Res.ok_bind]
  obtain ⟨e1, e2⟩ := solve_spec (block (form E) c tau) gesv hg A k2 v
  rw [regular_iff] at e1 e2
  constructor
  · intro hS
    obtain ⟨x, hx1, hx2⟩ := e1 hS
    exact ⟨x, by rw [hx1]; exact Diffusion.catch_ok m x, (system_iff (form E) c tau _ _ (blk x) (blk v) h2 h3).mp hx2⟩
  · intro hS
    rw [e2 hS]
    exact Diffusion.catch_throw m

theorem solve_unsupported (gesv : Gesv (n_loc_dofs nS) 1 K) (E : Edge nS K) (tau : K) (lambda : LocDofs 1 6 K) (solution_type : Nat) (ht : 2 ≤ solution_type) :
    solve_local_problem .debug gesv E tau lambda solution_type = .abort := by
  unfold solve_local_problem
  rw [if_neg (by omega), if_neg (by omega)]
  rfl

/-- A loop that changes each entry of an array of arrays. -/
theorem map_loop {n k : Nat} (g : Fin n → Fin k → K → K) (s : Fin n → Fin k → K) :
    forFin n (fun i s => forFin k (fun j (s : Fin n → Fin k → K) => Res.ok (arrSet s i (arrSet (s i) j (g i j (s i j))))) s) s = .ok fun i j => g i j (s i j) := by
  have inner : ∀ (i : Fin n) (s : Fin n → Fin k → K), forFin k (fun j (s : Fin n → Fin k → K) => Res.ok (arrSet s i (arrSet (s i) j (g i j (s i j))))) s =
      .ok (arrSet s i fun j => g i j (s i j)) := by
    intro i s
    obtain ⟨t, h1, h2, h3⟩ := forFin_inv k (fun j (s : Fin n → Fin k → K) => Res.ok (arrSet s i (arrSet (s i) j (g i j (s i j))))) s
      (fun l t => (∀ a, a ≠ i → t a = s a) ∧ ∀ j : Fin k, t i j = if j.1 < l then g i j (s i j) else s i j) ⟨fun _ _ => rfl, fun j => by simp⟩ (fun j t ht => by
        refine ⟨_, rfl, fun a ha => ?_, fun j' => ?_⟩
        · simp only [arrSet, if_neg ha]; exact ht.1 a ha
        · simp only [arrSet, if_true]
          by_cases h : j' = j
          · subst h
            rw [if_pos rfl, if_pos (Nat.lt_succ_self _), ht.2, if_neg (lt_irrefl _)]
          · have h' : j'.1 ≠ j.1 := fun h' => h (Fin.ext h')
            have h3 : j'.1 < j.1 + 1 ↔ j'.1 < j.1 := by omega
            rw [if_neg h, ht.2]
            simp only [h3])
    rw [h1]
    refine congrArg Res.ok (funext fun a => ?_)
    by_cases h : a = i
    · subst h
      simp only [arrSet, if_true]
      exact funext fun j => by rw [h3, if_pos j.2]
    · simp only [arrSet, if_neg h]; exact h2 a h
  simp only [inner]
  obtain ⟨t, h1, h2⟩ := forFin_inv n (fun i (s : Fin n → Fin k → K) => Res.ok (arrSet s i fun j => g i j (s i j))) s
    (fun l t => ∀ a : Fin n, t a = if a.1 < l then fun j => g a j (s a j) else s a) (fun a => by simp) (fun i t ht => ⟨_, rfl, fun a => by
      by_cases h : a = i
      · subst h
        simp only [arrSet, if_true]
        rw [if_pos (Nat.lt_succ_self _), ht, if_neg (lt_irrefl _)]
      · have h' : a.1 ≠ i.1 := fun h' => h (Fin.ext h')
        have h3 : a.1 < i.1 + 1 ↔ a.1 < i.1 := by omega
        simp only [arrSet, if_neg h, h3]
        exact ht a⟩)
  rw [h1]
  exact congrArg Res.ok (funext fun a => by rw [h2, if_pos a.2])

theorem flux_loop (m : Mode) (tau : K) (b : SmallMat 2 6 K) (loc : LocDofs 1 6 K) : forFin 2 (fun i loc => forFin 6 (fun j (loc : LocDofs 1 6 K) => do
    let x ← SmallMat.at' m b i j
    return arrSet loc i (arrSet (loc i) j (x - tau * loc i j))) loc) loc = .ok fun f d => toMat b f d - tau * loc f d := by
  simp only [at_fin, Res.ok_bind]
  exact map_loop (fun f d x => toMat b f d - tau * x) loc

theorem dirichlet_loop (E : Edge nS K) (out : LocDofs 1 6 K) : forFin 2 (fun i (out : LocDofs 1 6 K) => .ok (if is_dirichlet E i then arrSet out i (fun _ => 0) else out)) out =
    .ok (offDirichlet E out) := by
  classical
  obtain ⟨t, h1, h2⟩ := forFin_inv 2 (fun i (out : LocDofs 1 6 K) => .ok (if is_dirichlet E i then arrSet out i (fun _ => 0) else out)) out
    (fun k t => ∀ f : Fin 2, t f = if f.1 < k then offDirichlet E out f else out f) (fun f => by simp) (fun i t ht => ⟨_, rfl, fun f => by
      by_cases h : f = i
      · subst h
        rw [if_pos (Nat.lt_succ_self _)]
        by_cases hd : IsDirichlet E f
        · rw [if_pos ((is_dirichlet_iff E f).mpr hd)]
          simp only [arrSet, if_true, offDirichlet, if_pos hd]
          rfl
        · rw [if_neg (fun h => hd ((is_dirichlet_iff E f).mp h)), ht, if_neg (lt_irrefl _)]
          simp only [offDirichlet, if_neg hd]
      · have h' : f.1 ≠ i.1 := fun h' => h (Fin.ext h')
        have h3 : f.1 < i.1 + 1 ↔ f.1 < i.1 := by omega
        simp only [h3]
        rw [← ht]
        split
        · simp only [arrSet, if_neg h]
        · rfl⟩)
  rw [h1]
  exact congrArg Res.ok (funext fun f => by rw [h2, if_pos f.2])

/-- What `trace_to_flux` and `residual_flux` compute. -/
theorem fluxOf_spec (m : Mode) (gesv : Gesv (n_loc_dofs nS) 1 K) (hg : GesvSpec gesv) (E : Edge nS K) (tau : K) (c : Fin 6 → K) (hE : extra_coeffs m E = .ok c)
    (hc : ∀ d, c d ≠ 0) (lambda out : LocDofs 1 6 K) (solution_type : Nat) (ht : solution_type = 0 ∨ solution_type = 1) :
    (BeamSolvable (form E) c tau → ∃ q u, IsBeam (form E) c tau (dataOf E (fun f => inFrame (frame E) (lambda f)) solution_type).1 (dataOf E (fun f => inFrame (frame E) (lambda f)) solution_type).2 q u ∧
      fluxOf m gesv tau solution_type lambda out E =
        .ok (offDirichlet E (out + fun f => inSpace (frame E) (beamFlux (form E) tau (fun f => inFrame (frame E) (lambda f)) q u f)))) ∧
    (¬ BeamSolvable (form E) c tau → fluxOf m gesv tau solution_type lambda out E = solveFailure m) := by
  obtain ⟨h1, h2⟩ := solve_local_problem_spec m gesv hg E tau c hE hc (fun f => inFrame (frame E) (lambda f)) solution_type ht
  unfold fluxOf
  rw [node_to_edge, Res.ok_bind]
  constructor
  · intro hS
    obtain ⟨x, hx1, hx2⟩ := h1 hS
    obtain ⟨b, hb1, hb2⟩ := extract_spec m E tau x
    refine ⟨_, _, hx2, ?_⟩
    rw [hx1, Res.ok_bind, hb1, Res.ok_bind, flux_loop, Res.ok_bind, edge_to_node, Res.ok_bind, dirichlet_loop]
    refine congrArg Res.ok (congrArg _ (congrArg _ (funext fun f => congrArg _ (funext fun d => ?_))))
    rw [hb2]
    simp [beamFlux, faceFlux, form]
  · intro hS
    rw [h2 hS]
    cases m <;> rfl

theorem displacementCoeffs_eq (m : Mode) (x : SmallVec (n_loc_dofs nS) K) (d : Nat) (hd : d < 6) (c : Fin nS → K) : displacementCoeffs m x d c = .ok (blk x (pr ⟨d, hd⟩)) := by
  unfold displacementCoeffs
  refine forFin_write nS _ (blk x (pr ⟨d, hd⟩)) (fun i c => ?_) c
  have h1 : SmallMat.get m x ((6 + d) * nS + i.1) = _ := get_blk m x (pr ⟨d, hd⟩) i
  rw [Nat.add_comm, h1]
  rfl

end Solve

end HyperHDG.Timoshenko

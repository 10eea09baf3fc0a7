import Mathlib.LinearAlgebra.Matrix.NonsingularInverse
import Mathlib.Tactic.Module
import Verif.Spec.AdvectionParab
import Verif.Proofs.DiffusionParab

/-!
# Lemmas about the local solver for advection problems
-/

set_option linter.unusedSectionVars false

namespace HyperHDG.AdvectionParab

open Spec Finset Matrix DiffusionUniform
open DiffusionParab (vecOf set_add entry_add vec_write single_sum single2_sum)
open Diffusion (add_mat_spec catch_throw)

variable {K : Type} {dim nS nB : Nat}

section Loops
variable [CommRing K]

theorem mat_single_sum {r c : Nat} {ι : Type} (s : Finset ι) (i : Fin r) (j : Fin c) (g : ι → K) :
    ∑ a ∈ s, singleMat i j (g a) = singleMat i j (∑ a ∈ s, g a) := by
  unfold singleMat
  exact (map_sum (AddMonoidHom.single (fun _ => K) (pos i j)) g s).symm

theorem mat_single_add {r c : Nat} (i : Fin r) (j : Fin c) (x y : K) : singleMat i j (x + y) = singleMat i j x + singleMat i j y := Pi.single_add _ _ _

theorem mat_entry_add {r c n : Nat} (i : Fin r) (j : Fin c) (f : Nat → SmallMat r c K → Res (SmallMat r c K)) (g : Fin n → K)
    (h : ∀ (k : Fin n) M, f k M = .ok (M + singleMat i j (g k))) (M : SmallMat r c K) : forUp n f M = .ok (M + singleMat i j (∑ k, g k)) := by
  rw [forUp_add n f _ h M, mat_single_sum]

/-- A loop adding to each entry of a matrix of zeros. -/
theorem mat_loop {r c : Nat} (f : Nat → Nat → SmallMat r c K → Res (SmallMat r c K)) (g : Fin r → Fin c → K)
    (h : ∀ (i : Fin r) (j : Fin c) M, f i j M = .ok (M + singleMat i j (g i j))) :
    ∃ A, forUp r (fun i M => forUp c (fun j M => f i j M) M) (SmallMat.fill _ _ 0) = .ok A ∧ ∀ i j, toMat A i j = g i j := by
  refine ⟨_, forUp_add r _ (fun i => ∑ j, singleMat i j (g i j)) (fun i M => forUp_add c _ (fun j => singleMat i j (g i j)) (fun j M => h i j M) M) _, fun i j => ?_⟩
  rw [toMat_add, Matrix.add_apply, toMat_sum]
  simp only [toMat_sum, toMat_singleMat]
  rw [Finset.sum_eq_single i, Finset.sum_eq_single j]
  · simp [toMat, SmallMat.fill]
  · intro b _ hb; rw [if_neg (fun h => hb h.2.symm)]
  · simp
  · intro a _ ha
    exact Finset.sum_eq_zero fun b _ => if_neg (fun h => ha h.1.symm)
  · simp

/-- A loop adding to each entry of a vector. -/
theorem vec_add_loop (f : Nat → SmallVec nS K → Res (SmallVec nS K)) (g : Fin nS → K) (h : ∀ (i : Fin nS) v, f i v = .ok (v + singleMat i 0 (g i)))
    (v0 : SmallVec nS K) : ∃ v, forUp nS f v0 = .ok v ∧ vecOf v = vecOf v0 + g := by
  refine ⟨_, forUp_add nS f _ h v0, ?_⟩
  funext i
  show toMat (v0 + ∑ k, singleMat k 0 (g k)) i 0 = _
  rw [toMat_add, Matrix.add_apply, toMat_sum]
  simp only [toMat_singleMat, and_true, Finset.sum_ite_eq, Finset.mem_univ, if_true]
  rfl

/-- The loops of `flux_at_boundary`. -/
theorem bdr_add_loop {n : Nat} (f : Nat → Nat → Nat → LocDofs dim nB K → Res (LocDofs dim nB K)) (g : Fin nB → Fin n → Fin (2 * dim) → K)
    (hf : ∀ (i : Fin nB) (j : Fin n) (k : Fin (2 * dim)) b, f i j k b = .ok (b + single2 k i (g i j k))) (b0 : LocDofs dim nB K) :
    forUp nB (fun i b => forUp n (fun j b => forUp (2 * dim) (fun k b => f i j k b) b) b) b0 = .ok (fun k i => b0 k i + ∑ j, g i j k) := by
  rw [forUp_add nB _ (fun i => ∑ j, ∑ k, single2 k i (g i j k)) (fun i M => forUp_add n _ (fun j => ∑ k, single2 k i (g i j k))
    (fun j M => forUp_add (2 * dim) _ (fun k => single2 k i (g i j k)) (fun k M => hf i j k M) M) M) b0]
  refine congrArg Res.ok ?_
  funext k i
  simp only [Pi.add_apply, Finset.sum_apply]
  congr 1
  rw [Finset.sum_eq_single i]
  · refine Finset.sum_congr rfl fun j _ => ?_
    rw [Finset.sum_eq_single k] <;> simp +contextual [single2, eq_comm]
  · intro i' _ hi'
    exact Finset.sum_eq_zero fun j _ => Finset.sum_eq_zero fun k' _ => by simp [single2, Ne.symm hi']
  · simp

/-- A loop changing each entry of a local vector. -/
theorem map_loop (h : Fin (2 * dim) → Fin nB → K → K) (b0 : LocDofs dim nB K) :
    forFin (2 * dim) (fun f b => forFin nB (fun i (b : LocDofs dim nB K) => .ok (arrSet b f (arrSet (b f) i (h f i (b f i))))) b) b0 =
      .ok (fun f i => h f i (b0 f i)) := by
  have inner : ∀ (f : Fin (2 * dim)) (b : LocDofs dim nB K),
      forFin nB (fun i (b : LocDofs dim nB K) => .ok (arrSet b f (arrSet (b f) i (h f i (b f i))))) b = .ok (arrSet b f (fun i => h f i (b f i))) := by
    intro f b
    obtain ⟨o, h1, h2, h3⟩ := forFin_inv nB (fun i (b : LocDofs dim nB K) => .ok (arrSet b f (arrSet (b f) i (h f i (b f i))))) b
      (fun k o => (∀ a, a ≠ f → o a = b a) ∧ ∀ j : Fin nB, o f j = if j.1 < k then h f j (b f j) else b f j) ⟨fun _ _ => rfl, fun j => by simp⟩
      (fun k o ho => ⟨_, rfl, fun a ha => by simp [arrSet, ha, ho.1 a ha], fun j => by
        by_cases hj : j = k
        · subst hj
          simp [arrSet, ho.2 j]
        · have hj' : j.1 ≠ k.1 := fun e => hj (Fin.ext e)
          simp only [arrSet, if_true, if_neg hj, ho.2 j]
          by_cases hlt : j.1 < k.1
          · rw [if_pos hlt, if_pos (by omega)]
          · rw [if_neg hlt, if_neg (by omega)]⟩)
    rw [h1]
    refine congrArg Res.ok ?_
    funext a j
    by_cases ha : a = f
    · subst ha; rw [h3 j, if_pos j.2]; simp [arrSet]
    · rw [h2 a ha]; simp [arrSet, ha]
  obtain ⟨o, h1, h2⟩ := forFin_inv (2 * dim) (fun f b => forFin nB (fun i (b : LocDofs dim nB K) => .ok (arrSet b f (arrSet (b f) i (h f i (b f i))))) b) b0
    (fun k o => ∀ f : Fin (2 * dim), o f = if f.1 < k then (fun i => h f i (b0 f i)) else b0 f) (fun f => by simp)
    (fun k o ho => ⟨_, inner k o, fun f => by
      by_cases hf : f = k
      · subst hf
        simp [arrSet, ho f]
      · have hf' : f.1 ≠ k.1 := fun e => hf (Fin.ext e)
        simp only [arrSet, if_neg hf, ho f]
        by_cases hlt : f.1 < k.1
        · rw [if_pos hlt, if_pos (by omega)]
        · rw [if_neg hlt, if_neg (by omega)]⟩)
  rw [h1]
  refine congrArg Res.ok ?_
  funext f
  rw [h2 f, if_pos f.2]

end Loops

section Assembly
variable [CommRing K]

/-- The matrix of the flux of the primal unknown. -/
def bdrMat (E : Edge dim nS K) (tau time : K) (f : Fin (2 * dim)) : Matrix (Fin nS) (Fin nS) K :=
  .of fun i j => E.bdr_phiphinu time i j f + tau * E.bdr_phiphi time i j f

/-- The matrix of the flux of the trace. -/
def trMat (E : Edge dim nS K) (nB : Nat) (tau time : K) (f : Fin (2 * dim)) : Matrix (Fin nS) (Fin nB) K :=
  .of fun i j => E.bdr_phipsinu time i j f - tau * E.bdr_phipsi time i j f

theorem fluxTested_eq (E : Edge dim nS K) (tau time : K) (x : State dim nS nB K) (f : Fin (2 * dim)) :
    fluxTested E tau time x f = bdrMat E tau time f *ᵥ x.u + trMat E nB tau time f *ᵥ x.lambda f := rfl

/-- The matrix of the local problem. -/
noncomputable def locMat (S : Solver K) (E : Edge dim nS K) (time : K) : Matrix (Fin nS) (Fin nS) K :=
  mass E - (S.theta * S.delta_t) • (conv E time - ∑ f, bdrMat E S.tau time f)

theorem assemble_loc_matrix_spec (m : Mode) (S : Solver K) (E : Edge dim nS K) (time : K) :
    ∃ A, assemble_loc_matrix m S E time = .ok A ∧ toMat A = locMat S E time := by
  obtain ⟨A, h1, h2⟩ := mat_loop (fun i j M => locMatrixStep m S E time i j M) (fun i j : Fin nS => E.vol_phiphi i j + (-(S.theta * S.delta_t * E.vol_nablaphiphivec time i j) +
      ∑ f : Fin (2 * dim), S.theta * S.delta_t * (E.bdr_phiphinu time i j f + S.tau * E.bdr_phiphi time i j f))) (fun i j M => by
    unfold locMatrixStep
    rw [addAt_single m M i.2 j.2, Res.ok_bind, subAt_single m _ i.2 j.2, Res.ok_bind, mat_entry_add i j _
      (fun f : Fin (2 * dim) => S.theta * S.delta_t * (E.bdr_phiphinu time i j f + S.tau * E.bdr_phiphi time i j f)) (fun f M => addAt_single m M i.2 j.2 _),
      mat_single_add, mat_single_add, add_assoc, add_assoc])
  refine ⟨A, h1, ?_⟩
  ext i j
  rw [h2]
  simp only [locMat, mass, conv, bdrMat, Matrix.sub_apply, Matrix.smul_apply, Matrix.sum_apply, Matrix.of_apply, smul_eq_mul, mul_sub, Finset.mul_sum]
  ring

theorem rhs_lambda_spec (m : Mode) (S : Solver K) (E : Edge dim nS K) (time : K) (lambda : LocDofs dim nB K) :
    ∃ v, assemble_rhs_from_lambda m S E lambda time = .ok v ∧ vecOf v = -((S.theta * S.delta_t) • ∑ f, trMat E nB S.tau time f *ᵥ lambda f) := by
  obtain ⟨v, h1, h2⟩ := vec_add_loop (fun i v => forUp nB (fun j v => forUp (2 * dim) (fun face (v : SmallVec nS K) => do
      let l ← arrGet2 lambda face j
      SmallMat.subFrom m i (S.theta * S.delta_t * l * (E.bdr_phipsinu time i j face - S.tau * E.bdr_phipsi time i j face)) v) v) v)
    (fun i : Fin nS => ∑ j : Fin nB, ∑ f : Fin (2 * dim), -(S.theta * S.delta_t * lambda f j * (E.bdr_phipsinu time i j f - S.tau * E.bdr_phipsi time i j f))) (fun i v =>
      entry_add i _ _ (fun j v => entry_add i _ _ (fun f v => by
        rw [arrGet2_lt lambda f.2 j.2, Res.ok_bind, subFrom_single m v i.2]) v) v) (SmallMat.fill _ _ 0)
  refine ⟨v, h1, ?_⟩
  rw [h2]
  funext i
  rw [Pi.add_apply, show vecOf (SmallMat.fill nS 1 (0 : K)) i = 0 from rfl, zero_add, Finset.sum_comm]
  simp only [trMat, mulVec, dotProduct, Matrix.of_apply, Pi.neg_apply, Pi.smul_apply, Finset.sum_apply, smul_eq_mul, Finset.mul_sum, Finset.sum_neg_distrib, neg_inj]
  exact Finset.sum_congr rfl fun f _ => Finset.sum_congr rfl fun j _ => by ring

end Assembly

section Boundary
variable [CommRing K] [LinearOrder K]

theorem is_dirichlet_iff (E : Edge dim nS K) (time : K) (f : Fin (2 * dim)) : is_dirichlet E f time = true ↔ IsDirichlet E time f := by
  unfold is_dirichlet IsDirichlet
  by_cases h1 : E.node_descriptor f ∈ E.dirichlet_nodes <;> by_cases h2 : E.node_descriptor f ∈ E.boundary_nodes <;> simp [h1, h2]

theorem is_outflow_iff (E : Edge dim nS K) (time : K) (f : Fin (2 * dim)) : is_outflow E f time = true ↔ IsOutflow E time f := by
  unfold is_outflow IsOutflow
  by_cases h1 : E.node_descriptor f ∈ E.outflow_nodes <;> by_cases h2 : E.node_descriptor f ∈ E.boundary_nodes <;> simp [h1, h2]

theorem faces_loop (E : Edge dim nS K) (time : K) (g v : LocDofs dim nB K) :
    forFin (2 * dim) (fun i out =>
      if is_dirichlet E i time then forFin nB (fun j (out : LocDofs dim nB K) => .ok (arrSet out i (arrSet (out i) j 0))) out
      else forFin nB (fun j (out : LocDofs dim nB K) => .ok (arrSet out i (arrSet (out i) j (g i j)))) out) v = .ok (offDirichlet E time g) := by
  rw [← map_loop (fun f i _ => offDirichlet E time g f i) v]
  congr 1
  funext i out
  by_cases hdir : IsDirichlet E time i
  · rw [if_pos ((is_dirichlet_iff E time i).mpr hdir)]
    simp [offDirichlet, hdir]
  · rw [if_neg (by rw [is_dirichlet_iff]; exact hdir)]
    simp [offDirichlet, hdir]

/-- The right-hand side of the local problem which comes from the data. -/
noncomputable def stepSource (S : Solver K) (E : Edge dim nS K) (data : Data dim nS nB K) (time : K) : Fin nS → K :=
  (S.theta * S.delta_t) • (source E time - ∑ f, dirichletFlux E time f) + (E.area • vecOf data.u_old + (S.delta_t * (1 - S.theta)) • vecOf data.flux_old)

theorem rhs_global_spec (m : Mode) (S : Solver K) (E : Edge dim nS K) (data : Data dim nS nB K) (time : K) :
    ∃ v, assemble_rhs_from_global_rhs m S E data time = .ok v ∧ vecOf v = stepSource S E data time := by
  obtain ⟨v, h1, h2⟩ := vec_write (fun i (v : SmallVec nS K) => do
    let v ← SmallMat.set m i (S.theta * S.delta_t * E.vol_phifunc time i) v
    forUp (2 * dim) (fun face v =>
      if is_dirichlet E face time then SmallMat.subFrom m i (S.theta * S.delta_t * E.bdr_dirichlet time i face) v
      else .ok v) v) (fun i => S.theta * S.delta_t * E.vol_phifunc time i + ∑ f : Fin (2 * dim), -(S.theta * S.delta_t * dirichletFlux E time f i)) (fun i v =>
    set_add m i _ _ v _ fun v => entry_add i _ _ (fun f v => by
      by_cases hdir : IsDirichlet E time f
      · rw [if_pos ((is_dirichlet_iff E time f).mpr hdir), subFrom_single m v i.2]
        simp [dirichletFlux, hdir]
      · rw [if_neg (by rw [is_dirichlet_iff]; exact hdir)]
        simp [dirichletFlux, hdir, singleMat]) v) (SmallMat.fill _ _ 0)
  obtain ⟨w, k1, k2⟩ := vec_add_loop (fun i (v : SmallVec nS K) => do
    let u ← SmallMat.get m data.u_old i
    let f ← SmallMat.get m data.flux_old i
    SmallMat.addTo m i (u * E.area + S.delta_t * (1 - S.theta) * f) v)
    (fun i => vecOf data.u_old i * E.area + S.delta_t * (1 - S.theta) * vecOf data.flux_old i) (fun i v => by
      rw [vec_get_lt m _ i.2, Res.ok_bind, vec_get_lt m _ i.2, Res.ok_bind, addTo_single m v i.2]
      rfl) v
  refine ⟨w, by unfold assemble_rhs_from_global_rhs; rw [h1, Res.ok_bind, k1], ?_⟩
  rw [k2, h2]
  funext i
  simp only [stepSource, source, Pi.add_apply, Pi.sub_apply, Pi.smul_apply, Finset.sum_apply, smul_eq_mul, mul_sub, Finset.mul_sum, Finset.sum_neg_distrib]
  ring

/-- `flux_at_boundary`. -/
theorem flux_spec (m : Mode) (S : Solver K) (E : Edge dim nS K) (data : Data dim nS nB K) (lambda : LocDofs dim nB K) (c : SmallVec nS K) (residual : Bool) (time : K) :
    flux_at_boundary m S E data lambda c residual time = .ok (fun f i => S.theta * nodeFlux E S.tau time ⟨vecOf c, lambda⟩ f i +
      if residual then (1 - S.theta) * toMat data.boundary_flux_old i f else 0) := by
  unfold flux_at_boundary fluxOfPrimal fluxOfTrace
  rw [bdr_add_loop (fun i j face (b : LocDofs dim nB K) =>
    if ¬ is_outflow E face time then do
      let x ← arrGet c j
      arrAdd2 face i (x * (E.bdr_psiphinu time i j face + S.tau * E.bdr_psiphi time i j face)) b
    else do
      let x ← arrGet c j
      arrAdd2 face i (S.tau * x * E.bdr_psiphi time i j face) b) (fun i (j : Fin nS) f => if IsOutflow E time f then S.tau * vecOf c j * E.bdr_psiphi time i j f
        else vecOf c j * (E.bdr_psiphinu time i j f + S.tau * E.bdr_psiphi time i j f)) (fun i j f b => by
      by_cases ho : IsOutflow E time f
      · rw [if_neg (by simpa using (is_outflow_iff E time f).mpr ho), coeffs_get c j.2, Res.ok_bind, arrAdd2_lt _ f.2 i.2, if_pos ho]
        rfl
      · rw [if_pos (by rw [is_outflow_iff]; exact ho), coeffs_get c j.2, Res.ok_bind, arrAdd2_lt _ f.2 i.2, if_neg ho]
        rfl), Res.ok_bind,
    bdr_add_loop (fun i j face (b : LocDofs dim nB K) =>
    if ¬ is_outflow E face time then do
      let l ← arrGet2 lambda face j
      arrAdd2 face i (l * (E.bdr_psipsinu time i j face - S.tau * E.bdr_psipsi time i j face)) b
    else do
      let l ← arrGet2 lambda face j
      arrSub2 face i (l * S.tau * E.bdr_psipsi time i j face) b) (fun i (j : Fin nB) f => if IsOutflow E time f then -(lambda f j * S.tau * E.bdr_psipsi time i j f)
        else lambda f j * (E.bdr_psipsinu time i j f - S.tau * E.bdr_psipsi time i j f)) (fun i j f b => by
      by_cases ho : IsOutflow E time f
      · rw [if_neg (by simpa using (is_outflow_iff E time f).mpr ho), arrGet2_lt _ f.2 j.2, Res.ok_bind, arrSub2_lt _ f.2 i.2, if_pos ho]
      · rw [if_pos (by rw [is_outflow_iff]; exact ho), arrGet2_lt _ f.2 j.2, Res.ok_bind, arrAdd2_lt _ f.2 i.2, if_neg ho]), Res.ok_bind]
  have hb : ∀ b0 : LocDofs dim nB K, forFin (2 * dim) (fun face b => forFin nB (fun i (b : LocDofs dim nB K) => do
      let b := arrSet b face (arrSet (b face) i (b face i * S.theta))
      if residual then do
        let old ← SmallMat.at' m data.boundary_flux_old i face
        return arrSet b face (arrSet (b face) i (b face i + (1 - S.theta) * old))
      else return b) b) b0 = forFin (2 * dim) (fun f b => forFin nB (fun i (b : LocDofs dim nB K) => .ok (arrSet b f (arrSet (b f) i
        (b f i * S.theta + if residual then (1 - S.theta) * toMat data.boundary_flux_old i f else 0)))) b) b0 := by
    intro b0
    congr 1
    funext f b
    congr 1
    funext i b
    cases residual
    · simp
    · dsimp only
      rw [if_pos rfl, if_pos rfl, at_lt m _ i.2 f.2, Res.ok_bind]
      refine congrArg Res.ok ?_
      funext a
      by_cases ha : a = f
      · subst ha
        simp only [arrSet, if_true]
        funext j
        by_cases hj : j = i
        · subst hj; simp [arrSet]
        · simp [arrSet, hj]
      · simp [arrSet, ha]
  rw [hb, map_loop (fun f i x => x * S.theta + if residual then (1 - S.theta) * toMat data.boundary_flux_old i f else 0)]
  refine congrArg Res.ok ?_
  funext f i
  congr 1
  simp only [zero_add]
  unfold nodeFlux
  by_cases ho : IsOutflow E time f
  · simp only [if_pos ho, stabFlux, Finset.sum_neg_distrib]
    rw [mul_comm, sub_eq_add_neg]
    congr 2
    · exact Finset.sum_congr rfl fun j _ => by ring
    · congr 1
      exact Finset.sum_congr rfl fun j _ => by ring
  · simp only [if_neg ho, flux]
    rw [mul_comm]
    congr 2
    · exact Finset.sum_congr rfl fun j _ => by ring
    · exact Finset.sum_congr rfl fun j _ => by ring

theorem fluxEntry_spec (m : Mode) (S : Solver K) (E : Edge dim nS K) (u : SmallVec nS K) (lambda : LocDofs dim nB K) (time : K) (hl : VanishesOnDirichlet E time lambda)
    (v0 : SmallVec nS K) : ∃ v, forUp nS (fluxEntry m S E u lambda time) v0 = .ok v ∧ vecOf v = rate E S.tau time ⟨vecOf u, lambda⟩ := by
  obtain ⟨v, h1, h2⟩ := vec_write (fluxEntry m S E u lambda time) (fun i => E.vol_phifunc time i +
    ((∑ j : Fin nS, (E.vol_nablaphiphivec time i j * vecOf u j +
        ∑ f : Fin (2 * dim), -(vecOf u j * (E.bdr_phiphinu time i j f + S.tau * E.bdr_phiphi time i j f)))) +
      ∑ f : Fin (2 * dim), -((∑ j : Fin nB, lambda f j * (E.bdr_phipsinu time i j f - S.tau * E.bdr_phipsi time i j f)) + dirichletFlux E time f i))) (fun i v => by
    refine set_add m i _ _ v _ (fun v => ?_)
    rw [entry_add i _ (fun j : Fin nS => E.vol_nablaphiphivec time i j * vecOf u j +
        ∑ f : Fin (2 * dim), -(vecOf u j * (E.bdr_phiphinu time i j f + S.tau * E.bdr_phiphi time i j f))) (fun j v => by
        rw [vec_get_lt m u j.2, Res.ok_bind, addTo_single m v i.2, Res.ok_bind,
          entry_add i _ (fun f : Fin (2 * dim) => -(vecOf u j * (E.bdr_phiphinu time i j f + S.tau * E.bdr_phiphi time i j f))) (fun f v => subFrom_single m v i.2 _),
          mat_single_add, add_assoc]
        rfl), Res.ok_bind,
      entry_add i _ (fun f : Fin (2 * dim) => -((∑ j : Fin nB, lambda f j * (E.bdr_phipsinu time i j f - S.tau * E.bdr_phipsi time i j f)) + dirichletFlux E time f i))
        (fun f v => by
          by_cases hdir : IsDirichlet E time f
          · rw [if_neg (by simpa using (is_dirichlet_iff E time f).mpr hdir), subFrom_single m v i.2]
            simp [dirichletFlux, hdir, hl f hdir]
          · rw [if_pos (by rw [is_dirichlet_iff]; exact hdir),
              entry_add i _ (fun j : Fin nB => -(lambda f j * (E.bdr_phipsinu time i j f - S.tau * E.bdr_phipsi time i j f)))]
            · simp [dirichletFlux, hdir]
            · intro j v
              rw [arrGet2_lt lambda f.2 j.2, Res.ok_bind, subFrom_single m v i.2]), mat_single_add, add_assoc]) v0
  refine ⟨v, h1, ?_⟩
  rw [h2]
  funext i
  simp only [rate, fluxTested, Pi.add_apply, Pi.sub_apply, Finset.sum_apply, source, conv, mulVec, dotProduct, Matrix.of_apply, Finset.sum_add_distrib, Finset.sum_neg_distrib]
  rw [Finset.sum_comm (f := fun (j : Fin nS) (f : Fin (2 * dim)) => vecOf u j * (E.bdr_phiphinu time i j f + S.tau * E.bdr_phiphi time i j f))]
  simp only [mul_comm (vecOf u _), mul_comm (lambda _ _)]
  ring

theorem boundaryEntry_spec (m : Mode) (S : Solver K) (E : Edge dim nS K) (u : SmallVec nS K) (lambda : LocDofs dim nB K) (time : K) :
    ∃ M, forUp nB (fun i M => forUp (2 * dim) (fun face M => boundaryEntry m S E u lambda time i face M) M) (SmallMat.fill _ _ 0) = .ok M ∧
      ∀ f i, toMat M i f = nodeFlux E S.tau time ⟨vecOf u, lambda⟩ f i := by
  obtain ⟨M, h1, h2⟩ := mat_loop (fun i face M => boundaryEntry m S E u lambda time i face M) (fun (i : Fin nB) (f : Fin (2 * dim)) =>
      nodeFlux E S.tau time ⟨vecOf u, lambda⟩ f i) (fun i f M => by
    unfold boundaryEntry nodeFlux
    by_cases ho : IsOutflow E time f
    · have hb := (is_outflow_iff E time f).mpr ho
      simp only [hb, not_true_eq_false, if_false, if_pos ho]
      rw [mat_entry_add i f _ (fun j : Fin nS => S.tau * vecOf u j * E.bdr_psiphi time i j f) (fun j M => by
          rw [vec_get_lt m u j.2, Res.ok_bind, addAt_single m M i.2 f.2]; rfl), Res.ok_bind,
        mat_entry_add i f _ (fun j : Fin nB => -(lambda f j * S.tau * E.bdr_psipsi time i j f)) (fun j M => by
          rw [arrGet2_lt lambda f.2 j.2, Res.ok_bind, subAt_single m M i.2 f.2]), add_assoc, ← mat_single_add]
      refine congrArg Res.ok (congrArg _ (congrArg _ ?_))
      simp only [stabFlux, Finset.sum_neg_distrib]
      rw [sub_eq_add_neg]
      congr 1
      · exact Finset.sum_congr rfl fun j _ => by ring
      · congr 1
        exact Finset.sum_congr rfl fun j _ => by ring
    · have hb : is_outflow E f time = false := by rw [← Bool.not_eq_true, is_outflow_iff]; exact ho
      simp only [hb, Bool.false_eq_true, not_false_eq_true, if_true, if_neg ho]
      rw [mat_entry_add i f _ (fun j : Fin nS => vecOf u j * (E.bdr_psiphinu time i j f + S.tau * E.bdr_psiphi time i j f)) (fun j M => by
          rw [vec_get_lt m u j.2, Res.ok_bind, addAt_single m M i.2 f.2]; rfl), Res.ok_bind,
        mat_entry_add i f _ (fun j : Fin nB => lambda f j * (E.bdr_psipsinu time i j f - S.tau * E.bdr_psipsi time i j f)) (fun j M => by
          rw [arrGet2_lt lambda f.2 j.2, Res.ok_bind, addAt_single m M i.2 f.2]), add_assoc, ← mat_single_add]
      refine congrArg Res.ok (congrArg _ (congrArg _ ?_))
      simp only [flux]
      congr 1
      · exact Finset.sum_congr rfl fun j _ => by ring
      · exact Finset.sum_congr rfl fun j _ => by ring)
  exact ⟨M, h1, fun f i => h2 i f⟩

/-- The data kept by a hyperedge describe a state. -/
structure Stores (S : Solver K) (E : Edge dim nS K) (time : K) (x : State dim nS nB K) (data : Data dim nS nB K) : Prop where
  u : vecOf data.u_old = x.u
  flux : vecOf data.flux_old = rate E S.tau time x
  bdr : ∀ f j, toMat data.boundary_flux_old j f = nodeFlux E S.tau time x f j

theorem fillData_spec (m : Mode) (S : Solver K) (E : Edge dim nS K) (u : SmallVec nS K) (lambda : LocDofs dim nB K) (time : K) (hl : VanishesOnDirichlet E time lambda)
    (v0 : SmallVec nS K) : ∃ data, fillData m S E u lambda time v0 = .ok data ∧ Stores S E time ⟨vecOf u, lambda⟩ data := by
  obtain ⟨v, h1, h2⟩ := fluxEntry_spec m S E u lambda time hl v0
  obtain ⟨M, k1, k2⟩ := boundaryEntry_spec m S E u lambda time
  refine ⟨⟨u, v, M⟩, ?_, rfl, h2, k2⟩
  unfold fillData
  rw [h1, Res.ok_bind, k1]
  rfl

/-- Solutions of the local problem with data are steps of the theta scheme. -/
theorem step_iff (S : Solver K) (E : Edge dim nS K) (hO : Orthonormal E) (time : K) (old : State dim nS nB K) (data : Data dim nS nB K)
    (hst : Stores S E (time - S.delta_t) old data) (u : Fin nS → K) (lambda : LocDofs dim nB K) :
    locMat S E time *ᵥ u = -((S.theta * S.delta_t) • ∑ f, trMat E nB S.tau time f *ᵥ lambda f) + stepSource S E data time ↔ ThetaStep S E time old ⟨u, lambda⟩ := by
  have hm : mass E = E.area • (1 : Matrix (Fin nS) (Fin nS) K) := by
    ext i j
    simp [mass, hO i j, Matrix.one_apply]
  unfold ThetaStep
  rw [← sub_eq_zero, ← sub_eq_zero (a := mass E *ᵥ _)]
  have : locMat S E time *ᵥ u - (-((S.theta * S.delta_t) • ∑ f, trMat E nB S.tau time f *ᵥ lambda f) + stepSource S E data time) =
      mass E *ᵥ (u - old.u) - S.delta_t • (S.theta • rate E S.tau time ⟨u, lambda⟩ + (1 - S.theta) • rate E S.tau (time - S.delta_t) old) := by
    have hr : rate E S.tau time (⟨u, lambda⟩ : State dim nS nB K) = source E time + conv E time *ᵥ u -
        (∑ f, bdrMat E S.tau time f *ᵥ u + ∑ f, trMat E nB S.tau time f *ᵥ lambda f + ∑ f, dirichletFlux E time f) := by
      simp only [rate, fluxTested_eq, Finset.sum_add_distrib]
    rw [stepSource, hst.u, hst.flux, hr]
    rw [locMat, sub_mulVec, smul_mulVec, sub_mulVec, Matrix.sum_mulVec, mulVec_sub, hm]
    simp only [smul_mulVec, one_mulVec]
    module
  rw [this]

end Boundary

section Solve
variable [Field K]

theorem locMat_mulVec (S : Solver K) (E : Edge dim nS K) (nB : Nat) (time : K) (u : Fin nS → K) : locMat S E time *ᵥ u =
    mass E *ᵥ u - (S.theta * S.delta_t) • (conv E time *ᵥ u - ∑ f, fluxTested E S.tau time (⟨u, 0⟩ : State dim nS nB K) f) := by
  simp only [fluxTested_eq, Pi.zero_apply, mulVec_zero, add_zero]
  rw [locMat, sub_mulVec, smul_mulVec, sub_mulVec, Matrix.sum_mulVec]

theorem solvable_iff (S : Solver K) (E : Edge dim nS K) (nB : Nat) (time : K) : IsUnit (locMat S E time) ↔ Solvable S E nB time := by
  unfold Solvable
  simp only [← locMat_mulVec]
  rw [← Matrix.mulVec_injective_iff_isUnit]
  constructor
  · intro h u hu
    exact h (hu.trans (mulVec_zero _).symm)
  · intro h v w hvw
    have := h (v - w) (by rw [mulVec_sub, sub_eq_zero]; exact hvw)
    exact sub_eq_zero.mp this

variable [LinearOrder K]

/-- The right-hand side of the local problem for the two types of solution. -/
noncomputable def dataOf (S : Solver K) (E : Edge dim nS K) (data : Data dim nS nB K) (time : K) (solution_type : Nat) : Fin nS → K :=
  if solution_type = 0 then 0 else stepSource S E data time

theorem solve_local_problem_spec (m : Mode) (gesv : Gesv nS 1 K) (hg : GesvSpec gesv) (S : Solver K) (E : Edge dim nS K)
    (data : Data dim nS nB K) (time : K) (lambda : LocDofs dim nB K) (t : Nat) (ht : t = 0 ∨ t = 1) :
    (Solvable S E nB time → ∃ x, solve_local_problem m gesv S E data lambda t time = .ok x ∧
      locMat S E time *ᵥ vecOf x = -((S.theta * S.delta_t) • ∑ f, trMat E nB S.tau time f *ᵥ lambda f) + dataOf S E data time t) ∧
    (¬ Solvable S E nB time → solve_local_problem m gesv S E data lambda t time = solveFailure m) := by
  obtain ⟨A, hA1, hA2⟩ := assemble_loc_matrix_spec m S E time
  obtain ⟨v, hv1, hv2⟩ := rhs_lambda_spec m S E time lambda
  obtain ⟨w, hw1, hw2⟩ := rhs_global_spec (nB := nB) m S E data time
  have key : ∃ rhs, vecOf rhs = -((S.theta * S.delta_t) • ∑ f, trMat E nB S.tau time f *ᵥ lambda f) + dataOf S E data time t ∧
      solve_local_problem m gesv S E data lambda t time = catchLapack m (solve gesv rhs A) := by
    rcases ht with rfl | rfl
    · refine ⟨v, by simpa [dataOf] using hv2, ?_⟩
      simp [solve_local_problem, hv1, hA1]
    · refine ⟨v + w, ?_, ?_⟩
      · rw [← hv2]
        simp only [dataOf, one_ne_zero, if_false]
        rw [← hw2]
        rfl
      · simp [solve_local_problem, hv1, hA1, hw1, add_mat_spec]
  obtain ⟨rhs, hr1, hr2⟩ := key
  refine ⟨fun hs => ?_, fun hs => ?_⟩
  · obtain ⟨LU, X, x, k1, k2, k3⟩ := hg.regular A rhs (toMat A) (toMat rhs) (represents_iff.mpr rfl) (represents_iff.mpr rfl)
      (by rw [hA2, solvable_iff S E nB time]; exact hs)
    rw [represents_iff] at k2
    subst k2
    refine ⟨X, ?_, ?_⟩
    · rw [hr2]
      unfold solve solve_in_place
      rw [k1]; rfl
    · rw [← hr1, ← hA2]
      funext i
      exact congrFun (congrFun k3 i) 0
  · rw [hr2]
    unfold solve solve_in_place
    rw [hg.singular A rhs (toMat A) (represents_iff.mpr rfl) (by rw [hA2, solvable_iff S E nB time]; exact hs)]
    exact catch_throw m

theorem isLocal_iff (S : Solver K) (E : Edge dim nS K) (time : K) (x : State dim nS nB K) : IsLocal S E time x ↔
    locMat S E time *ᵥ x.u = -((S.theta * S.delta_t) • ∑ f, trMat E nB S.tau time f *ᵥ x.lambda f) := by
  unfold IsLocal
  rw [← sub_eq_zero, ← sub_eq_zero (a := locMat S E time *ᵥ x.u)]
  simp only [fluxTested_eq, Finset.sum_add_distrib]
  rw [locMat, sub_mulVec, smul_mulVec, sub_mulVec, Matrix.sum_mulVec]
  have : mass E *ᵥ x.u - (S.theta * S.delta_t) • (conv E time *ᵥ x.u - (∑ f, bdrMat E S.tau time f *ᵥ x.u + ∑ f, trMat E nB S.tau time f *ᵥ x.lambda f)) =
    mass E *ᵥ x.u - (S.theta * S.delta_t) • (conv E time *ᵥ x.u - ∑ f, bdrMat E S.tau time f *ᵥ x.u) -
      -((S.theta * S.delta_t) • ∑ f, trMat E nB S.tau time f *ᵥ x.lambda f) := by module
  rw [this]

theorem trace_to_flux_spec (m : Mode) (gesv : Gesv nS 1 K) (hg : GesvSpec gesv) (S : Solver K) (E : Edge dim nS K)
    (data : Data dim nS nB K) (time : K) (hs : Solvable S E nB time) (lambda out : LocDofs dim nB K) :
    ∃ u, IsLocal S E time ⟨u, lambda⟩ ∧
      trace_to_flux m gesv S lambda out E data time = .ok (offDirichlet E time (S.theta • nodeFlux E S.tau time ⟨u, lambda⟩)) := by
  obtain ⟨c, h1, h2⟩ := (solve_local_problem_spec m gesv hg S E data time lambda 0 (.inl rfl)).1 hs
  refine ⟨vecOf c, (isLocal_iff S E time _).mpr (by simpa [dataOf] using h2), ?_⟩
  unfold trace_to_flux
  rw [h1, Res.ok_bind, flux_spec, Res.ok_bind, writeFlux, faces_loop]
  refine congrArg Res.ok (congrArg _ ?_)
  funext f i
  simp

theorem residual_raw (m : Mode) (gesv : Gesv nS 1 K) (hg : GesvSpec gesv) (S : Solver K) (E : Edge dim nS K)
    (data : Data dim nS nB K) (time : K) (hs : Solvable S E nB time) (lambda out : LocDofs dim nB K) :
    ∃ u, locMat S E time *ᵥ u = -((S.theta * S.delta_t) • ∑ f, trMat E nB S.tau time f *ᵥ lambda f) + stepSource S E data time ∧
      residual_flux m gesv S lambda out E data time = .ok (offDirichlet E time fun f j =>
        S.theta * nodeFlux E S.tau time ⟨u, lambda⟩ f j + (1 - S.theta) * toMat data.boundary_flux_old j f) := by
  obtain ⟨c, h1, h2⟩ := (solve_local_problem_spec m gesv hg S E data time lambda 1 (.inr rfl)).1 hs
  refine ⟨vecOf c, by simpa [dataOf] using h2, ?_⟩
  unfold residual_flux
  rw [h1, Res.ok_bind, flux_spec, Res.ok_bind, writeFlux, faces_loop]
  rfl

theorem residual_flux_spec (m : Mode) (gesv : Gesv nS 1 K) (hg : GesvSpec gesv) (S : Solver K) (E : Edge dim nS K) (hO : Orthonormal E)
    (data : Data dim nS nB K) (time : K) (hs : Solvable S E nB time) (old : State dim nS nB K)
    (hst : Stores S E (time - S.delta_t) old data) (lambda out : LocDofs dim nB K) :
    ∃ new, ThetaStep S E time old new ∧ new.lambda = lambda ∧
      residual_flux m gesv S lambda out E data time = .ok (offDirichlet E time
        (S.theta • nodeFlux E S.tau time new + (1 - S.theta) • nodeFlux E S.tau (time - S.delta_t) old)) := by
  obtain ⟨u, h1, h2⟩ := residual_raw m gesv hg S E data time hs lambda out
  refine ⟨⟨u, lambda⟩, (step_iff S E hO time old data hst u lambda).mp h1, rfl, h2.trans (congrArg Res.ok (congrArg _ ?_))⟩
  funext f j
  rw [hst.bdr]
  rfl

theorem set_data_spec (m : Mode) (gesv : Gesv nS 1 K) (hg : GesvSpec gesv) (S : Solver K) (E : Edge dim nS K) (hO : Orthonormal E)
    (data : Data dim nS nB K) (time : K) (hs : Solvable S E nB time) (old : State dim nS nB K)
    (hst : Stores S E (time - S.delta_t) old data) (lambda : LocDofs dim nB K) (hl : VanishesOnDirichlet E time lambda) :
    ∃ data' new, set_data m gesv S lambda E data time = .ok data' ∧ ThetaStep S E time old new ∧ new.lambda = lambda ∧ Stores S E time new data' := by
  obtain ⟨c, h1, h2⟩ := (solve_local_problem_spec m gesv hg S E data time lambda 1 (.inr rfl)).1 hs
  obtain ⟨data', k1, k2⟩ := fillData_spec m S E c lambda time hl data.flux_old
  refine ⟨data', ⟨vecOf c, lambda⟩, ?_, (step_iff S E hO time old data hst _ lambda).mp (by simpa [dataOf] using h2), rfl, k2⟩
  unfold set_data
  rw [h1, Res.ok_bind, k1]

theorem make_initial_spec (m : Mode) (S : Solver K) (E : Edge dim nS K) (data : Data dim nS nB K) (time : K) (lambda : LocDofs dim nB K) :
    ∃ data' x, make_initial m S lambda E data time = .ok (x.lambda, data') ∧ IsInitial E time x ∧ Stores S E time x data' := by
  have hl0 : initialTrace lambda E time = .ok (offDirichlet E time (fun f j => E.bdrUni_initial time j f)) := faces_loop E time _ lambda
  obtain ⟨u', hu1, hu2⟩ := vec_write (fun i (u : SmallVec nS K) => SmallMat.set m i (E.volUni_initial time i) u) (fun i => E.volUni_initial time i)
    (fun i v => vec_set_lt m v i.2 _) data.u_old
  obtain ⟨data', k1, k2⟩ := fillData_spec m S E u' (offDirichlet E time (fun f (j : Fin nB) => E.bdrUni_initial time j f)) time
    (fun f hf => by funext j; simp [offDirichlet, hf]) data.flux_old
  refine ⟨data', ⟨vecOf u', _⟩, ?_, ⟨hu2, rfl⟩, k2⟩
  unfold make_initial
  rw [hl0, Res.ok_bind, hu1, Res.ok_bind, k1]
  rfl

end Solve

end HyperHDG.AdvectionParab

import Verif.Spec.Parabolic
import Verif.Proofs.Diffusion
import Verif.Proofs.BulkValues

/-!
# Lemmas about the local solver for parabolic diffusion problems
-/

set_option linter.unusedSectionVars false

namespace HyperHDG.DiffusionParab

open Spec Finset Matrix LDG DiffusionUniform Diffusion

variable {K : Type} {dim nS nB : Nat}

/-- The entries of a vector. -/
def vecOf (v : SmallVec nS K) : Fin nS → K := fun i => toMat v i 0

section Assembly
variable [CommRing K]

theorem locMatrixStep_eq (m : Mode) (S : Solver K) (E : Edge dim nS K) (time : K) (i j : Fin nS) (M : SmallMat ((dim + 1) * nS) ((dim + 1) * nS) K) :
    locMatrixStep m S E time i j M = .ok (M + locAdd (S.tau * S.theta * S.delta_t * (∑ f : Fin (2 * dim), E.bdr_phiphi i j f) + E.vol_phiphi i j) (E.vol_phiphifunc time i j)
      (fun d => -(S.theta * S.delta_t * E.vol_nablaphiphi i j d) + S.theta * S.delta_t * ∑ f : Fin (2 * dim), E.local_normal f d * E.bdr_phiphi i j f)
      (fun d => -E.vol_nablaphiphi i j d) i j) := by
  unfold locMatrixStep
  have hface : forUp (2 * dim) (fun face (s : K × (Fin dim → K)) => do
      let helper := E.bdr_phiphi i j face
      return (s.1 + helper, fun d => s.2 d + E.local_normal face d * helper)) (0, fun _ => 0) =
      .ok (∑ f : Fin (2 * dim), E.bdr_phiphi i j f, fun d => ∑ f : Fin (2 * dim), E.local_normal f d * E.bdr_phiphi i j f) := by
    rw [forUp_add (2 * dim) _ (fun f => ((E.bdr_phiphi i j f, fun d => E.local_normal f d * E.bdr_phiphi i j f) : K × (Fin dim → K))) (fun _ _ => rfl)]
    refine congrArg Res.ok (Prod.ext ?_ ?_)
    · simp [Prod.fst_sum]
    · funext d; simp [Prod.snd_sum, Finset.sum_apply]
  dsimp only
  rw [hface, Res.ok_bind, addAt_single m _ (hl i) (hl j), Res.ok_bind]
  dsimp only
  rw [forUp_add dim _ (fun d => singleMat (ix d.castSucc i) (ix d.castSucc j) (E.vol_phiphifunc time i j) +
    singleMat (ix d.castSucc i) (ix (Fin.last dim) j) (-E.vol_nablaphiphi i j d) +
    singleMat (ix (Fin.last dim) i) (ix d.castSucc j) (-(S.theta * S.delta_t * E.vol_nablaphiphi i j d)) +
    singleMat (ix (Fin.last dim) i) (ix d.castSucc j) (S.theta * S.delta_t * ∑ f : Fin (2 * dim), E.local_normal f d * E.bdr_phiphi i j f)),
    Res.ok_bind, addAt_single m _ (hl i) (hl j)]
  · unfold Diffusion.locAdd
    rw [mk_last, mk_last]
    have hadd : ∀ (a b : Fin ((dim + 1) * nS)) (x y : K), singleMat a b (x + y) = singleMat a b x + singleMat a b y := fun a b x y => Pi.single_add _ _ _
    refine congrArg Res.ok ?_
    rw [hadd, add_assoc, add_assoc, add_assoc, add_comm (∑ d, _) (singleMat _ _ _)]
    refine congrArg _ (congrArg _ (congrArg _ (Finset.sum_congr rfl fun d _ => ?_)))
    rw [hadd]
    abel
  · intro d M
    rw [addAt_single m M (hd d i) (hd d j), Res.ok_bind, arrGet_lt _ d.2, Res.ok_bind, subAt_single m _ (hd d i) (hl j), Res.ok_bind,
      subAt_single m _ (hl i) (hd d j), Res.ok_bind, arrGet_lt _ d.2, Res.ok_bind, addAt_single m _ (hl i) (hd d j)]
    refine congrArg Res.ok ?_
    simp only [← add_assoc]
    rfl

theorem assemble_loc_matrix_spec (m : Mode) (S : Solver K) (E : Edge dim nS K) (nB : Nat) (time : K) :
    ∃ A, assemble_loc_matrix m S E time = .ok A ∧ IsMat (form E.toEdge nB time) S.tau 1 (S.theta * S.delta_t) (toMat A) := by
  obtain ⟨A, h1, h2⟩ := matrix_loop (fun i j M => locMatrixStep m S E time i j M) _ _ _ _ (fun i j M => locMatrixStep_eq m S E time i j M)
  refine ⟨A, h1, fun b i c j => ?_⟩
  rw [h2]
  unfold block
  split
  next h =>
    split
    next h' => split <;> simp [form]
    next h' => simp [form]
  next h =>
    split
    next h' =>
      simp [form, Matrix.sum_apply]
      ring
    next h' =>
      simp [form, Matrix.sum_apply]
      ring

theorem rhs_lambda_spec (m : Mode) (S : Solver K) (E : Edge dim nS K) (time : K) (lambda : LocDofs dim nB K) :
    ∃ v, assemble_rhs_from_lambda m S E lambda = .ok v ∧
      IsRhs (form E.toEdge nB time) S.tau (S.theta * S.delta_t) (moments (form E.toEdge nB time) lambda) 0 (toMat v) := by
  obtain ⟨v, h1, h2⟩ := vec_loop (dim := dim) (nS := nS) (fun i v => forUp nB (fun j v => forUp (2 * dim) (fun face (v : SmallVec ((dim + 1) * nS) K) => do
    let integral := E.bdr_phipsi i j face
    let l ← arrGet2 lambda face j
    let v ← SmallMat.addTo m (dim * nS + i) (S.tau * S.theta * S.delta_t * l * integral) v
    forUp dim (fun d v => do
      let n ← arrGet (E.local_normal face) d
      SmallMat.subFrom m (d * nS + i) (n * l * integral) v) v) v) v)
    (fun i => ∑ j : Fin nB, ∑ f : Fin (2 * dim), S.tau * S.theta * S.delta_t * lambda f j * E.bdr_phipsi i j f)
    (fun i d => ∑ j : Fin nB, ∑ f : Fin (2 * dim), -(E.local_normal f d * lambda f j * E.bdr_phipsi i j f))
    (fun i v => vec_add _ i _ _ (fun j v => vec_add _ i (fun f : Fin (2 * dim) => S.tau * S.theta * S.delta_t * lambda f j * E.bdr_phipsi i j f)
      (fun f d => -(E.local_normal f d * lambda f j * E.bdr_phipsi i j f)) (fun f v => by
        dsimp only
        rw [arrGet2_lt lambda f.2 j.2, Res.ok_bind]
        exact face_add m E.toEdge f i _ _ _ v (fun _ n => n * lambda f j * E.bdr_phipsi i j f) (fun d => rfl) rfl) v) v) (SmallMat.fill _ _ 0)
  refine ⟨v, h1, fun b i => ?_⟩
  rw [h2, show toMat (SmallMat.fill ((dim + 1) * nS) 1 (0 : K)) (ix b i) 0 = 0 from rfl, zero_add]
  unfold blockRhs
  split
  next h =>
    simp only [moments, mulVec, dotProduct, form, Matrix.of_apply, Pi.neg_apply, Finset.sum_apply, Pi.smul_apply, smul_eq_mul]
    rw [Finset.sum_comm, ← Finset.sum_neg_distrib]
    refine Finset.sum_congr rfl fun f _ => ?_
    rw [Finset.mul_sum, ← Finset.sum_neg_distrib]
    refine Finset.sum_congr rfl fun j _ => ?_
    ring
  next h =>
    simp only [moments, mulVec, dotProduct, form, Matrix.of_apply, Pi.add_apply, Pi.zero_apply, zero_add, Finset.sum_apply, Pi.smul_apply, smul_eq_mul]
    rw [Finset.sum_comm, Finset.mul_sum]
    refine Finset.sum_congr rfl fun f _ => ?_
    rw [Finset.mul_sum]
    refine Finset.sum_congr rfl fun j _ => ?_
    ring

/-- The source of the local problem of a time step. -/
noncomputable def stepSource (S : Solver K) (E : Edge dim nS K) (data : Data dim nS nB K) (time : K) : Fin nS → K := fun i =>
  S.theta * S.delta_t * source E.toEdge time i + S.tau * (1 - S.theta) * S.delta_t * (∑ f, dirichletMoments E.toEdge (time - S.delta_t) f i) +
    (vecOf data.u_old i * E.area + S.delta_t * (1 - S.theta) * vecOf data.flux_old i)

theorem rhs_global_spec (m : Mode) (S : Solver K) (E : Edge dim nS K) (data : Data dim nS nB K) (time : K) :
    ∃ v, assemble_rhs_from_global_rhs m S E data time = .ok v ∧
      IsRhs (form E.toEdge nB time) S.tau (S.theta * S.delta_t) (dirichletMoments E.toEdge time) (stepSource S E data time) (toMat v) := by
  obtain ⟨v, h1, h2⟩ := vec_loop_set (dim := dim) (nS := nS) (fun i v => do
    let v ← SmallMat.set m (dim * nS + i) (S.theta * S.delta_t * E.vol_phifunc time i) v
    forUp (2 * dim) (fun face v =>
      if ¬ is_dirichlet E face then .ok v
      else do
        let integral := E.bdr_phifunc time i face
        let v ← SmallMat.addTo m (dim * nS + i)
          (S.tau * S.theta * S.delta_t * integral + S.tau * (1 - S.theta) * S.delta_t * E.bdr_phifunc (time - S.delta_t) i face) v
        forUp dim (fun d v => do
          let n ← arrGet (E.local_normal face) d
          SmallMat.subFrom m (d * nS + i) (n * integral) v) v) v)
    (fun i => S.theta * S.delta_t * source E.toEdge time i + ∑ f, (S.tau * S.theta * S.delta_t * dirichletMoments E.toEdge time f i +
      S.tau * (1 - S.theta) * S.delta_t * dirichletMoments E.toEdge (time - S.delta_t) f i))
    (fun i d => ∑ f : Fin (2 * dim), -(E.local_normal f d * dirichletMoments E.toEdge time f i)) (fun i v hv => by
      dsimp only
      rw [set_zero m v i _ hv, Res.ok_bind, vec_add _ i (fun f : Fin (2 * dim) => S.tau * S.theta * S.delta_t * dirichletMoments E.toEdge time f i +
          S.tau * (1 - S.theta) * S.delta_t * dirichletMoments E.toEdge (time - S.delta_t) f i)
        (fun f d => -(E.local_normal f d * dirichletMoments E.toEdge time f i))]
      · rw [add_assoc, ← add_assoc (singleMat _ _ _) (singleMat _ _ _)]
        refine congrArg Res.ok (congrArg _ (congrArg (· + _) ?_))
        exact (Pi.single_add _ _ _).symm
      · intro f v
        by_cases hdir : IsDirichlet E.toEdge f
        · have hb : is_dirichlet E f = true := (is_dirichlet_iff E.toEdge f).mpr hdir
          rw [if_neg (by simp [hb])]
          have e : ∀ t, dirichletMoments E.toEdge t f i = E.bdr_phifunc t i f := fun t => by simp [dirichletMoments, hdir]
          rw [e, e]
          exact face_add m E.toEdge f i _ _ _ v (fun _ n => n * E.bdr_phifunc time i f) (fun d => rfl) rfl
        · have hb : is_dirichlet E f = false := by
            rw [← Bool.not_eq_true]; exact fun h => hdir ((is_dirichlet_iff E.toEdge f).mp h)
          rw [if_pos (by simp [hb])]
          have e : ∀ t, dirichletMoments E.toEdge t f i = 0 := fun t => by simp [dirichletMoments, hdir]
          rw [e, e]
          simp [singleMat])
  obtain ⟨w, k1, k2⟩ := vec_loop (dim := dim) (nS := nS) (fun i (v : SmallVec ((dim + 1) * nS) K) => do
    let u ← SmallMat.get m data.u_old i
    let f ← SmallMat.get m data.flux_old i
    SmallMat.addTo m (dim * nS + i) (u * E.area + S.delta_t * (1 - S.theta) * f) v)
    (fun i => vecOf data.u_old i * E.area + S.delta_t * (1 - S.theta) * vecOf data.flux_old i) (fun i d => 0) (fun i v => by
      rw [vec_get_lt m _ i.2, Res.ok_bind, vec_get_lt m _ i.2, Res.ok_bind, addTo_single m v (hl i)]
      simp [singleMat, mk_last, vecOf]) v
  refine ⟨w, ?_, fun b i => ?_⟩
  · unfold assemble_rhs_from_global_rhs
    rw [h1, Res.ok_bind, k1]
  rw [k2, h2]
  unfold blockRhs
  split
  next h => simp [form]
  next h =>
    simp only [stepSource, Pi.add_apply, Pi.smul_apply, Finset.sum_apply, smul_eq_mul, Finset.sum_add_distrib, ← Finset.mul_sum]
    ring

/-! ## Traces -/

theorem loc_loop (f : Nat → Nat → Nat → LocDofs dim nB K → Res (LocDofs dim nB K)) (g : Fin nS → Fin nB → Fin (2 * dim) → K)
    (hf : ∀ (i : Fin nS) (j : Fin nB) (k : Fin (2 * dim)) b, f i j k b = .ok (b + single2 k j (g i j k))) :
    ∃ b, forUp nS (fun i b => forUp nB (fun j b => forUp (2 * dim) (fun k b => f i j k b) b) b) (fun _ _ => 0) = .ok b ∧
      ∀ k j, b k j = ∑ i, g i j k := by
  refine ⟨_, forUp_add nS _ (fun i => ∑ j, ∑ k, single2 k j (g i j k)) (fun i M => forUp_add nB _ (fun j => ∑ k, single2 k j (g i j k))
    (fun j M => forUp_add (2 * dim) _ (fun k => single2 k j (g i j k)) (fun k M => hf i j k M) M) M) _, fun k j => ?_⟩
  simp only [Pi.add_apply, Finset.sum_apply, zero_add]
  refine Finset.sum_congr rfl fun i _ => ?_
  rw [Finset.sum_eq_single j, Finset.sum_eq_single k] <;> simp +contextual [single2, eq_comm]

theorem primal_spec (E : Edge dim nS K) (nB : Nat) (time : K) (x : SmallVec ((dim + 1) * nS) K) :
    ∃ b, primal_at_boundary E nB x = .ok b ∧ ∀ f j, b f j = (((form E.toEdge nB time).psi f)ᵀ *ᵥ uOf (toMat x)) j := by
  obtain ⟨b, h1, h2⟩ := loc_loop (fun i j face (b : LocDofs dim nB K) => do
    let x ← arrGet x (dim * nS + i)
    arrAdd2 face j (x * E.bdr_phipsi i j face) b) (fun (i : Fin nS) j f => uOf (toMat x) i * E.bdr_phipsi i j f) (fun i j f b => by
      rw [coeffs_get x (hl i), Res.ok_bind, arrAdd2_lt _ f.2 j.2]
      rfl)
  refine ⟨b, h1, fun f j => ?_⟩
  rw [h2]
  simp [mulVec, dotProduct, form, mul_comm]

theorem single2_sum {ι : Type} (s : Finset ι) (k : Fin (2 * dim)) (j : Fin nB) (g : ι → K) : ∑ a ∈ s, single2 k j (g a) = single2 k j (∑ a ∈ s, g a) := by
  funext x y
  simp only [Finset.sum_apply, single2]
  split <;> simp

theorem dual_spec (E : Edge dim nS K) (nB : Nat) (time : K) (x : SmallVec ((dim + 1) * nS) K) :
    ∃ b, dual_at_boundary E nB x = .ok b ∧
      ∀ f j, b f j = (((form E.toEdge nB time).psi f)ᵀ *ᵥ ∑ d, (form E.toEdge nB time).normal f d • qOf (toMat x) d) j := by
  obtain ⟨b, h1, h2⟩ := loc_loop (fun i j face (b : LocDofs dim nB K) => do
    let integral := E.bdr_phipsi i j face
    forUp dim (fun d b => do
      let n ← arrGet (E.local_normal face) d
      let x ← arrGet x (d * nS + i)
      arrAdd2 face j (n * integral * x) b) b)
    (fun (i : Fin nS) j f => ∑ d : Fin dim, E.local_normal f d * E.bdr_phipsi i j f * qOf (toMat x) d i) (fun i j f b => by
      dsimp only
      rw [forUp_add dim _ (fun d => single2 f j (E.local_normal f d * E.bdr_phipsi i j f * qOf (toMat x) d i)), single2_sum]
      intro d b
      rw [arrGet_lt _ d.2, Res.ok_bind, coeffs_get x (hd d i), Res.ok_bind, arrAdd2_lt _ f.2 j.2]
      rfl)
  refine ⟨b, h1, fun f j => ?_⟩
  rw [h2]
  simp only [mulVec, dotProduct, form, Matrix.transpose_apply, Matrix.of_apply, Finset.sum_apply, Pi.smul_apply, smul_eq_mul, Finset.mul_sum]
  refine Finset.sum_congr rfl fun i _ => Finset.sum_congr rfl fun d _ => ?_
  ring

/-! ## Data -/

theorem set_add (m : Mode) (i : Fin nS) (x y : K) (v : SmallVec nS K) (rest : SmallVec nS K → Res (SmallVec nS K))
    (h : ∀ v, rest v = .ok (v + singleMat i 0 y)) : (SmallMat.set m i x v >>= rest) = .ok (arrSet v (pos i 0) (x + y)) := by
  rw [vec_set_lt m v i.2, Res.ok_bind, h]
  refine congrArg Res.ok ?_
  funext k
  by_cases hk : k = pos i (0 : Fin 1)
  · subst hk; simp [arrSet, singleMat]
  · simp [arrSet, singleMat, hk]

theorem single_sum {ι : Type} (s : Finset ι) (i : Fin nS) (g : ι → K) : ∑ a ∈ s, singleMat i (0 : Fin 1) (g a) = singleMat i 0 (∑ a ∈ s, g a) := by
  unfold singleMat
  exact (map_sum (AddMonoidHom.single (fun _ => K) (pos i (0 : Fin 1))) g s).symm

theorem entry_add {n : Nat} (i : Fin nS) (f : Nat → SmallVec nS K → Res (SmallVec nS K)) (g : Fin n → K)
    (h : ∀ (k : Fin n) v, f k v = .ok (v + singleMat i 0 (g k))) (v : SmallVec nS K) : forUp n f v = .ok (v + singleMat i 0 (∑ k, g k)) := by
  rw [forUp_add n f _ h v, single_sum]

/-- A loop writing each entry of a vector. -/
theorem vec_write (f : Nat → SmallVec nS K → Res (SmallVec nS K)) (g : Fin nS → K) (h : ∀ (i : Fin nS) v, f i v = .ok (arrSet v (pos i 0) (g i)))
    (v0 : SmallVec nS K) : ∃ v, forUp nS f v0 = .ok v ∧ vecOf v = g := by
  obtain ⟨v, h1, h2, _⟩ := setLoop1 (n := nS) f (fun i => pos i (0 : Fin 1)) (fun i j hij => (pos_inj.mp hij).1) (fun i _ => g i) (fun i v => h i v) v0
  exact ⟨v, h1, funext fun i => h2 i⟩

theorem fillFlux_spec (m : Mode) (S : Solver K) (E : Edge dim nS K) (qc : Fin dim → SmallVec nS K) (u : SmallVec nS K) (lambda : LocDofs dim nB K)
    (time : K) (v0 : SmallVec nS K) : ∃ v, fillFlux m S E qc u lambda time v0 = .ok v ∧
      vecOf v = rate E S.tau time ⟨fun d => vecOf (qc d), vecOf u, lambda⟩ - S.tau • ∑ f, dirichletMoments E.toEdge time f := by
  have hbody : ∀ (i : Fin nS) (v : SmallVec nS K), fluxEntry m S E qc u lambda time i v = .ok (arrSet v (pos i 0) (E.vol_phifunc time i +
    ((∑ j : Fin nS, ((∑ d : Fin dim, vecOf (qc d) j * E.vol_nablaphiphi i j d) +
      ∑ f : Fin (2 * dim), ((∑ d : Fin dim, -(vecOf (qc d) j * E.local_normal f d * E.bdr_phiphi i j f)) + -(S.tau * vecOf u j * E.bdr_phiphi i j f)))) +
      ∑ j : Fin nB, ∑ f : Fin (2 * dim), S.tau * lambda f j * E.bdr_phipsi i j f))) := fun i v => set_add m i _ _ v _ (fun v => by
    have hadd : ∀ (x y : K), (singleMat i (0 : Fin 1) (x + y) : SmallVec nS K) = singleMat i 0 x + singleMat i 0 y := fun x y => Pi.single_add _ _ _
    rw [entry_add i _ (fun j : Fin nS => (∑ d : Fin dim, vecOf (qc d) j * E.vol_nablaphiphi i j d) +
      ∑ f : Fin (2 * dim), ((∑ d : Fin dim, -(vecOf (qc d) j * E.local_normal f d * E.bdr_phiphi i j f)) + -(S.tau * vecOf u j * E.bdr_phiphi i j f))),
      Res.ok_bind, entry_add i _ (fun j : Fin nB => ∑ f : Fin (2 * dim), S.tau * lambda f j * E.bdr_phipsi i j f), add_assoc, ← hadd]
    · intro j v
      rw [entry_add i _ (fun f : Fin (2 * dim) => S.tau * lambda f j * E.bdr_phipsi i j f)]
      intro f v
      rw [arrGet2_lt lambda f.2 j.2, Res.ok_bind, addTo_single m v i.2]
    · intro j v
      dsimp only
      rw [entry_add i _ (fun d : Fin dim => vecOf (qc d) j * E.vol_nablaphiphi i j d), Res.ok_bind,
        entry_add i _ (fun f : Fin (2 * dim) => (∑ d : Fin dim, -(vecOf (qc d) j * E.local_normal f d * E.bdr_phiphi i j f)) + -(S.tau * vecOf u j * E.bdr_phiphi i j f)),
        add_assoc, ← hadd]
      · intro f v
        rw [entry_add i _ (fun d : Fin dim => -(vecOf (qc d) j * E.local_normal f d * E.bdr_phiphi i j f)), Res.ok_bind, vec_get_lt m u j.2, Res.ok_bind,
          subFrom_single m _ i.2, add_assoc, hadd]
        · rfl
        · intro d v
          rw [arrGet_lt _ d.2, Res.ok_bind, vec_get_lt m _ j.2, Res.ok_bind, arrGet_lt _ d.2, Res.ok_bind, subFrom_single m v i.2]
          rfl
      · intro d v
        rw [arrGet_lt _ d.2, Res.ok_bind, vec_get_lt m _ j.2, Res.ok_bind, arrGet_lt _ d.2, Res.ok_bind, addTo_single m v i.2]
        rfl)
  obtain ⟨v, h1, h2⟩ := vec_write _ _ hbody v0
  refine ⟨v, h1, ?_⟩
  rw [h2]
  funext i
  simp only [rate, trace, Pi.sub_apply, Pi.add_apply, Pi.smul_apply, Finset.sum_apply, mulVec_add, mulVec_sum, mulVec_smul, smul_eq_mul, mulVec, dotProduct, form,
    Matrix.of_apply, source, moments, Finset.sum_add_distrib, Finset.sum_sub_distrib, Finset.mul_sum, Finset.sum_neg_distrib, mul_add]
  have e1 : ∑ j : Fin nS, ∑ d : Fin dim, vecOf (qc d) j * E.vol_nablaphiphi i j d = ∑ d : Fin dim, ∑ j : Fin nS, E.vol_nablaphiphi i j d * vecOf (qc d) j := by
    rw [Finset.sum_comm]
    exact Finset.sum_congr rfl fun d _ => Finset.sum_congr rfl fun j _ => mul_comm _ _
  have e2 : ∑ j : Fin nS, ∑ f : Fin (2 * dim), ∑ d : Fin dim, vecOf (qc d) j * E.local_normal f d * E.bdr_phiphi i j f =
      ∑ f : Fin (2 * dim), ∑ d : Fin dim, ∑ j : Fin nS, E.local_normal f d * (E.bdr_phiphi i j f * vecOf (qc d) j) := by
    rw [Finset.sum_comm]
    refine Finset.sum_congr rfl fun f _ => ?_
    rw [Finset.sum_comm]
    exact Finset.sum_congr rfl fun d _ => Finset.sum_congr rfl fun j _ => by ring
  have e3 : ∑ j : Fin nS, ∑ f : Fin (2 * dim), S.tau * vecOf u j * E.bdr_phiphi i j f = ∑ f : Fin (2 * dim), ∑ j : Fin nS, S.tau * (E.bdr_phiphi i j f * vecOf u j) := by
    rw [Finset.sum_comm]
    exact Finset.sum_congr rfl fun f _ => Finset.sum_congr rfl fun j _ => by ring
  have e4 : ∑ j : Fin nB, ∑ f : Fin (2 * dim), S.tau * lambda f j * E.bdr_phipsi i j f = ∑ f : Fin (2 * dim), ∑ j : Fin nB, S.tau * (E.bdr_phipsi i j f * lambda f j) := by
    rw [Finset.sum_comm]
    exact Finset.sum_congr rfl fun f _ => Finset.sum_congr rfl fun j _ => by ring
  rw [e1, e2, e3, e4]
  ring

theorem fillBoundary_spec (m : Mode) (S : Solver K) (E : Edge dim nS K) (primals duals lambda : LocDofs dim nB K) (M0 : SmallMat nB (2 * dim) K) :
    ∃ M, fillBoundaryFlux m S E primals duals lambda M0 = .ok M ∧ ∀ f j, toMat M j f =
      offDirichlet E.toEdge (fun i j => duals i j + S.tau * primals i j - S.tau * lambda i j * E.face_area i) f j := by
  let g := offDirichlet E.toEdge (fun i j => duals i j + S.tau * primals i j - S.tau * lambda i j * E.face_area i)
  have hbody : ∀ (i : Fin (2 * dim)) (out : SmallMat nB (2 * dim) K),
      (if is_dirichlet E i then forFin nB (fun j (out : SmallMat nB (2 * dim) K) => SmallMat.setAt m j i 0 out) out
      else forFin nB (fun j (out : SmallMat nB (2 * dim) K) =>
        SmallMat.setAt m j i (duals i j + S.tau * primals i j - S.tau * lambda i j * E.face_area i) out) out) =
      forFin nB (fun j (out : SmallMat nB (2 * dim) K) => .ok (arrSet out (pos j i) (g i j))) out := by
    intro i out
    by_cases hdir : IsDirichlet E.toEdge i
    · rw [if_pos (show is_dirichlet E i = true from (is_dirichlet_iff E.toEdge i).mpr hdir)]
      refine congrFun (congrArg _ ?_) out
      funext j out
      rw [setAt_fin]
      simp [g, offDirichlet, hdir]
    · rw [if_neg (by intro h; exact hdir ((is_dirichlet_iff E.toEdge i).mp h))]
      refine congrFun (congrArg _ ?_) out
      funext j out
      rw [setAt_fin]
      simp [g, offDirichlet, hdir]
  have inner : ∀ (i : Fin (2 * dim)) (out : SmallMat nB (2 * dim) K), ∃ o,
      forFin nB (fun j (out : SmallMat nB (2 * dim) K) => .ok (arrSet out (pos j i) (g i j))) out = .ok o ∧
      (∀ a, a ≠ i → ∀ j, toMat o j a = toMat out j a) ∧ ∀ j, toMat o j i = g i j := by
    intro i out
    obtain ⟨o, h1, h2, h3⟩ := forFin_inv nB (fun j (out : SmallMat nB (2 * dim) K) => .ok (arrSet out (pos j i) (g i j))) out
      (fun k o => (∀ a, a ≠ i → ∀ j, toMat o j a = toMat out j a) ∧ ∀ j : Fin nB, j.1 < k → toMat o j i = g i j)
      ⟨fun _ _ _ => rfl, fun j hj => absurd hj (Nat.not_lt_zero _)⟩ (fun j o ho => by
        refine ⟨_, rfl, fun a ha j' => ?_, fun j' hj' => ?_⟩
        · rw [toMat_arrSet, if_neg (fun h => ha h.2), ho.1 a ha]
        · rw [toMat_arrSet]
          by_cases h : j' = j
          · subst h; simp
          · rw [if_neg (fun h' => h h'.1)]
            exact ho.2 j' (by have : j'.1 ≠ j.1 := fun h' => h (Fin.ext h'); omega))
    exact ⟨o, h1, h2, fun j => h3 j j.2⟩
  obtain ⟨M, h1, h2⟩ := forFin_inv (2 * dim) (fun i out =>
    if is_dirichlet E i then forFin nB (fun j (out : SmallMat nB (2 * dim) K) => SmallMat.setAt m j i 0 out) out
    else forFin nB (fun j (out : SmallMat nB (2 * dim) K) =>
      SmallMat.setAt m j i (duals i j + S.tau * primals i j - S.tau * lambda i j * E.face_area i) out) out) M0
    (fun k M => ∀ f : Fin (2 * dim), f.1 < k → ∀ j, toMat M j f = g f j) (fun f hf => absurd hf (Nat.not_lt_zero _)) (fun i M hM => by
      obtain ⟨o, k1, k2, k3⟩ := inner i M
      refine ⟨o, by rw [hbody, k1], fun f hf j => ?_⟩
      by_cases h : f = i
      · subst h; exact k3 j
      · rw [k2 f h]
        exact hM f (by have : f.1 ≠ i.1 := fun h' => h (Fin.ext h'); omega) j)
  exact ⟨M, h1, fun f j => h2 f f.2 j⟩

/-- The data kept by a hyperedge describe a state. -/
structure Stores (S : Solver K) (E : Edge dim nS K) (time : K) (x : State dim nS nB K) (data : Data dim nS nB K) : Prop where
  u : vecOf data.u_old = x.u
  flux : vecOf data.flux_old = rate E S.tau time x - S.tau • ∑ f, dirichletMoments E.toEdge time f
  bdr : ∀ f j, toMat data.boundary_flux_old j f = offDirichlet E.toEdge (DiffusionParab.flux E S.tau time x) f j

theorem flux_eq (S : Solver K) (E : Edge dim nS K) (time : K) (c : SmallVec ((dim + 1) * nS) K) (lambda : LocDofs dim nB K) :
    ∃ p d, primal_at_boundary E nB c = .ok p ∧ dual_at_boundary E nB c = .ok d ∧
      (fun i j => d i j + S.tau * p i j - S.tau * lambda i j * E.face_area i) = flux E S.tau time ⟨qOf (toMat c), uOf (toMat c), lambda⟩ := by
  obtain ⟨p, hp1, hp2⟩ := primal_spec E nB time c
  obtain ⟨d, hd1, hd2⟩ := dual_spec E nB time c
  refine ⟨p, d, hp1, hd1, ?_⟩
  funext i j
  rw [hp2, hd2]
  simp only [flux, faceFlux, mulVec_add, mulVec_smul, Pi.sub_apply, Pi.add_apply, Pi.smul_apply, smul_eq_mul]
  rw [show (form E.toEdge nB time).area i = E.face_area i from rfl, mul_right_comm]

/-- Solutions of the local problem with data are steps of the theta scheme. -/
theorem step_iff (S : Solver K) (E : Edge dim nS K) (hO : Orthonormal E) (time : K) (old : State dim nS nB K) (data : Data dim nS nB K)
    (hst : Stores S E (time - S.delta_t) old data) (q : Fin dim → Fin nS → K) (u : Fin nS → K) (lambda : LocDofs dim nB K) :
    IsSolution (form E.toEdge nB time) S.tau 1 (S.theta * S.delta_t) (trace E time lambda) (stepSource S E data time) q u ↔
      ThetaStep S E time old ⟨q, u, lambda⟩ := by
  have hm : (form E.toEdge nB time).mass0 = E.area • (1 : Matrix (Fin nS) (Fin nS) K) := by
    ext i j
    simp [form, hO i j, Matrix.one_apply]
  have hs : stepSource S E data time = (S.theta * S.delta_t) • source E.toEdge time + E.area • old.u +
      (S.delta_t * (1 - S.theta)) • rate E S.tau (time - S.delta_t) old := by
    funext i
    have h2 := congrFun hst.flux i
    simp only [stepSource, hst.u, h2, Pi.add_apply, Pi.smul_apply, Pi.sub_apply, Finset.sum_apply, smul_eq_mul]
    ring
  have key : (1 : K) • (form E.toEdge nB time).mass0 *ᵥ u + (S.theta * S.delta_t) • (-(∑ d, (form E.toEdge nB time).grad d *ᵥ q d) +
      ∑ f, ((form E.toEdge nB time).bdr f *ᵥ (∑ d, (form E.toEdge nB time).normal f d • q d + S.tau • u) - S.tau • trace E time lambda f)) =
        stepSource S E data time ↔
      (form E.toEdge nB time).mass0 *ᵥ (u - old.u) = S.delta_t • (S.theta • rate E S.tau time ⟨q, u, lambda⟩ +
        (1 - S.theta) • rate E S.tau (time - S.delta_t) old) := by
    rw [hs, ← sub_eq_zero, ← sub_eq_zero (a := (form E.toEdge nB time).mass0 *ᵥ (u - old.u))]
    have : (1 : K) • (form E.toEdge nB time).mass0 *ᵥ u + (S.theta * S.delta_t) • (-(∑ d, (form E.toEdge nB time).grad d *ᵥ q d) +
        ∑ f, ((form E.toEdge nB time).bdr f *ᵥ (∑ d, (form E.toEdge nB time).normal f d • q d + S.tau • u) - S.tau • trace E time lambda f)) -
        ((S.theta * S.delta_t) • source E.toEdge time + E.area • old.u + (S.delta_t * (1 - S.theta)) • rate E S.tau (time - S.delta_t) old) =
        (form E.toEdge nB time).mass0 *ᵥ (u - old.u) - S.delta_t • (S.theta • rate E S.tau time ⟨q, u, lambda⟩ +
        (1 - S.theta) • rate E S.tau (time - S.delta_t) old) := by
      have h3 : rate E S.tau time ⟨q, u, lambda⟩ = source E.toEdge time + ∑ d, (form E.toEdge nB time).grad d *ᵥ q d -
        ∑ f, ((form E.toEdge nB time).bdr f *ᵥ (∑ d, (form E.toEdge nB time).normal f d • q d + S.tau • u) - S.tau • trace E time lambda f) := rfl
      rw [h3, hm, mulVec_sub]
      simp only [smul_mulVec, one_mulVec]
      module
    rw [this]
  constructor
  · intro h
    exact ⟨h.flux, key.mp h.primal⟩
  · intro h
    exact ⟨h.dual, key.mpr h.primal⟩

end Assembly

section Solve
variable [Field K]

/-- The data of the local problem for the two types of solution. -/
noncomputable def dataOf (S : Solver K) (E : Edge dim nS K) (data : Data dim nS nB K) (time : K) (lambda : LocDofs dim nB K) (solution_type : Nat) :
    (Fin (2 * dim) → Fin nS → K) × (Fin nS → K) :=
  if solution_type = 0 then (moments (form E.toEdge nB time) lambda, 0)
  else (trace E time lambda, stepSource S E data time)

theorem solve_local_problem_spec (m : Mode) (gesv : Gesv ((dim + 1) * nS) 1 K) (hg : GesvSpec gesv) (S : Solver K) (E : Edge dim nS K)
    (data : Data dim nS nB K) (time : K) (lambda : LocDofs dim nB K) (t : Nat) (ht : t = 0 ∨ t = 1) :
    (Solvable (form E.toEdge nB time) S.tau 1 (S.theta * S.delta_t) → ∃ x, solve_local_problem m gesv S E data lambda t time = .ok x ∧
      IsSolution (form E.toEdge nB time) S.tau 1 (S.theta * S.delta_t) (dataOf S E data time lambda t).1 (dataOf S E data time lambda t).2
        (qOf (toMat x)) (uOf (toMat x))) ∧
    (¬ Solvable (form E.toEdge nB time) S.tau 1 (S.theta * S.delta_t) → solve_local_problem m gesv S E data lambda t time = solveFailure m) := by
  obtain ⟨A, hA1, hA2⟩ := assemble_loc_matrix_spec m S E nB time
  obtain ⟨v, hv1, hv2⟩ := rhs_lambda_spec m S E time lambda
  obtain ⟨w, hw1, hw2⟩ := rhs_global_spec (nB := nB) m S E data time
  have key : ∃ rhs, IsRhs (form E.toEdge nB time) S.tau (S.theta * S.delta_t) (dataOf S E data time lambda t).1 (dataOf S E data time lambda t).2 (toMat rhs) ∧
      solve_local_problem m gesv S E data lambda t time = catchLapack m (solve gesv rhs A) := by
    rcases ht with rfl | rfl
    · refine ⟨v, by simpa [dataOf] using hv2, ?_⟩
      simp [solve_local_problem, hv1, hA1]
    · refine ⟨v + w, by simpa [dataOf, trace] using isRhs_add hv2 hw2, ?_⟩
      simp [solve_local_problem, hv1, hA1, hw1, add_mat_spec]
  obtain ⟨rhs, hr1, hr2⟩ := key
  obtain ⟨h1, h2⟩ := solve_spec (form E.toEdge nB time) S.tau 1 (S.theta * S.delta_t) gesv hg A hA2 rhs
  refine ⟨fun hs => ?_, fun hs => ?_⟩
  · obtain ⟨x, hx1, hx2⟩ := h1 hs
    exact ⟨x, by rw [hr2, hx1]; rfl, hx2 _ _ hr1⟩
  · rw [hr2, h2 hs, catch_throw]

theorem trace_to_flux_spec (m : Mode) (gesv : Gesv ((dim + 1) * nS) 1 K) (hg : GesvSpec gesv) (S : Solver K) (E : Edge dim nS K)
    (data : Data dim nS nB K) (time : K) (hs : Solvable (form E.toEdge nB time) S.tau 1 (S.theta * S.delta_t)) (lambda out : LocDofs dim nB K) :
    ∃ q u, IsSolution (form E.toEdge nB time) S.tau 1 (S.theta * S.delta_t) (moments (form E.toEdge nB time) lambda) 0 q u ∧
      trace_to_flux m gesv S lambda out E data time = .ok (offDirichlet E.toEdge (S.theta • flux E S.tau time ⟨q, u, lambda⟩)) := by
  obtain ⟨c, h1, h2⟩ := (solve_local_problem_spec m gesv hg S E data time lambda 0 (.inl rfl)).1 hs
  obtain ⟨p, d, hp, hd, hf⟩ := flux_eq S E time c lambda
  refine ⟨_, _, h2, ?_⟩
  unfold trace_to_flux
  rw [h1, Res.ok_bind, hp, Res.ok_bind, hd, Res.ok_bind]
  refine faces_loop E.toEdge _ (fun i j (out : LocDofs dim nB K) =>
      let x := d i j + S.tau * p i j - S.tau * lambda i j * E.face_area i
      let x := x * S.theta
      .ok (arrSet out i (arrSet (out i) j x))) (fun i j out => ?_) out
  dsimp only
  rw [← hf, Pi.smul_apply, Pi.smul_apply, smul_eq_mul, mul_comm S.theta]

theorem residual_flux_spec (m : Mode) (gesv : Gesv ((dim + 1) * nS) 1 K) (hg : GesvSpec gesv) (S : Solver K) (E : Edge dim nS K) (hO : Orthonormal E)
    (data : Data dim nS nB K) (time : K) (hs : Solvable (form E.toEdge nB time) S.tau 1 (S.theta * S.delta_t)) (old : State dim nS nB K)
    (hst : Stores S E (time - S.delta_t) old data) (lambda out : LocDofs dim nB K) :
    ∃ new, ThetaStep S E time old new ∧ new.lambda = lambda ∧
      residual_flux m gesv S lambda out E data time = .ok (offDirichlet E.toEdge
        (S.theta • flux E S.tau time new + (1 - S.theta) • flux E S.tau (time - S.delta_t) old)) := by
  obtain ⟨c, h1, h2⟩ := (solve_local_problem_spec m gesv hg S E data time lambda 1 (.inr rfl)).1 hs
  obtain ⟨p, d, hp, hd, hf⟩ := flux_eq S E time c lambda
  refine ⟨_, (step_iff S E hO time old data hst _ _ lambda).mp h2, rfl, ?_⟩
  unfold residual_flux
  rw [h1, Res.ok_bind, hp, Res.ok_bind, hd, Res.ok_bind]
  have hoff : ∀ y z : LocDofs dim nB K, offDirichlet E.toEdge (y + z) = offDirichlet E.toEdge (fun f j => y f j + offDirichlet E.toEdge z f j) := by
    intro y z
    funext f j
    simp only [offDirichlet]
    split <;> rfl
  rw [hoff]
  refine faces_loop E.toEdge _ (fun i j (out : LocDofs dim nB K) => do
      let x := d i j + S.tau * p i j - S.tau * lambda i j * E.face_area i
      let x := x * S.theta
      let b ← SmallMat.at' m data.boundary_flux_old j i
      return arrSet out i (arrSet (out i) j (x + (1 - S.theta) * b))) (fun i j out => ?_) out
  dsimp only
  rw [at_lt m _ j.2 i.2, Res.ok_bind, hst.bdr, ← hf, Pi.smul_apply, Pi.smul_apply, smul_eq_mul, mul_comm S.theta]
  show Res.ok _ = Res.ok _
  congr 4
  simp only [offDirichlet]
  split <;> simp

theorem residual_raw (m : Mode) (gesv : Gesv ((dim + 1) * nS) 1 K) (hg : GesvSpec gesv) (S : Solver K) (E : Edge dim nS K)
    (data : Data dim nS nB K) (time : K) (hs : Solvable (form E.toEdge nB time) S.tau 1 (S.theta * S.delta_t)) (lambda out : LocDofs dim nB K) :
    ∃ q u, IsSolution (form E.toEdge nB time) S.tau 1 (S.theta * S.delta_t) (trace E time lambda) (stepSource S E data time) q u ∧
      residual_flux m gesv S lambda out E data time = .ok (offDirichlet E.toEdge fun f j =>
        S.theta * flux E S.tau time ⟨q, u, lambda⟩ f j + (1 - S.theta) * toMat data.boundary_flux_old j f) := by
  obtain ⟨c, h1, h2⟩ := (solve_local_problem_spec m gesv hg S E data time lambda 1 (.inr rfl)).1 hs
  obtain ⟨p, d, hp, hd, hf⟩ := flux_eq S E time c lambda
  refine ⟨_, _, h2, ?_⟩
  unfold residual_flux
  rw [h1, Res.ok_bind, hp, Res.ok_bind, hd, Res.ok_bind]
  refine faces_loop E.toEdge _ (fun i j (out : LocDofs dim nB K) => do
      let x := d i j + S.tau * p i j - S.tau * lambda i j * E.face_area i
      let x := x * S.theta
      let b ← SmallMat.at' m data.boundary_flux_old j i
      return arrSet out i (arrSet (out i) j (x + (1 - S.theta) * b))) (fun i j out => ?_) out
  dsimp only
  rw [at_lt m _ j.2 i.2, Res.ok_bind, ← hf, mul_comm S.theta]
  rfl

theorem set_data_spec (m : Mode) (gesv : Gesv ((dim + 1) * nS) 1 K) (hg : GesvSpec gesv) (S : Solver K) (E : Edge dim nS K) (hO : Orthonormal E)
    (data : Data dim nS nB K) (time : K) (hs : Solvable (form E.toEdge nB time) S.tau 1 (S.theta * S.delta_t)) (old : State dim nS nB K)
    (hst : Stores S E (time - S.delta_t) old data) (lambda : LocDofs dim nB K) :
    ∃ data' new, set_data m gesv S lambda E data time = .ok data' ∧ ThetaStep S E time old new ∧ new.lambda = lambda ∧ Stores S E time new data' := by
  obtain ⟨c, h1, h2⟩ := (solve_local_problem_spec m gesv hg S E data time lambda 1 (.inr rfl)).1 hs
  obtain ⟨p, d, hp, hd', hf⟩ := flux_eq S E time c lambda
  obtain ⟨u', hu1, hu2⟩ := vec_write (fun i (u : SmallVec nS K) => do
    let x ← arrGet c (dim * nS + i)
    SmallMat.set m i x u) (uOf (toMat c)) (fun i v => by
      rw [coeffs_get c (hl i), Res.ok_bind, vec_set_lt m v i.2]; rfl) data.u_old
  have hq : ∀ (e : Fin dim) (v0 : SmallVec nS K), ∃ v, forUp nS (fun i (qd : SmallVec nS K) => do
      let x ← arrGet c (e * nS + i)
      SmallMat.set m i x qd) v0 = .ok v ∧ vecOf v = qOf (toMat c) e := fun e v0 =>
    vec_write _ (qOf (toMat c) e) (fun i v => by
      rw [coeffs_get c (hd e i), Res.ok_bind, vec_set_lt m v i.2]; rfl) v0
  obtain ⟨qc, hqc1, hqc2⟩ := forFin_inv dim (fun e (q : Fin dim → SmallVec nS K) => do
    let qd ← forUp nS (fun i (qd : SmallVec nS K) => do
      let x ← arrGet c (e * nS + i)
      SmallMat.set m i x qd) (q e)
    return arrSet q e qd) (fun _ => SmallMat.fill _ _ 0) (fun k q => ∀ e : Fin dim, e.1 < k → vecOf (q e) = qOf (toMat c) e)
    (fun e he => absurd he (Nat.not_lt_zero _)) (fun e q hq' => by
      obtain ⟨v, hv1, hv2⟩ := hq e (q e)
      refine ⟨_, by rw [hv1, Res.ok_bind]; rfl, fun e' he' => ?_⟩
      by_cases h : e' = e
      · subst h; simp [arrSet, hv2]
      · simp only [arrSet, h, if_false]
        exact hq' e' (by have : e'.1 ≠ e.1 := fun h' => h (Fin.ext h'); omega))
  obtain ⟨fl, hfl1, hfl2⟩ := fillFlux_spec m S E qc u' lambda time data.flux_old
  obtain ⟨bf, hbf1, hbf2⟩ := fillBoundary_spec m S E p d lambda data.boundary_flux_old
  have hqe : (fun e => vecOf (qc e)) = qOf (toMat c) := funext fun e => hqc2 e e.2
  refine ⟨⟨u', fl, bf⟩, ⟨qOf (toMat c), uOf (toMat c), lambda⟩, ?_, (step_iff S E hO time old data hst _ _ lambda).mp h2, rfl, ?_⟩
  · unfold set_data
    rw [h1, Res.ok_bind, hu1, Res.ok_bind, hqc1, Res.ok_bind, hfl1, Res.ok_bind, hp, Res.ok_bind, hd', Res.ok_bind, hbf1]
    rfl
  · rw [hqe, hu2] at hfl2
    refine ⟨hu2, hfl2, fun f j => ?_⟩
    rw [hbf2, hf]

theorem massFlux_spec (m : Mode) (E : Edge dim nS K) (nB : Nat) (time : K) : ∃ M, massFlux m E time = .ok M ∧ toMat M = (form E.toEdge nB time).mass := by
  have hb : ∀ (i j : Fin nS) (M : SmallMat nS nS K), SmallMat.setAt m i j (E.vol_phiphifunc time i j) M = .ok (arrSet M (pos i j) (E.vol_phiphifunc time i j)) :=
    fun i j M => setAt_fin m M i j _
  obtain ⟨M, h1, h2⟩ := setLoop2 (fun i j (M : SmallMat nS nS K) => SmallMat.setAt m i j (E.vol_phiphifunc time i j) M) (fun (i j : Fin nS) => pos i j)
    (fun i j i' j' h => pos_inj.mp h) (fun i j _ => E.vol_phiphifunc time i j) (fun i j M => hb i j M) (SmallMat.fill _ _ 0)
  refine ⟨M, h1, ?_⟩
  ext i j
  exact h2.1 i j

theorem initialRhs_spec (m : Mode) (E : Edge dim nS K) (time : K) (d : Fin dim) (v0 : SmallVec nS K) :
    ∃ v, initialRhs m E time d v0 = .ok v ∧
      vecOf v = fun i : Fin nS => E.vol_derphi_initial time i d - ∑ f : Fin (2 * dim), E.bdr_initial time i f * E.local_normal f d := by
  obtain ⟨v, h1, h2⟩ := vec_write (fun i (v : SmallVec nS K) => do
    let v ← SmallMat.set m i (E.vol_derphi_initial time i d) v
    forUp (2 * dim) (fun face (v : SmallVec nS K) => do
      let n ← arrGet (E.local_normal face) d
      SmallMat.subFrom m i (E.bdr_initial time i face * n) v) v)
    (fun i => E.vol_derphi_initial time i d + ∑ f : Fin (2 * dim), -(E.bdr_initial time i f * E.local_normal f d)) (fun i v =>
      set_add m i _ _ v _ fun v => entry_add i _ _ (fun f v => by
        rw [arrGet_lt _ d.2, Res.ok_bind, subFrom_single m v i.2]) v) v0
  refine ⟨v, h1, ?_⟩
  rw [h2]
  funext i
  rw [Finset.sum_neg_distrib, sub_eq_add_neg]

theorem initialDual_spec (m : Mode) (gesv : Gesv nS 1 K) (hg : GesvSpec gesv) (E : Edge dim nS K) (nB : Nat) (time : K)
    (hu : IsUnit (form E.toEdge nB time).mass) :
    ∃ q, initialDual m gesv E time = .ok q ∧ ∀ d, (form E.toEdge nB time).mass *ᵥ vecOf (q d) =
      fun i : Fin nS => E.vol_derphi_initial time i d - ∑ f : Fin (2 * dim), E.bdr_initial time i f * E.local_normal f d := by
  obtain ⟨M, hM1, hM2⟩ := massFlux_spec m E nB time
  obtain ⟨r, h1, h2⟩ := forFin_inv dim (fun d (s : SmallVec nS K × (Fin dim → SmallVec nS K)) => do
    let local_rhs ← initialRhs m E time d s.1
    let q ← solve gesv local_rhs M
    return (local_rhs, arrSet s.2 d q)) (SmallMat.fill _ _ 0, fun _ => SmallMat.fill _ _ 0)
    (fun k s => ∀ d : Fin dim, d.1 < k → (form E.toEdge nB time).mass *ᵥ vecOf (s.2 d) =
      fun i : Fin nS => E.vol_derphi_initial time i d - ∑ f : Fin (2 * dim), E.bdr_initial time i f * E.local_normal f d)
    (fun d hd => absurd hd (Nat.not_lt_zero _)) (fun d s hs => by
      obtain ⟨v, hv1, hv2⟩ := initialRhs_spec m E time d s.1
      obtain ⟨LU, X, x, k1, k2, k3⟩ := hg.regular M v (toMat M) (toMat v) (represents_iff.mpr rfl) (represents_iff.mpr rfl) (by rw [hM2]; exact hu)
      rw [represents_iff] at k2
      subst k2
      have hsol : solve gesv v M = .ok X := by
        unfold solve solve_in_place
        rw [k1]; rfl
      refine ⟨_, by rw [hv1, Res.ok_bind, hsol, Res.ok_bind]; rfl, fun d' hd' => ?_⟩
      by_cases h : d' = d
      · subst h
        simp only [arrSet, if_true]
        rw [← hv2, ← hM2]
        funext i
        exact congrFun (congrFun k3 i) 0
      · simp only [arrSet, h, if_false]
        exact hs d' (by have : d'.1 ≠ d.1 := fun h' => h (Fin.ext h'); omega))
  refine ⟨r.2, ?_, fun d => h2 d d.2⟩
  unfold initialDual
  rw [hM1, Res.ok_bind, h1]
  rfl

theorem initialCoeffs_spec (m : Mode) (q : Fin dim → SmallVec nS K) (u : SmallVec nS K) :
    ∃ c, initialCoeffs m q u = .ok c ∧ qOf (toMat c) = (fun d => vecOf (q d)) ∧ uOf (toMat c) = vecOf u := by
  have hput : ∀ (c : SmallVec ((dim + 1) * nS) K) {k : Nat} (hk : k < (dim + 1) * nS) (x : K), arrPut c k x = .ok (arrSet c (pos ⟨k, hk⟩ (0 : Fin 1)) x) := by
    intro c k hk x
    rw [arrPut_lt c (by omega)]
    congr 2
    simp [pos]
  obtain ⟨c, h1, h2, h3⟩ := setLoop2 (fun d i (c : SmallVec ((dim + 1) * nS) K) => do
    let q ← arrGet q d
    let x ← SmallMat.get m q i
    arrPut c (d * nS + i) x) (fun (d : Fin dim) (i : Fin nS) => pos (ix d.castSucc i) (0 : Fin 1))
    (fun d i d' i' h => by
      have := ix_inj.mp (pos_inj.mp h).1
      exact ⟨Fin.castSucc_injective _ this.1, this.2⟩) (fun d i _ => vecOf (q d) i) (fun d i c => by
      rw [arrGet_lt _ d.2, Res.ok_bind, vec_get_lt m _ i.2, Res.ok_bind, hput c (hd d i)]
      rfl) (SmallMat.fill _ _ 0)
  obtain ⟨c', k1, k2, k3⟩ := setLoop1 (n := nS) (fun i (c : SmallVec ((dim + 1) * nS) K) => do
    let x ← SmallMat.get m u i
    arrPut c (dim * nS + i) x) (fun i => pos (ix (Fin.last dim) i) (0 : Fin 1)) (fun i i' h => (ix_inj.mp (pos_inj.mp h).1).2) (fun i _ => vecOf u i)
    (fun i c => by
      rw [vec_get_lt m _ i.2, Res.ok_bind, hput c (hl i)]
      rfl) c
  refine ⟨c', ?_, ?_, ?_⟩
  · unfold initialCoeffs
    rw [h1, Res.ok_bind, k1]
  · funext d i
    show c' (pos (ix d.castSucc i) 0) = _
    rw [k3, h2]
    intro i' h
    exact Fin.castSucc_ne_last d (ix_inj.mp (pos_inj.mp h).1).1.symm
  · funext i
    exact k2 i

theorem make_initial_spec (m : Mode) (gesv : Gesv nS 1 K) (hg : GesvSpec gesv) (S : Solver K) (E : Edge dim nS K) (data : Data dim nS nB K) (time : K)
    (hu : IsUnit (form E.toEdge nB time).mass) (lambda : LocDofs dim nB K) :
    ∃ data' x, make_initial m gesv S lambda E data time = .ok (x.lambda, data') ∧ IsInitial E time x ∧ Stores S E time x data' := by
  let l0 : LocDofs dim nB K := offDirichlet E.toEdge (fun f j => E.bdrUni_psifunc time j f)
  have hl0 : initialTrace lambda E time = .ok l0 := faces_loop E.toEdge _ (fun i j (out : LocDofs dim nB K) =>
    .ok (arrSet out i (arrSet (out i) j (E.bdrUni_psifunc time j i)))) (fun _ _ _ => rfl) lambda
  obtain ⟨u', hu1, hu2⟩ := vec_write (fun i (u : SmallVec nS K) => SmallMat.set m i (E.volUni_initial time i) u) (fun i => E.volUni_initial time i)
    (fun i v => vec_set_lt m v i.2 _) data.u_old
  obtain ⟨q, hq1, hq2⟩ := initialDual_spec m gesv hg E nB time hu
  obtain ⟨fl, hfl1, hfl2⟩ := fillFlux_spec m S E q u' l0 time data.flux_old
  obtain ⟨c, hc1, hc2, hc3⟩ := initialCoeffs_spec m q u'
  obtain ⟨p, d, hp, hd', hf⟩ := flux_eq S E time c l0
  obtain ⟨bf, hbf1, hbf2⟩ := fillBoundary_spec m S E p d l0 data.boundary_flux_old
  refine ⟨⟨u', fl, bf⟩, ⟨fun d => vecOf (q d), vecOf u', l0⟩, ?_, ⟨hu2, rfl, hq2⟩, ⟨rfl, hfl2, fun f j => ?_⟩⟩
  · unfold make_initial
    rw [hl0, Res.ok_bind, hu1, Res.ok_bind, hq1, Res.ok_bind, hfl1, Res.ok_bind, hc1, Res.ok_bind, hp, Res.ok_bind, hd', Res.ok_bind, hbf1]
    rfl
  · rw [hbf2, hf, hc2, hc3]

end Solve

end HyperHDG.DiffusionParab

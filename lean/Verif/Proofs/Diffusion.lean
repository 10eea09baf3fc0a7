import Verif.Spec.Diffusion
import Verif.Proofs.LDGSystem

/-!
# Lemmas about the local solver for diffusion
-/

set_option linter.unusedSectionVars false

namespace HyperHDG.Diffusion

open Spec Finset Matrix LDG DiffusionUniform

variable {K : Type} {dim nS nB : Nat}

theorem is_dirichlet_iff (E : Edge dim nS K) (f : Nat) : is_dirichlet E f = true ↔ IsDirichlet E f := by
  simp [is_dirichlet, IsDirichlet]

theorem hl (i : Fin nS) : dim * nS + i < (dim + 1) * nS := ix_lt (Nat.lt_succ_self dim) i.2
theorem hd (d : Fin dim) (i : Fin nS) : d * nS + i < (dim + 1) * nS := ix_lt (Nat.lt_succ_of_lt d.2) i.2

theorem mk_last (i : Fin nS) : (⟨dim * nS + i, hl i⟩ : Fin ((dim + 1) * nS)) = ix (Fin.last dim) i := rfl
theorem mk_cast (d : Fin dim) (i : Fin nS) : (⟨d * nS + i, hd d i⟩ : Fin ((dim + 1) * nS)) = ix d.castSucc i := rfl

section Assembly
variable [CommRing K]

/-- What one iteration over `i`, `j` adds to a local matrix, given by its four kinds of blocks. -/
def locAdd (ll : K) (cc : K) (lc cl : Fin dim → K) (i j : Fin nS) : SmallMat ((dim + 1) * nS) ((dim + 1) * nS) K :=
  singleMat (ix (Fin.last dim) i) (ix (Fin.last dim) j) ll + ∑ d : Fin dim, (singleMat (ix d.castSucc i) (ix d.castSucc j) cc +
    singleMat (ix (Fin.last dim) i) (ix d.castSucc j) (lc d) + singleMat (ix d.castSucc i) (ix (Fin.last dim) j) (cl d))

theorem toMat_locAdd (ll cc : K) (lc cl : Fin dim → K) (i j : Fin nS) (b c : Fin (dim + 1)) (i' j' : Fin nS) :
    toMat (locAdd (dim := dim) ll cc lc cl i j) (ix b i') (ix c j') = if i' = i ∧ j' = j then
      (if h : b.1 < dim then if c.1 < dim then if b = c then cc else 0 else cl ⟨b, h⟩
      else if h' : c.1 < dim then lc ⟨c, h'⟩ else ll) else 0 := by
  unfold locAdd
  simp only [toMat_add, Matrix.add_apply, toMat_sum, toMat_singleMat, ix_inj]
  by_cases h : i' = i ∧ j' = j
  · obtain ⟨rfl, rfl⟩ := h
    have h1 : ∀ d : Fin dim, Fin.last dim ≠ d.castSucc := fun d => (Fin.castSucc_ne_last d).symm
    have h2 : ∀ d : Fin dim, d.castSucc ≠ Fin.last dim := fun d => (Fin.castSucc_ne_last d)
    induction b using Fin.lastCases with
    | last =>
      induction c using Fin.lastCases with
      | last => simp [h1]
      | cast c => simp [h1, h2]
    | cast b =>
      induction c using Fin.lastCases with
      | last => simp [h1, h2]
      | cast c =>
        simp [h2]
        by_cases hbc : b = c
        · subst hbc; simp
        · rw [if_neg hbc]
          refine Finset.sum_eq_zero fun d _ => ?_
          rw [if_neg]; rintro ⟨rfl, rfl⟩; exact hbc rfl
  · rw [if_neg h]
    have : ∀ x y : Fin (dim + 1), ∀ x' y' : Fin (dim + 1), ¬ ((x = x' ∧ i' = i) ∧ y = y' ∧ j' = j) := fun x y x' y' hh => h ⟨hh.1.2, hh.2.2⟩
    simp [this]

theorem locMatrixStep_eq (m : Mode) (E : Edge dim nS K) (tau time : K) (i j : Fin nS) (M : SmallMat ((dim + 1) * nS) ((dim + 1) * nS) K) :
    locMatrixStep m E tau time i j M = .ok (M + locAdd (tau * ∑ f : Fin (2 * dim), E.bdr_phiphi i j f) (E.vol_phiphifunc time i j)
      (fun d => -E.vol_nablaphiphi i j d + ∑ f : Fin (2 * dim), E.bdr_phiphi i j f * E.local_normal f d) (fun d => -E.vol_nablaphiphi i j d) i j) := by
  unfold locMatrixStep
  have hface : forUp (2 * dim) (fun face (s : K × (Fin dim → K)) => do
      let helper := E.bdr_phiphi i j face
      return (s.1 + helper, fun d => s.2 d + helper * E.local_normal face d)) (0, fun _ => 0) =
      .ok (∑ f : Fin (2 * dim), E.bdr_phiphi i j f, fun d => ∑ f : Fin (2 * dim), E.bdr_phiphi i j f * E.local_normal f d) := by
    rw [forUp_add (2 * dim) _ (fun f => ((E.bdr_phiphi i j f, fun d => E.bdr_phiphi i j f * E.local_normal f d) : K × (Fin dim → K))) (fun _ _ => rfl)]
    refine congrArg Res.ok (Prod.ext ?_ ?_)
    · simp [Prod.fst_sum]
    · funext d; simp [Prod.snd_sum, Finset.sum_apply]
  dsimp only
  rw [hface, Res.ok_bind, addAt_single m _ (hl i) (hl j), Res.ok_bind]
  rw [forUp_add dim _ (fun d => singleMat (ix d.castSucc i) (ix d.castSucc j) (E.vol_phiphifunc time i j) +
    singleMat (ix (Fin.last dim) i) (ix d.castSucc j) (-E.vol_nablaphiphi i j d) +
    singleMat (ix d.castSucc i) (ix (Fin.last dim) j) (-E.vol_nablaphiphi i j d) +
    singleMat (ix (Fin.last dim) i) (ix d.castSucc j) (∑ f : Fin (2 * dim), E.bdr_phiphi i j f * E.local_normal f d))]
  · unfold locAdd
    rw [add_assoc, mk_last, mk_last]
    refine congrArg Res.ok (congrArg _ (congrArg _ (Finset.sum_congr rfl fun d _ => ?_)))
    have : ∀ x y : K, singleMat (ix (Fin.last dim) i) (ix d.castSucc j) (x + y) =
        singleMat (ix (Fin.last dim) i) (ix d.castSucc j) x + singleMat (ix (Fin.last dim) i) (ix d.castSucc j) y := fun x y => Pi.single_add _ _ _
    rw [this]
    abel
  · intro d M
    dsimp only
    rw [addAt_single m M (hd d i) (hd d j), Res.ok_bind, arrGet_lt _ d.2, Res.ok_bind, subAt_single m _ (hl i) (hd d j), Res.ok_bind,
      subAt_single m _ (hd d i) (hl j), Res.ok_bind, arrGet_lt _ d.2, Res.ok_bind, addAt_single m _ (hl i) (hd d j)]
    refine congrArg Res.ok ?_
    simp only [← add_assoc]
    rfl

/-- A loop over `i`, `j` adding blocks. -/
theorem matrix_loop (f : Nat → Nat → SmallMat ((dim + 1) * nS) ((dim + 1) * nS) K → Res (SmallMat ((dim + 1) * nS) ((dim + 1) * nS) K))
    (ll cc : Fin nS → Fin nS → K) (lc cl : Fin nS → Fin nS → Fin dim → K)
    (hf : ∀ (i j : Fin nS) M, f i j M = .ok (M + locAdd (ll i j) (cc i j) (lc i j) (cl i j) i j)) :
    ∃ A, forUp nS (fun i M => forUp nS (fun j M => f i j M) M) (SmallMat.fill _ _ 0) = .ok A ∧
      ∀ (b : Fin (dim + 1)) i (c : Fin (dim + 1)) j, toMat A (ix b i) (ix c j) = (if h : b.1 < dim then if c.1 < dim then if b = c then cc i j else 0 else cl i j ⟨b, h⟩
      else if h' : c.1 < dim then lc i j ⟨c, h'⟩ else ll i j) := by
  refine ⟨_, forUp_add nS _ (fun i => ∑ j, locAdd (ll i j) (cc i j) (lc i j) (cl i j) i j) (fun i M => forUp_add nS _
    (fun j => locAdd (ll i j) (cc i j) (lc i j) (cl i j) i j) (fun j M => hf i j M) M) _, fun b i c j => ?_⟩
  rw [toMat_add, Matrix.add_apply, toMat_sum]
  simp only [toMat_sum, toMat_locAdd]
  rw [sum_ite_fin i j (fun i j => if h : b.1 < dim then if c.1 < dim then if b = c then cc i j else 0 else cl i j ⟨b, h⟩
      else if h' : c.1 < dim then lc i j ⟨c, h'⟩ else ll i j)]
  show (0 : K) + _ = _
  rw [zero_add]

theorem assemble_loc_matrix_spec (m : Mode) (E : Edge dim nS K) (nB : Nat) (tau time : K) :
    ∃ A, assemble_loc_matrix m E tau time = .ok A ∧ IsMat (form E nB time) tau 0 1 (toMat A) := by
  obtain ⟨A, h1, h2⟩ := matrix_loop (fun i j M => locMatrixStep m E tau time i j M) _ _ _ _ (fun i j M => locMatrixStep_eq m E tau time i j M)
  refine ⟨A, h1, fun b i c j => ?_⟩
  rw [h2]
  unfold block
  split
  next h =>
    split
    next h' => split <;> simp [form]
    next h' => simp [form]
  next h =>
    split
    next h' => simp [form, Matrix.sum_apply, mul_comm]
    next h' => simp [form, Matrix.sum_apply]

/-- A loop adding to blocks `d` and the last block of a vector. -/
theorem vec_add {nF : Nat} (f : Nat → SmallVec ((dim + 1) * nS) K → Res (SmallVec ((dim + 1) * nS) K)) (i : Fin nS)
    (l : Fin nF → K) (c : Fin nF → Fin dim → K)
    (hf : ∀ (k : Fin nF) v, f k v = .ok (v + (singleMat (ix (Fin.last dim) i) 0 (l k) + ∑ d : Fin dim, singleMat (ix d.castSucc i) 0 (c k d))))
    (v : SmallVec ((dim + 1) * nS) K) :
    forUp nF f v = .ok (v + (singleMat (ix (Fin.last dim) i) 0 (∑ k, l k) + ∑ d : Fin dim, singleMat (ix d.castSucc i) 0 (∑ k, c k d))) := by
  rw [forUp_add nF f _ hf v]
  refine congrArg Res.ok (congrArg _ ?_)
  rw [Finset.sum_add_distrib, Finset.sum_comm]
  have hs : ∀ (r : Fin ((dim + 1) * nS)) (g : Fin nF → K), ∑ k, singleMat r (0 : Fin 1) (g k) = singleMat r 0 (∑ k, g k) := by
    intro r g
    unfold singleMat
    exact (map_sum (AddMonoidHom.single (fun _ => K) (pos r (0 : Fin 1))) g Finset.univ).symm
  rw [hs]
  exact congrArg _ (Finset.sum_congr rfl fun d _ => hs _ _)

theorem toMat_vec (i : Fin nS) (l : K) (c : Fin dim → K) (b : Fin (dim + 1)) (i' : Fin nS) :
    toMat (singleMat (ix (Fin.last dim) i) (0 : Fin 1) l + ∑ d : Fin dim, singleMat (ix d.castSucc i) 0 (c d) : SmallVec ((dim + 1) * nS) K) (ix b i') 0 =
      if i' = i then (if h : b.1 < dim then c ⟨b, h⟩ else l) else 0 := by
  simp only [toMat_add, Matrix.add_apply, toMat_sum, toMat_singleMat, ix_inj, and_true]
  by_cases h : i' = i
  · subst h
    have h1 : ∀ d : Fin dim, Fin.last dim ≠ d.castSucc := fun d => (Fin.castSucc_ne_last d).symm
    have h2 : ∀ d : Fin dim, d.castSucc ≠ Fin.last dim := fun d => (Fin.castSucc_ne_last d)
    induction b using Fin.lastCases with
    | last => simp [h1]
    | cast c => simp [h2]
  · simp [h]

/-- The vector loops: each iteration adds to the entries of shape function `i`. -/
theorem vec_loop (f : Nat → SmallVec ((dim + 1) * nS) K → Res (SmallVec ((dim + 1) * nS) K))
    (l : Fin nS → K) (c : Fin nS → Fin dim → K)
    (hf : ∀ (i : Fin nS) v, f i v = .ok (v + (singleMat (ix (Fin.last dim) i) 0 (l i) + ∑ d : Fin dim, singleMat (ix d.castSucc i) 0 (c i d))))
    (v0 : SmallVec ((dim + 1) * nS) K) :
    ∃ v, forUp nS f v0 = .ok v ∧ ∀ (b : Fin (dim + 1)) i, toMat v (ix b i) 0 = toMat v0 (ix b i) 0 + if h : b.1 < dim then c i ⟨b, h⟩ else l i := by
  refine ⟨_, forUp_add nS _ _ hf _, fun b i => ?_⟩
  rw [toMat_add, Matrix.add_apply, toMat_sum]
  simp only [toMat_vec]
  rw [Finset.sum_ite_eq Finset.univ i, if_pos (Finset.mem_univ _)]

/-- One face: `tau * x` for the primal, `- n_d * x` for the dual rows (also with another factor for the primal rows). -/
theorem face_add (m : Mode) (E : Edge dim nS K) (face : Nat) (i : Fin nS) (a y : K) (x : Fin dim → K) (v : SmallVec ((dim + 1) * nS) K)
    (g : Nat → K → K) (hg : ∀ d : Fin dim, g d (E.local_normal face d) = x d) (ha : a = y) :
    (do
      let v ← SmallMat.addTo m (dim * nS + i) a v
      forUp dim (fun d v => do
        let n ← arrGet (E.local_normal face) d
        SmallMat.subFrom m (d * nS + i) (g d n) v) v) =
      .ok (v + (singleMat (ix (Fin.last dim) i) 0 y + ∑ d : Fin dim, singleMat (ix d.castSucc i) 0 (-x d))) := by
  rw [addTo_single m v (hl i), Res.ok_bind, forUp_add dim _ (fun d => singleMat (ix d.castSucc i) 0 (-x d)), mk_last, add_assoc, ha]
  intro d v
  rw [arrGet_lt _ d.2, Res.ok_bind, subFrom_single m v (hd d i), hg]
  rfl

theorem rhs_lambda_spec (m : Mode) (E : Edge dim nS K) (tau time : K) (lambda : LocDofs dim nB K) :
    ∃ v, assemble_rhs_from_lambda m E tau lambda = .ok v ∧ IsRhs (form E nB time) tau 1 (moments (form E nB time) lambda) 0 (toMat v) := by
  obtain ⟨v, h1, h2⟩ := vec_loop (dim := dim) (nS := nS) (fun i v => forUp nB (fun j v => forUp (2 * dim) (fun face (v : SmallVec ((dim + 1) * nS) K) => do
    let integral := E.bdr_phipsi i j face
    let l ← arrGet2 lambda face j
    let v ← SmallMat.addTo m (dim * nS + i) (tau * l * integral) v
    forUp dim (fun d v => do
      let n ← arrGet (E.local_normal face) d
      SmallMat.subFrom m (d * nS + i) (n * l * integral) v) v) v) v)
    (fun i => ∑ j : Fin nB, ∑ f : Fin (2 * dim), tau * lambda f j * E.bdr_phipsi i j f)
    (fun i d => ∑ j : Fin nB, ∑ f : Fin (2 * dim), -(E.local_normal f d * lambda f j * E.bdr_phipsi i j f))
    (fun i v => vec_add _ i _ _ (fun j v => vec_add _ i (fun f : Fin (2 * dim) => tau * lambda f j * E.bdr_phipsi i j f)
      (fun f d => -(E.local_normal f d * lambda f j * E.bdr_phipsi i j f)) (fun f v => by
        dsimp only
        rw [arrGet2_lt lambda f.2 j.2, Res.ok_bind]
        exact face_add m E f i _ _ _ v (fun _ n => n * lambda f j * E.bdr_phipsi i j f) (fun d => rfl) rfl) v) v) (SmallMat.fill _ _ 0)
  refine ⟨v, h1, fun b i => ?_⟩
  rw [h2, show toMat (SmallMat.fill ((dim + 1) * nS) 1 (0 : K)) (ix b i) 0 = 0 from rfl, zero_add]
  unfold blockRhs
  split
  next h =>
    simp only [moments, mulVec, dotProduct, form, Matrix.of_apply, Pi.neg_apply, Finset.sum_apply, Pi.smul_apply, smul_eq_mul]
    rw [Finset.sum_comm, ← Finset.sum_neg_distrib]
    refine Finset.sum_congr rfl fun f _ => ?_
    rw [Finset.mul_sum, ← Finset.sum_neg_distrib]
    refine Finset.sum_congr rfl fun j _ => ?_
    ring
  next h =>
    simp only [moments, mulVec, dotProduct, form, Matrix.of_apply, Pi.add_apply, Pi.zero_apply, zero_add, Finset.sum_apply, Pi.smul_apply, smul_eq_mul, one_mul]
    rw [Finset.sum_comm, Finset.mul_sum]
    refine Finset.sum_congr rfl fun f _ => ?_
    rw [Finset.mul_sum]
    refine Finset.sum_congr rfl fun j _ => ?_
    ring

/-- `forUp` for a body which is additive once an entry known to be zero is set. -/
theorem set_zero (m : Mode) (v : SmallVec ((dim + 1) * nS) K) (i : Fin nS) (x : K) (h : toMat v (ix (Fin.last dim) i) 0 = 0) :
    SmallMat.set m (dim * nS + i) x v = .ok (v + singleMat (ix (Fin.last dim) i) 0 x) := by
  rw [vec_set_lt m v (hl i), mk_last]
  have := arrSet_add v (pos (ix (Fin.last dim) i) (0 : Fin 1)) x
  rw [show v (pos (ix (Fin.last dim) i) (0 : Fin 1)) = 0 from h, zero_add] at this
  rw [this]
  rfl

/-- As `vec_loop`, for iterations which set the entry of the last block before adding. -/
theorem vec_loop_set (f : Nat → SmallVec ((dim + 1) * nS) K → Res (SmallVec ((dim + 1) * nS) K))
    (l : Fin nS → K) (c : Fin nS → Fin dim → K)
    (hf : ∀ (i : Fin nS) v, toMat v (ix (Fin.last dim) i) 0 = 0 →
      f i v = .ok (v + (singleMat (ix (Fin.last dim) i) 0 (l i) + ∑ d : Fin dim, singleMat (ix d.castSucc i) 0 (c i d)))) :
    ∃ v, forUp nS f (SmallMat.fill _ _ 0) = .ok v ∧ ∀ (b : Fin (dim + 1)) i, toMat v (ix b i) 0 = if h : b.1 < dim then c i ⟨b, h⟩ else l i := by
  obtain ⟨v, h1, h2⟩ := forUp_inv nS f (SmallMat.fill _ _ 0) (fun k v => ∀ (b : Fin (dim + 1)) (i : Fin nS),
    toMat v (ix b i) 0 = if i.1 < k then (if h : b.1 < dim then c i ⟨b, h⟩ else l i) else 0) (fun b i => rfl) (fun k hk v hv => by
      refine ⟨_, hf ⟨k, hk⟩ v (by rw [hv]; simp), fun b i => ?_⟩
      rw [toMat_add, Matrix.add_apply, toMat_vec, hv]
      by_cases h : i = ⟨k, hk⟩
      · subst h; simp
      · have : i.1 ≠ k := fun h' => h (Fin.ext h')
        rw [if_neg h, add_zero]
        have : i.1 < k + 1 ↔ i.1 < k := by omega
        simp only [this])
  exact ⟨v, h1, fun b i => by rw [h2, if_pos i.2]⟩

theorem rhs_global_spec (m : Mode) (E : Edge dim nS K) (tau time : K) :
    ∃ v, assemble_rhs_from_global_rhs m E tau time = .ok v ∧ IsRhs (form E nB time) tau 1 (dirichletMoments E time) (source E time) (toMat v) := by
  obtain ⟨v, h1, h2⟩ := vec_loop_set (dim := dim) (nS := nS) (fun i v => do
    let v ← SmallMat.set m (dim * nS + i) (E.vol_phifunc time i) v
    forUp (2 * dim) (fun face v =>
      if ¬ is_dirichlet E face then .ok v
      else do
        let integral := E.bdr_phifunc time i face
        let v ← SmallMat.addTo m (dim * nS + i) (tau * integral) v
        forUp dim (fun d v => do
          let n ← arrGet (E.local_normal face) d
          SmallMat.subFrom m (d * nS + i) (n * integral) v) v) v)
    (fun i => source E time i + ∑ f, tau * dirichletMoments E time f i) (fun i d => ∑ f : Fin (2 * dim), -(E.local_normal f d * dirichletMoments E time f i)) (fun i v hv => by
      dsimp only
      rw [set_zero m v i _ hv, Res.ok_bind, vec_add _ i (fun f : Fin (2 * dim) => tau * dirichletMoments E time f i)
        (fun f d => -(E.local_normal f d * dirichletMoments E time f i))]
      · rw [add_assoc, ← add_assoc (singleMat _ _ _) (singleMat _ _ _)]
        refine congrArg Res.ok (congrArg _ (congrArg (· + _) ?_))
        exact (Pi.single_add _ _ _).symm
      · intro f v
        by_cases hdir : IsDirichlet E f
        · have hb := (is_dirichlet_iff E f).mpr hdir
          rw [if_neg (by simp [hb])]
          have e : dirichletMoments E time f i = E.bdr_phifunc time i f := by simp [dirichletMoments, hdir]
          rw [e]
          exact face_add m E f i _ _ _ v (fun _ n => n * E.bdr_phifunc time i f) (fun d => rfl) rfl
        · have hb : is_dirichlet E f = false := by
            rw [← Bool.not_eq_true, is_dirichlet_iff]; exact hdir
          rw [if_pos (by simp [hb])]
          have e : dirichletMoments E time f i = 0 := by simp [dirichletMoments, hdir]
          rw [e]
          simp [singleMat])
  refine ⟨v, h1, fun b i => ?_⟩
  rw [h2]
  unfold blockRhs
  split
  next h => simp [form]
  next h => simp [Finset.mul_sum]

theorem rhs_coeffs_spec (m : Mode) (E : Edge dim nS K) (tau time : K) (x : SmallVec ((dim + 1) * nS) K) :
    ∃ v, assemble_rhs_from_coeffs m E x = .ok v ∧
      IsRhs (form E nB time) tau 1 0 ((form E nB time).mass0 *ᵥ uOf (toMat x)) (toMat v) := by
  obtain ⟨v, h1, h2⟩ := vec_loop (dim := dim) (nS := nS) (fun i v => forUp nS (fun j (v : SmallVec ((dim + 1) * nS) K) => do
    let x ← SmallMat.get m x (dim * nS + j)
    SmallMat.addTo m (dim * nS + i) (x * E.vol_phiphi i j) v) v)
    (fun i => ∑ j : Fin nS, uOf (toMat x) j * E.vol_phiphi i j) (fun i d => ∑ _j : Fin nS, 0)
    (fun i v => vec_add _ i _ _ (fun j v => by
      rw [vec_get_lt m x (hl j), Res.ok_bind, addTo_single m v (hl i)]
      simp [singleMat, mk_last, uOf]) v) (SmallMat.fill _ _ 0)
  refine ⟨v, h1, fun b i => ?_⟩
  rw [h2, show toMat (SmallMat.fill ((dim + 1) * nS) 1 (0 : K)) (ix b i) 0 = 0 from rfl, zero_add]
  unfold blockRhs
  split
  next h => simp
  next h => simp [mulVec, dotProduct, form, mul_comm]

/-! ## Traces -/

theorem mat_loop {r c : Nat} (f : Nat → Nat → Nat → SmallMat r c K → Res (SmallMat r c K)) (g : Fin nS → Fin c → Fin r → K)
    (hf : ∀ (i : Fin nS) (j : Fin c) (k : Fin r) b, f i j k b = .ok (b + singleMat k j (g i j k))) :
    ∃ b, forUp nS (fun i b => forUp c (fun j b => forUp r (fun k b => f i j k b) b) b) (SmallMat.fill _ _ 0) = .ok b ∧
      ∀ k j, toMat b k j = ∑ i, g i j k := by
  refine ⟨_, forUp_add nS _ (fun i => ∑ j, ∑ k, singleMat k j (g i j k)) (fun i M => forUp_add c _ (fun j => ∑ k, singleMat k j (g i j k))
    (fun j M => forUp_add r _ (fun k => singleMat k j (g i j k)) (fun k M => hf i j k M) M) M) _, fun k j => ?_⟩
  rw [toMat_add, Matrix.add_apply, toMat_sum]
  simp only [toMat_sum, toMat_singleMat]
  show (0 : K) + _ = _
  rw [zero_add]
  refine Finset.sum_congr rfl fun i _ => ?_
  rw [Finset.sum_eq_single j, Finset.sum_eq_single k] <;> simp +contextual [eq_comm]

theorem primal_spec (m : Mode) (E : Edge dim nS K) (nB : Nat) (time : K) (x : SmallVec ((dim + 1) * nS) K) :
    ∃ b, primal_at_boundary m E nB x = .ok b ∧ ∀ f j, toMat b f j = (((form E nB time).psi f)ᵀ *ᵥ uOf (toMat x)) j := by
  obtain ⟨b, h1, h2⟩ := mat_loop (fun i j face (b : SmallMat (2 * dim) nB K) => do
    let x ← SmallMat.get m x (dim * nS + i)
    SmallMat.addAt m face j (x * E.bdr_phipsi i j face) b) (fun (i : Fin nS) j f => uOf (toMat x) i * E.bdr_phipsi i j f) (fun i j f b => by
      rw [vec_get_lt m x (hl i), Res.ok_bind, addAt_single m b f.2 j.2]
      rfl)
  refine ⟨b, h1, fun f j => ?_⟩
  rw [h2]
  simp [mulVec, dotProduct, form, mul_comm]

theorem dual_spec (m : Mode) (E : Edge dim nS K) (nB : Nat) (time : K) (x : SmallVec ((dim + 1) * nS) K) :
    ∃ b, dual_at_boundary m E nB x = .ok b ∧
      ∀ f j, toMat b f j = (((form E nB time).psi f)ᵀ *ᵥ ∑ d, (form E nB time).normal f d • qOf (toMat x) d) j := by
  obtain ⟨b, h1, h2⟩ := mat_loop (fun i j face (b : SmallMat (2 * dim) nB K) => do
    let integral := E.bdr_phipsi i j face
    forUp dim (fun d b => do
      let n ← arrGet (E.local_normal face) d
      let x ← SmallMat.get m x (d * nS + i)
      SmallMat.addAt m face j (n * integral * x) b) b)
    (fun (i : Fin nS) j f => ∑ d : Fin dim, E.local_normal f d * E.bdr_phipsi i j f * qOf (toMat x) d i) (fun i j f b => by
      dsimp only
      rw [forUp_add dim _ (fun d => singleMat f j (E.local_normal f d * E.bdr_phipsi i j f * qOf (toMat x) d i))]
      · refine congrArg Res.ok (congrArg _ ?_)
        unfold singleMat
        exact (map_sum (AddMonoidHom.single (fun _ => K) (pos f j)) (fun d : Fin dim => E.local_normal f d * E.bdr_phipsi i j f * qOf (toMat x) d i) Finset.univ).symm
      · intro d b
        rw [arrGet_lt _ d.2, Res.ok_bind, vec_get_lt m x (hd d i), Res.ok_bind, addAt_single m b f.2 j.2]
        rfl)
  refine ⟨b, h1, fun f j => ?_⟩
  rw [h2]
  simp only [mulVec, dotProduct, form, Matrix.transpose_apply, Matrix.of_apply, Finset.sum_apply, Pi.smul_apply, smul_eq_mul, Finset.mul_sum]
  refine Finset.sum_congr rfl fun i _ => Finset.sum_congr rfl fun d _ => ?_
  ring

theorem add_mat_spec {N : Nat} (v w : SmallVec N K) : SmallMat.add_mat v w = .ok (v + w) := by
  unfold SmallMat.add_mat
  rw [forFin_add (N * 1) _ (fun i => Pi.single i (w i)) (fun i s => congrArg Res.ok (arrSet_add s i (w i))) v]
  refine congrArg Res.ok (congrArg _ ?_)
  exact Finset.univ_sum_single w

theorem isRhs_add {F : Form dim nS nB K} {tau sigma : K} {g g' : Fin (2 * dim) → Fin nS → K} {s s' : Fin nS → K} {v w : SmallVec ((dim + 1) * nS) K}
    (hv : IsRhs F tau sigma g s (toMat v)) (hw : IsRhs F tau sigma g' s' (toMat w)) : IsRhs F tau sigma (g + g') (s + s') (toMat (v + w)) := by
  intro b i
  rw [toMat_add, Matrix.add_apply, hv, hw]
  induction b using Fin.lastCases with
  | last => simp only [rhs_l, Pi.add_apply, Pi.smul_apply, Finset.sum_add_distrib, smul_add]; abel
  | cast d => simp only [rhs_c, Pi.add_apply, Pi.neg_apply, Finset.sum_add_distrib, smul_add]; abel

end Assembly

section Solve
variable [Field K]

theorem faces_loop (E : Edge dim nS K) (g : LocDofs dim nB K) (h : Fin (2 * dim) → Fin nB → LocDofs dim nB K → Res (LocDofs dim nB K))
    (hh : ∀ i j out, h i j out = .ok (arrSet out i (arrSet (out i) j (g i j)))) (v : LocDofs dim nB K) :
    forFin (2 * dim) (fun i out =>
      if is_dirichlet E i then forFin nB (fun j (out : LocDofs dim nB K) => .ok (arrSet out i (arrSet (out i) j 0))) out
      else forFin nB (fun j (out : LocDofs dim nB K) => h i j out) out) v = .ok (offDirichlet E g) := by
  rw [← forFin_set2 (offDirichlet E g) v]
  congr 1
  funext i out
  by_cases hdir : IsDirichlet E i
  · rw [if_pos ((is_dirichlet_iff E i).mpr hdir)]
    simp [offDirichlet, hdir]
  · rw [if_neg (by rw [is_dirichlet_iff]; exact hdir)]
    simp [offDirichlet, hdir, hh]

theorem catch_ok {α : Type} (m : Mode) (x : α) : catchLapack m (.ok x) = .ok x := rfl

theorem catch_throw {α : Type} (m : Mode) : catchLapack m (.throw .lapack : Res α) = solveFailure m := by cases m <;> rfl

/-- The data of the local problem for the two types of solution. -/
noncomputable def dataOf (E : Edge dim nS K) (time : K) (lambda : LocDofs dim nB K) (solution_type : Nat) : (Fin (2 * dim) → Fin nS → K) × (Fin nS → K) :=
  if solution_type = 0 then (moments (form E nB time) lambda, 0)
  else (moments (form E nB time) lambda + dirichletMoments E time, source E time)

theorem solve_local_problem_spec (m : Mode) (gesv : Gesv ((dim + 1) * nS) 1 K) (hg : GesvSpec gesv) (E : Edge dim nS K) (tau time : K)
    (lambda : LocDofs dim nB K) (t : Nat) (ht : t = 0 ∨ t = 1) :
    (Solvable (form E nB time) tau 0 1 → ∃ x, solve_local_problem m gesv E tau lambda t time = .ok x ∧
      IsSolution (form E nB time) tau 0 1 (dataOf E time lambda t).1 (dataOf E time lambda t).2 (qOf (toMat x)) (uOf (toMat x))) ∧
    (¬ Solvable (form E nB time) tau 0 1 → solve_local_problem m gesv E tau lambda t time = solveFailure m) := by
  obtain ⟨A, hA1, hA2⟩ := assemble_loc_matrix_spec m E nB tau time
  obtain ⟨v, hv1, hv2⟩ := rhs_lambda_spec m E tau time lambda
  obtain ⟨w, hw1, hw2⟩ := rhs_global_spec (nB := nB) m E tau time
  have key : ∃ rhs, IsRhs (form E nB time) tau 1 (dataOf E time lambda t).1 (dataOf E time lambda t).2 (toMat rhs) ∧
      solve_local_problem m gesv E tau lambda t time = catchLapack m (solve gesv rhs A) := by
    rcases ht with rfl | rfl
    · refine ⟨v, by simpa [dataOf] using hv2, ?_⟩
      simp [solve_local_problem, hv1, hA1]
    · refine ⟨v + w, by simpa [dataOf] using isRhs_add hv2 hw2, ?_⟩
      simp [solve_local_problem, hv1, hA1, hw1, add_mat_spec]
  obtain ⟨rhs, hr1, hr2⟩ := key
  obtain ⟨h1, h2⟩ := solve_spec (form E nB time) tau 0 1 gesv hg A hA2 rhs
  refine ⟨fun hs => ?_, fun hs => ?_⟩
  · obtain ⟨x, hx1, hx2⟩ := h1 hs
    exact ⟨x, by rw [hr2, hx1]; rfl, hx2 _ _ hr1⟩
  · rw [hr2, h2 hs, catch_throw]

theorem solve_mass_problem_spec (m : Mode) (gesv : Gesv ((dim + 1) * nS) 1 K) (hg : GesvSpec gesv) (E : Edge dim nS K) (tau time : K)
    (y : SmallVec ((dim + 1) * nS) K) (hs : Solvable (form E nB time) tau 0 1) :
    ∃ x, solve_mass_problem m gesv E tau y time = .ok x ∧
      IsSolution (form E nB time) tau 0 1 0 ((form E nB time).mass0 *ᵥ uOf (toMat y)) (qOf (toMat x)) (uOf (toMat x)) := by
  obtain ⟨A, hA1, hA2⟩ := assemble_loc_matrix_spec m E nB tau time
  obtain ⟨v, hv1, hv2⟩ := rhs_coeffs_spec (nB := nB) m E tau time y
  obtain ⟨x, hx1, hx2⟩ := (solve_spec (form E nB time) tau 0 1 gesv hg A hA2 v).1 hs
  exact ⟨x, by simp [solve_mass_problem, hv1, hA1, hx1, catch_ok], hx2 _ _ hv2⟩

theorem writeFlux_eq (m : Mode) (E : Edge dim nS K) (tau time : K) (x : SmallVec ((dim + 1) * nS) K) (lambda out : LocDofs dim nB K) :
    (do
      let primals ← primal_at_boundary m E nB x
      let duals ← dual_at_boundary m E nB x
      writeFlux m E tau primals duals lambda out) =
    .ok (offDirichlet E (faceFlux (form E nB time) tau lambda (qOf (toMat x)) (uOf (toMat x)))) := by
  obtain ⟨p, hp1, hp2⟩ := primal_spec m E nB time x
  obtain ⟨d, hd1, hd2⟩ := dual_spec m E nB time x
  rw [hp1, hd1, Res.ok_bind, Res.ok_bind]
  unfold writeFlux
  refine faces_loop E _ (fun i j (out : LocDofs dim nB K) => do
      let x ← SmallMat.at' m d i j
      let y ← SmallMat.at' m p i j
      return arrSet out i (arrSet (out i) j (x + tau * y - tau * lambda i j * E.face_area i))) (fun i j out => ?_) out
  rw [at_lt m d i.2 j.2, at_lt m p i.2 j.2, Res.ok_bind, Res.ok_bind, hp2, hd2]
  simp only [faceFlux, mulVec_add, mulVec_smul, Pi.sub_apply, Pi.add_apply, Pi.smul_apply, smul_eq_mul]
  show Res.ok _ = _
  rw [show (form E nB time).area i = E.face_area i from rfl, mul_right_comm]

theorem writeMassFlux_eq (m : Mode) (E : Edge dim nS K) (tau time : K) (x : SmallVec ((dim + 1) * nS) K) (out : LocDofs dim nB K) :
    (do
      let primals ← primal_at_boundary m E nB x
      let duals ← dual_at_boundary m E nB x
      writeMassFlux m E tau primals duals out) =
    .ok (offDirichlet E (faceFlux (form E nB time) tau 0 (qOf (toMat x)) (uOf (toMat x)))) := by
  obtain ⟨p, hp1, hp2⟩ := primal_spec m E nB time x
  obtain ⟨d, hd1, hd2⟩ := dual_spec m E nB time x
  rw [hp1, hd1, Res.ok_bind, Res.ok_bind]
  unfold writeMassFlux
  refine faces_loop E _ (fun i j (out : LocDofs dim nB K) => do
      let x ← SmallMat.at' m d i j
      let y ← SmallMat.at' m p i j
      return arrSet out i (arrSet (out i) j (x + tau * y))) (fun i j out => ?_) out
  rw [at_lt m d i.2 j.2, at_lt m p i.2 j.2, Res.ok_bind, Res.ok_bind, hp2, hd2]
  simp only [faceFlux, mulVec_add, mulVec_smul, Pi.sub_apply, Pi.add_apply, Pi.smul_apply, Pi.zero_apply, smul_eq_mul, mul_zero, sub_zero]
  rfl

end Solve

end HyperHDG.Diffusion

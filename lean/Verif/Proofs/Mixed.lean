import Verif.Spec.Mixed
import Verif.Proofs.LDGSystem

/-!
# Linear systems of two coupled diffusion problems
-/

set_option linter.unusedSectionVars false

namespace HyperHDG.Mixed

open Spec Finset Matrix LDG DiffusionUniform

variable {K : Type} {dim nS nB : Nat}

/-! ## Loops which fill a matrix by blocks -/

section Loops
variable {N : Nat} [CommRing K]

/-- The matrix which has `B b c` at row `i` and column `j` of block `(b, c)`. -/
def blockMat (i j : Fin nS) (B : Matrix (Fin N) (Fin N) K) : SmallMat (N * nS) (N * nS) K := ∑ b, ∑ c, singleMat (ix b i) (ix c j) (B b c)

theorem singleMat_zero {r c : Nat} (i : Fin r) (j : Fin c) : singleMat i j (0 : K) = 0 := Pi.single_zero _

theorem singleMat_add {r c : Nat} (i : Fin r) (j : Fin c) (x y : K) : singleMat i j (x + y) = singleMat i j x + singleMat i j y := Pi.single_add _ _ _

theorem blockMat_add (i j : Fin nS) (B C : Matrix (Fin N) (Fin N) K) : blockMat i j (B + C) = blockMat i j B + blockMat i j C := by
  simp only [blockMat, Matrix.add_apply, singleMat_add, Finset.sum_add_distrib]

theorem blockMat_zero (i j : Fin nS) : blockMat i j (0 : Matrix (Fin N) (Fin N) K) = 0 := by
  simp [blockMat, singleMat_zero]

theorem blockMat_sum {ι : Type} (s : Finset ι) (i j : Fin nS) (B : ι → Matrix (Fin N) (Fin N) K) :
    blockMat i j (∑ a ∈ s, B a) = ∑ a ∈ s, blockMat i j (B a) := by
  classical
  induction s using Finset.induction_on with
  | empty => simp [blockMat_zero]
  | insert a s ha ih => rw [Finset.sum_insert ha, Finset.sum_insert ha, blockMat_add, ih]

theorem blockMat_single (i j : Fin nS) (b c : Fin N) (x : K) : blockMat i j (Matrix.single b c x) = singleMat (ix b i) (ix c j) x := by
  unfold blockMat
  rw [Finset.sum_eq_single b, Finset.sum_eq_single c]
  · simp
  · intro c' _ h; rw [Matrix.single_apply_of_ne _ _ _ _ _ (by rintro ⟨_, rfl⟩; exact h rfl), singleMat_zero]
  · simp
  · intro b' _ h
    refine Finset.sum_eq_zero fun c' _ => ?_
    rw [Matrix.single_apply_of_ne _ _ _ _ _ (by rintro ⟨rfl, _⟩; exact h rfl), singleMat_zero]
  · simp

theorem addAt_block (m : Mode) (M : SmallMat (N * nS) (N * nS) K) (b c : Fin N) (i j : Fin nS) {r s : Nat} (hr : r = ix b i) (hs : s = ix c j) (x : K) :
    M.addAt m r s x = .ok (M + blockMat i j (Matrix.single b c x)) := by
  subst hr hs
  rw [addAt_single m M (ix b i).2 (ix c j).2, blockMat_single]

theorem subAt_block (m : Mode) (M : SmallMat (N * nS) (N * nS) K) (b c : Fin N) (i j : Fin nS) {r s : Nat} (hr : r = ix b i) (hs : s = ix c j) (x : K) :
    M.subAt m r s x = .ok (M + blockMat i j (Matrix.single b c (-x))) := by
  subst hr hs
  rw [subAt_single m M (ix b i).2 (ix c j).2, blockMat_single]

theorem toMat_blockMat (i j : Fin nS) (B : Matrix (Fin N) (Fin N) K) (b c : Fin N) (i' j' : Fin nS) :
    toMat (blockMat i j B) (ix b i') (ix c j') = if i' = i ∧ j' = j then B b c else 0 := by
  unfold blockMat
  simp only [toMat_sum, toMat_singleMat, ix_inj]
  by_cases h : i' = i ∧ j' = j
  · obtain ⟨rfl, rfl⟩ := h
    rw [if_pos ⟨rfl, rfl⟩, Finset.sum_eq_single b, Finset.sum_eq_single c]
    · simp
    · intro c' _ h; rw [if_neg]; rintro ⟨_, rfl, _⟩; exact h rfl
    · simp
    · intro b' _ h; refine Finset.sum_eq_zero fun c' _ => ?_
      rw [if_neg]; rintro ⟨⟨rfl, _⟩, _⟩; exact h rfl
    · simp
  · rw [if_neg h]
    refine Finset.sum_eq_zero fun b' _ => Finset.sum_eq_zero fun c' _ => ?_
    rw [if_neg]; rintro ⟨⟨_, h1⟩, _, h2⟩; exact h ⟨h1, h2⟩

/-- A loop over `i`, `j` adding to row `i`, column `j` of the blocks. -/
theorem matrix_loop (f : Nat → Nat → SmallMat (N * nS) (N * nS) K → Res (SmallMat (N * nS) (N * nS) K)) (B : Fin nS → Fin nS → Matrix (Fin N) (Fin N) K)
    (hf : ∀ (i j : Fin nS) M, f i j M = .ok (M + blockMat i j (B i j))) :
    ∃ A, forUp nS (fun i M => forUp nS (fun j M => f i j M) M) (SmallMat.fill _ _ 0) = .ok A ∧ ∀ b i c j, toMat A (ix b i) (ix c j) = B i j b c := by
  refine ⟨_, forUp_add nS _ (fun i => ∑ j, blockMat i j (B i j)) (fun i M => forUp_add nS _ (fun j => blockMat i j (B i j)) (fun j M => hf i j M) M) _,
    fun b i c j => ?_⟩
  rw [toMat_add, Matrix.add_apply, toMat_sum]
  simp only [toMat_sum, toMat_blockMat]
  rw [sum_ite_fin i j (fun i j => B i j b c)]
  show (0 : K) + _ = _
  rw [zero_add]

/-- The vector which has `B b` at row `i` of block `b`. -/
def blockVec (i : Fin nS) (B : Fin N → K) : SmallVec (N * nS) K := ∑ b, singleMat (ix b i) 0 (B b)

theorem blockVec_add (i : Fin nS) (B C : Fin N → K) : blockVec i (B + C) = blockVec i B + blockVec i C := by
  simp only [blockVec, Pi.add_apply, singleMat_add, Finset.sum_add_distrib]

theorem blockVec_zero (i : Fin nS) : blockVec i (0 : Fin N → K) = 0 := by simp [blockVec, singleMat_zero]

theorem blockVec_sum {ι : Type} (s : Finset ι) (i : Fin nS) (B : ι → Fin N → K) : blockVec i (∑ a ∈ s, B a) = ∑ a ∈ s, blockVec i (B a) := by
  classical
  induction s using Finset.induction_on with
  | empty => simp [blockVec_zero]
  | insert a s ha ih => rw [Finset.sum_insert ha, Finset.sum_insert ha, blockVec_add, ih]

theorem blockVec_single (i : Fin nS) (b : Fin N) (x : K) : blockVec i (Pi.single b x) = singleMat (ix b i) 0 x := by
  unfold blockVec
  rw [Finset.sum_eq_single b]
  · simp
  · intro b' _ h; rw [Pi.single_eq_of_ne h, singleMat_zero]
  · simp

theorem addTo_block (m : Mode) (v : SmallVec (N * nS) K) (b : Fin N) (i : Fin nS) {r : Nat} (hr : r = ix b i) (x : K) :
    v.addTo m r x = .ok (v + blockVec i (Pi.single b x)) := by
  subst hr
  rw [addTo_single m v (ix b i).2, blockVec_single]

theorem subFrom_block (m : Mode) (v : SmallVec (N * nS) K) (b : Fin N) (i : Fin nS) {r : Nat} (hr : r = ix b i) (x : K) :
    v.subFrom m r x = .ok (v + blockVec i (Pi.single b (-x))) := by
  subst hr
  rw [subFrom_single m v (ix b i).2, blockVec_single]

theorem toMat_blockVec (i : Fin nS) (B : Fin N → K) (b : Fin N) (i' : Fin nS) : toMat (blockVec i B) (ix b i') 0 = if i' = i then B b else 0 := by
  unfold blockVec
  simp only [toMat_sum, toMat_singleMat, ix_inj, and_true]
  by_cases h : i' = i
  · subst h
    rw [if_pos rfl, Finset.sum_eq_single b]
    · simp
    · intro b' _ h; rw [if_neg]; rintro ⟨rfl, _⟩; exact h rfl
    · simp
  · simp [h]

/-- A loop adding to row `i` of the blocks. -/
theorem vec_add {nF : Nat} (i : Fin nS) (f : Nat → SmallVec (N * nS) K → Res (SmallVec (N * nS) K)) (B : Fin nF → Fin N → K)
    (hf : ∀ (k : Fin nF) v, f k v = .ok (v + blockVec i (B k))) (v : SmallVec (N * nS) K) : forUp nF f v = .ok (v + blockVec i (∑ k, B k)) := by
  rw [forUp_add nF f _ hf v, blockVec_sum]

/-- A loop over `i` adding to row `i` of the blocks. -/
theorem vec_loop (f : Nat → SmallVec (N * nS) K → Res (SmallVec (N * nS) K)) (B : Fin nS → Fin N → K)
    (hf : ∀ (i : Fin nS) v, f i v = .ok (v + blockVec i (B i))) :
    ∃ v, forUp nS f (SmallMat.fill _ _ 0) = .ok v ∧ ∀ b i, toMat v (ix b i) 0 = B i b := by
  refine ⟨_, forUp_add nS _ _ hf _, fun b i => ?_⟩
  rw [toMat_add, Matrix.add_apply, toMat_sum]
  simp only [toMat_blockVec]
  rw [Finset.sum_ite_eq Finset.univ i, if_pos (Finset.mem_univ _)]
  show (0 : K) + _ = _
  rw [zero_add]

/-- As `vec_loop`, for iterations which use that row `i` is still zero. -/
theorem vec_loop_zero (f : Nat → SmallVec (N * nS) K → Res (SmallVec (N * nS) K)) (B : Fin nS → Fin N → K)
    (hf : ∀ (i : Fin nS) v, (∀ b, toMat v (ix b i) 0 = 0) → f i v = .ok (v + blockVec i (B i))) :
    ∃ v, forUp nS f (SmallMat.fill _ _ 0) = .ok v ∧ ∀ b i, toMat v (ix b i) 0 = B i b := by
  obtain ⟨v, h1, h2⟩ := forUp_inv nS f (SmallMat.fill _ _ 0) (fun k v => ∀ (b : Fin N) (i : Fin nS),
    toMat v (ix b i) 0 = if i.1 < k then B i b else 0) (fun b i => rfl) (fun k hk v hv => by
      refine ⟨_, hf ⟨k, hk⟩ v (fun b => by rw [hv]; simp), fun b i => ?_⟩
      rw [toMat_add, Matrix.add_apply, toMat_blockVec, hv]
      by_cases h : i = ⟨k, hk⟩
      · subst h; simp
      · have : i.1 ≠ k := fun h' => h (Fin.ext h')
        rw [if_neg h, add_zero]
        have : i.1 < k + 1 ↔ i.1 < k := by omega
        simp only [this])
  exact ⟨v, h1, fun b i => by rw [h2, if_pos i.2]⟩

theorem set_block (m : Mode) (v : SmallVec (N * nS) K) (b : Fin N) (i : Fin nS) {r : Nat} (hr : r = ix b i) (x : K) (h : toMat v (ix b i) 0 = 0) :
    SmallMat.set m r x v = .ok (v + blockVec i (Pi.single b x)) := by
  subst hr
  rw [vec_set_lt m v (ix b i).2, blockVec_single]
  have := arrSet_add v (pos (ix b i) (0 : Fin 1)) x
  rw [show v (pos (ix b i) (0 : Fin 1)) = 0 from h, zero_add] at this
  rw [this]
  rfl

end Loops

/-! ## The two halves -/

section Halves
variable [CommRing K]

/-- Position in the vector of both problems of position `r` of problem `k`. -/
def emb (k : Fin 2) (r : Fin ((dim + 1) * nS)) : Fin (2 * (dim + 1) * nS) :=
  ⟨k * ((dim + 1) * nS) + r, by
    have h1 := r.2
    have h2 : k.1 * ((dim + 1) * nS) ≤ 1 * ((dim + 1) * nS) := Nat.mul_le_mul_right _ (by omega)
    have h3 : 2 * (dim + 1) * nS = (dim + 1) * nS + (dim + 1) * nS := by ring
    omega⟩

theorem emb_ix (k : Fin 2) (b : Fin (dim + 1)) (i : Fin nS) : emb k (ix b i) = ix (ix k b) i := by
  refine Fin.ext ?_
  simp only [emb, ix]
  ring

theorem emb_surj (r : Fin (2 * (dim + 1) * nS)) : ∃ k r', r = emb k r' := by
  obtain ⟨b, i, rfl⟩ := ix_surj r
  obtain ⟨k, b, rfl⟩ := ix_surj b
  exact ⟨k, ix b i, (emb_ix k b i).symm⟩

theorem sum_emb (g : Fin (2 * (dim + 1) * nS) → K) : ∑ r, g r = ∑ k, ∑ r, g (emb k r) := by
  rw [sum_ix, sum_ix]
  refine Finset.sum_congr rfl fun k _ => ?_
  rw [sum_ix]
  simp only [emb_ix]

/-- The part of a vector which belongs to problem `k`. -/
def half (k : Fin 2) (x : Matrix (Fin (2 * (dim + 1) * nS)) (Fin 1) K) : Matrix (Fin ((dim + 1) * nS)) (Fin 1) K := fun r l => x (emb k r) l

theorem half_ext {x y : Matrix (Fin (2 * (dim + 1) * nS)) (Fin 1) K} (h : ∀ k, half k x = half k y) : x = y := by
  funext r l
  obtain ⟨k, r, rfl⟩ := emb_surj r
  exact congrFun (congrFun (h k) r) l

/-- The vector with given parts. -/
def join (a b : Matrix (Fin ((dim + 1) * nS)) (Fin 1) K) : Matrix (Fin (2 * (dim + 1) * nS)) (Fin 1) K := fun r l =>
  if h : r.1 < (dim + 1) * nS then a ⟨r, h⟩ l else b ⟨r - (dim + 1) * nS, by
    have h3 : 2 * (dim + 1) * nS = (dim + 1) * nS + (dim + 1) * nS := by ring
    have := r.2
    omega⟩ l

theorem half_join_zero (a b : Matrix (Fin ((dim + 1) * nS)) (Fin 1) K) : half 0 (join a b) = a := by
  funext r l
  simp [half, join, emb]

theorem half_join_one (a b : Matrix (Fin ((dim + 1) * nS)) (Fin 1) K) : half 1 (join a b) = b := by
  funext r l
  simp [half, join, emb]

/-- The vector which is `x` in the last block. -/
def lastBlock (x : Fin nS → K) : Matrix (Fin ((dim + 1) * nS)) (Fin 1) K := packQU 0 x

theorem lastBlock_c (x : Fin nS → K) (d : Fin dim) (i : Fin nS) : lastBlock (dim := dim) x (ix d.castSucc i) 0 = 0 :=
  congrFun (congrFun (qOf_pack (0 : Fin dim → Fin nS → K) x) d) i

theorem lastBlock_l (x : Fin nS → K) (i : Fin nS) : lastBlock (dim := dim) x (ix (Fin.last dim) i) 0 = x i :=
  congrFun (uOf_pack (0 : Fin dim → Fin nS → K) x) i

/-- The blocks of the matrix of the coupled problem. -/
def mixedBlock (F : Form dim nS nB K) (B C : Matrix (Fin nS) (Fin nS) K) (tau sigma : K) (k l : Fin 2) (b c : Fin (dim + 1)) : Matrix (Fin nS) (Fin nS) K :=
  if k = 0 then if l = 0 then block F tau 0 1 b c else if b = Fin.last dim ∧ c = Fin.last dim then -B else 0
  else if l = 0 then if b = Fin.last dim ∧ c = Fin.last dim then C else 0 else block F tau 0 sigma b c

def IsMixedMat (F : Form dim nS nB K) (B C : Matrix (Fin nS) (Fin nS) K) (tau sigma : K)
    (A : Matrix (Fin (2 * (dim + 1) * nS)) (Fin (2 * (dim + 1) * nS)) K) : Prop :=
  ∀ k b i l c j, A (ix (ix k b) i) (ix (ix l c) j) = mixedBlock F B C tau sigma k l b c i j

def IsMixedRhs (F : Form dim nS nB K) (tau sigma : K) (g h : Fin (2 * dim) → Fin nS → K) (s t : Fin nS → K)
    (v : Matrix (Fin (2 * (dim + 1) * nS)) (Fin 1) K) : Prop :=
  IsRhs F tau 1 g s (half 0 v) ∧ IsRhs F tau sigma h t (half 1 v)

theorem isRhs_last {F : Form dim nS nB K} {tau sigma : K} {g : Fin (2 * dim) → Fin nS → K} {s : Fin nS → K} {v : Matrix (Fin ((dim + 1) * nS)) (Fin 1) K}
    (hv : IsRhs F tau sigma g s v) (x : Fin nS → K) : IsRhs F tau sigma g (s + x) (v + lastBlock x) := by
  intro b i
  rw [Matrix.add_apply, hv]
  induction b using Fin.lastCases with
  | last => simp only [rhs_l, Pi.add_apply, lastBlock_l]; ring
  | cast d => simp only [rhs_c, lastBlock_c, add_zero]

theorem mixed_system_iff (F : Form dim nS nB K) (B C : Matrix (Fin nS) (Fin nS) K) (tau sigma : K) (g h : Fin (2 * dim) → Fin nS → K) (s t : Fin nS → K)
    (A : Matrix (Fin (2 * (dim + 1) * nS)) (Fin (2 * (dim + 1) * nS)) K) (hA : IsMixedMat F B C tau sigma A)
    (v : Matrix (Fin (2 * (dim + 1) * nS)) (Fin 1) K) (hv : IsMixedRhs F tau sigma g h s t v) (x : Matrix (Fin (2 * (dim + 1) * nS)) (Fin 1) K) :
    A * x = v ↔ IsMixedSolution F B C tau sigma g h s t (qOf (half 0 x)) (uOf (half 0 x)) (qOf (half 1 x)) (uOf (half 1 x)) := by
  have hA' : ∀ k b i l c j, A (ix (ix k b) i) (ix (ix l c) j) = mixedBlock F B C tau sigma k l b c i j := hA
  let A0 : Matrix (Fin ((dim + 1) * nS)) (Fin ((dim + 1) * nS)) K := fun r c => A (emb 0 r) (emb 0 c)
  let A1 : Matrix (Fin ((dim + 1) * nS)) (Fin ((dim + 1) * nS)) K := fun r c => A (emb 1 r) (emb 1 c)
  have h0 : IsMat F tau 0 1 A0 := fun b i c j => by
    show A (emb 0 (ix b i)) (emb 0 (ix c j)) = _
    rw [emb_ix, emb_ix, hA, mixedBlock, if_pos rfl, if_pos rfl]
  have h1 : IsMat F tau 0 sigma A1 := fun b i c j => by
    show A (emb 1 (ix b i)) (emb 1 (ix c j)) = _
    rw [emb_ix, emb_ix, hA, mixedBlock, if_neg one_ne_zero, if_neg one_ne_zero]
  have e0 : half 0 (A * x) = A0 * half 0 x - lastBlock (B *ᵥ uOf (half 1 x)) := by
    funext r l
    obtain rfl : l = 0 := Subsingleton.elim _ _
    show (A * x) (emb 0 r) 0 = (A0 * half 0 x) r 0 - lastBlock (B *ᵥ uOf (half 1 x)) r 0
    rw [Matrix.mul_apply, sum_emb, Fin.sum_univ_two, Matrix.mul_apply, sub_eq_add_neg]
    refine congrArg₂ (· + ·) rfl ?_
    obtain ⟨b, i, rfl⟩ := ix_surj r
    rw [sum_ix]
    simp only [emb_ix, hA', mixedBlock, if_neg one_ne_zero, if_true]
    induction b using Fin.lastCases with
    | last =>
      rw [Fin.sum_univ_castSucc]
      simp [lastBlock_l, Fin.castSucc_ne_last, mulVec, dotProduct, uOf, half, emb_ix]
    | cast d => simp [lastBlock_c, Fin.castSucc_ne_last]
  have e1 : half 1 (A * x) = A1 * half 1 x + lastBlock (C *ᵥ uOf (half 0 x)) := by
    funext r l
    obtain rfl : l = 0 := Subsingleton.elim _ _
    show (A * x) (emb 1 r) 0 = (A1 * half 1 x) r 0 + lastBlock (C *ᵥ uOf (half 0 x)) r 0
    rw [Matrix.mul_apply, sum_emb, Fin.sum_univ_two, Matrix.mul_apply, add_comm]
    refine congrArg₂ (· + ·) rfl ?_
    obtain ⟨b, i, rfl⟩ := ix_surj r
    rw [sum_ix]
    simp only [emb_ix, hA', mixedBlock, if_neg one_ne_zero, if_true]
    induction b using Fin.lastCases with
    | last =>
      rw [Fin.sum_univ_castSucc]
      simp [lastBlock_l, Fin.castSucc_ne_last, mulVec, dotProduct, uOf, half, emb_ix]
    | cast d => simp [lastBlock_c, Fin.castSucc_ne_last]
  have hb0 := isRhs_last hv.1 (B *ᵥ uOf (half 1 x))
  have hb1 := isRhs_last hv.2 (-(C *ᵥ uOf (half 0 x)))
  have hl : lastBlock (dim := dim) (-(C *ᵥ uOf (half 0 x))) = -lastBlock (C *ᵥ uOf (half 0 x)) := by
    funext r l
    obtain rfl : l = 0 := Subsingleton.elim _ _
    obtain ⟨b, i, rfl⟩ := ix_surj r
    rw [Matrix.neg_apply]
    induction b using Fin.lastCases with
    | last => rw [lastBlock_l, lastBlock_l]; rfl
    | cast d => rw [lastBlock_c, lastBlock_c, neg_zero]
  rw [hl, ← sub_eq_add_neg, ← sub_eq_add_neg] at hb1
  have s0 := system_iff F tau 0 1 g (s + B *ᵥ uOf (half 1 x)) A0 h0 _ hb0 (half 0 x)
  have s1 := system_iff F tau 0 sigma h (t - C *ᵥ uOf (half 0 x)) A1 h1 _ hb1 (half 1 x)
  constructor
  · intro hx
    rw [hx] at e0 e1
    exact ⟨s0.mp (by rw [e0]; abel), s1.mp (by rw [e1]; abel)⟩
  · rintro ⟨k0, k1⟩
    refine half_ext fun k => ?_
    match k with
    | 0 => rw [e0, s0.mpr k0]; abel
    | 1 => rw [e1, s1.mpr k1]; abel

end Halves

/-! ## What one iteration over the shape functions adds -/

section Entries
variable [CommRing K]

theorem row_l (i : Fin nS) : dim * nS + i = (ix (ix (0 : Fin 2) (Fin.last dim)) i : Fin (2 * (dim + 1) * nS)).1 := by simp [ix]
theorem row_d (d : Fin dim) (i : Fin nS) : d * nS + i = (ix (ix (0 : Fin 2) d.castSucc) i : Fin (2 * (dim + 1) * nS)).1 := by simp [ix]
theorem row_l' (i : Fin nS) : 2 * (dim + 1) * nS / 2 + dim * nS + i = (ix (ix (1 : Fin 2) (Fin.last dim)) i : Fin (2 * (dim + 1) * nS)).1 := by
  have h : 2 * (dim + 1) * nS / 2 = (dim + 1) * nS := by rw [Nat.mul_assoc, Nat.mul_div_cancel_left _ (by omega)]
  simp only [ix, h, Fin.val_last, Fin.val_one]
  ring
theorem row_d' (d : Fin dim) (i : Fin nS) : 2 * (dim + 1) * nS / 2 + d * nS + i = (ix (ix (1 : Fin 2) d.castSucc) i : Fin (2 * (dim + 1) * nS)).1 := by
  have h : 2 * (dim + 1) * nS / 2 = (dim + 1) * nS := by rw [Nat.mul_assoc, Nat.mul_div_cancel_left _ (by omega)]
  simp only [ix, h, Fin.val_castSucc, Fin.val_one]
  ring

/-- What one iteration over `i`, `j` adds to the blocks of the matrix. -/
def mixedAdd (ll0 ll1 m01 m10 cc : K) (lc0 lc1 cl : Fin dim → K) : Matrix (Fin (2 * (dim + 1))) (Fin (2 * (dim + 1))) K :=
  .single (ix 0 (Fin.last dim)) (ix 0 (Fin.last dim)) ll0 + .single (ix 1 (Fin.last dim)) (ix 1 (Fin.last dim)) ll1 +
  .single (ix 0 (Fin.last dim)) (ix 1 (Fin.last dim)) m01 + .single (ix 1 (Fin.last dim)) (ix 0 (Fin.last dim)) m10 +
  ∑ d : Fin dim, (.single (ix 0 d.castSucc) (ix 0 d.castSucc) cc + .single (ix 1 d.castSucc) (ix 1 d.castSucc) cc +
    .single (ix 0 (Fin.last dim)) (ix 0 d.castSucc) (lc0 d) + .single (ix 1 (Fin.last dim)) (ix 1 d.castSucc) (lc1 d) +
    .single (ix 0 d.castSucc) (ix 0 (Fin.last dim)) (cl d) + .single (ix 1 d.castSucc) (ix 1 (Fin.last dim)) (cl d))

/-- The blocks of a single problem. -/
def oneEntry (ll cc : K) (lc cl : Fin dim → K) (b c : Fin (dim + 1)) : K :=
  if h : b.1 < dim then if c.1 < dim then if b = c then cc else 0 else cl ⟨b, h⟩ else if h' : c.1 < dim then lc ⟨c, h'⟩ else ll

theorem mixedAdd_apply (ll0 ll1 m01 m10 cc : K) (lc0 lc1 cl : Fin dim → K) (k l : Fin 2) (b c : Fin (dim + 1)) :
    mixedAdd ll0 ll1 m01 m10 cc lc0 lc1 cl (ix k b) (ix l c) =
      if k = 0 then if l = 0 then oneEntry ll0 cc lc0 cl b c else if b = Fin.last dim ∧ c = Fin.last dim then m01 else 0
      else if l = 0 then if b = Fin.last dim ∧ c = Fin.last dim then m10 else 0 else oneEntry ll1 cc lc1 cl b c := by
  unfold mixedAdd oneEntry
  simp only [Matrix.add_apply, Matrix.sum_apply, Matrix.single_apply, ix_inj]
  have h1 : ∀ d : Fin dim, Fin.last dim ≠ d.castSucc := fun d => (Fin.castSucc_ne_last d).symm
  have h2 : ∀ d : Fin dim, d.castSucc ≠ Fin.last dim := fun d => (Fin.castSucc_ne_last d)
  have h3 : ∀ (x y : Fin dim) (z : K), (∑ d : Fin dim, if d = x ∧ d = y then z else 0) = if x = y then z else 0 := by
    intro x y z
    rw [Finset.sum_eq_single x]
    · simp
    · intro d _ h; rw [if_neg]; rintro ⟨rfl, _⟩; exact h rfl
    · simp
  induction b using Fin.lastCases with
  | last =>
    induction c using Fin.lastCases with
    | last => fin_cases k <;> fin_cases l <;> simp [h2]
    | cast c => fin_cases k <;> fin_cases l <;> simp [h1, h2]
  | cast b =>
    induction c using Fin.lastCases with
    | last => fin_cases k <;> fin_cases l <;> simp [h1, h2]
    | cast c => fin_cases k <;> fin_cases l <;> simp [h1, h2, h3]

/-- What one iteration over `i` adds to the blocks of the right-hand side. -/
def mixedVec (l0 l1 : K) (c0 c1 : Fin dim → K) : Fin (2 * (dim + 1)) → K :=
  Pi.single (ix 0 (Fin.last dim)) l0 + Pi.single (ix 1 (Fin.last dim)) l1 +
    ∑ d : Fin dim, (Pi.single (ix 0 d.castSucc) (c0 d) + Pi.single (ix 1 d.castSucc) (c1 d))

def oneVec (l : K) (c : Fin dim → K) (b : Fin (dim + 1)) : K := if h : b.1 < dim then c ⟨b, h⟩ else l

theorem mixedVec_apply (l0 l1 : K) (c0 c1 : Fin dim → K) (k : Fin 2) (b : Fin (dim + 1)) :
    mixedVec l0 l1 c0 c1 (ix k b) = if k = 0 then oneVec l0 c0 b else oneVec l1 c1 b := by
  unfold mixedVec oneVec
  simp only [Pi.add_apply, Finset.sum_apply, Pi.single_apply, ix_inj]
  have h1 : ∀ d : Fin dim, Fin.last dim ≠ d.castSucc := fun d => (Fin.castSucc_ne_last d).symm
  have h2 : ∀ d : Fin dim, d.castSucc ≠ Fin.last dim := fun d => (Fin.castSucc_ne_last d)
  induction b using Fin.lastCases with
  | last => fin_cases k <;> simp [h1]
  | cast b => fin_cases k <;> simp [h2]

theorem mixedVec_add (l0 l1 l0' l1' : K) (c0 c1 c0' c1' : Fin dim → K) :
    mixedVec (l0 + l0') (l1 + l1') (c0 + c0') (c1 + c1') = mixedVec l0 l1 c0 c1 + mixedVec l0' l1' c0' c1' := by
  funext r
  obtain ⟨k, b, rfl⟩ := ix_surj r
  simp only [mixedVec_apply, Pi.add_apply, oneVec]
  split <;> split <;> rfl

theorem mixedVec_zero : mixedVec (dim := dim) (0 : K) 0 0 0 = 0 := by
  funext r
  obtain ⟨k, b, rfl⟩ := ix_surj r
  simp [mixedVec_apply, oneVec]

theorem mixedVec_sum {ι : Type} (s : Finset ι) (l0 l1 : ι → K) (c0 c1 : ι → Fin dim → K) :
    ∑ a ∈ s, mixedVec (l0 a) (l1 a) (c0 a) (c1 a) = mixedVec (∑ a ∈ s, l0 a) (∑ a ∈ s, l1 a) (∑ a ∈ s, c0 a) (∑ a ∈ s, c1 a) := by
  classical
  induction s using Finset.induction_on with
  | empty => simp [mixedVec_zero]
  | insert a s ha ih => rw [Finset.sum_insert ha, Finset.sum_insert ha, Finset.sum_insert ha, Finset.sum_insert ha, Finset.sum_insert ha, mixedVec_add, ih]

/-- A matrix with these entries is that of the coupled problem. -/
theorem isMixedMat_of (F : Form dim nS nB K) (B C : Matrix (Fin nS) (Fin nS) K) (tau sigma : K) (A : Matrix (Fin (2 * (dim + 1) * nS)) (Fin (2 * (dim + 1) * nS)) K)
    (hA : ∀ b i c j, A (ix b i) (ix c j) = mixedAdd (tau * ∑ f, F.bdr f i j) (sigma * tau * ∑ f, F.bdr f i j) (-B i j) (C i j) (F.mass i j)
      (fun d => -F.grad d i j + ∑ f, F.normal f d * F.bdr f i j) (fun d => sigma * (-F.grad d i j + ∑ f, F.normal f d * F.bdr f i j))
      (fun d => -F.grad d i j) b c) : IsMixedMat F B C tau sigma A := by
  intro k b i l c j
  rw [hA, mixedAdd_apply, mixedBlock]
  have h : ∀ sigma : K, block F tau 0 sigma b c i j = oneEntry (sigma * tau * ∑ f, F.bdr f i j) (F.mass i j)
      (fun d => sigma * (-F.grad d i j + ∑ f, F.normal f d * F.bdr f i j)) (fun d => -F.grad d i j) b c := by
    intro sigma
    unfold block oneEntry
    split
    next h =>
      split
      next h' => split <;> rfl
      next h' => rfl
    next h =>
      split
      next h' => simp [Matrix.sum_apply]
      next h' => simp [Matrix.sum_apply]
  have h0 := h 1
  simp only [one_mul] at h0
  split
  · split
    · exact h0.symm
    · split <;> simp
  · split
    · split <;> simp
    · exact (h sigma).symm

/-- A vector with these entries is the right-hand side of the coupled problem. -/
theorem isMixedRhs_of (F : Form dim nS nB K) (tau sigma : K) (g h : Fin (2 * dim) → Fin nS → K) (s t : Fin nS → K)
    (v : Matrix (Fin (2 * (dim + 1) * nS)) (Fin 1) K)
    (hv : ∀ b i, v (ix b i) 0 = mixedVec (s i + tau * ∑ f, g f i) (t i + sigma * tau * ∑ f, h f i)
      (fun d => -∑ f, F.normal f d * g f i) (fun d => -∑ f, F.normal f d * h f i) b) : IsMixedRhs F tau sigma g h s t v := by
  constructor
  · intro b i
    show v (emb 0 (ix b i)) 0 = _
    rw [emb_ix, hv, mixedVec_apply, if_pos rfl, oneVec, blockRhs]
    split <;> simp
  · intro b i
    show v (emb 1 (ix b i)) 0 = _
    rw [emb_ix, hv, mixedVec_apply, if_neg one_ne_zero, oneVec, blockRhs]
    split <;> simp

theorem isMixedRhs_add {F : Form dim nS nB K} {tau sigma : K} {g h g' h' : Fin (2 * dim) → Fin nS → K} {s t s' t' : Fin nS → K}
    {v w : SmallVec (2 * (dim + 1) * nS) K} (hv : IsMixedRhs F tau sigma g h s t (toMat v)) (hw : IsMixedRhs F tau sigma g' h' s' t' (toMat w)) :
    IsMixedRhs F tau sigma (g + g') (h + h') (s + s') (t + t') (toMat (v + w)) := by
  constructor
  · intro b i
    show toMat (v + w) (emb 0 (ix b i)) 0 = _
    rw [toMat_add, Matrix.add_apply]
    have h1 := hv.1 b i
    have h2 := hw.1 b i
    simp only [half] at h1 h2
    rw [h1, h2]
    induction b using Fin.lastCases with
    | last => simp only [rhs_l, Pi.add_apply, Pi.smul_apply, Finset.sum_add_distrib, smul_add]; abel
    | cast d => simp only [rhs_c, Pi.add_apply, Pi.neg_apply, Finset.sum_add_distrib, smul_add]; abel
  · intro b i
    show toMat (v + w) (emb 1 (ix b i)) 0 = _
    rw [toMat_add, Matrix.add_apply]
    have h1 := hv.2 b i
    have h2 := hw.2 b i
    simp only [half] at h1 h2
    rw [h1, h2]
    induction b using Fin.lastCases with
    | last => simp only [rhs_l, Pi.add_apply, Pi.smul_apply, Finset.sum_add_distrib, smul_add]; abel
    | cast d => simp only [rhs_c, Pi.add_apply, Pi.neg_apply, Finset.sum_add_distrib, smul_add]; abel

/-- Position of coefficient `j` of the first and of the second trace on a face. -/
def up (j : Fin nB) : Fin (2 * nB) := ⟨j, by omega⟩
def lo (j : Fin nB) : Fin (2 * nB) := ⟨nB + j, by omega⟩

theorem up_lt (j : Fin nB) : j.1 < 2 * nB := by omega
theorem lo_lt (j : Fin nB) : nB + j.1 < 2 * nB := by omega

theorem up_ne_lo (j j' : Fin nB) : up j ≠ lo j' := by
  intro h
  have := congrArg Fin.val h
  simp only [up, lo] at this
  omega
theorem up_inj {j j' : Fin nB} : up j = up j' ↔ j = j' := by simp [up, Fin.ext_iff]
theorem lo_inj {j j' : Fin nB} : lo j = lo j' ↔ j = j' := by simp [lo, Fin.ext_iff]

theorem halves_cases (j : Fin (2 * nB)) : ∃ k : Fin nB, j = up k ∨ j = lo k := by
  by_cases h : j.1 < nB
  · exact ⟨⟨j, h⟩, .inl rfl⟩
  · refine ⟨⟨j - nB, by omega⟩, .inr (Fin.ext ?_)⟩
    simp only [lo]
    omega

theorem halves_up (a b : Fin (2 * dim) → Fin nB → K) (f : Fin (2 * dim)) (j : Fin nB) : halves a b f (up j) = a f j := by simp [halves, up]
theorem halves_lo (a b : Fin (2 * dim) → Fin nB → K) (f : Fin (2 * dim)) (j : Fin nB) : halves a b f (lo j) = b f j := by simp [halves, lo]

theorem eq_halves {x : Fin (2 * dim) → Fin (2 * nB) → K} {a b : Fin (2 * dim) → Fin nB → K} (ha : ∀ f j, x f (up j) = a f j)
    (hb : ∀ f j, x f (lo j) = b f j) : x = halves a b := by
  funext f j
  obtain ⟨k, rfl | rfl⟩ := halves_cases j
  · rw [ha, halves_up]
  · rw [hb, halves_lo]

theorem upper_halves (a b : Fin (2 * dim) → Fin nB → K) : upper (halves a b) = a := by funext f j; exact halves_up a b f j
theorem lower_halves (a b : Fin (2 * dim) → Fin nB → K) : lower (halves a b) = b := by funext f j; exact halves_lo a b f j
theorem halves_upper_lower (x : Fin (2 * dim) → Fin (2 * nB) → K) : halves (upper x) (lower x) = x := (eq_halves (fun _ _ => rfl) (fun _ _ => rfl)).symm

theorem sum_halves (g : Fin (2 * nB) → K) : ∑ j, g j = (∑ j, g (up j)) + ∑ j, g (lo j) := by
  have e : 2 * nB = nB + nB := by ring
  rw [← Equiv.sum_comp (finCongr e.symm) g, Fin.sum_univ_add]
  rfl

/-- The loops of `primal_at_boundary` and `dual_at_boundary`. -/
theorem face_loop (f : Nat → Nat → Nat → LocDofs dim (2 * nB) K → Res (LocDofs dim (2 * nB) K)) (x y : Fin nS → Fin nB → Fin (2 * dim) → K)
    (hf : ∀ (i : Fin nS) (j : Fin nB) (k : Fin (2 * dim)) b, f i j k b = .ok (b + (single2 k (up j) (x i j k) + single2 k (lo j) (y i j k)))) :
    ∃ b, forUp nS (fun i b => forUp nB (fun j b => forUp (2 * dim) (fun k b => f i j k b) b) b) (fun _ _ => 0) = .ok b ∧
      b = halves (fun k j => ∑ i, x i j k) (fun k j => ∑ i, y i j k) := by
  refine ⟨_, forUp_add nS _ (fun i => ∑ j, ∑ k, (single2 k (up j) (x i j k) + single2 k (lo j) (y i j k)))
    (fun i M => forUp_add nB _ (fun j => ∑ k, (single2 k (up j) (x i j k) + single2 k (lo j) (y i j k)))
    (fun j M => forUp_add (2 * dim) _ (fun k => (single2 k (up j) (x i j k) + single2 k (lo j) (y i j k))) (fun k M => hf i j k M) M) M) _, ?_⟩
  refine eq_halves (fun k j => ?_) (fun k j => ?_)
  · simp only [Pi.add_apply, Finset.sum_apply, single2, zero_add, up_ne_lo, and_false, if_false, add_zero, up_inj]
    refine Finset.sum_congr rfl fun i _ => ?_
    rw [Finset.sum_eq_single j, Finset.sum_eq_single k] <;> simp +contextual [eq_comm]
  · simp only [Pi.add_apply, Finset.sum_apply, single2, zero_add, (up_ne_lo _ _).symm, and_false, if_false, zero_add, lo_inj]
    refine Finset.sum_congr rfl fun i _ => ?_
    rw [Finset.sum_eq_single j, Finset.sum_eq_single k] <;> simp +contextual [eq_comm]

end Entries

section Field
variable [Field K]

theorem mixed_isUnit_iff (F : Form dim nS nB K) (B C : Matrix (Fin nS) (Fin nS) K) (tau sigma : K)
    (A : Matrix (Fin (2 * (dim + 1) * nS)) (Fin (2 * (dim + 1) * nS)) K) (hA : IsMixedMat F B C tau sigma A) :
    IsUnit A ↔ MixedSolvable F B C tau sigma := by
  have hz : ∀ sigma : K, IsRhs F tau sigma 0 0 (0 : Matrix (Fin ((dim + 1) * nS)) (Fin 1) K) := by
    intro sigma b i
    induction b using Fin.lastCases with
    | last => simp [rhs_l]
    | cast d => simp [rhs_c]
  have hv : IsMixedRhs F tau sigma 0 0 0 0 (0 : Matrix (Fin (2 * (dim + 1) * nS)) (Fin 1) K) := ⟨hz 1, hz sigma⟩
  constructor
  · intro hu q u p w h
    have hinv' := Matrix.nonsing_inv_mul A ((Matrix.isUnit_iff_isUnit_det _).mp hu)
    have h' := (mixed_system_iff F B C tau sigma 0 0 0 0 A hA 0 hv (join (packQU q u) (packQU p w))).mpr (by
      simpa only [half_join_zero, half_join_one, qOf_pack, uOf_pack] using h)
    have h2 : join (packQU q u) (packQU p w) = 0 := by
      have := congrArg (fun X => A⁻¹ * X) h'
      simpa only [← Matrix.mul_assoc, hinv', Matrix.one_mul, Matrix.mul_zero] using this
    have e0 : packQU q u = 0 := by rw [← half_join_zero (packQU q u) (packQU p w), h2]; rfl
    have e1 : packQU p w = 0 := by rw [← half_join_one (packQU q u) (packQU p w), h2]; rfl
    refine ⟨?_, ?_, ?_, ?_⟩
    · rw [← qOf_pack q u, e0]; rfl
    · rw [← uOf_pack q u, e0]; rfl
    · rw [← qOf_pack p w, e1]; rfl
    · rw [← uOf_pack p w, e1]; rfl
  · intro h
    rw [← Matrix.mulVec_injective_iff_isUnit]
    intro x y hxy
    have hw : A.mulVec (x - y) = 0 := by rw [Matrix.mulVec_sub]; exact sub_eq_zero.mpr hxy
    have h1 := h _ _ _ _ ((mixed_system_iff F B C tau sigma 0 0 0 0 A hA 0 hv (Matrix.of fun k (_ : Fin 1) => (x - y) k)).mp (by
      funext k l
      exact congrFun hw k))
    have h2 : (Matrix.of fun k (_ : Fin 1) => (x - y) k) = (0 : Matrix (Fin (2 * (dim + 1) * nS)) (Fin 1) K) := half_ext fun k =>
      match k with
      | 0 => ext_of h1.1 h1.2.1
      | 1 => ext_of h1.2.2.1 h1.2.2.2
    exact sub_eq_zero.mp (funext fun k => congrFun (congrFun h2 k) 0)

theorem mixed_solve_spec (F : Form dim nS nB K) (B C : Matrix (Fin nS) (Fin nS) K) (tau sigma : K) (gesv : Gesv (2 * (dim + 1) * nS) 1 K) (hg : GesvSpec gesv)
    (A : SmallMat (2 * (dim + 1) * nS) (2 * (dim + 1) * nS) K) (hA : IsMixedMat F B C tau sigma (toMat A)) (v : SmallVec (2 * (dim + 1) * nS) K) :
    (MixedSolvable F B C tau sigma → ∃ x, solve gesv v A = .ok x ∧
      ∀ g h s t, IsMixedRhs F tau sigma g h s t (toMat v) → IsMixedSolution F B C tau sigma g h s t
        (qOf (half 0 (toMat x))) (uOf (half 0 (toMat x))) (qOf (half 1 (toMat x))) (uOf (half 1 (toMat x)))) ∧
    (¬ MixedSolvable F B C tau sigma → solve gesv v A = .throw .lapack) := by
  rw [← mixed_isUnit_iff F B C tau sigma (toMat A) hA]
  constructor
  · intro hu
    obtain ⟨LU, X, x, h2, h3, h4⟩ := hg.regular A v (toMat A) (toMat v) (represents_iff.mpr rfl) (represents_iff.mpr rfl) hu
    rw [represents_iff] at h3
    subst h3
    refine ⟨X, ?_, fun g h s t hv => (mixed_system_iff F B C tau sigma g h s t _ hA _ hv _).mp h4⟩
    unfold solve solve_in_place
    rw [h2]; rfl
  · intro hu
    have h2 := hg.singular A v (toMat A) (represents_iff.mpr rfl) hu
    unfold solve solve_in_place
    rw [h2]; rfl

/-- Without the second coupling the problem is solvable if and only if the problem of diffusion is. -/
theorem mixedSolvable_iff (F : Form dim nS nB K) (B : Matrix (Fin nS) (Fin nS) K) (tau : K) : MixedSolvable F B 0 tau 1 ↔ Solvable F tau 0 1 := by
  constructor
  · intro h q u hq
    have h0 : IsSolution F tau 0 1 0 0 0 0 := ⟨fun d => by simp, by simp⟩
    obtain ⟨h1, h2, _⟩ := h q u 0 0 ⟨by simpa using hq, by simpa using h0⟩
    exact ⟨h1, h2⟩
  · rintro h q u p w ⟨h1, h2⟩
    obtain ⟨rfl, rfl⟩ := h p w (by simpa using h2)
    obtain ⟨rfl, rfl⟩ := h q u (by simpa using h1)
    exact ⟨rfl, rfl, rfl, rfl⟩

end Field

end HyperHDG.Mixed

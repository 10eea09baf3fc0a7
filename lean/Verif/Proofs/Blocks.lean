import Verif.Proofs.Diffusion

/-!
# Assembly and solution of linear systems which consist of blocks
-/

namespace HyperHDG.Blocks

open Spec Finset Matrix DiffusionUniform

variable {K : Type} {D nS : Nat}

/-- The blocks of a vector. -/
def blk (x : SmallVec (D * nS) K) : Fin D → Fin nS → K := fun c i => toMat x (ix c i) 0

/-- The homogeneous system has only the zero solution. -/
def Regular [CommRing K] (B : Fin D → Fin D → Matrix (Fin nS) (Fin nS) K) : Prop := ∀ y : Fin D → Fin nS → K, (∀ b, ∑ c, B b c *ᵥ y c = 0) → y = 0

section Ring
variable [CommRing K]

theorem blk_add (v w : SmallVec (D * nS) K) : blk (v + w) = blk v + blk w := by
  funext b i
  simp [blk, toMat_add]

theorem blk_zero : blk (SmallMat.fill (D * nS) 1 (0 : K)) = 0 := rfl

omit [CommRing K] in
theorem blk_surj (y : Fin D → Fin nS → K) : ∃ x : Matrix (Fin (D * nS)) (Fin 1) K, ∀ b i, x (ix b i) 0 = y b i := by
  choose b i h using fun k : Fin (D * nS) => ix_surj k
  refine ⟨fun k _ => y (b k) (i k), fun b' i' => ?_⟩
  have h1 := ix_inj.mp (h (ix b' i'))
  dsimp only
  rw [h1.1, h1.2]

theorem mul_blocks (B : Fin D → Fin D → Matrix (Fin nS) (Fin nS) K) (A : Matrix (Fin (D * nS)) (Fin (D * nS)) K) (hA : ∀ b i c j, A (ix b i) (ix c j) = B b c i j)
    (x : Matrix (Fin (D * nS)) (Fin 1) K) (b : Fin D) (i : Fin nS) : (A * x) (ix b i) 0 = (∑ c, B b c *ᵥ fun j => x (ix c j) 0) i := by
  rw [Matrix.mul_apply, sum_ix, Finset.sum_apply]
  simp only [hA, mulVec, dotProduct]

/-- A loop over `i`, `j` adding to the entries `i`, `j` of the blocks of a matrix. -/
theorem matrix_loop (f : Nat → Nat → SmallMat (D * nS) (D * nS) K → Res (SmallMat (D * nS) (D * nS) K)) (N : Fin nS → Fin nS → SmallMat (D * nS) (D * nS) K)
    (g : Fin D → Fin D → Fin nS → Fin nS → K) (hf : ∀ (i j : Fin nS) M, f i j M = .ok (M + N i j))
    (hN : ∀ i j b c i' j', toMat (N i j) (ix b i') (ix c j') = if i' = i ∧ j' = j then g b c i j else 0) :
    ∃ A, forUp nS (fun i M => forUp nS (fun j M => f i j M) M) (SmallMat.fill _ _ 0) = .ok A ∧ ∀ b i c j, toMat A (ix b i) (ix c j) = g b c i j := by
  refine ⟨_, forUp_add nS _ (fun i => ∑ j, N i j) (fun i M => forUp_add nS _ (fun j => N i j) (fun j M => hf i j M) M) _, fun b i c j => ?_⟩
  rw [toMat_add, Matrix.add_apply, toMat_sum]
  simp only [toMat_sum, hN]
  rw [sum_ite_fin i j (fun i j => g b c i j)]
  show (0 : K) + _ = _
  rw [zero_add]

/-- A loop over `i` adding to the entries `i` of the blocks of a vector. -/
theorem vector_loop (f : Nat → SmallVec (D * nS) K → Res (SmallVec (D * nS) K)) (N : Fin nS → SmallVec (D * nS) K) (g : Fin D → Fin nS → K)
    (hf : ∀ (i : Fin nS) v, (∀ b, blk v b i = 0) → f i v = .ok (v + N i)) (hN : ∀ i b i', blk (N i) b i' = if i' = i then g b i else 0) :
    ∃ v, forUp nS f (SmallMat.fill _ _ 0) = .ok v ∧ blk v = g := by
  obtain ⟨v, h1, h2⟩ := forUp_inv nS f (SmallMat.fill _ _ 0) (fun k v => ∀ b (i : Fin nS), blk v b i = if i.1 < k then g b i else 0) (fun b i => rfl) (fun k hk v hv => by
    refine ⟨_, hf ⟨k, hk⟩ v (fun b => by rw [hv]; simp), fun b i => ?_⟩
    rw [blk_add, Pi.add_apply, Pi.add_apply, hv, hN]
    by_cases h : i = ⟨k, hk⟩
    · subst h; simp
    · have : i.1 ≠ k := fun h' => h (Fin.ext h')
      rw [if_neg h, add_zero]
      have : i.1 < k + 1 ↔ i.1 < k := by omega
      simp only [this])
  exact ⟨v, h1, funext fun b => funext fun i => by rw [h2, if_pos i.2]⟩

theorem blk_single (b : Fin D) (i : Fin nS) (x : K) (b' : Fin D) (i' : Fin nS) : blk (singleMat (ix b i) (0 : Fin 1) x) b' i' = if i' = i then (if b' = b then x else 0) else 0 := by
  simp only [blk, toMat_singleMat, ix_inj, and_true]
  by_cases h : i' = i <;> by_cases h' : b' = b <;> simp [h, h']

theorem blk_sum {ι : Type} (s : Finset ι) (f : ι → SmallVec (D * nS) K) (b : Fin D) (i : Fin nS) : blk (∑ a ∈ s, f a) b i = ∑ a ∈ s, blk (f a) b i := by
  simp only [blk, toMat_sum]

omit [CommRing K] in
theorem get_blk (m : Mode) (x : SmallVec (D * nS) K) (b : Fin D) (i : Fin nS) : SmallMat.get m x (b * nS + i) = .ok (blk x b i) := by
  rw [vec_get_lt m x (ix_lt b.2 i.2)]; rfl

theorem add_blk (m : Mode) (v : SmallVec (D * nS) K) (b : Fin D) (i : Fin nS) (x : K) : SmallMat.addTo m (b * nS + i) x v = .ok (v + singleMat (ix b i) 0 x) :=
  addTo_single m v (ix_lt b.2 i.2) x

theorem sub_blk (m : Mode) (v : SmallVec (D * nS) K) (b : Fin D) (i : Fin nS) (x : K) : SmallMat.subFrom m (b * nS + i) x v = .ok (v + singleMat (ix b i) 0 (-x)) :=
  subFrom_single m v (ix_lt b.2 i.2) x

theorem set_blk (m : Mode) (v : SmallVec (D * nS) K) (b : Fin D) (i : Fin nS) (x : K) (h : blk v b i = 0) :
    SmallMat.set m (b * nS + i) x v = .ok (v + singleMat (ix b i) 0 x) := by
  rw [vec_set_lt m v (ix_lt b.2 i.2)]
  have := arrSet_add v (pos (ix b i) (0 : Fin 1)) x
  rw [show v (pos (ix b i) (0 : Fin 1)) = 0 from h, zero_add] at this
  exact congrArg Res.ok this

theorem add_entry (m : Mode) (M : SmallMat (D * nS) (D * nS) K) (b c : Fin D) (i j : Fin nS) (x : K) :
    SmallMat.addAt m (b * nS + i) (c * nS + j) x M = .ok (M + singleMat (ix b i) (ix c j) x) := addAt_single m M (ix_lt b.2 i.2) (ix_lt c.2 j.2) x

theorem sub_entry (m : Mode) (M : SmallMat (D * nS) (D * nS) K) (b c : Fin D) (i j : Fin nS) (x : K) :
    SmallMat.subAt m (b * nS + i) (c * nS + j) x M = .ok (M + singleMat (ix b i) (ix c j) (-x)) := subAt_single m M (ix_lt b.2 i.2) (ix_lt c.2 j.2) x

theorem entry_single (b c : Fin D) (i j : Fin nS) (x : K) (b' c' : Fin D) (i' j' : Fin nS) :
    toMat (singleMat (ix b i) (ix c j) x) (ix b' i') (ix c' j') = if i' = i ∧ j' = j then (if b' = b ∧ c' = c then x else 0) else 0 := by
  simp only [toMat_singleMat, ix_inj]
  by_cases h : i' = i <;> by_cases h' : j' = j <;> by_cases h2 : b' = b <;> by_cases h3 : c' = c <;> simp [h, h', h2, h3]

end Ring

section Field
variable [Field K]

theorem isUnit_iff (B : Fin D → Fin D → Matrix (Fin nS) (Fin nS) K) (A : Matrix (Fin (D * nS)) (Fin (D * nS)) K) (hA : ∀ b i c j, A (ix b i) (ix c j) = B b c i j) :
    IsUnit A ↔ Regular B := by
  constructor
  · intro hu y h
    obtain ⟨x, hx⟩ := blk_surj y
    have hinv' := Matrix.nonsing_inv_mul A ((Matrix.isUnit_iff_isUnit_det _).mp hu)
    have h1 : A * x = 0 := by
      funext k l
      obtain rfl : l = 0 := Subsingleton.elim _ _
      obtain ⟨b, i, rfl⟩ := ix_surj k
      rw [mul_blocks B A hA]
      have : ∀ c, (fun j => x (ix c j) 0) = y c := fun c => funext fun j => hx c j
      simp only [this, h b]
      rfl
    have h2 : x = 0 := by
      have := congrArg (fun X => A⁻¹ * X) h1
      simpa only [← Matrix.mul_assoc, hinv', Matrix.one_mul, Matrix.mul_zero] using this
    funext b i
    rw [← hx, h2]; rfl
  · intro h
    rw [← Matrix.mulVec_injective_iff_isUnit]
    intro x y hxy
    have hw : A.mulVec (x - y) = 0 := by rw [Matrix.mulVec_sub]; exact sub_eq_zero.mpr hxy
    have h1 := h (fun c j => (x - y) (ix c j)) (fun b => by
      funext i
      have h2 := mul_blocks B A hA (Matrix.of fun k (_ : Fin 1) => (x - y) k) b i
      have h3 : (A * Matrix.of fun k (_ : Fin 1) => (x - y) k) (ix b i) 0 = A.mulVec (x - y) (ix b i) := rfl
      rw [h3, hw] at h2
      exact h2.symm)
    refine sub_eq_zero.mp (funext fun k => ?_)
    obtain ⟨b, i, rfl⟩ := ix_surj k
    exact congrFun (congrFun h1 b) i

theorem solve_spec (B : Fin D → Fin D → Matrix (Fin nS) (Fin nS) K) (gesv : Gesv (D * nS) 1 K) (hg : GesvSpec gesv) (A : SmallMat (D * nS) (D * nS) K)
    (hA : ∀ b i c j, toMat A (ix b i) (ix c j) = B b c i j) (v : SmallVec (D * nS) K) :
    (Regular B → ∃ x, solve gesv v A = .ok x ∧ ∀ b, ∑ c, B b c *ᵥ blk x c = blk v b) ∧ (¬ Regular B → solve gesv v A = .throw .lapack) := by
  rw [← isUnit_iff B (toMat A) hA]
  constructor
  · intro hu
    obtain ⟨LU, X, x, h2, h3, h4⟩ := hg.regular A v (toMat A) (toMat v) (represents_iff.mpr rfl) (represents_iff.mpr rfl) hu
    rw [represents_iff] at h3
    subst h3
    refine ⟨X, ?_, fun b => ?_⟩
    · unfold solve solve_in_place
      rw [h2]; rfl
    · funext i
      have := mul_blocks B (toMat A) hA (toMat X) b i
      rw [h4] at this
      exact this.symm
  · intro hu
    have h2 := hg.singular A v (toMat A) (represents_iff.mpr rfl) hu
    unfold solve solve_in_place
    rw [h2]; rfl

end Field

end HyperHDG.Blocks

import Verif.Model.LocalSolver
import Verif.Proofs.DenseLA
import Mathlib.Algebra.BigOperators.Pi

/-!
# Loops that add contributions to a matrix or an array
-/

namespace HyperHDG

variable {K α : Type} {r c n k : Nat}

theorem forUp_add {V : Type} [AddCommMonoid V] (n : Nat) (f : Nat → V → Res V) (g : Fin n → V)
    (h : ∀ (i : Fin n) s, f i s = .ok (s + g i)) (s : V) : forUp n f s = .ok (s + ∑ i, g i) := by
  induction n generalizing s with
  | zero => simp
  | succ n ih =>
    rw [forUp_succ, ih (fun i => g i.castSucc) (fun i s => h i.castSucc s), Res.ok_bind]
    have := h (Fin.last n)
    simp only [Fin.val_last] at this
    rw [this, Fin.sum_univ_castSucc, add_assoc]

theorem forFin_add {V : Type} [AddCommMonoid V] (n : Nat) (f : Fin n → V → Res V) (g : Fin n → V)
    (h : ∀ (i : Fin n) s, f i s = .ok (s + g i)) (s : V) : forFin n f s = .ok (s + ∑ i, g i) := by
  induction n generalizing s with
  | zero => simp [forFin]
  | succ n ih =>
    show (forFin n _ s >>= f (Fin.last n)) = _
    rw [ih (fun i => f i.castSucc) (fun i => g i.castSucc) (fun i s => h i.castSucc s), Res.ok_bind, h, Fin.sum_univ_castSucc, add_assoc]

theorem arrSet_add [AddCommMonoid K] (a : Fin n → K) (i : Fin n) (v : K) : arrSet a i (a i + v) = a + Pi.single i v := by
  funext j
  by_cases h : j = i
  · subst h; simp [arrSet]
  · simp [arrSet, h]

theorem arrGet_lt (a : Fin n → α) {i : Nat} (h : i < n) : arrGet a i = .ok (a ⟨i, h⟩) := by simp [arrGet, h]
theorem arrPut_lt (a : Fin n → α) {i : Nat} (h : i < n) (x : α) : arrPut a i x = .ok (arrSet a ⟨i, h⟩ x) := by simp [arrPut, h]

theorem arrGet2_lt (a : Fin n → Fin k → α) {i j : Nat} (h : i < n) (h' : j < k) : arrGet2 a i j = .ok (a ⟨i, h⟩ ⟨j, h'⟩) := by
  simp [arrGet2, arrGet_lt _ h, arrGet_lt _ h']

theorem arrPut2_lt (a : Fin n → Fin k → α) {i j : Nat} (h : i < n) (h' : j < k) (x : α) :
    arrPut2 a i j x = .ok (arrSet a ⟨i, h⟩ (arrSet (a ⟨i, h⟩) ⟨j, h'⟩ x)) := by
  simp [arrPut2, arrGet_lt _ h, arrPut_lt _ h, arrPut_lt _ h']

/-- The array with a single entry different from zero. -/
def single2 [Zero K] (i : Fin n) (j : Fin k) (v : K) : Fin n → Fin k → K := fun a b => if a = i ∧ b = j then v else 0

theorem arrSet2_add [AddCommMonoid K] (a : Fin n → Fin k → K) (i : Fin n) (j : Fin k) (v : K) :
    arrSet a i (arrSet (a i) j (a i j + v)) = a + single2 i j v := by
  funext x y
  by_cases h : x = i
  · subst h
    by_cases h' : y = j
    · subst h'; simp [arrSet, single2]
    · simp [arrSet, single2, h']
  · simp [arrSet, single2, h]

theorem arrAdd2_lt [AddCommMonoid K] (a : Fin n → Fin k → K) {i j : Nat} (h : i < n) (h' : j < k) (v : K) :
    arrAdd2 i j v a = .ok (a + single2 ⟨i, h⟩ ⟨j, h'⟩ v) := by
  unfold arrAdd2
  rw [arrGet2_lt a h h', Res.ok_bind, arrPut2_lt a h h', arrSet2_add]

theorem arrSub2_lt [AddCommGroup K] (a : Fin n → Fin k → K) {i j : Nat} (h : i < n) (h' : j < k) (v : K) :
    arrSub2 i j v a = .ok (a + single2 ⟨i, h⟩ ⟨j, h'⟩ (-v)) := by
  unfold arrSub2
  rw [arrGet2_lt a h h', Res.ok_bind, arrPut2_lt a h h', sub_eq_add_neg, arrSet2_add]

/-- The matrix with a single entry different from zero. -/
def singleMat [Zero K] (i : Fin r) (j : Fin c) (v : K) : SmallMat r c K := Pi.single (pos i j) v

theorem toMat_singleMat [Zero K] (i : Fin r) (j : Fin c) (v : K) (a : Fin r) (b : Fin c) :
    toMat (singleMat i j v) a b = if a = i ∧ b = j then v else 0 := by
  simp only [toMat, singleMat, Matrix.of_apply, Pi.single_apply, pos_inj]

theorem toMat_add [Add K] (M N : SmallMat r c K) : toMat (M + N) = toMat M + toMat N := rfl

theorem toMat_sum [AddCommMonoid K] {ι : Type} (s : Finset ι) (M : ι → SmallMat r c K) (i : Fin r) (j : Fin c) :
    toMat (∑ a ∈ s, M a) i j = ∑ a ∈ s, toMat (M a) i j := by
  simp only [toMat, Matrix.of_apply, Finset.sum_apply]

theorem addAt_single [AddCommMonoid K] (m : Mode) (M : SmallMat r c K) {i j : Nat} (hi : i < r) (hj : j < c) (v : K) :
    M.addAt m i j v = .ok (M + singleMat ⟨i, hi⟩ ⟨j, hj⟩ v) := by
  rw [addAt_lt m M hi hj]
  exact congrArg _ (arrSet_add M _ v)

theorem subAt_single [AddCommGroup K] (m : Mode) (M : SmallMat r c K) {i j : Nat} (hi : i < r) (hj : j < c) (v : K) :
    M.subAt m i j v = .ok (M + singleMat ⟨i, hi⟩ ⟨j, hj⟩ (-v)) := by
  unfold SmallMat.subAt
  rw [at_lt m M hi hj, Res.ok_bind, setAt_lt m M hi hj, sub_eq_add_neg]
  exact congrArg _ (arrSet_add M _ (-v))

theorem addTo_single [AddCommMonoid K] (m : Mode) (v : SmallVec r K) {i : Nat} (hi : i < r) (x : K) :
    v.addTo m i x = .ok (v + singleMat ⟨i, hi⟩ 0 x) := by
  unfold SmallMat.addTo
  rw [vec_get_lt m v hi, Res.ok_bind, vec_set_lt m v hi]
  exact congrArg _ (arrSet_add v _ x)

theorem subFrom_single [AddCommGroup K] (m : Mode) (v : SmallVec r K) {i : Nat} (hi : i < r) (x : K) :
    v.subFrom m i x = .ok (v + singleMat ⟨i, hi⟩ 0 (-x)) := by
  unfold SmallMat.subFrom
  rw [vec_get_lt m v hi, Res.ok_bind, vec_set_lt m v hi, sub_eq_add_neg]
  exact congrArg _ (arrSet_add v _ (-x))

/-! ## Blocks and faces -/

theorem ix_lt {D nS b i : Nat} (hb : b < D) (hi : i < nS) : b * nS + i < D * nS := by
  have h := Nat.mul_le_mul_right nS (show b + 1 ≤ D from hb)
  rw [Nat.add_mul] at h; omega

/-- Row or column `i` of block `b`. -/
def ix {D nS : Nat} (b : Fin D) (i : Fin nS) : Fin (D * nS) := ⟨b * nS + i, ix_lt b.2 i.2⟩

theorem ix_inj {D nS : Nat} {b b' : Fin D} {i i' : Fin nS} : ix b i = ix b' i' ↔ b = b' ∧ i = i' := by
  constructor
  · intro h
    have h : b.1 * nS + i.1 = b'.1 * nS + i'.1 := congrArg Fin.val h
    have hn : 0 < nS := Nat.lt_of_le_of_lt (Nat.zero_le _) i.2
    have h1 : (b.1 * nS + i.1) / nS = b.1 := by
      rw [Nat.mul_comm, Nat.mul_add_div hn, Nat.div_eq_of_lt i.2, Nat.add_zero]
    have h2 : (b'.1 * nS + i'.1) / nS = b'.1 := by
      rw [Nat.mul_comm, Nat.mul_add_div hn, Nat.div_eq_of_lt i'.2, Nat.add_zero]
    have hb : b.1 = b'.1 := by rw [← h1, ← h2, h]
    exact ⟨Fin.ext hb, Fin.ext (by rw [hb] at h; omega)⟩
  · rintro ⟨rfl, rfl⟩; rfl

theorem ix_surj {D nS : Nat} (k : Fin (D * nS)) : ∃ (b : Fin D) (i : Fin nS), ix b i = k := by
  have hn : 0 < nS := Nat.pos_of_ne_zero (by rintro rfl; simpa using k.2)
  refine ⟨⟨k / nS, Nat.div_lt_of_lt_mul (lt_of_lt_of_eq k.2 (Nat.mul_comm _ _))⟩, ⟨k % nS, Nat.mod_lt _ hn⟩, Fin.ext ?_⟩
  simp only [ix]
  rw [Nat.mul_comm]; exact Nat.div_add_mod _ _

theorem sum_ix [AddCommMonoid K] {D nS : Nat} (g : Fin (D * nS) → K) : ∑ k, g k = ∑ b : Fin D, ∑ i : Fin nS, g (ix b i) := by
  have hb : Function.Bijective (fun p : Fin D × Fin nS => ix p.1 p.2) :=
    ⟨fun p q h => Prod.ext (ix_inj.mp h).1 (ix_inj.mp h).2, fun k => by
      obtain ⟨i, j, h⟩ := ix_surj k
      exact ⟨(i, j), h⟩⟩
  rw [← Function.Bijective.sum_comp hb, ← Finset.univ_product_univ, Finset.sum_product]

/-- The faces orthogonal to axis `d`. -/
def lowFace {dim : Nat} (d : Fin dim) : Fin (2 * dim) := ⟨2 * d + 0, by omega⟩
def highFace {dim : Nat} (d : Fin dim) : Fin (2 * dim) := ⟨2 * d + 1, by omega⟩

theorem low_lt {dim : Nat} (d : Fin dim) : 2 * d.1 + 0 < 2 * dim := by omega
theorem high_lt {dim : Nat} (d : Fin dim) : 2 * d.1 + 1 < 2 * dim := by omega

theorem face_cases {dim : Nat} (f : Fin (2 * dim)) : ∃ d : Fin dim, f = lowFace d ∨ f = highFace d := by
  refine ⟨⟨f / 2, by omega⟩, ?_⟩
  rcases Nat.mod_two_eq_zero_or_one f with h | h
  · left; apply Fin.ext; simp only [lowFace]; omega
  · right; apply Fin.ext; simp only [highFace]; omega

@[simp] theorem lowFace_inj {dim : Nat} {d e : Fin dim} : lowFace d = lowFace e ↔ d = e := by
  simp only [lowFace, Fin.ext_iff]; omega
@[simp] theorem highFace_inj {dim : Nat} {d e : Fin dim} : highFace d = highFace e ↔ d = e := by
  simp only [highFace, Fin.ext_iff]; omega
@[simp] theorem low_ne_high {dim : Nat} {d e : Fin dim} : lowFace d ≠ highFace e := by
  simp only [lowFace, highFace, ne_eq, Fin.ext_iff]; omega
@[simp] theorem high_ne_low {dim : Nat} {d e : Fin dim} : highFace d ≠ lowFace e := by
  simp only [lowFace, highFace, ne_eq, Fin.ext_iff]; omega

theorem sum_faces [AddCommMonoid K] {dim : Nat} (g : Fin (2 * dim) → K) : ∑ f, g f = ∑ d : Fin dim, (g (lowFace d) + g (highFace d)) := by
  have hb : Function.Bijective (fun p : Fin dim × Fin 2 => if p.2 = 0 then lowFace p.1 else highFace p.1) := by
    constructor
    · rintro ⟨d, a⟩ ⟨e, b⟩ h
      fin_cases a <;> fin_cases b <;> simp_all
    · intro f
      obtain ⟨d, h | h⟩ := face_cases f
      · exact ⟨(d, 0), by simp [h]⟩
      · exact ⟨(d, 1), by simp [h]⟩
  rw [← Function.Bijective.sum_comp hb, ← Finset.univ_product_univ, Finset.sum_product]
  refine Finset.sum_congr rfl fun d _ => ?_
  rw [Fin.sum_univ_two]; simp

end HyperHDG

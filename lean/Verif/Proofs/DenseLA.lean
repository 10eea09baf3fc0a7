import Verif.Spec.Dense
import Verif.Proofs.GlobalLoop
import Mathlib.Data.Matrix.Mul
import Mathlib.Data.Matrix.Basis
import Mathlib.Algebra.BigOperators.Fin
import Mathlib.Tactic.Ring
import Mathlib.Tactic.Linarith

/-! Helper lemmas for the dense linear algebra. -/

set_option linter.unusedSectionVars false

namespace HyperHDG

variable {K : Type} {r c : Nat}

theorem pos_lt (i : Fin r) (j : Fin c) : j.1 * r + i.1 < r * c := by
  have h := Nat.mul_le_mul_right r (show j.1 + 1 ≤ c from j.2)
  have := i.2
  rw [Nat.add_mul] at h
  rw [Nat.mul_comm r c]; omega

/-- Position of entry `(i, j)` in the storage. -/
def pos (i : Fin r) (j : Fin c) : Fin (r * c) := ⟨j.1 * r + i.1, pos_lt i j⟩

theorem pos_inj {i i' : Fin r} {j j' : Fin c} : pos i j = pos i' j' ↔ i = i' ∧ j = j' := by
  constructor
  · intro h
    have h : j.1 * r + i.1 = j'.1 * r + i'.1 := congrArg Fin.val h
    have hr : 0 < r := Nat.lt_of_le_of_lt (Nat.zero_le _) i.2
    have h1 : (j.1 * r + i.1) % r = i.1 := by
      rw [Nat.mul_comm, Nat.mul_add_mod]; exact Nat.mod_eq_of_lt i.2
    have h2 : (j'.1 * r + i'.1) % r = i'.1 := by
      rw [Nat.mul_comm, Nat.mul_add_mod]; exact Nat.mod_eq_of_lt i'.2
    have hi : i.1 = i'.1 := by rw [← h1, ← h2, h]
    have hj : j.1 * r = j'.1 * r := by omega
    exact ⟨Fin.ext hi, Fin.ext (Nat.eq_of_mul_eq_mul_right hr hj)⟩
  · rintro ⟨rfl, rfl⟩; rfl

theorem pos_surj (k : Fin (r * c)) : ∃ (i : Fin r) (j : Fin c), pos i j = k := by
  have hr : 0 < r := by
    rcases Nat.eq_zero_or_pos r with h | h
    · have := k.2; subst h; simp at this
    · exact h
  refine ⟨⟨k.1 % r, Nat.mod_lt _ hr⟩, ⟨k.1 / r, ?_⟩, Fin.ext ?_⟩
  · apply Nat.div_lt_of_lt_mul; exact k.2
  · simp only [pos]; rw [Nat.mul_comm]; exact Nat.div_add_mod _ _

def toMat (M : SmallMat r c K) : Matrix (Fin r) (Fin c) K := Matrix.of fun i j => M (pos i j)

theorem toMat_inj {M N : SmallMat r c K} (h : toMat M = toMat N) : M = N := by
  funext k
  obtain ⟨i, j, rfl⟩ := pos_surj k
  exact congrFun (congrFun h i) j

def ofMat (A : Matrix (Fin r) (Fin c) K) : SmallMat r c K := fun k =>
  A ⟨k.1 % r, Nat.mod_lt _ (Nat.pos_of_ne_zero (by rintro rfl; simpa using k.2))⟩
    ⟨k.1 / r, Nat.div_lt_of_lt_mul k.2⟩

@[simp] theorem toMat_ofMat (A : Matrix (Fin r) (Fin c) K) : toMat (ofMat A) = A := by
  funext i j
  have hr : 0 < r := Nat.lt_of_le_of_lt (Nat.zero_le _) i.2
  simp only [toMat, ofMat, pos, Matrix.of_apply]
  congr
  · rw [Nat.mul_comm, Nat.mul_add_mod]; exact Nat.mod_eq_of_lt i.2
  · rw [Nat.mul_comm, Nat.mul_add_div hr, Nat.div_eq_of_lt i.2]; rfl

theorem get_fin (m : Mode) (M : SmallMat r c K) (k : Fin (r * c)) : M.get m k = .ok (M k) := by
  simp [SmallMat.get]

theorem set_fin (m : Mode) (M : SmallMat r c K) (k : Fin (r * c)) (v : K) :
    M.set m k v = .ok (arrSet M k v) := by
  simp [SmallMat.set]

theorem loc_fin (m : Mode) (i : Fin r) (j : Fin c) :
    SmallMat.loc_matrix_index m r c i j = .ok (pos i j).1 := by
  simp [SmallMat.loc_matrix_index, pos]

theorem at_fin (m : Mode) (M : SmallMat r c K) (i : Fin r) (j : Fin c) : M.at' m i j = .ok (toMat M i j) := by
  unfold SmallMat.at'
  rw [loc_fin, Res.ok_bind, get_fin]; rfl

theorem at_lt (m : Mode) (M : SmallMat r c K) {i j : Nat} (hi : i < r) (hj : j < c) :
    M.at' m i j = .ok (toMat M ⟨i, hi⟩ ⟨j, hj⟩) := at_fin m M ⟨i, hi⟩ ⟨j, hj⟩

theorem setAt_fin (m : Mode) (M : SmallMat r c K) (i : Fin r) (j : Fin c) (v : K) :
    M.setAt m i j v = .ok (arrSet M (pos i j) v) := by
  unfold SmallMat.setAt
  rw [loc_fin, Res.ok_bind, set_fin]

theorem setAt_lt (m : Mode) (M : SmallMat r c K) {i j : Nat} (hi : i < r) (hj : j < c) (v : K) :
    M.setAt m i j v = .ok (arrSet M (pos ⟨i, hi⟩ ⟨j, hj⟩) v) := setAt_fin m M ⟨i, hi⟩ ⟨j, hj⟩ v

theorem addAt_lt [Add K] (m : Mode) (M : SmallMat r c K) {i j : Nat} (hi : i < r) (hj : j < c) (v : K) :
    M.addAt m i j v = .ok (arrSet M (pos ⟨i, hi⟩ ⟨j, hj⟩) (toMat M ⟨i, hi⟩ ⟨j, hj⟩ + v)) := by
  unfold SmallMat.addAt
  rw [at_lt m M hi hj, Res.ok_bind, setAt_lt m M hi hj]

theorem vec_get_lt (m : Mode) (v : SmallVec r K) {i : Nat} (hi : i < r) :
    v.get m i = .ok (toMat v ⟨i, hi⟩ 0) := by
  have h := get_fin m v (pos ⟨i, hi⟩ (0 : Fin 1))
  simpa [pos, toMat] using h

theorem vec_set_lt (m : Mode) (v : SmallVec r K) {i : Nat} (hi : i < r) (x : K) :
    v.set m i x = .ok (arrSet v (pos ⟨i, hi⟩ 0) x) := by
  have h := set_fin m v (pos ⟨i, hi⟩ (0 : Fin 1)) x
  simpa [pos] using h

theorem represents_iff {M : SmallMat r c K} {A : Matrix (Fin r) (Fin c) K} : Represents M A ↔ toMat M = A := by
  constructor
  · intro h
    funext i j
    have := h .debug i j
    rw [at_fin] at this
    exact Res.ok.inj this
  · rintro rfl m i j
    exact at_fin m M i j

theorem toMat_arrSet (M : SmallMat r c K) (i : Fin r) (j : Fin c) (v : K) (k : Fin r) (l : Fin c) :
    toMat (arrSet M (pos i j) v) k l = if k = i ∧ l = j then v else toMat M k l := by
  simp only [toMat, arrSet, pos_inj, Matrix.of_apply]

/-! ## Loops that visit each position at most once -/

/-- A single loop writing `pos k ↦ v k (old value)`. -/
theorem setLoop1 {S n : Nat} (f : Nat → (Fin S → K) → Res (Fin S → K)) (p : Fin n → Fin S)
    (hp : Function.Injective p) (v : Fin n → K → K)
    (hf : ∀ (k : Fin n) (M : Fin S → K), f k M = .ok (arrSet M (p k) (v k (M (p k))))) (M : Fin S → K) :
    ∃ N, forUp n f M = .ok N ∧ (∀ k, N (p k) = v k (M (p k))) ∧ ∀ q, (∀ k, p k ≠ q) → N q = M q := by
  obtain ⟨N, h1, h2, h3⟩ := forUp_inv n f M
    (fun i N => (∀ k : Fin n, k.1 < i → N (p k) = v k (M (p k))) ∧ ∀ q, (∀ k : Fin n, k.1 < i → p k ≠ q) → N q = M q)
    ⟨fun k hk => absurd hk (Nat.not_lt_zero _), fun q _ => rfl⟩
    (fun i hi t ⟨ha, hb⟩ => by
      refine ⟨_, hf ⟨i, hi⟩ t, ?_, ?_⟩
      · intro k hk
        by_cases h : k = ⟨i, hi⟩
        · subst h
          rw [arrSet, if_pos rfl, hb (p ⟨i, hi⟩)]
          intro k hk h
          have : k.1 = i := congrArg Fin.val (hp h)
          omega
        · have hne : p k ≠ p ⟨i, hi⟩ := fun h' => h (hp h')
          rw [arrSet, if_neg hne, ha k]
          have : k.1 ≠ i := fun h' => h (Fin.ext h')
          omega
      · intro q hq
        have hne : q ≠ p ⟨i, hi⟩ := fun h => hq ⟨i, hi⟩ (Nat.lt_succ_self i) h.symm
        rw [arrSet, if_neg hne]
        exact hb q (fun k hk => hq k (by omega)))
  exact ⟨N, h1, fun k => h2 k k.2, fun q hq => h3 q (fun k _ => hq k)⟩

/-- Two nested loops. -/
theorem setLoop2 {S n n' : Nat} (f : Nat → Nat → (Fin S → K) → Res (Fin S → K)) (p : Fin n → Fin n' → Fin S)
    (hp : ∀ i j i' j', p i j = p i' j' → i = i' ∧ j = j') (v : Fin n → Fin n' → K → K)
    (hf : ∀ (i : Fin n) (j : Fin n') (M : Fin S → K), f i j M = .ok (arrSet M (p i j) (v i j (M (p i j)))))
    (M : Fin S → K) :
    ∃ N, forUp n (fun i M => forUp n' (fun j M => f i j M) M) M = .ok N ∧ (∀ i j, N (p i j) = v i j (M (p i j))) ∧
      ∀ q, (∀ i j, p i j ≠ q) → N q = M q := by
  obtain ⟨N, h1, h2, h3⟩ := forUp_inv n (fun i M => forUp n' (fun j M => f i j M) M) M
    (fun i N => (∀ k : Fin n, k.1 < i → ∀ j, N (p k j) = v k j (M (p k j))) ∧
      ∀ q, (∀ k : Fin n, k.1 < i → ∀ j, p k j ≠ q) → N q = M q)
    ⟨fun k hk => absurd hk (Nat.not_lt_zero _), fun q _ => rfl⟩
    (fun i hi t ⟨ha, hb⟩ => by
      obtain ⟨N, g1, g2, g3⟩ := setLoop1 (f i) (p ⟨i, hi⟩) (fun j j' h => (hp _ _ _ _ h).2) (v ⟨i, hi⟩)
        (fun j M => hf ⟨i, hi⟩ j M) t
      refine ⟨N, g1, ?_, ?_⟩
      · intro k hk j
        by_cases h : k = ⟨i, hi⟩
        · subst h
          rw [g2, hb]
          intro k hk j' h
          have : k.1 = i := congrArg Fin.val (hp _ _ _ _ h).1
          omega
        · rw [g3, ha k]
          · have : k.1 ≠ i := fun h' => h (Fin.ext h')
            omega
          · intro j' h'
            exact h (hp _ _ _ _ h').1.symm
      · intro q hq
        rw [g3 q (fun j => hq ⟨i, hi⟩ (Nat.lt_succ_self i) j)]
        exact hb q (fun k hk => hq k (by omega)))
  exact ⟨N, h1, fun k j => h2 k k.2 j, fun q hq => h3 q (fun k _ => hq k)⟩

/-- Column loop outside, row loop inside, each entry written once. -/
theorem matLoop (f : Nat → Nat → SmallMat r c K → Res (SmallMat r c K)) (v : Fin r → Fin c → K → K)
    (hf : ∀ (i : Fin r) (j : Fin c) (M : SmallMat r c K), f j i M = .ok (arrSet M (pos i j) (v i j (toMat M i j))))
    (M : SmallMat r c K) :
    ∃ N, forUp c (fun j M => forUp r (fun i M => f j i M) M) M = .ok N ∧ toMat N = Matrix.of fun i j => v i j (toMat M i j) := by
  obtain ⟨N, h1, h2, -⟩ := setLoop2 f (fun j i => pos i j)
    (fun i j i' j' h => (pos_inj.mp h).symm) (fun j i => v i j) (fun j i M => hf i j M) M
  exact ⟨N, h1, by funext i j; exact h2 j i⟩

/-- Loop over all entries. -/
theorem arrLoop {S : Nat} (v : Fin S → K → K) (M : Fin S → K) :
    forFin S (fun i M => .ok (arrSet M i (v i (M i)))) M = .ok (fun i => v i (M i)) := by
  obtain ⟨N, h1, h2, -⟩ := forFin_inv S (fun i M => .ok (arrSet M i (v i (M i)))) M
    (fun i N => (∀ k : Fin S, k.1 < i → N k = v k (M k)) ∧ ∀ k : Fin S, i ≤ k.1 → N k = M k)
    ⟨fun k hk => absurd hk (Nat.not_lt_zero _), fun q _ => rfl⟩
    (fun i t ⟨ha, hb⟩ => by
      refine ⟨_, rfl, ?_, ?_⟩
      · intro k hk
        by_cases h : k = i
        · subst h; simp only [arrSet, if_pos, hb k (Nat.le_refl _)]
        · rw [arrSet, if_neg h, ha k]
          have : k.1 ≠ i.1 := fun h' => h (Fin.ext h')
          omega
      · intro k hk
        have : k ≠ i := by rintro rfl; omega
        rw [arrSet, if_neg this, hb k (by omega)])
  rw [h1]
  exact congrArg _ (funext fun k => h2 k k.2)

/-- Loop over all entries of which some throw. -/
theorem arrLoop_throw {S : Nat} (bad : Fin S → Prop) [DecidablePred bad] (e : Exc) (v : Fin S → (Fin S → K) → K) :
    ∀ (n : Nat) (g : Fin n → Fin S) (M : Fin S → K), (∃ i, bad (g i)) →
      forFin n (fun i M => if bad (g i) then .throw e else .ok (arrSet M (g i) (v (g i) M))) M = .throw e
  | 0, _, _, ⟨i, _⟩ => i.elim0
  | n + 1, g, M, h => by
    simp only [forFin]
    by_cases h' : ∃ i : Fin n, bad (g i.castSucc)
    · rw [arrLoop_throw bad e v n (fun i => g i.castSucc) M h']; rfl
    · obtain ⟨t, ht, -⟩ := forFin_inv n
        (fun i M => if bad (g i.castSucc) then (.throw e : Res (Fin S → K)) else .ok (arrSet M (g i.castSucc) (v (g i.castSucc) M))) M
        (fun _ _ => True) trivial
        (fun i t _ => ⟨_, by rw [if_neg (fun hb => h' ⟨i, hb⟩)], trivial⟩)
      rw [ht, Res.ok_bind, if_pos]
      obtain ⟨i, hi⟩ := h
      rcases Fin.eq_castSucc_or_eq_last i with ⟨j, rfl⟩ | rfl
      · exact absurd ⟨j, hi⟩ h'
      · exact hi

/-! ## Accumulating loops -/

variable [CommRing K]

/-- `f` adds the matrix `D` to its argument. -/
def Adds (f : SmallMat r c K → Res (SmallMat r c K)) (D : Matrix (Fin r) (Fin c) K) : Prop :=
  ∀ M, ∃ N, f M = .ok N ∧ toMat N = toMat M + D

theorem adds_forUp (n : Nat) (f : Nat → SmallMat r c K → Res (SmallMat r c K)) (D : Fin n → Matrix (Fin r) (Fin c) K)
    (h : ∀ k : Fin n, Adds (f k) (D k)) : Adds (fun M => forUp n (fun k M => f k M) M) (∑ k, D k) := by
  intro M
  induction n with
  | zero => exact ⟨M, rfl, by simp⟩
  | succ n ih =>
    obtain ⟨N, h1, h2⟩ := ih (fun k => D k.castSucc) (fun k => h k.castSucc)
    obtain ⟨N', h3, h4⟩ := h (Fin.last n) N
    refine ⟨N', ?_, ?_⟩
    · show (forUp n (fun k M => f k M) M >>= f n) = _
      rw [show forUp n (fun k M => f k M) M = .ok N from h1]; exact h3
    · rw [h4, h2, Fin.sum_univ_castSucc, add_assoc]

theorem adds_addAt (m : Mode) (i : Fin r) (j : Fin c) (v : K) :
    Adds (fun M => M.addAt m i j v) (Matrix.single i j v) := by
  intro M
  refine ⟨_, addAt_lt m M i.2 j.2 v, ?_⟩
  funext k l
  rw [toMat_arrSet]
  simp only [Matrix.add_apply, Matrix.single_apply]
  by_cases h : k = i ∧ l = j
  · obtain ⟨rfl, rfl⟩ := h; simp
  · rw [if_neg h, if_neg (fun h' => h ⟨h'.1.symm, h'.2.symm⟩), add_zero]

/-- Three nested loops adding `w a b d` to the entry `(row, col)`. -/
theorem adds_loop3 (n1 n2 n3 : Nat) (f : Nat → Nat → Nat → SmallMat r c K → Res (SmallMat r c K))
    (row : Fin n1 → Fin n2 → Fin n3 → Fin r) (col : Fin n1 → Fin n2 → Fin n3 → Fin c)
    (w : Fin n1 → Fin n2 → Fin n3 → K) (m : Mode)
    (hf : ∀ (a : Fin n1) (b : Fin n2) (d : Fin n3) (M : SmallMat r c K),
      f a b d M = M.addAt m (row a b d) (col a b d) (w a b d)) :
    ∃ N, forUp n1 (fun a M => forUp n2 (fun b M => forUp n3 (fun d M => f a b d M) M) M) (SmallMat.fill r c 0) = .ok N ∧
      toMat N = ∑ a, ∑ b, ∑ d, Matrix.single (row a b d) (col a b d) (w a b d) := by
  obtain ⟨N, h1, h2⟩ := adds_forUp n1 (fun a M => forUp n2 (fun b M => forUp n3 (fun d M => f a b d M) M) M)
    (fun a => ∑ b, ∑ d, Matrix.single (row a b d) (col a b d) (w a b d))
    (fun a => adds_forUp n2 (fun b M => forUp n3 (fun d M => f a b d M) M) _
      (fun b => adds_forUp n3 (fun d M => f a b d M) _ (fun d => by
        intro M
        dsimp only
        rw [hf]; exact adds_addAt m _ _ _ M))) (SmallMat.fill r c 0)
  refine ⟨N, h1, h2.trans ?_⟩
  rw [show toMat (SmallMat.fill r c (0 : K)) = 0 from rfl, zero_add]

theorem sum_entries (g : Fin (r * c) → K) : ∑ k, g k = ∑ i : Fin r, ∑ j : Fin c, g (pos i j) := by
  have hb : Function.Bijective (fun p : Fin r × Fin c => pos p.1 p.2) :=
    ⟨fun p q h => Prod.ext (pos_inj.mp h).1 (pos_inj.mp h).2, fun k => by
      obtain ⟨i, j, h⟩ := pos_surj k
      exact ⟨(i, j), h⟩⟩
  rw [← Fintype.sum_prod_type', ← (Equiv.ofBijective _ hb).sum_comp]
  rfl

theorem prod_entries (g : Fin (r * c) → K) : ∏ k, g k = ∏ i : Fin r, ∏ j : Fin c, g (pos i j) := by
  have hb : Function.Bijective (fun p : Fin r × Fin c => pos p.1 p.2) :=
    ⟨fun p q h => Prod.ext (pos_inj.mp h).1 (pos_inj.mp h).2, fun k => by
      obtain ⟨i, j, h⟩ := pos_surj k
      exact ⟨(i, j), h⟩⟩
  rw [← Fintype.prod_prod_type', ← (Equiv.ofBijective _ hb).prod_comp]
  rfl

theorem sumLoop (n : Nat) (f : Nat → K → Res K) (w : Fin n → K) (hf : ∀ (i : Fin n) s, f i s = .ok (s + w i)) (s0 : K) :
    forUp n (fun i s => f i s) s0 = .ok (s0 + ∑ i, w i) := by
  induction n with
  | zero => simp
  | succ n ih =>
    rw [forUp_succ, ih (fun i => w i.castSucc) (fun i s => hf i.castSucc s), Res.ok_bind, Fin.sum_univ_castSucc, ← add_assoc]
    exact hf (Fin.last n) _

theorem prodLoop (n : Nat) (f : Nat → K → Res K) (w : Fin n → K) (hf : ∀ (i : Fin n) s, f i s = .ok (s * w i)) (s0 : K) :
    forUp n (fun i s => f i s) s0 = .ok (s0 * ∏ i, w i) := by
  induction n with
  | zero => simp
  | succ n ih =>
    rw [forUp_succ, ih (fun i => w i.castSucc) (fun i s => hf i.castSucc s), Res.ok_bind, Fin.prod_univ_castSucc, ← mul_assoc]
    exact hf (Fin.last n) _

end HyperHDG

import Verif.Proofs.Lapack
import Mathlib.LinearAlgebra.Matrix.Block
import Mathlib.Algebra.Order.Ring.Abs

/-!
# Properties of the functions which use LAPACK (C13, C14, C44)

The hypotheses about LAPACK are those of `Verif/Spec/Lapack.lean`.
-/

set_option linter.unusedSectionVars false

namespace HyperHDG

variable {r c n k : Nat} {K : Type}

section QR

variable [Field K] [LinearOrder K] [IsStrictOrderedRing K]

/-- The reduced `R` filled up with zero rows. -/
def padRows (R : Matrix (Fin c) (Fin c) K) : Matrix (Fin r) (Fin c) K :=
  Matrix.of fun i j => if h : i.1 < c then R ⟨i.1, h⟩ j else 0

/-- After `qr_decomp(A, Q, R)`: `Q` is orthogonal, `Q` times `R` (filled up with zero rows) is `A`, `R` is upper triangular and all diagonal entries but the
first are non-negative.  Missing for the full property: `det(Q) = 1` (wrong, see `C13_det_q` and `C13_det_witness`), the third argument `mat`
(wrong, see `C13_full_r_witness`), and shapes for which the code writes outside of `mat_r` (`C13_out_of_bounds`), excluded by `hb`, or
leaves entries of `mat_r` as they were (`C13_stale_entry`), excluded by `h0`. -/
theorem C13_qr_decomp_partial (m : Mode) (geqr2 : Geqr2 r c K) (A : SmallMat r c K) (R0 : SmallMat c c K) (F : SmallMat r c K)
    (tau : Fin (min r c) → K) (a f : Matrix (Fin r) (Fin c) K) (_hA : Represents A a) (hF : Represents F f)
    (hg : geqr2 A = .ok (F, tau)) (hqr : IsHouseholderQR a f tau) (hc : 0 < c) (hrc : c ≤ r)
    (hb : ∀ i j, i < j → j < c → i * r + j < c * c) (h0 : R0 = SmallMat.fill c c 0 ∨ r = c ∨ c ≤ 2) :
    ∃ res q R, qr_decomp m geqr2 A R0 = .ok res ∧ Represents res.mat_q q ∧ Represents res.mat_r R ∧
      q * q.transpose = 1 ∧ q.transpose * q = 1 ∧ q * padRows R = a ∧ (∀ i j, j < i → R i j = 0) ∧ (∀ i : Fin c, 0 < i.1 → 0 ≤ R i i) := by
  rw [represents_iff] at hF; subst hF
  obtain ⟨res, ε, h1, h2, h3, h4, h5, h6, h7⟩ := qr_decomp_spec m geqr2 A R0 F tau hg hc hrc hb
    (by rcases h0 with h | h
        · left; intro k; rw [h]; rfl
        · right; exact h)
  have hε : ∀ i, ε i * ε i = 1 := fun i => by rcases h2 i with h | h <;> rw [h] <;> norm_num
  have horth : toMat res.mat_q * (toMat res.mat_q).transpose = 1 := by
    rw [h6, Matrix.transpose_mul, Matrix.diagonal_transpose, Matrix.mul_assoc, ← Matrix.mul_assoc (Matrix.diagonal ε), Matrix.diagonal_mul_diagonal]
    simp only [hε]
    rw [Matrix.diagonal_one, Matrix.one_mul]
    exact hhQ_orthogonal hqr
  refine ⟨res, toMat res.mat_q, toMat res.mat_r, h1, represents_iff.mpr rfl, represents_iff.mpr rfl, horth, mul_eq_one_comm.mp horth, ?_, ?_, ?_⟩
  · have : padRows (toMat res.mat_r) = Matrix.diagonal ε * hhR (toMat F) := by
      ext i j
      rw [Matrix.diagonal_mul, h7]
      simp only [padRows, Matrix.of_apply]
      split
      · rfl
      · rename_i h
        have hj := j.2
        simp only [hhR, Matrix.of_apply]
        rw [if_neg (by omega), mul_zero]
    rw [this, h6, Matrix.mul_assoc, ← Matrix.mul_assoc (Matrix.diagonal ε), Matrix.diagonal_mul_diagonal]
    simp only [hε]
    rw [Matrix.diagonal_one, Matrix.one_mul, hqr.product]
  · intro i j hij
    have hij : j.1 < i.1 := hij
    rw [h7]
    simp only [hhR, Matrix.of_apply, Fin.val_castLE]
    rw [if_neg (by omega), mul_zero]
  · intro i hi
    rw [h7]
    simp only [hhR, Matrix.of_apply, Fin.val_castLE, le_refl, if_true]
    rw [h4 i hi]
    split
    · rename_i h; rw [neg_one_mul]; exact neg_nonneg.mpr (le_of_lt h)
    · rename_i h; rw [one_mul]; exact not_lt.mp h

/-- The determinant of the matrix `Q` of `qr_decomp`: it is `1` iff the number of non-trivial reflectors has the parity of the number of rows. -/
theorem C13_det_q (m : Mode) (geqr2 : Geqr2 r c K) (A : SmallMat r c K) (R0 : SmallMat c c K) (F : SmallMat r c K)
    (tau : Fin (min r c) → K) (a f : Matrix (Fin r) (Fin c) K) (_hA : Represents A a) (hF : Represents F f)
    (hg : geqr2 A = .ok (F, tau)) (hqr : IsHouseholderQR a f tau) (hc : 0 < c) (hrc : c ≤ r)
    (hb : ∀ i j, i < j → j < c → i * r + j < c * c) (h0 : R0 = SmallMat.fill c c 0 ∨ r = c ∨ c ≤ 2) :
    ∃ res q, qr_decomp m geqr2 A R0 = .ok res ∧ Represents res.mat_q q ∧ q.det = (-1) ^ (nReflections tau + r) ∧
      (q.det = 1 ↔ nReflections tau % 2 = r % 2) := by
  rw [represents_iff] at hF; subst hF
  obtain ⟨res, ε, h1, h2, h3, h4, h5, h6, h7⟩ := qr_decomp_spec m geqr2 A R0 F tau hg hc hrc hb
    (by rcases h0 with h | h
        · left; intro k; rw [h]; rfl
        · right; exact h)
  have hdet : (toMat res.mat_q).det = (-1) ^ (nReflections tau + r) := by
    rw [h6, Matrix.det_mul, Matrix.det_diagonal, h3, det_hhQ hqr, pow_add]
  refine ⟨res, toMat res.mat_q, h1, represents_iff.mpr rfl, hdet, ?_⟩
  rw [hdet]
  rcases Nat.even_or_odd (nReflections tau + r) with h | h
  · rw [h.neg_one_pow]
    rw [Nat.even_add, Nat.even_iff, Nat.even_iff] at h
    simp only [true_iff]
    have := Nat.mod_two_eq_zero_or_one (nReflections tau)
    have := Nat.mod_two_eq_zero_or_one r
    omega
  · rw [h.neg_one_pow]
    rw [Nat.odd_add, Nat.odd_iff, Nat.even_iff] at h
    have h1 : (-1 : K) ≠ 1 := by norm_num
    simp only [h1, false_iff]
    omega

/-- `qr_decomp` and `qr_decomp_q` throw exactly if LAPACK reports an error, whatever the rest. -/
theorem C13_exception (m : Mode) (geqr2 : Geqr2 r c K) (A : SmallMat r c K) (R0 : SmallMat c c K) (e : Exc) (h : geqr2 A = .throw e) :
    qr_decomp m geqr2 A R0 = .throw e ∧ qr_decomp_q m geqr2 A = .throw e ∧ determinant geqr2 A = .throw e := by
  simp [qr_decomp, qr_decomp_q, determinant, h]

/-- `qr_decomp_q(A)` is orthogonal, and its transpose times `A` is upper triangular. -/
theorem C13_qr_decomp_q (m : Mode) (geqr2 : Geqr2 r c K) (A F : SmallMat r c K)
    (tau : Fin (min r c) → K) (a f : Matrix (Fin r) (Fin c) K) (_hA : Represents A a) (hF : Represents F f)
    (hg : geqr2 A = .ok (F, tau)) (hqr : IsHouseholderQR a f tau) :
    ∃ Q q, qr_decomp_q m geqr2 A = .ok Q ∧ Represents Q q ∧ q * q.transpose = 1 ∧ ∀ i j, j.1 < i.1 → (q.transpose * a) i j = 0 := by
  rw [represents_iff] at hF; subst hF
  obtain ⟨Q, q1, q2⟩ := get_q_spec m F tau
  have horth := hhQ_orthogonal hqr
  refine ⟨Q, toMat Q, ?_, represents_iff.mpr rfl, ?_, ?_⟩
  · unfold qr_decomp_q
    rw [hg, Res.ok_bind]; exact q1
  · rw [q2]; exact horth
  · intro i j hij
    rw [q2, ← hqr.product, ← Matrix.mul_assoc, mul_eq_one_comm.mp horth, Matrix.one_mul]
    simp only [hhR, Matrix.of_apply]
    rw [if_neg (by omega)]

end QR

/-! ## Concrete calls -/

section Examples

/-- LAPACK's answer for the matrix `(3 0; 4 5)`. -/
def exF : Matrix (Fin 2) (Fin 2) ℚ := !![-5, -4; 1/2, 3]
def exTau : Fin (min 2 2) → ℚ := ![8/5, 0]
def exA : Matrix (Fin 2) (Fin 2) ℚ := !![3, 0; 4, 5]

theorem ex_vec0 : hhVec exF (0 : Fin 2) = ![1, 1/2] := by
  funext j; fin_cases j <;> simp [hhVec, exF]

theorem ex_vec1 : hhVec exF (1 : Fin 2) = ![0, 1] := by
  funext j; fin_cases j <;> simp [hhVec]

theorem ex_householder : IsHouseholderQR exA exF exTau := by
  constructor
  · intro i
    fin_cases i
    · right
      show exTau (0 : Fin 2) * ∑ j, hhVec exF (0 : Fin 2) j * hhVec exF (0 : Fin 2) j = 2
      rw [ex_vec0]; simp [Fin.sum_univ_two, exTau]; norm_num
    · left; rfl
  · have h0 : hhReflector exF exTau (0 : Fin 2) = !![-3/5, -4/5; -4/5, 3/5] := by
      unfold hhReflector
      rw [ex_vec0]
      ext i j
      fin_cases i <;> fin_cases j <;> simp [Matrix.vecMulVec, exTau] <;> norm_num
    have h1 : hhReflector exF exTau (1 : Fin 2) = 1 := by
      unfold hhReflector
      rw [show exTau (1 : Fin 2) = 0 from rfl, zero_smul, sub_zero]
    have h2 : hhQ exF exTau = !![-3/5, -4/5; -4/5, 3/5] := by
      unfold hhQ
      show (List.ofFn (n := 2) (hhReflector exF exTau)).prod = _
      rw [List.ofFn_succ, List.ofFn_succ, List.ofFn_zero]
      show (hhReflector exF exTau (0 : Fin 2)) * ((hhReflector exF exTau (1 : Fin 2)) * 1) = _
      rw [h0, h1]; simp
    have h3 : hhR exF = !![-5, -4; 0, 3] := by
      ext i j
      fin_cases i <;> fin_cases j <;> simp [hhR, exF]
    rw [h2, h3]
    ext i j
    fin_cases i <;> fin_cases j <;> simp [Matrix.mul_apply, Fin.sum_univ_two, exA] <;> norm_num

theorem ex_last : LastTrivial (r := 2) (c := 2) exTau := by
  intro i hi
  have : i = (1 : Fin 2) := Fin.ext (by simp at hi ⊢; omega)
  rw [this]; rfl

/-- The hypotheses of `C13_qr_decomp_partial` hold for this call. -/
theorem C13_example : ∃ res q R, qr_decomp .debug (fun _ => .ok (ofMat exF, exTau)) (ofMat exA) (SmallMat.fill 2 2 0) = .ok res ∧
    Represents res.mat_q q ∧ Represents res.mat_r R ∧ q * q.transpose = 1 ∧ q * padRows R = exA := by
  obtain ⟨res, q, R, h1, h2, h3, h4, -, h5, -⟩ := C13_qr_decomp_partial (r := 2) (c := 2) .debug (fun _ => .ok (ofMat exF, exTau)) (ofMat exA)
    (SmallMat.fill 2 2 0) (ofMat exF) exTau exA exF (represents_iff.mpr (toMat_ofMat _)) (represents_iff.mpr (toMat_ofMat _)) rfl ex_householder
    (by decide) (by decide) (by intro i j h1 h2; omega) (Or.inl rfl)
  exact ⟨res, q, R, h1, h2, h3, h4, h5⟩

/-- The claim `det(Q) = +1` of `qr_decomp` is wrong: a correct LAPACK, and a 2 by 2 matrix for which `det(Q) = -1`. -/
theorem C13_det_witness : ∃ (geqr2 : Geqr2 2 2 ℚ) (A F : SmallMat 2 2 ℚ) (tau : Fin (min 2 2) → ℚ) (a f : Matrix (Fin 2) (Fin 2) ℚ) (res : QR 2 2 ℚ)
    (q : Matrix (Fin 2) (Fin 2) ℚ), Represents A a ∧ Represents F f ∧ geqr2 A = .ok (F, tau) ∧ IsHouseholderQR a f tau ∧ LastTrivial tau ∧
    qr_decomp .debug geqr2 A (SmallMat.fill 2 2 0) = .ok res ∧ Represents res.mat_q q ∧ q.det = -1 := by
  obtain ⟨res, q, h1, h2, h3, -⟩ := C13_det_q (r := 2) (c := 2) .debug (fun _ => .ok (ofMat exF, exTau)) (ofMat exA)
    (SmallMat.fill 2 2 0) (ofMat exF) exTau exA exF (represents_iff.mpr (toMat_ofMat _)) (represents_iff.mpr (toMat_ofMat _)) rfl ex_householder
    (by decide) (by decide) (by intro i j h1 h2; omega) (Or.inl rfl)
  refine ⟨_, _, _, _, exA, exF, res, q, represents_iff.mpr (toMat_ofMat _), represents_iff.mpr (toMat_ofMat _), rfl, ex_householder, ex_last, h1, h2, ?_⟩
  rw [h3]
  have : nReflections (r := 2) (c := 2) exTau = 1 := by
    rw [nReflections_card exTau {(0 : Fin 2)}]
    · rfl
    · intro i
      rw [Finset.mem_singleton]
      fin_cases i
      · simp [exTau]
      · simp [exTau]
  rw [this]; norm_num

/-- The first argument of `qr_decomp` is documented to contain the matrix `R` of the decomposition afterwards; but it is not scaled by the signs: for
the 1 by 1 matrix `(1)`, `Q R` is not `A`. -/
theorem C13_full_r_witness : ∃ (geqr2 : Geqr2 1 1 ℚ) (A F : SmallMat 1 1 ℚ) (tau : Fin (min 1 1) → ℚ) (a f : Matrix (Fin 1) (Fin 1) ℚ) (res : QR 1 1 ℚ)
    (q R : Matrix (Fin 1) (Fin 1) ℚ), Represents A a ∧ Represents F f ∧ geqr2 A = .ok (F, tau) ∧ IsHouseholderQR a f tau ∧ LastTrivial tau ∧
    qr_decomp .debug geqr2 A (SmallMat.fill 1 1 0) = .ok res ∧ Represents res.mat_q q ∧ Represents res.mat R ∧ q * R ≠ a := by
  have hqr : IsHouseholderQR (r := 1) (c := 1) (1 : Matrix (Fin 1) (Fin 1) ℚ) 1 (fun _ => 0) := by
    constructor
    · intro i; left; rfl
    · have : hhQ (r := 1) (c := 1) (1 : Matrix (Fin 1) (Fin 1) ℚ) (fun _ => 0) = 1 := by
        unfold hhQ
        apply List.prod_eq_one
        intro M hM
        obtain ⟨i, rfl⟩ := (List.mem_ofFn' _ _).mp hM
        simp [hhReflector]
      rw [this, Matrix.one_mul]
      ext i j
      rw [Fin.eq_zero i, Fin.eq_zero j]; simp [hhR]
  obtain ⟨res, ε, h1, h2, h3, h4, h5, h6, h7⟩ := qr_decomp_spec (r := 1) (c := 1) .debug (fun _ => .ok (ofMat (1 : Matrix (Fin 1) (Fin 1) ℚ), fun _ => 0))
    (ofMat 1) (SmallMat.fill 1 1 0) (ofMat 1) (fun _ => 0) rfl (by decide) (by decide) (by intro i j h1 h2; omega) (Or.inl (fun _ => rfl))
  refine ⟨_, ofMat 1, _, _, 1, 1, res, toMat res.mat_q, toMat res.mat, represents_iff.mpr (toMat_ofMat _), represents_iff.mpr (toMat_ofMat _), rfl, hqr,
    fun _ _ => rfl, h1, represents_iff.mpr rfl, represents_iff.mpr rfl, ?_⟩
  have hQ : hhQ (r := 1) (c := 1) (1 : Matrix (Fin 1) (Fin 1) ℚ) (fun _ => 0) = 1 := by
    unfold hhQ
    apply List.prod_eq_one
    intro M hM
    obtain ⟨i, rfl⟩ := (List.mem_ofFn' _ _).mp hM
    simp [hhReflector]
  rw [h5, h6, toMat_ofMat, hQ, Matrix.one_mul]
  intro h
  have := congrFun (congrFun h 0) 0
  rw [Matrix.diagonal_mul] at this
  have he : ε 0 = -1 := by simpa using h3
  rw [he] at this
  simp [hhR] at this
  norm_num at this

/-- The function extracting the reduced `R` writes outside of the array for 7 by 3 matrices. -/
theorem C13_out_of_bounds (m : Mode) (geqr2 : Geqr2 7 3 ℚ) (A F : SmallMat 7 3 ℚ) (tau : Fin (min 7 3) → ℚ) (R0 : SmallMat 3 3 ℚ)
    (hg : geqr2 A = .ok (F, tau)) : qr_decomp m geqr2 A R0 = .ub := by
  obtain ⟨Q, q1, q2⟩ := get_q_spec m F tau
  have h : get_r_reduced F R0 = .ub := by
    have g : ∀ i, i < 21 → ∃ x, F.get .release i = .ok x := fun i hi => ⟨_, get_fin .release F ⟨i, hi⟩⟩
    have s : ∀ i, i < 9 → ∀ (v : ℚ) (M : SmallMat 3 3 ℚ), ∃ N, M.set .release i v = .ok N := fun i hi v M => ⟨_, set_fin .release M ⟨i, hi⟩ v⟩
    have u : ∀ (v : ℚ) (M : SmallMat 3 3 ℚ), M.set .release 9 v = .ub := fun v M => rfl
    simp only [get_r_reduced, forUp, Res.ok_bind]
    obtain ⟨x0, hx0⟩ := g 0 (by decide)
    obtain ⟨x7, hx7⟩ := g 7 (by decide)
    obtain ⟨x8, hx8⟩ := g 8 (by decide)
    obtain ⟨M0, hM0⟩ := s 0 (by decide) x0 R0
    obtain ⟨M1, hM1⟩ := s 1 (by decide) 0 M0
    obtain ⟨M2, hM2⟩ := s 2 (by decide) 0 M1
    obtain ⟨M3, hM3⟩ := s 3 (by decide) x7 M2
    obtain ⟨M4, hM4⟩ := s 4 (by decide) x8 M3
    simp [hx0, hx7, hx8, hM0, hM1, hM2, hM3, hM4, u]
  unfold qr_decomp
  rw [hg, Res.ok_bind]
  dsimp only
  rw [q1, Res.ok_bind, h]; rfl

/-- For 4 by 3 matrices the function extracting the reduced `R` does not overwrite the entry `(2, 1)`: `R` is not upper triangular if the argument was not
zero before. -/
theorem C13_stale_entry (F : SmallMat 4 3 ℚ) (R0 : SmallMat 3 3 ℚ) :
    ∃ R, get_r_reduced F R0 = .ok R ∧ R.at' .debug 2 1 = R0.at' .debug 2 1 := by
  have g : ∀ i : Fin 12, F.get .release i = .ok (F i) := fun i => get_fin .release F i
  have s : ∀ i : Fin 9, ∀ (v : ℚ) (M : SmallMat 3 3 ℚ), M.set .release i v = .ok (arrSet M i v) := fun i v M => set_fin .release M i v
  have g0 := g 0; have g4 := g 4; have g5 := g 5; have g8 := g 8; have g9 := g 9; have g10 := g 10
  have s0 := s 0; have s1 := s 1; have s2 := s 2; have s3 := s 3; have s4 := s 4; have s6 := s 6; have s7 := s 7; have s8 := s 8
  simp only [Fin.coe_ofNat_eq_mod, Nat.reduceMod] at g0 g4 g5 g8 g9 g10 s0 s1 s2 s3 s4 s6 s7 s8
  simp only [get_r_reduced, forUp, Res.ok_bind]
  simp [g0, g4, g5, g8, g9, g10, s0, s1, s2, s3, s4, s6, s7, s8]
  rw [at_lt (r := 3) (c := 3) .debug _ (show 2 < 3 by decide) (show 1 < 3 by decide), at_lt .debug R0 (show 2 < 3 by decide) (show 1 < 3 by decide)]
  rfl

end Examples

/-! ## C14: determinant -/

section Det

variable [Field K] [LinearOrder K] [IsStrictOrderedRing K]

theorem determinant_eq (geqr2 : Geqr2 r c K) (A F : SmallMat r c K) (tau : Fin (min r c) → K) (hg : geqr2 A = .ok (F, tau)) :
    determinant geqr2 A = .ok (∏ i : Fin (min r c), -toMat F (i.castLE (Nat.min_le_left _ _)) (i.castLE (Nat.min_le_right _ _))) := by
  unfold determinant
  rw [hg, Res.ok_bind]
  have := prodLoop (min r c) (fun i d => do
    let x ← F.get .release (i * (r + 1))
    return d * -x) (fun i => -toMat F (i.castLE (Nat.min_le_left _ _)) (i.castLE (Nat.min_le_right _ _)))
    (fun i s => by
      have h : F.get .release (i * (r + 1)) = .ok (toMat F (i.castLE (Nat.min_le_left _ _)) (i.castLE (Nat.min_le_right _ _))) := by
        have := get_fin .release F (pos (i.castLE (Nat.min_le_left _ _)) (i.castLE (Nat.min_le_right _ _)))
        rw [show (i * (r + 1) : Nat) = (pos (i.castLE (Nat.min_le_left r c)) (i.castLE (Nat.min_le_right r c))).1 by
          simp only [pos, Fin.val_castLE]; ring]
        exact this
      rw [h]; rfl) 1
  rw [one_mul] at this
  exact this

theorem det_hhR (f : Matrix (Fin n) (Fin n) K) : (hhR f).det = ∏ i, f i i := by
  rw [Matrix.det_of_isUpperTriangular]
  · simp [hhR]
  · intro i j hij
    have hij : j.1 < i.1 := hij
    simp only [hhR, Matrix.of_apply]
    rw [if_neg (by omega)]

/-- `determinant(A)` of a square matrix: up to a sign the determinant; the sign is right iff the number of reflectors which are the identity is even.
Missing for the full property: the sign (see `C14_sign_witness`). -/
theorem C14_square_partial (geqr2 : Geqr2 n n K) (A F : SmallMat n n K) (tau : Fin (min n n) → K) (a f : Matrix (Fin n) (Fin n) K)
    (_hA : Represents A a) (hF : Represents F f) (hg : geqr2 A = .ok (F, tau)) (hqr : IsHouseholderQR a f tau) :
    ∃ d, determinant geqr2 A = .ok d ∧ |d| = |a.det| ∧ d = (-1) ^ (n + nReflections tau) * a.det := by
  rw [represents_iff] at hF; subst hF
  have hdet : a.det = (-1) ^ nReflections tau * ∏ i, toMat F i i := by
    rw [← hqr.product, Matrix.det_mul, det_hhQ hqr, det_hhR]
  have hprod : (∏ i : Fin (min n n), -toMat F (i.castLE (Nat.min_le_left _ _)) (i.castLE (Nat.min_le_right _ _))) = (-1) ^ n * ∏ i, toMat F i i := by
    have : (∏ i : Fin (min n n), -toMat F (i.castLE (Nat.min_le_left _ _)) (i.castLE (Nat.min_le_right _ _))) = ∏ i : Fin n, -toMat F i i :=
      Fintype.prod_equiv (finCongr (Nat.min_self n)) _ _ (fun i => rfl)
    rw [this, Finset.prod_neg]
    simp
  have hval : (∏ i : Fin (min n n), -toMat F (i.castLE (Nat.min_le_left _ _)) (i.castLE (Nat.min_le_right _ _))) =
      (-1) ^ (n + nReflections tau) * a.det := by
    rw [hprod, hdet, pow_add, mul_assoc, ← mul_assoc ((-1) ^ nReflections tau) ((-1) ^ nReflections tau), ← mul_pow]
    simp
  refine ⟨_, determinant_eq geqr2 A F tau hg, ?_, hval⟩
  rw [hval, abs_mul, abs_pow, abs_neg, abs_one, one_pow, one_mul]

/-- With LAPACK's choice of the last reflector, the sign is wrong for every square matrix all of whose other reflectors are non-trivial (the generic
case). -/
theorem C14_generic_sign (geqr2 : Geqr2 n n K) (A F : SmallMat n n K) (tau : Fin (min n n) → K) (a f : Matrix (Fin n) (Fin n) K)
    (_hA : Represents A a) (hF : Represents F f) (hg : geqr2 A = .ok (F, tau)) (hqr : IsHouseholderQR a f tau) (hn : 0 < n) (hl : LastTrivial tau)
    (hgen : ∀ i, i.1 + 1 < n → tau i ≠ 0) : determinant geqr2 A = .ok (- a.det) := by
  obtain ⟨d, h1, -, h2⟩ := C14_square_partial geqr2 A F tau a f _hA hF hg hqr
  have hcard : nReflections tau = n - 1 := by
    rw [nReflections_card tau (Finset.univ.erase (⟨n - 1, by omega⟩ : Fin (min n n))), Finset.card_erase_of_mem (Finset.mem_univ _), Finset.card_univ,
      Fintype.card_fin, Nat.min_self]
    intro i
    simp only [Finset.mem_univ, Finset.mem_erase, and_true]
    have hi := i.2
    constructor
    · intro h
      apply hgen
      have : i.1 ≠ n - 1 := fun h' => h (Fin.ext h')
      omega
    · rintro h rfl; exact h (hl _ (by simp only; omega))
  rw [h1, h2, hcard, Odd.neg_one_pow (by rw [Nat.odd_iff]; omega), neg_one_mul]

/-- A concrete matrix with determinant 15 for which `determinant` returns -15. -/
theorem C14_sign_witness : ∃ (geqr2 : Geqr2 2 2 ℚ) (A F : SmallMat 2 2 ℚ) (tau : Fin (min 2 2) → ℚ) (a f : Matrix (Fin 2) (Fin 2) ℚ),
    Represents A a ∧ Represents F f ∧ geqr2 A = .ok (F, tau) ∧ IsHouseholderQR a f tau ∧ LastTrivial tau ∧ a.det = 15 ∧
    determinant geqr2 A = .ok (-15) := by
  have hd : exA.det = 15 := by simp [exA, Matrix.det_fin_two]; norm_num
  refine ⟨fun _ => .ok (ofMat exF, exTau), ofMat exA, ofMat exF, exTau, exA, exF, represents_iff.mpr (toMat_ofMat _), represents_iff.mpr (toMat_ofMat _), rfl,
    ex_householder, ex_last, hd, ?_⟩
  rw [← hd]
  exact C14_generic_sign (n := 2) _ _ (ofMat exF) exTau exA exF (represents_iff.mpr (toMat_ofMat _)) (represents_iff.mpr (toMat_ofMat _)) rfl ex_householder (by decide) ex_last
    (fun i hi => by
      have : i = (0 : Fin 2) := Fin.ext (by simp; omega)
      rw [this]; norm_num [exTau])

/-- For rectangular matrices with at least as many rows as columns the square of `determinant(A)` is the determinant of `Aᵀ A`. -/
theorem C14_gram (geqr2 : Geqr2 r c K) (A F : SmallMat r c K) (tau : Fin (min r c) → K) (a f : Matrix (Fin r) (Fin c) K)
    (_hA : Represents A a) (hF : Represents F f) (hg : geqr2 A = .ok (F, tau)) (hqr : IsHouseholderQR a f tau) (hrc : c ≤ r) :
    ∃ d, determinant geqr2 A = .ok d ∧ d * d = (a.transpose * a).det := by
  rw [represents_iff] at hF; subst hF
  refine ⟨_, determinant_eq geqr2 A F tau hg, ?_⟩
  have h1 : a.transpose * a = (hhR (toMat F)).transpose * hhR (toMat F) := by
    rw [← hqr.product, Matrix.transpose_mul, Matrix.mul_assoc, ← Matrix.mul_assoc _ (hhQ (toMat F) tau), mul_eq_one_comm.mp (hhQ_orthogonal hqr), Matrix.one_mul]
  let R1 : Matrix (Fin c) (Fin c) K := (hhR (toMat F)).submatrix (Fin.castLE hrc) id
  have h2 : (hhR (toMat F)).transpose * hhR (toMat F) = R1.transpose * R1 := by
    ext i j
    simp only [Matrix.mul_apply, Matrix.transpose_apply, R1, Matrix.submatrix_apply, id]
    symm
    apply Finset.sum_of_injOn (Fin.castLE hrc)
    · intro x _ y _ h; exact Fin.castLE_injective hrc h
    · intro x _; exact Finset.mem_coe.mpr (Finset.mem_univ _)
    · intro x _ hx
      have hxc : c ≤ x.1 := by
        by_contra hlt
        exact hx ⟨⟨x.1, by omega⟩, Finset.mem_coe.mpr (Finset.mem_univ _), rfl⟩
      have hi := i.2
      simp only [hhR, Matrix.of_apply]
      rw [if_neg (by omega), zero_mul]
    · intro x _; rfl
  have h3 : R1.det = ∏ i : Fin c, toMat F (i.castLE hrc) i := by
    rw [Matrix.det_of_isUpperTriangular]
    · simp [R1, hhR]
    · intro i j hij
      have hij : j.1 < i.1 := hij
      simp only [R1, hhR, Matrix.of_apply, Matrix.submatrix_apply, Fin.val_castLE, id]
      rw [if_neg (by omega)]
  have h4 : (∏ i : Fin (min r c), -toMat F (i.castLE (Nat.min_le_left _ _)) (i.castLE (Nat.min_le_right _ _))) =
      ∏ i : Fin c, -toMat F (i.castLE hrc) i :=
    Fintype.prod_equiv (finCongr (Nat.min_eq_right hrc)) _ _ (fun i => rfl)
  rw [h1, h2, Matrix.det_mul, Matrix.det_transpose, h3, h4, Finset.prod_neg]
  have : ((-1 : K) ^ (Finset.univ : Finset (Fin c)).card) * (-1) ^ (Finset.univ : Finset (Fin c)).card = 1 := by
    rw [← mul_pow]; simp
  calc _ = (((-1 : K) ^ (Finset.univ : Finset (Fin c)).card) * (-1) ^ (Finset.univ : Finset (Fin c)).card) *
        ((∏ i : Fin c, toMat F (i.castLE hrc) i) * ∏ i : Fin c, toMat F (i.castLE hrc) i) := by ring
    _ = _ := by rw [this, one_mul]

end Det

/-! ## C44: dense solve -/

section Solve

variable [CommRing K]

/-- `b / A` returns the solution of `A x = b` (the only one) if `A` is invertible and throws if it is not. -/
theorem C44_solve (gesv : Gesv n k K) (hg : GesvSpec gesv) (b : SmallMat n k K) (A : SmallMat n n K) (b' : Matrix (Fin n) (Fin k) K)
    (A' : Matrix (Fin n) (Fin n) K) (hb : Represents b b') (hA : Represents A A') :
    (IsUnit A' → ∃ x, Returns (solve gesv b A) x ∧ A' * x = b' ∧ ∀ y, A' * y = b' → y = x) ∧
    (¬ IsUnit A' → solve gesv b A = .throw .lapack) := by
  constructor
  · intro hu
    obtain ⟨LU, X, x, h1, h2, h3⟩ := hg.regular A b A' b' hA hb hu
    refine ⟨x, ⟨X, by simp [solve, solve_in_place, h1], h2⟩, h3, fun y hy => ?_⟩
    have hd := (Matrix.isUnit_iff_isUnit_det _).mp hu
    have : A'⁻¹ * (A' * y) = A'⁻¹ * (A' * x) := by rw [hy, h3]
    rw [← Matrix.mul_assoc, ← Matrix.mul_assoc, Matrix.nonsing_inv_mul _ hd, Matrix.one_mul, Matrix.one_mul] at this
    exact this
  · intro hu
    simp [solve, solve_in_place, hg.singular A b A' hA hu]

/-- The version for non-constant arguments overwrites both of them: the right-hand side contains the solution afterwards. -/
theorem C44_in_place (gesv : Gesv n k K) (b : SmallMat n k K) (A : SmallMat n n K) (x b1 : SmallMat n k K) (A1 : SmallMat n n K)
    (h : solve_in_place gesv b A = .ok (x, b1, A1)) : b1 = x ∧ solve gesv b A = .ok x := by
  unfold solve
  rw [h]
  unfold solve_in_place at h
  obtain ⟨⟨lu, y⟩, h1, h2⟩ := Res.bind_eq_ok.mp h
  have h2 := Res.ok.inj h2
  simp only [Prod.mk.injEq] at h2
  exact ⟨h2.2.1.symm.trans h2.1, rfl⟩

open Classical in
/-- A solver that fulfils the assumptions on LAPACK: Cramer's rule. -/
noncomputable def cramerSolve (n k : Nat) (K : Type) [Field K] : Gesv n k K := fun A B =>
  if IsUnit (toMat A) then .ok (A, ofMat ((toMat A)⁻¹ * toMat B)) else .throw .lapack

theorem C44_example (n k : Nat) (K : Type) [Field K] : GesvSpec (cramerSolve n k K) := by
  constructor
  · intro A B a b hA hB hu
    rw [represents_iff] at hA hB; subst hA; subst hB
    refine ⟨A, _, _, by rw [cramerSolve, if_pos hu], represents_iff.mpr (toMat_ofMat _), ?_⟩
    rw [← Matrix.mul_assoc, Matrix.mul_nonsing_inv _ ((Matrix.isUnit_iff_isUnit_det _).mp hu), Matrix.one_mul]
  · intro A B a hA hu
    rw [represents_iff] at hA; subst hA
    rw [cramerSolve, if_neg hu]

end Solve

end HyperHDG

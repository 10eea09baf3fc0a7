import Verif.Proofs.DenseLA
import Mathlib.LinearAlgebra.CrossProduct
import Mathlib.Algebra.Order.Field.Rat

/-!
# Properties of the dense linear algebra (C06-C09)
-/

set_option linter.unusedSectionVars false

namespace HyperHDG

variable {K : Type} {r c : Nat}

/-- A vector with two entries. -/
def vec2 (a b : K) : SmallVec 2 K := ![a, b]

/-! ## C06: element access -/

/-- The matrices `SmallMat<r, c>` and the mathematical matrices correspond one to one via the element access. -/
theorem C06_one_to_one :
    (∀ M : SmallMat r c K, ∃! A : Matrix (Fin r) (Fin c) K, Represents M A) ∧
    (∀ A : Matrix (Fin r) (Fin c) K, ∃! M : SmallMat r c K, Represents M A) := by
  simp only [represents_iff]
  exact ⟨fun M => ⟨toMat M, rfl, fun A h => h.symm⟩,
    fun A => ⟨ofMat A, toMat_ofMat A, fun M h => toMat_inj (h.trans (toMat_ofMat A).symm)⟩⟩

/-- Writing entry `(i, j)` changes exactly this entry. -/
theorem C06_read_after_write (m m' : Mode) (M : SmallMat r c K) (i k : Fin r) (j l : Fin c) (v : K) :
    ∃ N, M.setAt m i j v = .ok N ∧ N.at' m' k l = if k = i ∧ l = j then .ok v else M.at' m' k l := by
  refine ⟨_, setAt_fin m M i j v, ?_⟩
  rw [at_fin, at_fin, toMat_arrSet]
  split <;> rfl

/-- With assertions, every access out of range ends in `abort()`. -/
theorem C06_out_of_range (M : SmallMat r c K) (i j : Nat) (v : K) (h : ¬ (i < r ∧ j < c)) :
    M.at' .debug i j = .abort ∧ M.setAt .debug i j v = .abort := by
  have : SmallMat.loc_matrix_index .debug r c i j = .abort := by
    unfold SmallMat.loc_matrix_index
    by_cases hi : i < r
    · have hj : ¬ j < c := fun hj => h ⟨hi, hj⟩
      rw [hyAssert_of hi, hyAssert_debug_not hj]; rfl
    · rw [hyAssert_debug_not hi]; rfl
  unfold SmallMat.at' SmallMat.setAt
  rw [this]; exact ⟨rfl, rfl⟩

/-- The constructor from a vector of the right length stores it column by column; with a wrong length it ends in `abort()` if there are
assertions. -/
theorem C06_from_vector [Zero K] (m : Mode) (l : List K) :
    (l.length = r * c → ∃ M, SmallMat.ofVector m r c l = .ok M ∧
      ∀ (i : Fin r) (j : Fin c), M.at' m i j = vget l (j * r + i)) ∧
    (l.length ≠ r * c → SmallMat.ofVector .debug r c l = .abort) := by
  constructor
  · intro h
    have hstep : ∀ (i : Fin (r * c)) (M : SmallMat r c K), (do
        let x ← vget l i
        return arrSet M i x : Res (SmallMat r c K)) = .ok (arrSet M i (l[i])) := by
      intro i M
      rw [vget_of_lt (by rw [h]; exact i.2)]; rfl
    refine ⟨fun i => l[i], ?_, ?_⟩
    · unfold SmallMat.ofVector
      rw [hyAssert_of h, Res.ok_bind]
      simp only [hstep]
      exact arrLoop (fun i _ => l[i]) _
    · intro i j
      rw [at_fin, vget_of_lt (by rw [h]; exact pos_lt i j)]; rfl
  · intro h
    unfold SmallMat.ofVector
    rw [hyAssert_debug_not h]; rfl

/-- `get_column(j)` is the vector of the entries of column `j`. -/
theorem C06_get_column [Zero K] (m : Mode) (M : SmallMat r c K) (A : Matrix (Fin r) (Fin c) K) (hM : Represents M A) (j : Fin c) :
    Returns (M.get_column m j) (Matrix.of fun i (_ : Fin 1) => A i j) := by
  rw [represents_iff] at hM; subst hM
  obtain ⟨N, h1, h2, -⟩ := setLoop1 (n := r)
    (fun i (column : SmallVec r K) => do
      let x ← M.at' m i j
      SmallMat.set m i x column) (fun i => pos i 0) (fun i i' h => (pos_inj.mp h).1) (fun i _ => toMat M i j)
    (fun i v => by rw [at_fin, Res.ok_bind]; exact vec_set_lt m v i.2 _) (SmallMat.fill r 1 0)
  refine ⟨N, ?_, represents_iff.mpr ?_⟩
  · unfold SmallMat.get_column
    rw [hyAssert_of j.2, Res.ok_bind, h1]
  · funext i k
    rw [Fin.eq_zero k]; exact h2 i

/-- `set_column(j, v)` replaces column `j` by `v` and nothing else. -/
theorem C06_set_column (m : Mode) (M : SmallMat r c K) (A : Matrix (Fin r) (Fin c) K) (hM : Represents M A) (j : Fin c)
    (v : SmallVec r K) (b : Matrix (Fin r) (Fin 1) K) (hv : Represents v b) :
    Returns (M.set_column m j v) (Matrix.of fun i l => if l = j then b i 0 else A i l) := by
  rw [represents_iff] at hM hv; subst hM; subst hv
  obtain ⟨N, h1, h2, h3⟩ := setLoop1 (n := r)
    (fun i (M : SmallMat r c K) => do
      let x ← v.get m i
      M.setAt m i j x) (fun i => pos i j) (fun i i' h => (pos_inj.mp h).1) (fun i _ => toMat v i 0)
    (fun i M => by rw [vec_get_lt m v i.2, Res.ok_bind]; exact setAt_fin m M i j _) M
  refine ⟨N, h1, represents_iff.mpr ?_⟩
  funext i l
  rw [Matrix.of_apply]
  split
  · rename_i h; subst h; exact h2 i
  · rename_i h; exact h3 _ (fun k hk => h (pos_inj.mp hk).2.symm)

/-- `transposed` swaps the indices. -/
theorem C06_transposed [Zero K] (m : Mode) (M : SmallMat r c K) (A : Matrix (Fin r) (Fin c) K) (hM : Represents M A) :
    Returns (M.transposed m) A.transpose := by
  rw [represents_iff] at hM; subst hM
  obtain ⟨N, h1, h2, -⟩ := setLoop2 (n := c) (n' := r)
    (fun j i (N : SmallMat c r K) => do
      let x ← M.at' m i j
      N.setAt m j i x) (fun j i => pos j i) (fun _ _ _ _ h => pos_inj.mp h) (fun j i _ => toMat M i j)
    (fun j i N => by rw [at_fin, Res.ok_bind]; exact setAt_fin m N j i _) (SmallMat.fill c r 0)
  exact ⟨N, h1, represents_iff.mpr (by funext j i; exact h2 j i)⟩

/-- `transposed` is an involution. -/
theorem C06_transposed_involution [Zero K] (m : Mode) (M : SmallMat r c K) :
    (do let T ← M.transposed m; T.transposed m) = .ok M := by
  obtain ⟨T, h1, hT⟩ := C06_transposed m M (toMat M) (represents_iff.mpr rfl)
  obtain ⟨N, h2, hN⟩ := C06_transposed m T _ hT
  rw [h1, Res.ok_bind, h2]
  rw [represents_iff] at hN
  exact congrArg _ (toMat_inj hN)

/-- Witness of the effect of a missing assertion: in release mode `M(r, 0)` is the entry `M(0, 1)`. -/
theorem C06_release_alias (M : SmallMat r (c + 2) K) :
    M.at' .release r 0 = M.at' .release 0 1 := by
  simp [SmallMat.at', SmallMat.loc_matrix_index]

/-! ## C07: products -/

section Products

variable [CommRing K] {k ca rb ra cb n : Nat}

theorem mul_spec (m : Mode) (M : SmallMat r k K) (N : SmallMat k c K) :
    ∃ P, M.mul m N = .ok P ∧ toMat P = toMat M * toMat N := by
  obtain ⟨P, h1, h2⟩ := adds_loop3 (r := r) (c := c) c k r
    (fun colB colA rowA P => do
      let x ← M.at' m rowA colA
      let y ← N.at' m colA colB
      P.addAt m rowA colB (x * y))
    (fun _ _ rowA => rowA) (fun colB _ _ => colB) (fun colB colA rowA => toMat M rowA colA * toMat N colA colB) m
    (fun a b d P => by rw [at_fin, at_fin]; rfl)
  refine ⟨P, h1, h2.trans ?_⟩
  ext i j
  simp only [Matrix.sum_apply, Matrix.mul_apply, Matrix.single_apply]
  rw [Finset.sum_eq_single j]
  · refine Finset.sum_congr rfl fun a _ => ?_
    rw [Finset.sum_eq_single i] <;> simp +contextual
  · intro b _ hb
    simp [hb]
  · simp

/-- `operator*` is the matrix product. -/
theorem C07_mul (m : Mode) (M : SmallMat r k K) (N : SmallMat k c K) (A : Matrix (Fin r) (Fin k) K)
    (B : Matrix (Fin k) (Fin c) K) (hM : Represents M A) (hN : Represents N B) : Returns (M.mul m N) (A * B) := by
  rw [represents_iff] at hM hN; subst hM; subst hN
  obtain ⟨P, h1, h2⟩ := mul_spec m M N
  exact ⟨P, h1, represents_iff.mpr h2⟩

/-- `mat_times_mat_unfit` is the product of the first `min(n_colsA, n_rowsB)` columns of `A` and rows of `B`. -/
theorem C07_mul_unfit (m : Mode) (M : SmallMat r ca K) (N : SmallMat rb c K) (A : Matrix (Fin r) (Fin ca) K)
    (B : Matrix (Fin rb) (Fin c) K) (hM : Represents M A) (hN : Represents N B) :
    Returns (M.mul_unfit m N) (Matrix.of fun i j => ∑ l : Fin (min ca rb),
      A i (l.castLE (Nat.min_le_left _ _)) * B (l.castLE (Nat.min_le_right _ _)) j) := by
  rw [represents_iff] at hM hN; subst hM; subst hN
  obtain ⟨P, h1, h2⟩ := adds_loop3 (r := r) (c := c) c (min ca rb) r
    (fun colB colA rowA P => do
      let x ← M.at' m rowA colA
      let y ← N.at' m colA colB
      P.addAt m rowA colB (x * y))
    (fun _ _ rowA => rowA) (fun colB _ _ => colB)
    (fun colB colA rowA => toMat M rowA (colA.castLE (Nat.min_le_left _ _)) * toMat N (colA.castLE (Nat.min_le_right _ _)) colB) m
    (fun a b d P => by
      try dsimp only
      rw [at_lt m M d.2 (Nat.lt_of_lt_of_le b.2 (Nat.min_le_left _ _)), at_lt m N (Nat.lt_of_lt_of_le b.2 (Nat.min_le_right _ _)) a.2]
      rfl)
  refine ⟨P, h1, represents_iff.mpr (h2.trans ?_)⟩
  ext i j
  simp only [Matrix.sum_apply, Matrix.single_apply]
  rw [Finset.sum_eq_single j]
  · refine Finset.sum_congr rfl fun a _ => ?_
    rw [Finset.sum_eq_single i] <;> simp +contextual
  · intro b _ hb
    simp [hb]
  · simp

/-- `transposed_mat_times_mat(A, B)` is `Aᵀ B`. -/
theorem C07_transposed_mul (m : Mode) (M : SmallMat ra ca K) (N : SmallMat ra cb K) (A : Matrix (Fin ra) (Fin ca) K)
    (B : Matrix (Fin ra) (Fin cb) K) (hM : Represents M A) (hN : Represents N B) :
    Returns (M.transposed_mul m N) (A.transpose * B) := by
  rw [represents_iff] at hM hN; subst hM; subst hN
  obtain ⟨P, h1, h2⟩ := adds_loop3 (r := ca) (c := cb) cb ca ra
    (fun colB colA rowA P => do
      let x ← M.at' m rowA colA
      let y ← N.at' m rowA colB
      P.addAt m colA colB (x * y))
    (fun _ colA _ => colA) (fun colB _ _ => colB) (fun colB colA rowA => toMat M rowA colA * toMat N rowA colB) m
    (fun a b d P => by rw [at_fin, at_fin]; rfl)
  refine ⟨P, h1, represents_iff.mpr (h2.trans ?_)⟩
  ext i j
  simp only [Matrix.sum_apply, Matrix.mul_apply, Matrix.single_apply, Matrix.transpose_apply]
  rw [Finset.sum_eq_single j]
  · rw [Finset.sum_eq_single i]
    · simp
    · intro b _ hb; simp [hb]
    · simp
  · intro b _ hb
    simp [hb]
  · simp

/-- What `mat_times_transposed_mat(A, B)` computes: `Aᵀ Bᵀ`, for square `A` (other instances do not compile).  The documented value is `A Bᵀ`; see
`C07_mul_transposed_witness`. -/
theorem C07_mul_transposed_partial (m : Mode) (M : SmallMat n n K) (N : SmallMat rb n K) (A : Matrix (Fin n) (Fin n) K)
    (B : Matrix (Fin rb) (Fin n) K) (hM : Represents M A) (hN : Represents N B) :
    Returns (M.mul_transposed m N) (A.transpose * B.transpose) := by
  rw [represents_iff] at hM hN; subst hM; subst hN
  obtain ⟨P, h1, h2⟩ := adds_loop3 (r := n) (c := rb) rb n n
    (fun rowB colA rowA P => do
      let x ← M.at' m rowA colA
      let y ← N.at' m rowB rowA
      P.addAt m colA rowB (x * y))
    (fun _ colA _ => colA) (fun rowB _ _ => rowB) (fun rowB colA rowA => toMat M rowA colA * toMat N rowB rowA) m
    (fun a b d P => by rw [at_fin, at_fin]; rfl)
  refine ⟨P, h1, represents_iff.mpr (h2.trans ?_)⟩
  ext i j
  simp only [Matrix.sum_apply, Matrix.mul_apply, Matrix.single_apply, Matrix.transpose_apply]
  rw [Finset.sum_eq_single j]
  · rw [Finset.sum_eq_single i]
    · simp
    · intro b _ hb; simp [hb]
    · simp
  · intro b _ hb
    simp [hb]
  · simp

/-- `mat_times_transposed_mat(A, B)` is correct for symmetric `A`. -/
theorem C07_mul_transposed_symmetric_partial (m : Mode) (M : SmallMat n n K) (N : SmallMat rb n K) (A : Matrix (Fin n) (Fin n) K)
    (B : Matrix (Fin rb) (Fin n) K) (hM : Represents M A) (hN : Represents N B) (hA : A.transpose = A) :
    Returns (M.mul_transposed m N) (A * B.transpose) := by
  have := C07_mul_transposed_partial m M N A B hM hN
  rwa [hA] at this

/-- The documented value `A Bᵀ` of `mat_times_transposed_mat` is wrong: for `A = [[0,1],[0,0]]` and `B = I` the result is not `A Bᵀ`. -/
theorem C07_mul_transposed_witness :
    ∃ (M N : SmallMat 2 2 Int) (A B : Matrix (Fin 2) (Fin 2) Int), Represents M A ∧ Represents N B ∧
      ¬ Returns (M.mul_transposed .debug N) (A * B.transpose) := by
  refine ⟨ofMat !![0, 1; 0, 0], ofMat 1, !![0, 1; 0, 0], 1, represents_iff.mpr (toMat_ofMat _), represents_iff.mpr (toMat_ofMat _), ?_⟩
  rintro ⟨P, h1, h2⟩
  obtain ⟨P', h1', h2'⟩ := C07_mul_transposed_partial .debug (ofMat !![0, 1; 0, 0]) (ofMat 1) (!![0, 1; 0, 0] : Matrix (Fin 2) (Fin 2) Int) (1 : Matrix (Fin 2) (Fin 2) Int)
    (represents_iff.mpr (toMat_ofMat _)) (represents_iff.mpr (toMat_ofMat _))
  rw [h1] at h1'
  cases h1'
  rw [represents_iff] at h2 h2'
  have h := congrFun (congrFun (h2.symm.trans h2') 0) 1
  simp at h

/-- `dyadic_product(x, y)` is `x yᵀ`. -/
theorem C07_dyadic (m : Mode) (M : SmallVec r K) (N : SmallVec c K) (x : Matrix (Fin r) (Fin 1) K) (y : Matrix (Fin c) (Fin 1) K)
    (hM : Represents M x) (hN : Represents N y) : Returns (SmallMat.dyadic_product m M N) (x * y.transpose) := by
  rw [represents_iff] at hM hN; subst hM; subst hN
  obtain ⟨P, h1, h2⟩ := matLoop (r := r) (c := c)
    (fun j i P => do
      let x ← M.get m i
      let y ← N.get m j
      P.setAt m i j (x * y)) (fun i j _ => toMat M i 0 * toMat N j 0)
    (fun i j P => by
      try dsimp only
      rw [vec_get_lt m M i.2, vec_get_lt m N j.2]; exact setAt_fin m P i j _) (SmallMat.fill r c 0)
  refine ⟨P, h1, represents_iff.mpr (h2.trans ?_)⟩
  funext i j
  simp [Matrix.mul_apply]

/-- `scalar_product(A, B)` is the sum of the products of the entries. -/
theorem C07_scalar_product (m : Mode) (M N : SmallMat r c K) (A B : Matrix (Fin r) (Fin c) K) (hM : Represents M A)
    (hN : Represents N B) : M.scalar_product m N = .ok (∑ i, ∑ j, A i j * B i j) := by
  rw [represents_iff] at hM hN; subst hM; subst hN
  have := sumLoop (r * c) (fun i s => do
      let x ← M.get m i
      let y ← N.get m i
      return s + x * y) (fun i => M i * N i)
    (fun i s => by rw [get_fin, get_fin]; rfl) 0
  unfold SmallMat.scalar_product
  rw [this, zero_add, sum_entries]; rfl

/-- `cross_product` is the cross product of three dimensional vectors. -/
theorem C07_cross_product (m : Mode) (M N : SmallVec 3 K) (x y : Fin 3 → K) (hM : Represents M (Matrix.of fun i _ => x i))
    (hN : Represents N (Matrix.of fun i _ => y i)) : Returns (SmallMat.cross_product m M N) (Matrix.of fun i _ => crossProduct x y i) := by
  rw [represents_iff] at hM hN
  have hx : ∀ i : Fin 3, toMat M i 0 = x i := fun i => by rw [hM]; rfl
  have hy : ∀ i : Fin 3, toMat N i 0 = y i := fun i => by rw [hN]; rfl
  unfold SmallMat.cross_product
  simp only [vec_get_lt m M (show 0 < 3 by decide), vec_get_lt m M (show 1 < 3 by decide), vec_get_lt m M (show 2 < 3 by decide),
    vec_get_lt m N (show 0 < 3 by decide), vec_get_lt m N (show 1 < 3 by decide), vec_get_lt m N (show 2 < 3 by decide), Res.ok_bind, hx, hy]
  rw [vec_set_lt m _ (show 0 < 3 by decide), Res.ok_bind, vec_set_lt m _ (show 1 < 3 by decide), Res.ok_bind, vec_set_lt m _ (show 2 < 3 by decide)]
  refine ⟨_, rfl, represents_iff.mpr ?_⟩
  funext i j
  rw [Fin.eq_zero j, toMat_arrSet, toMat_arrSet, toMat_arrSet]
  fin_cases i <;> simp [crossProduct]

/-- Laws of the products as computed by the code: associativity and the transpose of a product. -/
theorem C07_laws (m : Mode) {l : Nat} (M : SmallMat r k K) (N : SmallMat k c K) (P : SmallMat c l K) :
    (do let X ← M.mul m N; X.mul m P) = (do let Y ← N.mul m P; M.mul m Y) ∧
    (do let X ← M.mul m N; X.transposed m) = (do let S ← N.transposed m; let T ← M.transposed m; S.mul m T) ∧
    (do let T ← M.transposed m; T.mul m M) = M.transposed_mul m M := by
  obtain ⟨X, hX, hX'⟩ := mul_spec m M N
  obtain ⟨Y, hY, hY'⟩ := mul_spec m N P
  obtain ⟨Z, hZ, hZ'⟩ := mul_spec m X P
  obtain ⟨W, hW, hW'⟩ := mul_spec m M Y
  obtain ⟨XT, hXT, hXT'⟩ := C06_transposed m X _ (represents_iff.mpr rfl)
  obtain ⟨NT, hNT, hNT'⟩ := C06_transposed m N _ (represents_iff.mpr rfl)
  obtain ⟨MT, hMT, hMT'⟩ := C06_transposed m M _ (represents_iff.mpr rfl)
  obtain ⟨V, hV, hV'⟩ := mul_spec m NT MT
  obtain ⟨U, hU, hU'⟩ := mul_spec m MT M
  obtain ⟨U2, hU2, hU2'⟩ := C07_transposed_mul m M M _ _ (represents_iff.mpr rfl) (represents_iff.mpr rfl)
  rw [represents_iff] at hXT' hNT' hMT' hU2'
  refine ⟨?_, ?_, ?_⟩
  · rw [hX, hY, Res.ok_bind, Res.ok_bind, hZ, hW]
    exact congrArg _ (toMat_inj (by rw [hZ', hW', hX', hY', Matrix.mul_assoc]))
  · rw [hX, hNT, hMT, Res.ok_bind, Res.ok_bind, Res.ok_bind, hXT, hV]
    exact congrArg _ (toMat_inj (by rw [hXT', hV', hX', hNT', hMT', Matrix.transpose_mul]))
  · rw [hMT, Res.ok_bind, hU, hU2]
    exact congrArg _ (toMat_inj (by rw [hU', hU2', hMT']))

/-- Sums, differences, entrywise product, scalar multiple and the broadcast of a column. -/
theorem C07_entrywise (m : Mode) (M N : SmallMat r c K) (v : SmallVec r K) (A B : Matrix (Fin r) (Fin c) K) (b : Matrix (Fin r) (Fin 1) K)
    (s : K) (hM : Represents M A) (hN : Represents N B) (hv : Represents v b) :
    Returns (M.add_mat N) (A + B) ∧ Returns (M.sub_mat N) (A - B) ∧ Returns (M.hada_prod N) (Matrix.of fun i j => A i j * B i j) ∧
    Returns (M.mul_scalar s) (Matrix.of fun i j => A i j * s) ∧ Returns (M.add_scalar s) (Matrix.of fun i j => A i j + s) ∧
    Returns (M.sub_scalar s) (Matrix.of fun i j => A i j - s) ∧ Returns (SmallMat.scalar_sub s M) (Matrix.of fun i j => s - A i j) ∧
    Returns (M.add_col m v) (Matrix.of fun i j => A i j + b i 0) ∧ Returns (M.sub_col m v) (Matrix.of fun i j => A i j - b i 0) ∧
    Returns (SmallMat.col_sub m v M) (Matrix.of fun i j => b i 0 - A i j) ∧
    Returns (SmallMat.rep_mat m c v) (Matrix.of fun i _ => b i 0) := by
  have hM0 := hM
  have hv0 := hv
  rw [represents_iff] at hM hN hv; subst hM; subst hN; subst hv
  refine ⟨⟨_, arrLoop (fun i x => x + N i) M, represents_iff.mpr rfl⟩, ⟨_, arrLoop (fun i x => x - N i) M, represents_iff.mpr rfl⟩,
    ⟨_, arrLoop (fun i x => x * N i) M, represents_iff.mpr rfl⟩, ⟨_, arrLoop (fun i x => x * s) M, represents_iff.mpr rfl⟩,
    ⟨_, arrLoop (fun i x => x + s) M, represents_iff.mpr rfl⟩, ⟨_, arrLoop (fun i x => x - s) M, represents_iff.mpr rfl⟩,
    ⟨_, arrLoop (fun i x => s - M i) M, represents_iff.mpr rfl⟩, ?_, ?_, ?_, ?_⟩
  · obtain ⟨P, h1, h2⟩ := matLoop (r := r) (c := c)
      (fun j i P => do
        let x ← v.get m i
        P.addAt m i j x) (fun i j x => x + toMat v i 0)
      (fun i j P => by rw [vec_get_lt m v i.2, Res.ok_bind]; exact addAt_lt m P i.2 j.2 _) M
    exact ⟨P, h1, represents_iff.mpr h2⟩
  · obtain ⟨P, h1, h2⟩ := matLoop (r := r) (c := c)
      (fun j i P => do
        let x ← v.get m i
        P.addAt m i j (-x)) (fun i j x => x + -toMat v i 0)
      (fun i j P => by rw [vec_get_lt m v i.2, Res.ok_bind]; exact addAt_lt m P i.2 j.2 _) M
    exact ⟨P, h1, represents_iff.mpr (h2.trans (by funext i j; simp only [Matrix.of_apply, sub_eq_add_neg]))⟩
  · obtain ⟨P, h1, h2⟩ := forUp_inv c (fun i (D : SmallMat r c K) => do
        let col ← M.get_column m i
        let d ← SmallMat.sub_mat v col
        D.set_column m i d) (SmallMat.fill r c 0)
      (fun k D => ∀ (i : Fin r) (j : Fin c), j.1 < k → toMat D i j = toMat v i 0 - toMat M i j)
      (fun _ _ h => absurd h (Nat.not_lt_zero _))
      (fun k hk D hD => by
        obtain ⟨C, hC, hC'⟩ := C06_get_column m M (toMat M) (represents_iff.mpr rfl) ⟨k, hk⟩
        obtain ⟨E, hE, hE'⟩ := C06_set_column m D (toMat D) (represents_iff.mpr rfl) ⟨k, hk⟩ (fun i => v i - C i) _ (represents_iff.mpr rfl)
        rw [represents_iff] at hC' hE'
        refine ⟨E, ?_, ?_⟩
        · have h3 : SmallMat.sub_mat v C = .ok (fun i => v i - C i) := arrLoop (fun i x => x - C i) v
          rw [hC, Res.ok_bind, h3, Res.ok_bind]; exact hE
        · intro i j hj
          rw [hE', Matrix.of_apply]
          split
          · rename_i h; subst h
            show toMat v i 0 - toMat C i 0 = _
            rw [hC']; rfl
          · rename_i h
            have : j.1 ≠ k := fun h' => h (Fin.ext h')
            exact hD i j (by omega))
    exact ⟨P, h1, represents_iff.mpr (by funext i j; exact h2 i j j.2)⟩
  · obtain ⟨P, h1, h2⟩ := matLoop (r := r) (c := c)
      (fun j i P => do
        let x ← v.get m i
        P.setAt m i j x) (fun i j x => toMat v i 0)
      (fun i j P => by rw [vec_get_lt m v i.2, Res.ok_bind]; exact setAt_fin m P i j _) (SmallMat.fill r c 0)
    exact ⟨P, h1, represents_iff.mpr h2⟩

/-- `diagonal(v)` has `v` on the diagonal and zero elsewhere. -/
theorem C07_diagonal (m : Mode) (v : K) :
    Returns (SmallMat.diagonal m r c v) (Matrix.of fun i j => if i.1 = j.1 then v else 0) := by
  obtain ⟨P, h1, h2, h3⟩ := setLoop1 (n := min r c) (fun i (M : SmallMat r c K) => M.setAt m i i v)
    (fun i => pos (i.castLE (Nat.min_le_left _ _)) (i.castLE (Nat.min_le_right _ _)))
    (fun i i' h => Fin.ext (congrArg Fin.val (pos_inj.mp h).1 : _)) (fun _ _ => v)
    (fun i M => setAt_lt m M (Nat.lt_of_lt_of_le i.2 (Nat.min_le_left _ _)) (Nat.lt_of_lt_of_le i.2 (Nat.min_le_right _ _)) v)
    (SmallMat.fill r c 0)
  refine ⟨P, h1, represents_iff.mpr ?_⟩
  funext i j
  rw [Matrix.of_apply]
  split
  · rename_i h
    have := h2 ⟨i.1, Nat.lt_min.mpr ⟨i.2, by rw [h]; exact j.2⟩⟩
    rw [show (⟨i.1, Nat.lt_min.mpr ⟨i.2, by rw [h]; exact j.2⟩⟩ : Fin (min r c)).castLE (Nat.min_le_right r c) = j from Fin.ext h] at this
    exact this
  · rename_i h
    exact h3 _ (fun k hk => h (by
      obtain ⟨ha, hb⟩ := pos_inj.mp hk
      rw [← ha, ← hb]; rfl))

/-- `diagonal(diag)` has the entries of `diag` on the diagonal, as far as they go, and zero elsewhere. -/
theorem C07_diagonal_vector {n : Nat} (m : Mode) (hn : n ≤ min r c) (diag : SmallVec n K) :
    Returns (SmallMat.diagonal_vec m r c diag)
      (Matrix.of fun i j => if h : i.1 = j.1 ∧ i.1 < n then toMat diag ⟨i.1, h.2⟩ 0 else 0) := by
  have hr := hn.trans (Nat.min_le_left r c)
  have hc := hn.trans (Nat.min_le_right r c)
  obtain ⟨P, h1, h2, h3⟩ := setLoop1 (n := n) (fun i (M : SmallMat r c K) => do
      let x ← diag.get m i
      M.setAt m i i x)
    (fun i => pos (i.castLE hr) (i.castLE hc))
    (fun i i' h => Fin.ext (congrArg Fin.val (pos_inj.mp h).1 : _)) (fun i _ => toMat diag i 0)
    (fun i M => by
      rw [vec_get_lt m diag i.2, Res.ok_bind]
      exact setAt_lt m M (Nat.lt_of_lt_of_le i.2 hr) (Nat.lt_of_lt_of_le i.2 hc) _)
    (SmallMat.fill r c 0)
  refine ⟨P, h1, represents_iff.mpr ?_⟩
  funext i j
  rw [Matrix.of_apply]
  split
  · rename_i h
    have := h2 ⟨i.1, h.2⟩
    rw [show (⟨i.1, h.2⟩ : Fin n).castLE hc = j from Fin.ext h.1] at this
    exact this
  · rename_i h
    exact h3 _ (fun k hk => h (by
      obtain ⟨ha, hb⟩ := pos_inj.mp hk
      have ha := congrArg Fin.val ha
      have hb := congrArg Fin.val hb
      have := k.2
      simp only [Fin.val_castLE] at ha hb
      omega))

/-- A vector of two entries in a 3 x 2 matrix. -/
example : Returns (SmallMat.diagonal_vec .debug 3 2 (fun i => if i.1 = 0 then 5 else 7 : SmallVec 2 ℚ)) !![5, 0; 0, 7; 0, 0] := by
  obtain ⟨M, h1, h2⟩ := C07_diagonal_vector (r := 3) (c := 2) .debug (by decide) (fun i => if i.1 = 0 then 5 else 7 : SmallVec 2 ℚ)
  refine ⟨M, h1, ?_⟩
  rw [represents_iff] at h2 ⊢
  rw [h2]
  decide +kernel

/-- The hypotheses are met by a non-trivial pair of matrices. -/
theorem C07_example : Returns (SmallMat.mul .debug (ofMat !![1, 2; 3, 4] : SmallMat 2 2 Int) (ofMat !![0, 1; 1, 1])) !![2, 3; 4, 7] := by
  have := C07_mul .debug (ofMat !![1, 2; 3, 4] : SmallMat 2 2 Int) (ofMat !![0, 1; 1, 1]) !![1, 2; 3, 4] !![0, 1; 1, 1]
    (represents_iff.mpr (toMat_ofMat _)) (represents_iff.mpr (toMat_ofMat _))
  have h : (!![1, 2; 3, 4] : Matrix (Fin 2) (Fin 2) Int) * !![0, 1; 1, 1] = !![2, 3; 4, 7] := by decide
  rwa [h] at this

end Products

/-! ## C08: comparison -/

section Order

theorem foldr_ne {S : Nat} [DecidableEq K] (a b : Fin S → K) (l : List (Fin S)) :
    l.foldr (fun i rest => if a i ≠ b i then true else rest) false = true ↔ ∃ i ∈ l, a i ≠ b i := by
  induction l with
  | nil => simp
  | cons x l ih =>
    rw [List.foldr_cons]
    by_cases h : a x ≠ b x
    · simp [h]
    · rw [if_neg h, ih]; simp only [List.mem_cons, exists_eq_or_imp, h, false_or]

theorem foldr_eq {S : Nat} [DecidableEq K] (a b : Fin S → K) (l : List (Fin S)) :
    l.foldr (fun i rest => if a i ≠ b i then false else rest) true = true ↔ ∀ i ∈ l, a i = b i := by
  induction l with
  | nil => simp
  | cons x l ih =>
    rw [List.foldr_cons]
    by_cases h : a x ≠ b x
    · simp [h]
    · rw [if_neg h, ih]; simp only [List.mem_cons, forall_eq_or_imp, not_not.mp h, true_and]

/-- `operator==` decides equality and `operator!=` is its negation. -/
theorem C08_equality [DecidableEq K] (a b : SmallMat r c K) :
    (a.eq b = true ↔ ∀ (i : Fin r) (j : Fin c), a.at' .debug i j = b.at' .debug i j) ∧ (a.eq b = true ↔ a = b) ∧
      a.ne b = !a.eq b := by
  have h : a.eq b = true ↔ a = b := by
    unfold SmallMat.eq
    rw [foldr_eq]
    exact ⟨fun h => funext fun i => h i (List.mem_finRange i), fun h i _ => congrFun h i⟩
  refine ⟨?_, h, ?_⟩
  · rw [h]
    constructor
    · rintro rfl i j; rfl
    · intro h
      apply toMat_inj
      funext i j
      have := h i j
      rw [at_fin, at_fin] at this
      exact Res.ok.inj this
  · have h' : a.ne b = true ↔ ¬ a = b := by
      unfold SmallMat.ne
      rw [foldr_ne, ← not_iff_not, not_not]
      push Not
      exact ⟨fun h => funext fun i => h i (List.mem_finRange i), fun h i _ => congrFun h i⟩
    by_cases hab : a = b
    · rw [h.mpr hab]
      rw [Bool.not_true]
      exact Bool.eq_false_iff.mpr (fun hh => h'.mp hh hab)
    · rw [h'.mpr hab, Bool.eq_false_iff.mpr (fun hh => hab (h.mp hh))]; rfl

theorem foldr_lt {S : Nat} [LinearOrder K] (a b : Fin S → K) (l : List (Fin S)) (hl : l.Pairwise (· < ·)) :
    l.foldr (fun i rest => if a i < b i then true else if a i > b i then false else rest) false = true ↔
      ∃ i ∈ l, a i < b i ∧ ∀ k ∈ l, k < i → a k = b k := by
  induction l with
  | nil => simp
  | cons x l ih =>
    rw [List.pairwise_cons] at hl
    obtain ⟨h1, h2⟩ := hl
    rw [List.foldr_cons]
    by_cases hlt : a x < b x
    · rw [if_pos hlt]
      simp only [true_iff]
      refine ⟨x, List.mem_cons_self, hlt, fun k hk hkx => ?_⟩
      rcases List.mem_cons.mp hk with rfl | hk
      · exact absurd hkx (lt_irrefl _)
      · exact absurd hkx (lt_asymm (h1 k hk))
    · rw [if_neg hlt]
      by_cases hgt : a x > b x
      · rw [if_pos hgt]
        simp only [Bool.false_eq_true, false_iff]
        rintro ⟨i, hi, hab, hk⟩
        rcases List.mem_cons.mp hi with rfl | hi
        · exact hlt hab
        · have := hk x List.mem_cons_self (h1 i hi)
          rw [this] at hgt; exact lt_irrefl _ hgt
      · rw [if_neg hgt, ih h2]
        have heq : a x = b x := le_antisymm (not_lt.mp hgt) (not_lt.mp hlt)
        constructor
        · rintro ⟨i, hi, hab, hk⟩
          refine ⟨i, List.mem_cons_of_mem _ hi, hab, fun k hkm hki => ?_⟩
          rcases List.mem_cons.mp hkm with rfl | hkm
          · exact heq
          · exact hk k hkm hki
        · rintro ⟨i, hi, hab, hk⟩
          rcases List.mem_cons.mp hi with rfl | hi
          · exact absurd hab hlt
          · exact ⟨i, hi, hab, fun k hkm hki => hk k (List.mem_cons_of_mem _ hkm) hki⟩

/-- `a < b` iff at the first position (in the storage order) where they differ, `a` has the smaller entry. -/
theorem C08_lexicographic [LinearOrder K] (a b : SmallMat r c K) :
    a.lt b = true ↔ ∃ i, a i < b i ∧ ∀ k, k < i → a k = b k := by
  unfold SmallMat.lt
  rw [foldr_lt a b _ (List.pairwise_lt_finRange _)]
  simp

/-- For column vectors (points), positions in the storage are the coordinates. -/
theorem C08_point_order [LinearOrder K] (a b : SmallVec r K) (x y : Fin r → K) (ha : Represents a (Matrix.of fun i _ => x i))
    (hb : Represents b (Matrix.of fun i _ => y i)) : a.lt b = true ↔ ∃ i, x i < y i ∧ ∀ k, k < i → x k = y k := by
  rw [represents_iff] at ha hb
  have hx : ∀ i : Fin r, a (pos i 0) = x i := fun i => congrFun (congrFun ha i) 0
  have hy : ∀ i : Fin r, b (pos i 0) = y i := fun i => congrFun (congrFun hb i) 0
  have hp : ∀ i k : Fin r, pos k (0 : Fin 1) < pos i 0 ↔ k < i := fun i k => by
    show (0 * r + k.1 < 0 * r + i.1) ↔ k.1 < i.1
    omega
  rw [C08_lexicographic]
  constructor
  · rintro ⟨q, hq, h⟩
    obtain ⟨i, j, rfl⟩ := pos_surj q
    rw [Fin.eq_zero j] at hq h
    refine ⟨i, by rw [← hx, ← hy]; exact hq, fun k hk => ?_⟩
    rw [← hx, ← hy]; exact h _ ((hp i k).mpr hk)
  · rintro ⟨i, hi, h⟩
    refine ⟨pos i 0, by rw [hx, hy]; exact hi, fun q hq => ?_⟩
    obtain ⟨k, j, rfl⟩ := pos_surj q
    rw [Fin.eq_zero j] at hq ⊢
    rw [hx, hy]; exact h k ((hp i k).mp hq)

/-- `operator<` is a strict total order consistent with `operator==`. -/
theorem C08_strict_total_order [LinearOrder K] (a b d : SmallMat r c K) :
    a.lt a = false ∧
    (a.lt b = true → b.lt d = true → a.lt d = true) ∧
    ((a.lt b = true ∧ a.eq b = false ∧ b.lt a = false) ∨ (a.lt b = false ∧ a.eq b = true ∧ b.lt a = false) ∨
      (a.lt b = false ∧ a.eq b = false ∧ b.lt a = true)) := by
  have irr : ∀ a : SmallMat r c K, ¬ a.lt a = true := fun a h => by
    obtain ⟨i, hi, -⟩ := (C08_lexicographic a a).mp h
    exact lt_irrefl _ hi
  have tr : ∀ a b d : SmallMat r c K, a.lt b = true → b.lt d = true → a.lt d = true := fun a b d h1 h2 => by
    obtain ⟨i, hi, hi'⟩ := (C08_lexicographic a b).mp h1
    obtain ⟨j, hj, hj'⟩ := (C08_lexicographic b d).mp h2
    refine (C08_lexicographic a d).mpr ?_
    rcases lt_trichotomy i j with h | h | h
    · exact ⟨i, by rw [← hj' i h]; exact hi, fun k hk => (hi' k hk).trans (hj' k (lt_trans hk h))⟩
    · subst h; exact ⟨i, lt_trans hi hj, fun k hk => (hi' k hk).trans (hj' k hk)⟩
    · exact ⟨j, by rw [hi' j h]; exact hj, fun k hk => (hi' k (lt_trans hk h)).trans (hj' k hk)⟩
  have eqv := (C08_equality a b).2.1
  refine ⟨Bool.eq_false_iff.mpr (irr a), tr a b d, ?_⟩
  by_cases hab : a = b
  · subst hab
    exact Or.inr (Or.inl ⟨Bool.eq_false_iff.mpr (irr a), eqv.mpr rfl, Bool.eq_false_iff.mpr (irr a)⟩)
  · have he : a.eq b = false := Bool.eq_false_iff.mpr (fun h => hab (eqv.mp h))
    have hex : ∃ k, ∃ i : Fin (r * c), i.1 = k ∧ a i ≠ b i := by
      by_contra hcon
      exact hab (funext fun i => by_contra fun hne => hcon ⟨i.1, i, rfl, hne⟩)
    classical
    obtain ⟨i, hi, hne⟩ := Nat.find_spec hex
    have hmin : ∀ k, k < i → a k = b k := fun k hk => by_contra fun hc =>
      Nat.find_min hex (show k.1 < Nat.find hex by rw [← hi]; exact hk) ⟨k, rfl, hc⟩
    rcases lt_or_gt_of_ne hne with h | h
    · have h1 : a.lt b = true := (C08_lexicographic a b).mpr ⟨i, h, hmin⟩
      exact Or.inl ⟨h1, he, Bool.eq_false_iff.mpr (fun h2 => irr a (tr a b a h1 h2))⟩
    · have h1 : b.lt a = true := (C08_lexicographic b a).mpr ⟨i, h, fun k hk => (hmin k hk).symm⟩
      exact Or.inr (Or.inr ⟨Bool.eq_false_iff.mpr (fun h2 => irr a (tr a b a h2 h1)), he, h1⟩)

/-- A concrete pair: the points `(1, 2)` and `(1, 3)`. -/
theorem C08_example : SmallMat.lt (vec2 1 2 : SmallVec 2 Int) (vec2 1 3 : SmallVec 2 Int) = true ∧ SmallMat.lt (vec2 1 3 : SmallVec 2 Int) (vec2 1 2 : SmallVec 2 Int) = false := by
  decide

end Order

/-! ## C09: division -/

section Division

variable [Field K] [DecidableEq K]

/-- Division by a scalar throws iff the scalar is zero and else divides each entry. -/
theorem C09_div_scalar (M : SmallMat r c K) (A : Matrix (Fin r) (Fin c) K) (hM : Represents M A) (s : K) :
    (s = 0 → M.div_scalar s = .throw .smallMatDivByZero) ∧ (s ≠ 0 → Returns (M.div_scalar s) (Matrix.of fun i j => A i j / s)) := by
  rw [represents_iff] at hM; subst hM
  constructor
  · intro h; simp [SmallMat.div_scalar, h]
  · intro h
    refine ⟨fun i => M i / s, ?_, represents_iff.mpr rfl⟩
    unfold SmallMat.div_scalar
    rw [if_neg h]
    exact arrLoop (fun i x => x / s) M

theorem C09_div_scalar_iff (M : SmallMat r c K) (s : K) : M.div_scalar s = .throw .smallMatDivByZero ↔ s = 0 := by
  constructor
  · intro h
    by_contra hs
    obtain ⟨N, hN, -⟩ := (C09_div_scalar M (toMat M) (represents_iff.mpr rfl) s).2 hs
    rw [h] at hN; cases hN
  · exact (C09_div_scalar M (toMat M) (represents_iff.mpr rfl) s).1

/-- Entrywise division throws iff some entry of the divisor is zero, else it divides entry by entry. -/
theorem C09_hada_divi (M N : SmallMat r c K) (A B : Matrix (Fin r) (Fin c) K) (hM : Represents M A) (hN : Represents N B) :
    ((∃ i j, B i j = 0) → M.hada_divi N = .throw .smallMatDivByZero) ∧
    ((∀ i j, B i j ≠ 0) → Returns (M.hada_divi N) (Matrix.of fun i j => A i j / B i j)) := by
  rw [represents_iff] at hM hN; subst hM; subst hN
  constructor
  · rintro ⟨i, j, h⟩
    exact arrLoop_throw (fun i => N i = 0) .smallMatDivByZero (fun i M => M i / N i) (r * c) id M ⟨pos i j, h⟩
  · intro h
    have h' : ∀ k, N k ≠ 0 := fun k => by obtain ⟨i, j, rfl⟩ := pos_surj k; exact h i j
    refine ⟨fun i => M i / N i, ?_, represents_iff.mpr rfl⟩
    unfold SmallMat.hada_divi
    simp only [h', if_false]
    exact arrLoop (fun i x => x / N i) M

/-- `scalar / mat` throws iff some entry of the matrix is zero, else it divides the scalar by each entry. -/
theorem C09_scalar_div (s : K) (M : SmallMat r c K) (A : Matrix (Fin r) (Fin c) K) (hM : Represents M A) :
    ((∃ i j, A i j = 0) → SmallMat.scalar_div s M = .throw .smallMatDivByZero) ∧
    ((∀ i j, A i j ≠ 0) → Returns (SmallMat.scalar_div s M) (Matrix.of fun i j => s / A i j)) := by
  rw [represents_iff] at hM; subst hM
  constructor
  · rintro ⟨i, j, h⟩
    exact arrLoop_throw (fun i => M i = 0) .smallMatDivByZero (fun i _ => s / M i) (r * c) id M ⟨pos i j, h⟩
  · intro h
    have h' : ∀ k, M k ≠ 0 := fun k => by obtain ⟨i, j, rfl⟩ := pos_surj k; exact h i j
    refine ⟨fun i => s / M i, ?_, represents_iff.mpr rfl⟩
    unfold SmallMat.scalar_div
    simp only [h', if_false]
    exact arrLoop (fun i _ => s / M i) M

theorem C09_example : SmallMat.hada_divi (vec2 6 8 : SmallVec 2 ℚ) (vec2 2 4 : SmallVec 2 ℚ) = .ok (vec2 3 2) ∧
    SmallMat.hada_divi (vec2 6 8 : SmallVec 2 ℚ) (vec2 2 0 : SmallVec 2 ℚ) = .throw .smallMatDivByZero := by
  constructor
  · obtain ⟨N, h, hN⟩ := (C09_hada_divi (vec2 6 8 : SmallVec 2 ℚ) (vec2 2 4 : SmallVec 2 ℚ) _ _ (represents_iff.mpr rfl) (represents_iff.mpr rfl)).2
      (by intro i j; fin_cases j; fin_cases i <;> simp [toMat, pos, vec2])
    rw [h]
    refine congrArg _ (toMat_inj ((represents_iff.mp hN).trans ?_))
    funext i j
    fin_cases j; fin_cases i <;> simp [toMat, pos, vec2] <;> norm_num
  · exact (C09_hada_divi (vec2 6 8 : SmallVec 2 ℚ) (vec2 2 0 : SmallVec 2 ℚ) _ _ (represents_iff.mpr rfl) (represents_iff.mpr rfl)).1
      ⟨1, 0, by simp [toMat, pos, vec2]⟩

end Division

/-! ## C43: norms -/

section Norms

variable [Field K] [LinearOrder K] [IsStrictOrderedRing K]

/-- The loop which keeps the maximum of values `w i`. -/
theorem maxLoop (n : Nat) (f : Nat → K → Res K) (w : Fin n → K)
    (hf : ∀ (i : Fin n) s, f i s = .ok (if w i > s then w i else s)) (s0 : K) :
    ∃ v, forUp n (fun i s => f i s) s0 = .ok v ∧ s0 ≤ v ∧ (∀ i, w i ≤ v) ∧ (v = s0 ∨ ∃ i, v = w i) := by
  induction n with
  | zero => exact ⟨s0, rfl, le_refl _, fun i => i.elim0, Or.inl rfl⟩
  | succ n ih =>
    obtain ⟨v, h1, h2, h3, h4⟩ := ih (fun i => w i.castSucc) (fun i s => hf i.castSucc s)
    refine ⟨_, by rw [forUp_succ, h1, Res.ok_bind]; exact hf (Fin.last n) v, ?_, ?_, ?_⟩
    · split
      · rename_i h; exact le_trans h2 (le_of_lt h)
      · exact h2
    · intro i
      rcases Fin.eq_castSucc_or_eq_last i with ⟨j, rfl⟩ | rfl
      · split
        · rename_i h; exact le_trans (h3 j) (le_of_lt h)
        · exact h3 j
      · split
        · exact le_refl _
        · rename_i h; exact not_lt.mp h
    · split
      · exact Or.inr ⟨Fin.last n, rfl⟩
      · rcases h4 with h | ⟨i, h⟩
        · exact Or.inl h
        · exact Or.inr ⟨i.castSucc, h⟩

/-- `norm_1` of a matrix is the maximal absolute column sum, `norm_infty` the maximal absolute row sum (0 for an empty matrix). -/
theorem C43_matrix_norms (m : Mode) (M : SmallMat r c K) (A : Matrix (Fin r) (Fin c) K) (hM : Represents M A) :
    (∃ v, M.norm_1 (fun x => |x|) m = .ok v ∧ (∀ j, ∑ i, |A i j| ≤ v) ∧ ((c = 0 ∧ v = 0) ∨ ∃ j, v = ∑ i, |A i j|)) ∧
    (∃ v, M.norm_infty (fun x => |x|) m = .ok v ∧ (∀ i, ∑ j, |A i j| ≤ v) ∧ ((r = 0 ∧ v = 0) ∨ ∃ i, v = ∑ j, |A i j|)) := by
  rw [represents_iff] at hM; subst hM
  constructor
  · have hcol : ∀ j : Fin c, forUp r (fun row norm => do
        let x ← M.at' m row j
        return norm + |x|) 0 = .ok (∑ i, |toMat M i j|) := fun j => by
      have := sumLoop r (fun row norm => do
        let x ← M.at' m row j
        return norm + |x|) (fun i => |toMat M i j|) (fun i s => by rw [at_fin]; rfl) 0
      rwa [zero_add] at this
    obtain ⟨v, h1, h2, h3, h4⟩ := maxLoop c (fun col max_norms => do
      let norm ← forUp r (fun row norm => do
        let x ← M.at' m row col
        return norm + |x|) 0
      return if norm > max_norms then norm else max_norms) (fun j => ∑ i, |toMat M i j|)
      (fun j s => by rw [hcol j]; rfl) 0
    refine ⟨v, h1, h3, ?_⟩
    rcases Nat.eq_zero_or_pos c with hc | hc
    · rcases h4 with h | ⟨j, h⟩
      · exact Or.inl ⟨hc, h⟩
      · exact Or.inr ⟨j, h⟩
    · rcases h4 with h | h
      · refine Or.inr ⟨⟨0, hc⟩, le_antisymm ?_ (h3 _)⟩
        rw [h]; exact Finset.sum_nonneg fun _ _ => abs_nonneg _
      · exact Or.inr h
  · have hrow : ∀ i : Fin r, forUp c (fun col norm => do
        let x ← M.at' m i col
        return norm + |x|) 0 = .ok (∑ j, |toMat M i j|) := fun i => by
      have := sumLoop c (fun col norm => do
        let x ← M.at' m i col
        return norm + |x|) (fun j => |toMat M i j|) (fun i s => by rw [at_fin]; rfl) 0
      rwa [zero_add] at this
    obtain ⟨v, h1, h2, h3, h4⟩ := maxLoop r (fun row max_norms => do
      let norm ← forUp c (fun col norm => do
        let x ← M.at' m row col
        return norm + |x|) 0
      return if norm > max_norms then norm else max_norms) (fun i => ∑ j, |toMat M i j|)
      (fun i s => by rw [hrow i]; rfl) 0
    refine ⟨v, h1, h3, ?_⟩
    rcases Nat.eq_zero_or_pos r with hc | hc
    · rcases h4 with h | ⟨j, h⟩
      · exact Or.inl ⟨hc, h⟩
      · exact Or.inr ⟨j, h⟩
    · rcases h4 with h | h
      · refine Or.inr ⟨⟨0, hc⟩, le_antisymm ?_ (h3 _)⟩
        rw [h]; exact Finset.sum_nonneg fun _ _ => abs_nonneg _
      · exact Or.inr h

/-- Vectors: `norm_1` is the sum of absolute values, `norm_infty` their maximum, `norm_2` the root of the sum of squares. -/
theorem C43_vector_norms (m : Mode) (v : SmallVec (r + 1) K) (x : Fin (r + 1) → K) (hv : Represents v (Matrix.of fun i _ => x i))
    (sqrt : K → K) :
    SmallMat.norm_1_vec (fun x => |x|) m v = .ok (∑ i, |x i|) ∧
    (∃ y, SmallMat.norm_infty_vec (fun x => |x|) m v = .ok y ∧ (∀ i, |x i| ≤ y) ∧ ∃ i, y = |x i|) ∧
    SmallMat.norm_2 sqrt m v = .ok (sqrt (∑ i, x i * x i)) := by
  have hv' := hv
  rw [represents_iff] at hv
  have hx : ∀ i : Fin (r + 1), v.get m i = .ok (x i) := fun i => by
    rw [vec_get_lt m v i.2]
    show Res.ok (toMat v i 0) = _
    rw [hv]; rfl
  refine ⟨?_, ?_, ?_⟩
  · have := sumLoop (r + 1) (fun i norm => do
      let x ← v.get m i
      return norm + |x|) (fun i => |x i|) (fun i s => by rw [hx]; rfl) 0
    rw [zero_add] at this
    exact this
  · obtain ⟨y, h1, h2, h3, h4⟩ := maxLoop r (fun i norm => do
      let x ← v.get m (i + 1)
      return if norm < |x| then |x| else norm) (fun i => |x i.succ|)
      (fun i s => by
        have := hx i.succ
        rw [Fin.val_succ] at this
        rw [this]; rfl) |x 0|
    refine ⟨y, ?_, ?_, ?_⟩
    · unfold SmallMat.norm_infty_vec
      have := hx 0
      rw [Fin.val_zero] at this
      rw [this, Res.ok_bind]; exact h1
    · intro i
      refine Fin.cases h2 (fun j => h3 j) i
    · rcases h4 with h | ⟨i, h⟩
      · exact ⟨0, h⟩
      · exact ⟨i.succ, h⟩
  · unfold SmallMat.norm_2
    rw [C07_scalar_product m v v _ _ hv' hv', Res.ok_bind]
    simp

/-- The product of all entries. -/
theorem C43_entries_product (m : Mode) (M : SmallMat r c K) (A : Matrix (Fin r) (Fin c) K) (hM : Represents M A) :
    M.entries_product m = .ok (∏ i, ∏ j, A i j) := by
  rw [represents_iff] at hM; subst hM
  have := prodLoop (r * c) (fun i p => do
    let x ← M.get m i
    return p * x) M (fun i s => by rw [get_fin]; rfl) 1
  rw [one_mul, prod_entries] at this
  exact this

theorem C43_example : ∃ v, SmallMat.norm_1 (fun x => |x|) .debug (ofMat !![1, -2; 3, 4] : SmallMat 2 2 ℚ) = .ok v ∧ v = 6 := by
  obtain ⟨v, h1, h2, h3⟩ := (C43_matrix_norms .debug (ofMat !![1, -2; 3, 4] : SmallMat 2 2 ℚ) _ (represents_iff.mpr (toMat_ofMat _))).1
  refine ⟨v, h1, ?_⟩
  have ha := h2 1
  rcases h3 with h | ⟨j, h⟩
  · exact absurd h.1 (by decide)
  · fin_cases j
    · simp [Fin.sum_univ_two] at h ha; rw [h] at ha; norm_num [abs_of_pos, abs_of_neg] at ha
    · simp [Fin.sum_univ_two] at h; rw [h]; norm_num [abs_of_pos]

end Norms

end HyperHDG

import Verif.Spec.FileGeometry
import Verif.Spec.Refinement
import Verif.Props.DenseLA
import Verif.Props.Lapack
import Verif.Proofs.UnitCubeEdge
import Mathlib.Tactic.Linarith
import Mathlib.Tactic.FieldSimp
import Mathlib.LinearAlgebra.Matrix.Adjugate
import Mathlib.LinearAlgebra.Matrix.Nondegenerate
import Mathlib.LinearAlgebra.Matrix.ToLinearEquiv

/-!
# Lemmas about `Mapping::Linear` and `Geometry::File`
-/

namespace HyperHDG

open Matrix

variable {d s n : Nat} {K : Type}

namespace Mapping.Linear

theorem otherColumns_spec {r : Nat} [Field K] [LinearOrder K] (m : Mode) (M : SmallMat r (d + 1) K) (index : Fin (d + 1)) :
    ∃ N, otherColumns m M index = .ok N ∧ toMat N = (toMat M).submatrix id index.succAbove := by
  obtain ⟨N, h1, h2⟩ := forUp_inv (d + 1) (fun i (mat : SmallMat r d K) =>
    if i ≠ index then do
      let col ← M.get_column m i
      mat.set_column m (i - (if i > index then 1 else 0)) col
    else .ok mat) (SmallMat.fill r d 0)
    (fun k N => ∀ (i : Fin r) (b : Fin d), (index.succAbove b).1 < k → toMat N i b = toMat M i (index.succAbove b))
    (fun i b h => by omega)
    (fun k hk N hN => by
      by_cases hki : k = index
      · refine ⟨N, by simp [hki], fun i b hb => hN i b ?_⟩
        have : (index.succAbove b).1 ≠ index := fun h => Fin.succAbove_ne index b (Fin.ext h)
        omega
      · obtain ⟨b0, hb0⟩ := Fin.exists_succAbove_eq (x := ⟨k, hk⟩) (y := index) (fun h => hki (congrArg Fin.val h))
        have hcol : k - (if k > index then 1 else 0) = b0.1 := by
          have := congrArg Fin.val hb0
          simp only [Fin.succAbove, Fin.lt_def, Fin.val_castSucc] at this
          split at this
          · simp at this; split <;> omega
          · simp at this; split <;> omega
        obtain ⟨col, c1, c2⟩ := C06_get_column m M _ (represents_iff.mpr rfl) ⟨k, hk⟩
        obtain ⟨N', n1, n2⟩ := C06_set_column m N _ (represents_iff.mpr rfl) b0 col _ c2
        refine ⟨N', ?_, fun i b hb => ?_⟩
        · have c1' : M.get_column m k = .ok col := c1
          simp only [ne_eq, hki, not_false_eq_true, if_true, c1', Res.ok_bind, hcol, n1]
        · rw [represents_iff.mp n2]
          simp only [Matrix.of_apply]
          by_cases hbb : b = b0
          · subst hbb
            rw [if_pos rfl, hb0]
          · rw [if_neg hbb]
            refine hN i b ?_
            have : (index.succAbove b).1 ≠ k := fun h => hbb (Fin.succAbove_right_injective (p := index) (by rw [hb0]; exact Fin.ext h))
            omega)
  refine ⟨N, h1, ?_⟩
  ext i b
  exact h2 i b (index.succAbove b).2

variable [Field K] [LinearOrder K] [IsStrictOrderedRing K]

/-- The data of a mapping: the decomposition of its matrix. -/
structure Good (L : Linear d s K) : Prop where
  orth : toMat L.matrix_q * (toMat L.matrix_q).transpose = 1
  orth' : (toMat L.matrix_q).transpose * toMat L.matrix_q = 1
  factor : toMat L.matrix_q * padRows (toMat L.matrix_r) = toMat L.matrix
  upper : ∀ i j, j < i → toMat L.matrix_r i j = 0
  diag : ∀ i : Fin (d + 1), 0 < i.1 → 0 ≤ toMat L.matrix_r i i

theorem make_spec (m : Mode) (geqr2 : Geqr2All K) (hg : Geqr2Spec geqr2) (hs : d + 1 ≤ s) (hb : QrInBounds d s)
    (translation : SmallVec s K) (matrix : SmallMat s (d + 1) K) :
    ∃ L : Linear d s K, make m geqr2 translation matrix = .ok L ∧ L.translation = translation ∧ L.matrix = matrix ∧ Good L := by
  obtain ⟨F, f, tau, g1, g2, g3⟩ := hg s (d + 1) matrix _ (represents_iff.mpr rfl) hs
  obtain ⟨res, q, R, r1, r2, r3, r4, r5, r6, r7, r8⟩ := C13_qr_decomp_partial m (geqr2 s (d + 1)) matrix (SmallMat.fill (d + 1) (d + 1) 0)
    F tau _ f (represents_iff.mpr rfl) g2 g1 g3 (Nat.succ_pos d) hs hb (Or.inl rfl)
  rw [represents_iff] at r2 r3
  subst r2; subst r3
  refine ⟨⟨translation, matrix, res.mat_q, res.mat_r⟩, ?_, rfl, rfl, r4, r5, r6, r7, r8⟩
  simp [make, r1]

omit [LinearOrder K] [IsStrictOrderedRing K] in
theorem padRows_gram {r c : Nat} (h : c ≤ r) (R : Matrix (Fin c) (Fin c) K) :
    (padRows R : Matrix (Fin r) (Fin c) K).transpose * padRows R = R.transpose * R := by
  ext i j
  simp only [Matrix.mul_apply, Matrix.transpose_apply, padRows, Matrix.of_apply]
  obtain ⟨k, rfl⟩ := Nat.exists_eq_add_of_le h
  rw [Fin.sum_univ_add]
  have : ∑ x : Fin k, (if h : (Fin.natAdd c x).1 < c then R ⟨(Fin.natAdd c x).1, h⟩ i else 0) *
      (if h : (Fin.natAdd c x).1 < c then R ⟨(Fin.natAdd c x).1, h⟩ j else 0) = 0 :=
    Finset.sum_eq_zero (fun x _ => by rw [dif_neg (by simp), zero_mul])
  rw [this, add_zero]
  refine Finset.sum_congr rfl (fun x _ => ?_)
  rw [dif_pos (by simp), dif_pos (by simp)]
  rfl

omit [IsStrictOrderedRing K] in
theorem Good.gram {L : Linear d s K} (h : Good L) (hs : d + 1 ≤ s) :
    (toMat L.matrix).transpose * toMat L.matrix = (toMat L.matrix_r).transpose * toMat L.matrix_r := by
  rw [← h.factor, Matrix.transpose_mul, Matrix.mul_assoc, ← Matrix.mul_assoc _ (toMat L.matrix_q), h.orth', Matrix.one_mul, padRows_gram hs]

omit [IsStrictOrderedRing K] in
theorem Good.columns {L : Linear d s K} (h : Good L) (k : Fin s) (b : Fin (d + 1)) :
    ∑ i, toMat L.matrix_q i k * toMat L.matrix i b = (padRows (toMat L.matrix_r) : Matrix (Fin s) (Fin (d + 1)) K) k b := by
  have : (toMat L.matrix_q).transpose * toMat L.matrix = padRows (toMat L.matrix_r) := by
    rw [← h.factor, ← Matrix.mul_assoc, h.orth', Matrix.one_mul]
  rw [← this]
  rfl

omit [IsStrictOrderedRing K] in
theorem Good.det {L : Linear d s K} (h : Good L) : (toMat L.matrix_r).det = ∏ i, toMat L.matrix_r i i :=
  Matrix.det_of_isUpperTriangular (fun i j hij => h.upper i j hij)

omit [IsStrictOrderedRing K] in
theorem functional_determinant_hyEdge_spec (m : Mode) {L : Linear d s K} (h : Good L) :
    L.functional_determinant_hyEdge m = .ok (toMat L.matrix_r).det := by
  rw [h.det]
  unfold functional_determinant_hyEdge
  rw [prodLoop (d + 1) _ (fun i => toMat L.matrix_r i i) (fun i x => by rw [at_fin]; rfl), one_mul]

theorem functional_determinant_hyNode_spec (m : Mode) (geqr2 : Geqr2All K) (hg : Geqr2Spec geqr2) (hs : d + 1 ≤ s) (L : Linear d s K)
    (index : Fin (d + 1)) :
    ∃ x, L.functional_determinant_hyNode m geqr2 index = .ok x ∧ x * x = gramDet ((toMat L.matrix).submatrix id index.succAbove) := by
  unfold functional_determinant_hyNode
  by_cases hd : d + 1 = 1
  · have : d = 0 := by omega
    subst this
    refine ⟨1, by simp, ?_⟩
    unfold gramDet
    rw [Matrix.det_isEmpty, one_mul]
  · obtain ⟨N, n1, n2⟩ := otherColumns_spec m L.matrix index
    obtain ⟨F, f, tau, g1, g2, g3⟩ := hg s d N _ (represents_iff.mpr rfl) (by omega)
    obtain ⟨x, x1, x2⟩ := C14_gram (geqr2 s d) N F tau _ f (represents_iff.mpr rfl) g2 g1 g3 (by omega)
    refine ⟨x, ?_, ?_⟩
    · rw [if_neg hd, n1, Res.ok_bind, x1]
    · rw [x2, n2]; rfl

omit [LinearOrder K] [IsStrictOrderedRing K] in
theorem map_spec {n_vec : Nat} (m : Mode) (L : Linear d s K) (X : SmallMat (d + 1) n_vec K) :
    ∃ Y, L.map_reference_to_physical m X = .ok Y ∧
      toMat Y = Matrix.of fun i j => (toMat L.matrix * toMat X) i j + toMat L.translation i 0 := by
  obtain ⟨P, p1, p2⟩ := C07_mul m L.matrix X _ _ (represents_iff.mpr rfl) (represents_iff.mpr rfl)
  obtain ⟨Y, y1, y2⟩ := (C07_entrywise m P P L.translation _ _ _ 0 p2 p2 (represents_iff.mpr rfl)).2.2.2.2.2.2.2.1
  refine ⟨Y, ?_, ?_⟩
  · unfold map_reference_to_physical
    rw [p1, Res.ok_bind, y1]
  · rw [represents_iff.mp y2]

/-- The unit normal of the face across direction `index` which points to the side opposite to column `index`. -/
structure IsNormal {k : Nat} (R : Matrix (Fin k) (Fin k) K) (index : Fin k) (v : Fin k → K) : Prop where
  unit : ∑ i, v i * v i = 1
  orth : ∀ b, b ≠ index → ∑ i, v i * R i b = 0
  neg : ∑ i, v i * R i index < 0

theorem local_normal_spec (m : Mode) (geqr2 : Geqr2All K) (hg : Geqr2Spec geqr2) (L : Linear d s K) (hR : IsUnit (toMat L.matrix_r))
    (index : Fin (d + 1)) :
    ∃ N, L.local_normal m geqr2 index = .ok N ∧ IsNormal (toMat L.matrix_r) index (fun i => toMat N i 0) := by
  have hne : ∀ v : Fin (d + 1) → K, (∀ b, ∑ i, v i * toMat L.matrix_r i b = 0) → v = 0 := fun v hv =>
    Matrix.eq_zero_of_vecMul_eq_zero ((Matrix.isUnit_iff_isUnit_det _).mp hR).ne_zero (funext hv)
  unfold local_normal
  rw [hyAssert_of index.2, Res.ok_bind]
  by_cases hd : d + 1 = 1
  · have : d = 0 := by omega
    subst this
    have hss : Subsingleton (Fin (0 + 1)) := inferInstanceAs (Subsingleton (Fin 1))
    have hi : index = 0 := Subsingleton.elim _ _
    subst hi
    have h0 : toMat L.matrix_r 0 0 ≠ 0 := fun h => by
      have := hne (fun _ => 1) (fun b => by
        have hb : b = 0 := Subsingleton.elim _ _
        subst hb
        simpa using h)
      exact one_ne_zero (congrFun this 0)
    rw [if_pos hd, at_lt m L.matrix_r (i := 0) (j := 0) (by decide) (by decide), Res.ok_bind]
    have hf : ∀ (x : K) (i : Fin (0 + 1)), toMat (SmallMat.fill (0 + 1) 1 x) i 0 = x := fun _ _ => rfl
    by_cases hp : toMat L.matrix_r 0 0 > 0
    · refine ⟨SmallMat.fill (0 + 1) 1 (-1), by simp [hp], ?_, fun b hb => absurd (Subsingleton.elim _ _) hb, ?_⟩
      · rw [Fintype.sum_subsingleton _ (0 : Fin (0 + 1)), hf]; ring
      · rw [Fintype.sum_subsingleton _ (0 : Fin (0 + 1)), hf]; linarith
    · have := lt_of_le_of_ne (not_lt.mp hp) h0
      refine ⟨SmallMat.fill (0 + 1) 1 1, by simp [hp], ?_, fun b hb => absurd (Subsingleton.elim _ _) hb, ?_⟩
      · rw [Fintype.sum_subsingleton _ (0 : Fin (0 + 1)), hf]; ring
      · rw [Fintype.sum_subsingleton _ (0 : Fin (0 + 1)), hf]; linarith
  · rw [if_neg hd]
    obtain ⟨O, o1, o2⟩ := otherColumns_spec m L.matrix_r index
    obtain ⟨F, f, tau, g1, g2, g3⟩ := hg (d + 1) d O _ (represents_iff.mpr rfl) (by omega)
    obtain ⟨Q, q, q1, q2, q3, q4⟩ := C13_qr_decomp_q m (geqr2 (d + 1) d) O F tau _ f (represents_iff.mpr rfl) g2 g1 g3
    obtain ⟨N, n1, n2⟩ := C06_get_column m Q q q2 (Fin.last d)
    have n1' : Q.get_column m (d + 1 - 1) = .ok N := n1
    obtain ⟨C, c1, c2⟩ := C06_get_column m L.matrix_r _ (represents_iff.mpr rfl) index
    have hsp := C07_scalar_product m N C _ _ n2 c2
    simp only [Fin.sum_univ_one, Matrix.of_apply] at hsp
    have hN : ∀ i, toMat N i 0 = q i (Fin.last d) := fun i => by rw [represents_iff.mp n2]; rfl
    have hunit : ∑ i, q i (Fin.last d) * q i (Fin.last d) = 1 := by
      have q3' : q.transpose * q = 1 := mul_eq_one_comm.mp q3
      have := congrFun (congrFun q3' (Fin.last d)) (Fin.last d)
      simpa [Matrix.mul_apply] using this
    have horth : ∀ b, b ≠ index → ∑ i, q i (Fin.last d) * toMat L.matrix_r i b = 0 := fun b hb => by
      obtain ⟨b0, rfl⟩ := Fin.exists_succAbove_eq hb
      have := q4 (Fin.last d) b0 b0.2
      rw [o2] at this
      simpa [Matrix.mul_apply] using this
    have hs0 : ∑ i, q i (Fin.last d) * toMat L.matrix_r i index ≠ 0 := fun h => by
      have := hne (fun i => q i (Fin.last d)) (fun b => by
        by_cases hb : b = index
        · subst hb; exact h
        · exact horth b hb)
      have h0 : ∀ i, q i (Fin.last d) = 0 := fun i => congrFun this i
      simp [h0] at hunit
    rw [o1, Res.ok_bind, q1, Res.ok_bind, n1', Res.ok_bind, c1, Res.ok_bind, hsp, Res.ok_bind, hyAssert_of hs0, Res.ok_bind]
    by_cases hp : ∑ i, q i (Fin.last d) * toMat L.matrix_r i index > 0
    · obtain ⟨N', m1, m2⟩ := (C07_entrywise m N N N _ _ _ (-1) n2 n2 n2).2.2.2.1
      have hN' : ∀ i, toMat N' i 0 = - q i (Fin.last d) := fun i => by rw [represents_iff.mp m2]; simp
      refine ⟨N', by rw [if_pos hp, m1], ?_, fun b hb => ?_, ?_⟩
      · simp only [hN', neg_mul_neg]; exact hunit
      · simp only [hN', neg_mul, Finset.sum_neg_distrib, horth b hb, neg_zero]
      · simp only [hN', neg_mul, Finset.sum_neg_distrib]
        exact neg_neg_of_pos hp
    · refine ⟨N, by rw [if_neg hp]; rfl, ?_, fun b hb => ?_, ?_⟩
      · simp only [hN]; exact hunit
      · simp only [hN]; exact horth b hb
      · simp only [hN]; exact lt_of_le_of_ne (not_lt.mp hp) hs0

omit [IsStrictOrderedRing K] in
/-- The row of the inverse matrix is the normal, scaled. -/
theorem IsNormal.inverse {k : Nat} {R : Matrix (Fin k) (Fin k) K} (hR : IsUnit R.det) {a : Fin k} {v : Fin k → K} (h : IsNormal R a v) (i : Fin k) :
    v i = (∑ j, v j * R j a) * R⁻¹ a i := by
  have h1 : Matrix.vecMul v R = Pi.single a (∑ j, v j * R j a) := by
    funext b
    by_cases hb : b = a
    · subst hb; rw [Pi.single_eq_same]; rfl
    · rw [Pi.single_eq_of_ne hb]; exact h.orth b hb
  have h2 : v = Matrix.vecMul (Matrix.vecMul v R) R⁻¹ := by
    rw [Matrix.vecMul_vecMul, Matrix.mul_nonsing_inv _ hR, Matrix.vecMul_one]
  have h3 := congrFun h2 i
  rw [h1, Matrix.single_vecMul] at h3
  simpa using h3

omit [LinearOrder K] [IsStrictOrderedRing K] in
theorem gram_minor {k : Nat} (R : Matrix (Fin (k + 1)) (Fin (k + 1)) K) (hR : IsUnit R.det) (a : Fin (k + 1)) {r : Nat} (M : Matrix (Fin r) (Fin (k + 1)) K)
    (hM : M.transpose * M = R.transpose * R) :
    gramDet (M.submatrix id a.succAbove) = R.det * R.det * ∑ i, R⁻¹ a i * R⁻¹ a i := by
  have h1 : gramDet (M.submatrix id a.succAbove) = ((R.transpose * R).submatrix a.succAbove a.succAbove).det := by
    unfold gramDet
    rw [← hM]
    congr 1
  have h2 : (R.transpose * R).adjugate a a = ((R.transpose * R).submatrix a.succAbove a.succAbove).det := by
    rw [Matrix.adjugate_fin_succ_eq_det_submatrix]
    rw [← two_mul, pow_mul]
    simp
  have hG : IsUnit (R.transpose * R).det := by
    rw [Matrix.det_mul, Matrix.det_transpose]; exact hR.mul hR
  have h3 : (R.transpose * R).adjugate = (R.det * R.det) • (R⁻¹ * R⁻¹.transpose) := by
    have : (R.transpose * R)⁻¹ = R⁻¹ * R⁻¹.transpose := by
      rw [Matrix.mul_inv_rev, Matrix.transpose_nonsing_inv]
    rw [← this, Matrix.inv_def, smul_smul, Matrix.det_mul, Matrix.det_transpose, Ring.mul_inverse_cancel _ (hR.mul hR), one_smul]
  rw [h1, ← h2, h3, Matrix.smul_apply, Matrix.mul_apply, smul_eq_mul]
  rfl

/-- The area vector of a face (in the direction out of the face `x_a = 1`) is a row of the cofactor matrix. -/
theorem piola_core {k : Nat} {R : Matrix (Fin (k + 1)) (Fin (k + 1)) K} (hR : IsUnit R.det) {a : Fin (k + 1)} {v : Fin (k + 1) → K}
    (h : IsNormal R a v) {r : Nat} {M : Matrix (Fin r) (Fin (k + 1)) K} (hM : M.transpose * M = R.transpose * R) {x : K}
    (hx : x * x = gramDet (M.submatrix id a.succAbove)) (i : Fin (k + 1)) : v i * |x| = -(|R.det| * R⁻¹ a i) := by
  set c := ∑ j, v j * R j a with hc
  have hc0 : c < 0 := h.neg
  have hu : c * c * ∑ i, R⁻¹ a i * R⁻¹ a i = 1 := by
    rw [← h.unit, Finset.mul_sum]
    refine Finset.sum_congr rfl (fun j _ => ?_)
    rw [h.inverse hR j]; ring
  have h1 : (c * |x|) * (c * |x|) = |R.det| * |R.det| := by
    have : (c * |x|) * (c * |x|) = c * c * (x * x) := by rw [← abs_mul_abs_self x]; ring
    rw [this, hx, gram_minor R hR a M hM, abs_mul_abs_self, mul_left_comm, hu, mul_one]
  have h2 : c * |x| = -|R.det| := by
    rcases mul_self_eq_mul_self_iff.mp h1 with h | h
    · have h3 : c * |x| ≤ 0 := mul_nonpos_of_nonpos_of_nonneg hc0.le (abs_nonneg x)
      have h4 : 0 < |R.det| := abs_pos.mpr hR.ne_zero
      linarith
    · exact h
  rw [h.inverse hR i, ← hc, mul_right_comm, h2, neg_mul]

end Mapping.Linear

theorem gram_scaled [Field K] [LinearOrder K] [IsStrictOrderedRing K] (hn : 0 < n) {k : Nat} (A B : Matrix (Fin s) (Fin k) K)
    (h : ∀ i j, A i j = B i j / n) : gramDet A * ((n : K) ^ k) ^ 2 = gramDet B := by
  have hn' : (n : K) ≠ 0 := by exact_mod_cast hn.ne'
  have : A = (n : K)⁻¹ • B := by
    ext i j
    rw [h, Matrix.smul_apply, smul_eq_mul, div_eq_inv_mul]
  unfold gramDet
  rw [this, Matrix.transpose_smul, Matrix.smul_mul, Matrix.mul_smul, smul_smul, Matrix.det_smul, Fintype.card_fin, mul_right_comm, ← pow_mul, mul_comm k 2,
    pow_mul, ← mul_pow]
  have : (n : K)⁻¹ * (n : K)⁻¹ * (n : K) ^ 2 = 1 := by field_simp
  rw [this, one_pow, one_mul]

namespace Geometry.File

theorem point_spec [CommRing K] (g : File d s K) (index : Nat) (hpos : 0 < g.n_loc_ref_elem) (k : Fin (2 ^ (d + 1))) (p : Fin s → K)
    (h : g.domain_info.HasVertex (index / g.n_loc_ref_elem) k p) :
    ∃ pt, point g index k = .ok pt ∧ toMat pt = Matrix.of fun i _ => p i := by
  obtain ⟨pts, pt, h1, h2, h3⟩ := h
  refine ⟨pt, ?_, represents_iff.mp h3⟩
  unfold point
  simp [udiv, hpos.ne', vget, h1, h2]

variable [Field K] [LinearOrder K] [IsStrictOrderedRing K]

/-- What a constructed hyperedge stores. -/
structure EdgeData (T : Tpcc) (n index : Nat) (P : Fin (2 ^ (d + 1)) → Fin s → K) (e : HyEdge d s K) : Prop where
  good : Mapping.Linear.Good e.mapping
  matrix : ∀ i a, toMat e.mapping.matrix i a = (P (neighbour a) i - P vertex0 i) / n
  translation : ∀ i, toMat e.mapping.translation i 0 =
    P vertex0 i + ∑ a, (refPos T d n index a : K) * ((P (neighbour a) i - P vertex0 i) / n)

theorem make_spec {T : Tpcc} (hT : T.Lawful) (m : Mode) (geqr2 : Geqr2All K) (hg : Geqr2Spec geqr2) (hs : d + 1 ≤ s) (hb : QrInBounds d s)
    (D : DomainGeo d s K) (r : Nat) (hn : 0 < n) (hU : n ^ (d + 1) < U32) (index : Nat) (P : Fin (2 ^ (d + 1)) → Fin s → K)
    (hP : ∀ k, D.HasVertex (index / n ^ (d + 1)) k (P k)) :
    ∃ e : HyEdge d s K, HyEdge.make m T geqr2 ((mk' D r).set_refinement n) index = .ok e ∧ EdgeData T n index P e := by
  have hloc : ((mk' D r).set_refinement n).n_loc_ref_elem = n ^ (d + 1) := by
    show Hypercube.pow (d + 1) n = _
    rw [Hypercube.pow_eq, Nat.mod_eq_of_lt hU]
  have hpos := Nat.pow_pos (n := d + 1) hn
  have hpt := fun k => point_spec ((mk' D r).set_refinement n) index (by rw [hloc]; exact hpos) k (P k) (by rw [hloc]; exact hP k)
  have hn' : (n : K) ≠ 0 := by exact_mod_cast hn.ne'
  obtain ⟨p0, z1, z2⟩ := hpt vertex0
  have z1' : point ((mk' D r).set_refinement n) index 0 = .ok p0 := z1
  obtain ⟨M0, a1, a2⟩ := forUp_inv (d + 1) (fun dim (matrix : SmallMat s (d + 1) K) => do
      let p ← point ((mk' D r).set_refinement n) index (1 <<< dim)
      let v ← SmallMat.sub_mat p p0
      matrix.set_column m dim v) (SmallMat.fill s (d + 1) 0)
    (fun k M => ∀ i (a : Fin (d + 1)), a.1 < k → toMat M i a = P (neighbour a) i - P vertex0 i) (fun i a h => by omega)
    (fun k hk M hM => by
      obtain ⟨p, p1, p2⟩ := hpt (neighbour ⟨k, hk⟩)
      have p1' : point ((mk' D r).set_refinement n) index (1 <<< k) = .ok p := by
        rw [Nat.one_shiftLeft]; exact p1
      obtain ⟨v, v1, v2⟩ := (C07_entrywise m p p0 p0 _ _ _ 0 (represents_iff.mpr p2) (represents_iff.mpr z2) (represents_iff.mpr z2)).2.1
      obtain ⟨N, n1, n2⟩ := C06_set_column m M _ (represents_iff.mpr rfl) ⟨k, hk⟩ v _ v2
      refine ⟨N, ?_, fun i a ha => ?_⟩
      · rw [p1', Res.ok_bind, v1, Res.ok_bind]; exact n1
      · rw [represents_iff.mp n2, Matrix.of_apply]
        by_cases hak : a = ⟨k, hk⟩
        · subst hak; rw [if_pos rfl]; rfl
        · rw [if_neg hak]
          have : a.1 ≠ k := fun h => hak (Fin.ext h)
          exact hM i a (by omega))
  have hr : Wrapper.get_element m T ((mk' D r).set_refinement n).tpcc_ref_elem (index % n ^ (d + 1)) =
      .ok (T.elem (refElem d n) (index % n ^ (d + 1))) := get_element_lt m (refElem d n) (by rw [size_refElem hT]; exact Nat.mod_lt _ hpos)
  have b1 : M0.div_scalar (n : K) = .ok (fun i => M0 i / n) := by
    unfold SmallMat.div_scalar
    rw [if_neg hn']
    exact arrLoop (fun _ (x : K) => x / (n : K)) M0
  have b2 : ∀ i a, toMat (fun i => M0 i / (n : K)) i a = (P (neighbour a) i - P vertex0 i) / n := fun i a => by
    rw [← a2 i a a.2]; rfl
  obtain ⟨t, c1, c2⟩ := forUp_inv (d + 1) (fun dim (translation : SmallVec s K) => do
      let x ← Wrapper.interior_coordinate m (T.elem (refElem d n) (index % n ^ (d + 1))) dim
      let col ← SmallMat.get_column m (fun i => M0 i / (n : K)) dim
      let v ← SmallMat.mul_scalar col (x : K)
      SmallMat.add_mat translation v) p0
    (fun k t => ∀ i, toMat t i 0 = P vertex0 i + ∑ a : Fin (d + 1), if a.1 < k then (refPos T d n index a : K) * ((P (neighbour a) i - P vertex0 i) / n) else 0)
    (fun i => by rw [z2]; simp)
    (fun k hk t ht => by
      have hx : Wrapper.interior_coordinate m (T.elem (refElem d n) (index % n ^ (d + 1))) k = .ok (refPos T d n index ⟨k, hk⟩) := by
        unfold Wrapper.interior_coordinate
        rw [hyAssert_of hk, Res.ok_bind, dif_pos hk]; rfl
      obtain ⟨col, d1, d2⟩ := C06_get_column m (fun i => M0 i / (n : K)) _ (represents_iff.mpr rfl) (⟨k, hk⟩ : Fin (d + 1))
      obtain ⟨v, e1, e2⟩ := (C07_entrywise m col col col _ _ _ (refPos T d n index ⟨k, hk⟩ : K) d2 d2 d2).2.2.2.1
      obtain ⟨t', f1, f2⟩ := (C07_entrywise m t v v _ _ _ 0 (represents_iff.mpr rfl) e2 e2).1
      refine ⟨t', ?_, fun i => ?_⟩
      · have d1' : SmallMat.get_column m (fun i => M0 i / (n : K)) k = .ok col := d1
        rw [hx, Res.ok_bind, d1', Res.ok_bind, e1, Res.ok_bind, f1]
      · rw [represents_iff.mp f2, Matrix.add_apply, ht i, Matrix.of_apply, Matrix.of_apply, b2, add_assoc]
        congr 1
        have : ∀ a : Fin (d + 1), (if a.1 < k + 1 then (refPos T d n index a : K) * ((P (neighbour a) i - P vertex0 i) / n) else 0) =
            (if a.1 < k then (refPos T d n index a : K) * ((P (neighbour a) i - P vertex0 i) / n) else 0) +
              if a = ⟨k, hk⟩ then (refPos T d n index a : K) * ((P (neighbour a) i - P vertex0 i) / n) else 0 := fun a => by
          by_cases h1 : a = ⟨k, hk⟩
          · subst h1; simp
          · have : a.1 ≠ k := fun h => h1 (Fin.ext h)
            rw [if_neg h1, add_zero]
            by_cases h2 : a.1 < k
            · rw [if_pos h2, if_pos (by omega)]
            · rw [if_neg h2, if_neg (by omega)]
        simp only [this, Finset.sum_add_distrib, Finset.sum_ite_eq', Finset.mem_univ, if_true]
        rw [mul_comm])
  obtain ⟨L, l1, l2, l3, l4⟩ := Mapping.Linear.make_spec (d := d) m geqr2 hg hs hb t (fun i => M0 i / (n : K))
  refine ⟨⟨L⟩, ?_, l4, ?_, ?_⟩
  · unfold HyEdge.make
    rw [z1', Res.ok_bind, a1, Res.ok_bind, hloc, umod, if_neg hpos.ne', Res.ok_bind, hr, Res.ok_bind]
    have hsub : ((mk' D r).set_refinement n).n_subintervals = n := rfl
    rw [hsub, b1, Res.ok_bind, c1, Res.ok_bind, l1]
    rfl
  · intro i a
    show toMat L.matrix i a = _
    rw [l3, b2]
  · intro i
    show toMat L.translation i 0 = _
    rw [l2, c2 i]
    simp only [Fin.is_lt, if_true]

theorem EdgeData.unit {T : Tpcc} {index : Nat} {P : Fin (2 ^ (d + 1)) → Fin s → K} {e : HyEdge d s K} (h : EdgeData T n index P e) (hn : 0 < n)
    (hs : d + 1 ≤ s) (hdet : gramDet (frame P) ≠ 0) : IsUnit (toMat e.mapping.matrix_r).det := by
  rw [isUnit_iff_ne_zero]
  intro h0
  apply hdet
  rw [← gram_scaled hn (toMat e.mapping.matrix) (frame P) h.matrix]
  unfold gramDet
  rw [h.good.gram hs, Matrix.det_mul, h0, mul_zero, zero_mul]

/-- The normals of the hyperedge from those of its mapping. -/
theorem local_normal_spec {T : Tpcc} {index : Nat} {P : Fin (2 ^ (d + 1)) → Fin s → K} {e : HyEdge d s K} (h : EdgeData T n index P e) (hn : 0 < n)
    (hs : d + 1 ≤ s) (hdet : gramDet (frame P) ≠ 0) (m : Mode) (geqr2 : Geqr2All K) (hg : Geqr2Spec geqr2) (f : Fin (2 * (d + 1))) :
    ∃ N v, e.local_normal m geqr2 f = .ok N ∧ Mapping.Linear.IsNormal (toMat e.mapping.matrix_r) ⟨f.1 / 2, by omega⟩ v ∧
      ∀ i, toMat N i 0 = if f.1 % 2 = 1 then -v i else v i := by
  obtain ⟨N, n1, n2⟩ := Mapping.Linear.local_normal_spec m geqr2 hg e.mapping ((Matrix.isUnit_iff_isUnit_det _).mpr (h.unit hn hs hdet))
    ⟨f.1 / 2, by omega⟩
  have n1' : e.mapping.local_normal m geqr2 (f.1 / 2) = .ok N := n1
  unfold HyEdge.local_normal
  rw [hyAssert_of f.2, Res.ok_bind, n1', Res.ok_bind]
  by_cases hf : f.1 % 2 = 1
  · obtain ⟨N', m1, m2⟩ := (C07_entrywise m N N N _ _ _ (-1) (represents_iff.mpr rfl) (represents_iff.mpr rfl) (represents_iff.mpr rfl)).2.2.2.1
    refine ⟨N', _, by rw [if_pos hf, m1], n2, fun i => ?_⟩
    rw [if_pos hf, represents_iff.mp m2, Matrix.of_apply, mul_neg_one]
  · refine ⟨N, _, by rw [if_neg hf]; rfl, n2, fun i => ?_⟩
    rw [if_neg hf]

omit [IsStrictOrderedRing K] in
/-- Products with the normal can be computed in the coordinates of the hyperedge. -/
theorem EdgeData.inner {T : Tpcc} {index : Nat} {P : Fin (2 ^ (d + 1)) → Fin s → K} {e : HyEdge d s K} (h : EdgeData T n index P e)
    (hn : (n : K) ≠ 0) (hs : d + 1 ≤ s) (v : Fin (d + 1) → K) (b : Fin (d + 1)) :
    ∑ i, (∑ k, toMat e.mapping.matrix_q i (k.castLE hs) * v k) * frame P i b = n * ∑ k, v k * toMat e.mapping.matrix_r k b := by
  have h1 : ∀ k : Fin (d + 1), ∑ i, toMat e.mapping.matrix_q i (k.castLE hs) * toMat e.mapping.matrix i b = toMat e.mapping.matrix_r k b := fun k => by
    rw [h.good.columns]
    unfold padRows
    rw [Matrix.of_apply, dif_pos (by exact k.2)]
    rfl
  have h2 : ∀ i, frame P i b = n * toMat e.mapping.matrix i b := fun i => by
    rw [h.matrix]
    unfold frame
    rw [Matrix.of_apply, mul_div_cancel₀ _ hn]
  simp only [← h1, h2, Finset.mul_sum, Finset.sum_mul]
  rw [Finset.sum_comm]
  refine Finset.sum_congr rfl (fun k _ => Finset.sum_congr rfl (fun i _ => ?_))
  ring

end Geometry.File

end HyperHDG

import Verif.Props.DenseLA
import Verif.Spec.Lapack
import Mathlib.LinearAlgebra.Matrix.SchurComplement

/-! Helper lemmas for the functions which use LAPACK. -/

set_option linter.unusedSectionVars false

namespace HyperHDG

variable {r c n k : Nat} {K : Type}

section Ring
variable [CommRing K]

/-! ## Reflectors -/

theorem hh_orthogonal {a f : Matrix (Fin r) (Fin c) K} {tau : Fin (min r c) → K} (h : IsHouseholderQR a f tau) (i : Fin (min r c)) :
    hhReflector f tau i * (hhReflector f tau i).transpose = 1 := by
  have hs : (hhReflector f tau i).transpose = hhReflector f tau i := by
    simp [hhReflector, Matrix.transpose_sub, Matrix.transpose_smul, Matrix.transpose_vecMulVec]
  rw [hs]
  unfold hhReflector
  have hvv : Matrix.vecMulVec (hhVec f i) (hhVec f i) * Matrix.vecMulVec (hhVec f i) (hhVec f i) =
      (∑ j, hhVec f i j * hhVec f i j) • Matrix.vecMulVec (hhVec f i) (hhVec f i) := by
    ext a b
    simp only [Matrix.mul_apply, Matrix.vecMulVec_apply, Matrix.smul_apply, smul_eq_mul, Finset.sum_mul]
    refine Finset.sum_congr rfl fun j _ => by ring
  rw [Matrix.sub_mul, Matrix.one_mul, Matrix.mul_sub, Matrix.mul_one, Matrix.smul_mul, Matrix.mul_smul, hvv]
  ext a b
  simp only [Matrix.sub_apply, Matrix.smul_apply, smul_eq_mul]
  rcases h.reflection i with h0 | h2
  · rw [h0]; ring
  · have : ∀ w : K, tau i * (tau i * ((∑ j, hhVec f i j * hhVec f i j) * w)) = 2 * (tau i * w) := fun w => by
      rw [← h2]; ring
    rw [this]; ring

theorem orthogonal_list (l : List (Matrix (Fin r) (Fin r) K)) (h : ∀ M ∈ l, M * M.transpose = 1) : l.prod * l.prod.transpose = 1 := by
  induction l with
  | nil => simp
  | cons M l ih =>
    rw [List.prod_cons, Matrix.transpose_mul, Matrix.mul_assoc, ← Matrix.mul_assoc l.prod, ih (fun N hN => h N (List.mem_cons_of_mem _ hN)),
      Matrix.one_mul]
    exact h M List.mem_cons_self

theorem hhQ_orthogonal {a f : Matrix (Fin r) (Fin c) K} {tau : Fin (min r c) → K} (h : IsHouseholderQR a f tau) :
    hhQ f tau * (hhQ f tau).transpose = 1 := by
  apply orthogonal_list
  intro M hM
  obtain ⟨i, rfl⟩ := (List.mem_ofFn' _ _).mp hM
  exact hh_orthogonal h i

theorem det_hh {a f : Matrix (Fin r) (Fin c) K} {tau : Fin (min r c) → K} (h : IsHouseholderQR a f tau) (i : Fin (min r c)) [Decidable (tau i = 0)] :
    (hhReflector f tau i).det = if tau i = 0 then 1 else -1 := by
  have h1 : (hhReflector f tau i).det = 1 - tau i * ∑ j, hhVec f i j * hhVec f i j := by
    have := Matrix.det_one_add_replicateCol_mul_replicateRow (ι := Unit) (fun j => -(tau i * hhVec f i j)) (hhVec f i)
    rw [show hhReflector f tau i = 1 + Matrix.replicateCol Unit (fun j => -(tau i * hhVec f i j)) * Matrix.replicateRow Unit (hhVec f i) from ?_, this]
    · simp only [dotProduct, Finset.mul_sum, sub_eq_add_neg, ← Finset.sum_neg_distrib]
      congr 1
      refine Finset.sum_congr rfl fun j _ => by ring
    · ext a b
      simp [hhReflector, Matrix.mul_apply, Matrix.vecMulVec_apply, sub_eq_add_neg, mul_assoc]
  rw [h1]
  split
  · rename_i h0; rw [h0]; ring
  · rename_i h0
    rcases h.reflection i with h' | h'
    · exact absurd h' h0
    · rw [h']; ring

theorem nReflections_card (tau : Fin (min r c) → K) (S : Finset (Fin (min r c))) (h : ∀ i, i ∈ S ↔ tau i ≠ 0) :
    nReflections tau = S.card := by
  classical
  unfold nReflections
  congr 1
  ext i
  simp [h]

theorem det_hhQ {a f : Matrix (Fin r) (Fin c) K} {tau : Fin (min r c) → K} (h : IsHouseholderQR a f tau) :
    (hhQ f tau).det = (-1) ^ nReflections tau := by
  classical
  have h1 : (hhQ f tau).det = (List.ofFn (fun i => (hhReflector f tau i).det)).prod := by
    have := map_list_prod (Matrix.detMonoidHom (n := Fin r) (R := K)) (List.ofFn (hhReflector f tau))
    rw [List.map_ofFn] at this
    exact this
  rw [h1, List.prod_ofFn]
  simp only [det_hh h]
  rw [Finset.prod_ite, Finset.prod_const_one, one_mul, Finset.prod_const]
  rfl

/-! ## `get_q` -/

theorem diagonal_one (m : Mode) : ∃ U : SmallMat r r K, SmallMat.diagonal m r r (1 : K) = .ok U ∧ toMat U = 1 := by
  obtain ⟨U, h1, h2⟩ := C07_diagonal (r := r) (c := r) m (1 : K)
  refine ⟨U, h1, (represents_iff.mp h2).trans ?_⟩
  ext i j
  simp only [Matrix.of_apply, Matrix.one_apply, Fin.ext_iff]

theorem householderVec_spec (m : Mode) (F : SmallMat r c K) (i : Fin (min r c)) (v : SmallVec r K) :
    ∃ w, householderVec m F i v = .ok w ∧ ∀ j, toMat w j 0 = hhVec (toMat F) i j := by
  have hget : ∀ j : Fin r, F.get .release (i * r + j) = .ok (toMat F j (i.castLE (Nat.min_le_right _ _))) := fun j =>
    get_fin .release F (pos j (i.castLE (Nat.min_le_right _ _)))
  obtain ⟨w, h1, h2, -⟩ := setLoop1 (n := r) (fun j (vec : SmallVec r K) =>
    if j < i then vec.set m j 0
    else if j = i then vec.set m j 1
    else do
      let x ← F.get .release (i * r + j)
      vec.set m j x) (fun j => pos j 0) (fun i i' h => (pos_inj.mp h).1) (fun j _ => hhVec (toMat F) i j)
    (fun j vec => by
      unfold hhVec
      simp only [hget j, Res.ok_bind]
      split
      · exact vec_set_lt m vec j.2 _
      · split
        · exact vec_set_lt m vec j.2 _
        · exact vec_set_lt m vec j.2 _) v
  exact ⟨w, h1, fun j => h2 j⟩

theorem get_q_spec (m : Mode) (F : SmallMat r c K) (tau : Fin (min r c) → K) :
    ∃ Q, get_q m F tau = .ok Q ∧ toMat Q = hhQ (toMat F) tau := by
  obtain ⟨U, hU, hU'⟩ := diagonal_one (r := r) (K := K) m
  obtain ⟨s, h1, h2⟩ := forFin_inv (min r c) (fun i (s : SmallMat r r K × SmallVec r K) => do
    let vec ← householderVec m F i s.2
    let d ← SmallMat.dyadic_product m vec vec
    let td ← d.mul_scalar (tau i)
    let h ← U.sub_mat td
    let q ← s.1.mul m h
    return (q, vec)) (U, SmallMat.fill r 1 0)
    (fun i s => toMat s.1 = ((List.ofFn (hhReflector (toMat F) tau)).take i).prod) (by simpa using hU')
    (fun i s hs => by
      obtain ⟨w, hw, hw'⟩ := householderVec_spec m F i s.2
      obtain ⟨d, hd, hd'⟩ := C07_dyadic m w w _ _ (represents_iff.mpr rfl) (represents_iff.mpr rfl)
      obtain ⟨td, htd, htd'⟩ := (C07_entrywise m d d w _ _ _ (tau i) (represents_iff.mpr rfl) (represents_iff.mpr rfl) (represents_iff.mpr rfl)).2.2.2.1
      obtain ⟨h, hh, hh'⟩ := (C07_entrywise m U td w _ _ _ (tau i) (represents_iff.mpr rfl) (represents_iff.mpr rfl) (represents_iff.mpr rfl)).2.1
      obtain ⟨q, hq, hq'⟩ := mul_spec m s.1 h
      rw [represents_iff] at hd' htd' hh'
      refine ⟨(q, w), by rw [hw, Res.ok_bind, hd, Res.ok_bind, htd, Res.ok_bind, hh, Res.ok_bind, hq]; rfl, ?_⟩
      have hH : toMat h = hhReflector (toMat F) tau i := by
        rw [hh', hU', htd', hd']
        ext a b
        simp [hhReflector, Matrix.mul_apply, Matrix.vecMulVec_apply, hw', mul_comm]
      show toMat q = _
      rw [hq', hs, hH, List.prod_take_succ _ _ (by rw [List.length_ofFn]; exact i.2)]
      simp)
  refine ⟨s.1, ?_, ?_⟩
  · unfold get_q
    rw [hU, Res.ok_bind, h1]; rfl
  · rw [h2, List.take_of_length_le (by simp)]; rfl

/-! ## `get_r` -/

theorem get_r_spec (F : SmallMat r c K) : ∃ R, get_r F = .ok R ∧ toMat R = hhR (toMat F) := by
  obtain ⟨R, h1, h2⟩ := matLoop (r := r) (c := c) (fun i j (M : SmallMat r c K) =>
    if j > i then M.set .release (i * r + j) 0 else .ok M) (fun j i x => if j.1 ≤ i.1 then x else 0)
    (fun j i M => by
      by_cases h : j.1 ≤ i.1
      · rw [if_neg (by omega), if_pos h]
        refine congrArg _ ?_
        funext q
        unfold arrSet
        split
        · rename_i hq; rw [hq]; rfl
        · rfl
      · rw [if_pos (by omega), if_neg h]
        exact set_fin .release M (pos j i) 0) F
  exact ⟨R, h1, h2⟩

/-- The reduced matrix is right if the zeros stay inside the array, and either the argument has zeros below the diagonal, or the matrix is square or has at
most two columns. -/
theorem get_r_reduced_spec (F : SmallMat r c K) (R0 : SmallMat c c K) (hrc : c ≤ r)
    (hb : ∀ i j, i < j → j < c → i * r + j < c * c)
    (h0 : (∀ k, R0 k = 0) ∨ r = c ∨ c ≤ 2) :
    ∃ R, get_r_reduced F R0 = .ok R ∧ toMat R = Matrix.of fun j i => if j.1 ≤ i.1 then toMat F (j.castLE hrc) i else 0 := by
  -- value of the entry with row `j` and column `i`
  let val : Fin c → Fin c → K := fun j i => if j.1 ≤ i.1 then toMat F (j.castLE hrc) i else 0
  -- entry `(j, i)` comes before row `J` of column `I`
  let done : Nat → Nat → Fin c → Fin c → Prop := fun I J j i => i.1 < I ∨ (i.1 = I ∧ j.1 < J)
  let Inv : Nat → Nat → SmallMat c c K → Prop := fun I J M =>
    (∀ j i, done I J j i → M (pos j i) = val j i) ∧ (∀ j i, ¬ done I J j i → M (pos j i) = R0 (pos j i) ∨ M (pos j i) = 0)
  obtain ⟨R, h1, h2⟩ := forUp_inv c (fun i M => forUp c (fun j (M : SmallMat c c K) =>
    if j > i then M.set .release (i * r + j) 0
    else do
      let x ← F.get .release (i * r + j)
      M.set .release (i * c + j) x) M) R0 (fun i M => Inv i 0 M)
    ⟨fun j i h => by simp only [done] at h; omega, fun j i _ => Or.inl rfl⟩
    (fun I hI M hM => by
      obtain ⟨M', g1, g2⟩ := forUp_inv c (fun j (M : SmallMat c c K) =>
        if j > I then M.set .release (I * r + j) 0
        else do
          let x ← F.get .release (I * r + j)
          M.set .release (I * c + j) x) M (fun J M => Inv I J M) hM
        (fun J hJ M hM => by
          obtain ⟨ha, hc⟩ := hM
          by_cases hJI : J > I
          · have hlt := hb I J hJI hJ
            refine ⟨arrSet M ⟨I * r + J, hlt⟩ 0, by rw [if_pos hJI]; exact set_fin .release M ⟨I * r + J, hlt⟩ 0, ?_, ?_⟩
            · intro j i hd
              have hge : I * c + J ≤ I * r + J := Nat.add_le_add_right (Nat.mul_le_mul_left I hrc) J
              have hdone : done I J j i ∨ (i.1 = I ∧ j.1 = J) := by simp only [done] at hd ⊢; omega
              rcases hdone with hd' | ⟨hi, hj⟩
              · have hne : pos j i ≠ ⟨I * r + J, hlt⟩ := by
                  intro h
                  have h : i.1 * c + j.1 = I * r + J := congrArg Fin.val h
                  have hj := j.2
                  simp only [done] at hd'
                  rcases hd' with hd' | ⟨hd1, hd2⟩
                  · have := Nat.mul_le_mul_right c (show i.1 + 1 ≤ I from hd')
                    rw [Nat.add_mul] at this; omega
                  · rw [hd1] at h; omega
                rw [arrSet, if_neg hne]; exact ha j i hd'
              · have hv : val j i = 0 := by simp only [val]; rw [if_neg (by omega)]
                rw [hv]
                by_cases hq : pos j i = ⟨I * r + J, hlt⟩
                · rw [arrSet, if_pos hq]
                · rw [arrSet, if_neg hq]
                  rcases hc j i (by simp only [done]; omega) with h | h
                  · rcases h0 with hz | hz | hz
                    · rw [h, hz]
                    · exact absurd (Fin.ext (show i.1 * c + j.1 = I * r + J by rw [hi, hj, hz])) hq
                    · have : I = 0 := by omega
                      exact absurd (Fin.ext (show i.1 * c + j.1 = I * r + J by rw [hi, hj, this]; omega)) hq
                  · exact h
            · intro j i hd
              by_cases hq : pos j i = ⟨I * r + J, hlt⟩
              · right; rw [arrSet, if_pos hq]
              · rw [arrSet, if_neg hq]
                exact hc j i (by simp only [done] at hd ⊢; omega)
          · have hget : F.get .release (I * r + J) = .ok (toMat F ⟨J, by omega⟩ ⟨I, hI⟩) :=
              get_fin .release F (pos (⟨J, by omega⟩ : Fin r) (⟨I, hI⟩ : Fin c))
            refine ⟨arrSet M (pos ⟨J, hJ⟩ ⟨I, hI⟩) (toMat F ⟨J, by omega⟩ ⟨I, hI⟩), ?_, ?_, ?_⟩
            · rw [if_neg hJI, hget, Res.ok_bind]
              exact set_fin .release M (pos (⟨J, hJ⟩ : Fin c) (⟨I, hI⟩ : Fin c)) _
            · intro j i hd
              by_cases hq : pos j i = pos ⟨J, hJ⟩ ⟨I, hI⟩
              · obtain ⟨rfl, rfl⟩ := pos_inj.mp hq
                rw [arrSet, if_pos rfl]
                simp only [val]
                rw [if_pos (Nat.le_of_not_gt hJI)]; rfl
              · rw [arrSet, if_neg hq]
                apply ha
                simp only [done] at hd ⊢
                have : ¬ (j.1 = J ∧ i.1 = I) := fun h => hq (pos_inj.mpr ⟨Fin.ext h.1, Fin.ext h.2⟩)
                omega
            · intro j i hd
              have hq : pos j i ≠ pos ⟨J, hJ⟩ ⟨I, hI⟩ := by
                intro h
                obtain ⟨rfl, rfl⟩ := pos_inj.mp h
                exact hd (Or.inr ⟨rfl, Nat.lt_succ_self _⟩)
              rw [arrSet, if_neg hq]
              exact hc j i (by simp only [done] at hd ⊢; omega))
      refine ⟨M', g1, fun j i hd => g2.1 j i ?_, fun j i hd => g2.2 j i ?_⟩
      · have := j.2; simp only [done] at hd ⊢; omega
      · have := j.2; simp only [done] at hd ⊢; omega)
  refine ⟨R, h1, ?_⟩
  ext j i
  exact h2.1 j i (Or.inl i.2)

end Ring

/-! ## The signs -/

section Ordered
variable [Field K] [LinearOrder K] [IsStrictOrderedRing K]

theorem flip_spec (m : Mode) (f : SmallVec r K) (i : Nat) (hi : i < r) :
    flipSign m i f = .ok (arrSet f (pos ⟨i, hi⟩ 0) (toMat f ⟨i, hi⟩ 0 * -1)) := by
  unfold flipSign
  rw [vec_get_lt m f hi, Res.ok_bind, vec_set_lt m f hi]

theorem prod_flip (f : SmallVec r K) (i : Fin r) :
    (∏ j, toMat (arrSet f (pos i 0) (toMat f i 0 * -1)) j 0) = - ∏ j, toMat f j 0 := by
  rw [← Finset.mul_prod_erase _ _ (Finset.mem_univ i), ← Finset.mul_prod_erase Finset.univ (fun j => toMat f j 0) (Finset.mem_univ i)]
  have : ∀ j ∈ Finset.univ.erase i, toMat (arrSet f (pos i 0) (toMat f i 0 * -1)) j 0 = toMat f j 0 := fun j hj => by
    rw [toMat_arrSet, if_neg]
    rintro ⟨rfl, -⟩
    exact Finset.ne_of_mem_erase hj rfl
  rw [Finset.prod_congr rfl this, toMat_arrSet, if_pos ⟨rfl, rfl⟩]
  ring

/-- The vector of signs: entries are `1` or `-1`, its product is `(-1)^n_rows`, and entry `i ≥ 1` is negative iff the diagonal entry is. -/
theorem qrFactors_spec (m : Mode) (hc : 0 < c) (hrc : c ≤ r) (R : SmallMat c c K) :
    ∃ f : SmallVec r K, qrFactors m r c R = .ok f ∧ (∀ i, toMat f i 0 = 1 ∨ toMat f i 0 = -1) ∧ (∏ i, toMat f i 0) = (-1) ^ r ∧
      ∀ i : Fin c, 0 < i.1 → toMat f (i.castLE hrc) 0 = if toMat R i i < 0 then -1 else 1 := by
  have hr : 0 < r := by omega
  -- after the first statement
  have step1 : ∃ f0 : SmallVec r K, initFactors m r c = .ok f0 ∧
      (∀ i, toMat f0 i 0 = 1 ∨ toMat f0 i 0 = -1) ∧ (∏ i, toMat f0 i 0) = (-1) ^ r ∧
      ∀ i : Fin r, 0 < i.1 → i.1 < c → toMat f0 i 0 = 1 := by
    have hfill : ∀ i : Fin r, toMat (SmallMat.fill r 1 (1 : K)) i 0 = 1 := fun i => rfl
    have hflip : ∀ (k : Fin r), (k.1 = 0 ∨ c ≤ k.1) → r % 2 = 1 →
        let f0 : SmallVec r K := arrSet (SmallMat.fill r 1 1) (pos k 0) (toMat (SmallMat.fill r 1 (1 : K)) k 0 * -1)
        (∀ i, toMat f0 i 0 = 1 ∨ toMat f0 i 0 = -1) ∧ (∏ i, toMat f0 i 0) = (-1) ^ r ∧
          ∀ i : Fin r, 0 < i.1 → i.1 < c → toMat f0 i 0 = 1 := by
      intro k hk hodd
      refine ⟨fun i => ?_, ?_, fun i h1 h2 => ?_⟩
      · rw [toMat_arrSet]
        split
        · right; rw [hfill]; ring
        · left; exact hfill i
      · rw [prod_flip, Finset.prod_congr rfl (fun i _ => hfill i), Finset.prod_const_one]
        exact (Odd.neg_one_pow (Nat.odd_iff.mpr hodd)).symm
      · rw [toMat_arrSet, if_neg]
        · exact hfill i
        · rintro ⟨rfl, -⟩; omega
    unfold initFactors
    by_cases hodd : r % 2 = 1
    · rw [if_pos hodd]
      by_cases hcr : c = r
      · rw [if_pos hcr, flip_spec m _ 0 hr]
        exact ⟨_, rfl, hflip ⟨0, hr⟩ (Or.inl rfl) hodd⟩
      · rw [if_neg hcr, flip_spec m _ (r - 1) (by omega)]
        exact ⟨_, rfl, hflip ⟨r - 1, by omega⟩ (Or.inr (by simp only; omega)) hodd⟩
    · rw [if_neg hodd]
      refine ⟨_, rfl, fun i => Or.inl rfl, ?_, fun i _ _ => rfl⟩
      rw [Finset.prod_congr rfl (fun i _ => hfill i), Finset.prod_const_one]
      exact (Even.neg_one_pow (Nat.even_iff.mpr (by omega))).symm
  obtain ⟨f0, e0, a0, b0, c0⟩ := step1
  obtain ⟨s, e1, a1, b1, c1⟩ := forUp_inv (c - 1) (fun i (s : SmallVec r K × Bool) => do
      let x ← R.at' m (i + 1) (i + 1)
      if x < 0 then do
        let f ← flipSign m (i + 1) s.1
        return (f, !s.2)
      else return s) (f0, false)
    (fun i s => (∀ i, toMat s.1 i 0 = 1 ∨ toMat s.1 i 0 = -1) ∧ (∏ i, toMat s.1 i 0) = (-1) ^ r * (if s.2 then -1 else 1) ∧
      ∀ j : Fin c, 0 < j.1 → toMat s.1 (j.castLE hrc) 0 = if j.1 ≤ i ∧ toMat R j j < 0 then -1 else 1)
    ⟨a0, by simpa using b0, fun j hj => by rw [if_neg (by omega)]; exact c0 _ hj j.2⟩
    (fun i hi s ⟨ha, hb, hc'⟩ => by
      have hi' : i + 1 < c := by omega
      rw [at_lt m R hi' hi', Res.ok_bind]
      by_cases hneg : toMat R ⟨i + 1, hi'⟩ ⟨i + 1, hi'⟩ < 0
      · rw [if_pos hneg, flip_spec m s.1 (i + 1) (by omega)]
        refine ⟨_, rfl, fun k => ?_, ?_, fun j hj => ?_⟩
        · dsimp only
          rw [toMat_arrSet]
          split
          · rcases ha ⟨i + 1, by omega⟩ with h | h <;> rw [h] <;> simp
          · exact ha k
        · dsimp only
          rw [prod_flip, hb]
          cases s.2 <;> simp
        · dsimp only
          rw [toMat_arrSet]
          by_cases hji : j.1 = i + 1
          · have hj' : j = ⟨i + 1, hi'⟩ := Fin.ext hji
            subst hj'
            rw [if_pos ⟨rfl, rfl⟩, if_pos ⟨Nat.le_refl _, hneg⟩]
            have := hc' ⟨i + 1, hi'⟩ hj
            rw [if_neg (by simp only; omega)] at this
            rw [show toMat s.1 ⟨i + 1, by omega⟩ 0 = 1 from this, one_mul]
          · rw [if_neg (fun h => hji (congrArg Fin.val h.1)), hc' j hj]
            have : (j.1 ≤ i + 1 ∧ toMat R j j < 0) ↔ (j.1 ≤ i ∧ toMat R j j < 0) := by
              constructor <;> rintro ⟨h1, h2⟩ <;> exact ⟨by omega, h2⟩
            simp only [this]
      · rw [if_neg hneg]
        refine ⟨s, rfl, ha, hb, fun j hj => ?_⟩
        rw [hc' j hj]
        by_cases hji : j.1 = i + 1
        · have hj' : j = ⟨i + 1, hi'⟩ := Fin.ext hji
          subst hj'
          rw [if_neg (fun h => hneg h.2), if_neg (fun h => hneg h.2)]
        · have : (j.1 ≤ i + 1 ∧ toMat R j j < 0) ↔ (j.1 ≤ i ∧ toMat R j j < 0) := by
            constructor <;> rintro ⟨h1, h2⟩ <;> exact ⟨by omega, h2⟩
          simp only [this])
  obtain ⟨f, sw⟩ := s
  have hsign : ∀ j : Fin c, (j.1 ≤ c - 1 ∧ toMat R j j < 0) ↔ toMat R j j < 0 := fun j => ⟨fun h => h.2, fun h => ⟨by have := j.2; omega, h⟩⟩
  simp only [hsign] at c1
  cases sw with
  | false =>
    refine ⟨f, ?_, a1, by simpa using b1, c1⟩
    unfold qrFactors
    rw [e0, Res.ok_bind, e1]; rfl
  | true =>
    refine ⟨arrSet f (pos ⟨0, hr⟩ 0) (toMat f ⟨0, hr⟩ 0 * -1), ?_, fun k => ?_, ?_, fun j hj => ?_⟩
    · unfold qrFactors
      rw [e0, Res.ok_bind, e1, Res.ok_bind]
      exact flip_spec m f 0 hr
    · rw [toMat_arrSet]
      split
      · rcases a1 ⟨0, hr⟩ with h | h <;> dsimp only at h <;> rw [h] <;> simp
      · exact a1 k
    · rw [prod_flip]
      dsimp only at b1
      rw [b1]; simp
    · rw [toMat_arrSet, if_neg]
      · exact c1 j hj
      · rintro ⟨h, -⟩
        have := congrArg Fin.val h
        simp at this
        omega

/-- The loops which scale columns of `Q` (with `col = true`) or rows of `R`. -/
theorem scale_loop (m : Mode) (n' : Nat) (hn : n' ≤ r) (f : SmallVec r K) (hf : ∀ i, toMat f i 0 = 1 ∨ toMat f i 0 = -1)
    (p : Fin n' → Fin n' → Fin (n' * n')) (hp : ∀ i j i' j', p i j = p i' j' → i = i' ∧ j = j')
    (body : Nat → Nat → (Fin (n' * n') → K) → Res (Fin (n' * n') → K))
    (hbody : ∀ (i j : Fin n') (M : Fin (n' * n') → K), body i j M = .ok (arrSet M (p i j) (M (p i j) * toMat f (i.castLE hn) 0)))
    (M : Fin (n' * n') → K) :
    ∃ N, forUp n' (fun i (Q : Fin (n' * n') → K) => do
      let x ← f.get m i
      if x < 0 then forUp n' (fun j Q => body i j Q) Q else .ok Q) M = .ok N ∧
      ∀ i j, N (p i j) = M (p i j) * toMat f (i.castLE hn) 0 := by
  obtain ⟨N, h1, h2⟩ := forUp_inv n' (fun i (Q : Fin (n' * n') → K) => do
      let x ← f.get m i
      if x < 0 then forUp n' (fun j Q => body i j Q) Q else .ok Q) M
    (fun k N => (∀ i : Fin n', i.1 < k → ∀ j, N (p i j) = M (p i j) * toMat f (i.castLE hn) 0) ∧
      ∀ i : Fin n', k ≤ i.1 → ∀ j, N (p i j) = M (p i j))
    ⟨fun i h => absurd h (Nat.not_lt_zero _), fun _ _ _ => rfl⟩
    (fun k hk N ⟨ha, hb⟩ => by
      rw [vec_get_lt m f (by omega : k < r), Res.ok_bind]
      by_cases hneg : toMat f ⟨k, by omega⟩ 0 < 0
      · rw [if_pos hneg]
        obtain ⟨N', g1, g2, g3⟩ := setLoop1 (fun j Q => body k j Q) (p ⟨k, hk⟩) (fun j j' h => (hp _ _ _ _ h).2)
          (fun j x => x * toMat f ((⟨k, hk⟩ : Fin n').castLE hn) 0) (fun j M => hbody ⟨k, hk⟩ j M) N
        refine ⟨N', g1, fun i hi j => ?_, fun i hi j => ?_⟩
        · by_cases hik : i = ⟨k, hk⟩
          · subst hik
            rw [g2, hb ⟨k, hk⟩ (Nat.le_refl _)]
          · rw [g3 _ (fun j' h => hik (hp _ _ _ _ h).1.symm)]
            have : i.1 ≠ k := fun h => hik (Fin.ext h)
            exact ha i (by omega) j
        · rw [g3 _ (fun j' h => by
            have := congrArg Fin.val (hp _ _ _ _ h).1
            simp only at this; omega)]
          exact hb i (by omega) j
      · rw [if_neg hneg]
        refine ⟨N, rfl, fun i hi j => ?_, fun i hi j => hb i (by omega) j⟩
        by_cases hik : i = ⟨k, hk⟩
        · subst hik
          rw [hb ⟨k, hk⟩ (Nat.le_refl _)]
          rcases hf ⟨k, by omega⟩ with h | h
          · show _ = _ * toMat f ⟨k, by omega⟩ 0
            rw [h, mul_one]
          · rw [h] at hneg
            exact absurd (neg_lt_zero.mpr one_pos) hneg
        · have : i.1 ≠ k := fun h => hik (Fin.ext h)
          exact ha i (by omega) j)
  exact ⟨N, h1, fun i j => h2.1 i i.2 j⟩

/-- What `qr_decomp` computes, in terms of the result of LAPACK. -/
theorem qr_decomp_spec (m : Mode) (geqr2 : Geqr2 r c K) (A : SmallMat r c K) (R0 : SmallMat c c K) (F : SmallMat r c K)
    (tau : Fin (min r c) → K) (hg : geqr2 A = .ok (F, tau)) (hc : 0 < c) (hrc : c ≤ r)
    (hb : ∀ i j, i < j → j < c → i * r + j < c * c) (h0 : (∀ k, R0 k = 0) ∨ r = c ∨ c ≤ 2) :
    ∃ (res : QR r c K) (ε : Fin r → K), qr_decomp m geqr2 A R0 = .ok res ∧ (∀ i, ε i = 1 ∨ ε i = -1) ∧ (∏ i, ε i) = (-1) ^ r ∧
      (∀ i : Fin c, 0 < i.1 → ε (i.castLE hrc) = if toMat F (i.castLE hrc) i < 0 then -1 else 1) ∧
      toMat res.mat = hhR (toMat F) ∧
      toMat res.mat_q = hhQ (toMat F) tau * Matrix.diagonal ε ∧
      toMat res.mat_r = Matrix.of fun i j => ε (i.castLE hrc) * hhR (toMat F) (i.castLE hrc) j := by
  obtain ⟨Q, q1, q2⟩ := get_q_spec m F tau
  obtain ⟨R, r1, r2⟩ := get_r_reduced_spec F R0 hrc hb h0
  obtain ⟨M, m1, m2⟩ := get_r_spec F
  obtain ⟨f, f1, f2, f3, f4⟩ := qrFactors_spec m hc hrc R
  obtain ⟨Q', q1', q2'⟩ := scale_loop m r (Nat.le_refl r) f f2 (fun i j => pos j i) (fun i j i' j' h => (pos_inj.mp h).symm)
    (fun i j (Q : SmallMat r r K) => do
      let f ← f.get m i
      let x ← Q.at' m j i
      Q.setAt m j i (x * f)) (fun i j Q => by
        rw [vec_get_lt m f i.2, Res.ok_bind]
        show (do
          let x ← SmallMat.at' (r := r) (c := r) m Q j i
          SmallMat.setAt m j i (x * _) Q) = _
        rw [at_fin, Res.ok_bind, setAt_fin]; rfl) Q
  obtain ⟨R', r1', r2'⟩ := scale_loop m c hrc f f2 (fun i j => pos i j) (fun i j i' j' h => pos_inj.mp h)
    (fun i j (R : SmallMat c c K) => do
      let f ← f.get m i
      let x ← R.at' m i j
      R.setAt m i j (x * f)) (fun i j R => by
        rw [vec_get_lt m f (Nat.lt_of_lt_of_le i.2 hrc), Res.ok_bind]
        show (do
          let x ← SmallMat.at' (r := c) (c := c) m R i j
          SmallMat.setAt m i j (x * _) R) = _
        rw [at_fin, Res.ok_bind, setAt_fin]; rfl) R
  refine ⟨⟨M, Q', R'⟩, fun i => toMat f i 0, ?_, f2, f3, ?_, m2, ?_, ?_⟩
  · unfold qr_decomp
    rw [hg, Res.ok_bind]
    dsimp only
    rw [q1, Res.ok_bind, r1, Res.ok_bind, m1, Res.ok_bind, f1, Res.ok_bind, q1', Res.ok_bind, r1']; rfl
  · intro i hi
    show toMat f (i.castLE hrc) 0 = _
    rw [f4 i hi, r2]
    simp
  · ext i j
    rw [Matrix.mul_diagonal, ← q2]
    exact q2' j i
  · ext i j
    have := r2' i j
    show R' (pos i j) = _
    rw [this]
    show toMat R i j * _ = _
    rw [r2]
    simp only [Matrix.of_apply, hhR, Fin.val_castLE]
    rw [mul_comm]

end Ordered

end HyperHDG

import Verif.Model.DiffusionPostprocess
import Verif.Spec.Postprocess
import Verif.Proofs.DiffusionParab

/-!
# Lemmas about the local solver with postprocessing
-/

namespace HyperHDG.DiffusionPostprocess

open Spec Finset Matrix LDG DiffusionUniform Diffusion

variable {K : Type} {dim nS nP nB : Nat}

/-- The integrals of the postprocessing; the constant function is the shape function number 0. -/
def postForm [CommRing K] (E : Edge dim nS nP K) (time : K) : PostForm dim nS nP K where
  stiff := .of fun i j => E.pp_nablaphinablaphifunc time i j
  grad := fun d => .of fun i j => E.pp_nablaphiphi i j d
  meanP := fun i => E.pp_phiphi i 0
  mean := fun j => E.vol_phiphi j 0

/-- What is used of the integrals: the shape functions number 0 are the same constant, the others are orthogonal to it. -/
structure ConstantFirst [CommRing K] (E : Edge dim nS nP K) (time : K) : Prop where
  stiff_row : ∀ j : Fin nP, E.pp_nablaphinablaphifunc time 0 j = 0
  stiff_col : ∀ i : Fin nP, E.pp_nablaphinablaphifunc time i 0 = 0
  grad_row : ∀ (j : Fin nS) (d : Fin dim), E.pp_nablaphiphi 0 j d = 0
  ortho_pp : ∀ i : Fin nP, i.1 ≠ 0 → E.pp_phiphi i 0 = 0
  ortho : ∀ j : Fin nS, j.1 ≠ 0 → E.vol_phiphi j 0 = 0
  same : E.pp_phiphi 0 0 = E.vol_phiphi 0 0

variable [Field K]

theorem ppMatrix_spec (m : Mode) (E : Edge dim nS nP K) (time : K) (hP : 0 < nP) : ∃ M, ppMatrix m E time = .ok M ∧
    ∀ i j, toMat M i j = if i.1 = 0 ∧ j.1 = 0 then E.pp_phiphi 0 0 else E.pp_nablaphinablaphifunc time i j := by
  obtain ⟨N, h1, h2, _⟩ := setLoop2 (S := nP * nP) (n := nP) (n' := nP)
    (fun i j (M : SmallMat nP nP K) => SmallMat.setAt m i j (E.pp_nablaphinablaphifunc time i j) M) (fun i j => pos i j)
    (fun i j i' j' h => pos_inj.mp h) (fun i j _ => E.pp_nablaphinablaphifunc time i j) (fun i j M => setAt_fin m M i j _) (SmallMat.fill nP nP 0)
  have h3 := setAt_fin m (N : SmallMat nP nP K) (⟨0, hP⟩ : Fin nP) (⟨0, hP⟩ : Fin nP) (E.pp_phiphi 0 0)
  refine ⟨arrSet N (pos ⟨0, hP⟩ ⟨0, hP⟩) (E.pp_phiphi 0 0), ?_, fun i j => ?_⟩
  · unfold ppMatrix
    rw [h1, Res.ok_bind]
    exact h3
  · rw [toMat_arrSet]
    simp only [Fin.ext_iff]
    by_cases h : i.1 = 0 ∧ j.1 = 0
    · rw [if_pos h, if_pos h]
    · rw [if_neg h, if_neg h]
      exact h2 i j

theorem sum_single {r : Nat} {ι : Type} (s : Finset ι) (i : Fin r) (g : ι → K) :
    ∑ a ∈ s, (singleMat i (0 : Fin 1) (g a) : SmallVec r K) = singleMat i 0 (∑ a ∈ s, g a) := by
  unfold singleMat
  exact (map_sum (AddMonoidHom.single (fun _ => K) (pos i (0 : Fin 1))) g s).symm

theorem ppVector_spec (m : Mode) (E : Edge dim nS nP K) (x : SmallVec ((dim + 1) * nS) K) (hP : 0 < nP) (hS : 0 < nS) : ∃ v, ppVector m E x = .ok v ∧
    ∀ i, toMat v i 0 = if i.1 = 0 then uOf (toMat x) ⟨0, hS⟩ * E.pp_phiphi 0 0
      else -∑ d : Fin dim, ∑ j : Fin nS, E.pp_nablaphiphi i j d * qOf (toMat x) d j := by
  have h1 : forUp nP (fun i v => forUp nS (fun j v => do
      let grad_int_vec := E.pp_nablaphiphi i j
      forUp dim (fun d (v : SmallVec nP K) => do
        let x ← SmallMat.get m x (d * nS + j)
        let g ← arrGet grad_int_vec d
        SmallMat.subFrom m i (x * g) v) v) v) (SmallMat.fill nP 1 0) =
      .ok (SmallMat.fill nP 1 0 + ∑ i : Fin nP, singleMat i 0 (∑ j : Fin nS, ∑ d : Fin dim, -(qOf (toMat x) d j * E.pp_nablaphiphi i j d))) := by
    refine forUp_add nP _ _ (fun i v => ?_) _
    rw [← sum_single]
    refine forUp_add nS _ _ (fun j v => ?_) _
    rw [← sum_single]
    refine forUp_add dim _ _ (fun d v => ?_) _
    rw [vec_get_lt m x (hd d j), Res.ok_bind, arrGet_lt _ d.2, Res.ok_bind, subFrom_single m v i.2]
    rfl
  have h0 : dim * nS < (dim + 1) * nS := by have := hl (dim := dim) (⟨0, hS⟩ : Fin nS); simpa using this
  refine ⟨arrSet (SmallMat.fill nP 1 0 + ∑ i : Fin nP, singleMat i 0 (∑ j : Fin nS, ∑ d : Fin dim, -(qOf (toMat x) d j * E.pp_nablaphiphi i j d)))
    (pos ⟨0, hP⟩ 0) (toMat x ⟨dim * nS, h0⟩ 0 * E.pp_phiphi 0 0), ?_, fun i => ?_⟩
  · unfold ppVector
    rw [h1, Res.ok_bind, vec_get_lt m x h0, Res.ok_bind, vec_set_lt m _ hP]
  · rw [toMat_arrSet]
    by_cases h : i.1 = 0
    · rw [if_pos ⟨Fin.ext h, rfl⟩, if_pos h]
      rfl
    · rw [if_neg (fun h' => h (congrArg Fin.val h'.1)), if_neg h, toMat_add, Matrix.add_apply, toMat_sum]
      simp only [toMat_singleMat, and_true]
      rw [Finset.sum_ite_eq Finset.univ i, if_pos (Finset.mem_univ _), Finset.sum_comm]
      show (0 : K) + _ = _
      rw [zero_add, ← Finset.sum_neg_distrib]
      refine Finset.sum_congr rfl fun d _ => ?_
      rw [← Finset.sum_neg_distrib]
      exact Finset.sum_congr rfl fun j _ => by rw [mul_comm]

theorem sum_first {n : Nat} (hn : 0 < n) (f : Fin n → K) (h : ∀ i : Fin n, i.1 ≠ 0 → f i = 0) : ∑ i, f i = f ⟨0, hn⟩ :=
  Finset.sum_eq_single _ (fun i _ hi => h i fun h' => hi (Fin.ext h')) fun h' => absurd (Finset.mem_univ _) h'

/-- The system which is solved is the postprocessing problem. -/
theorem system_iff (E : Edge dim nS nP K) (time : K) (hP : 0 < nP) (hS : 0 < nS) (hE : ConstantFirst E time) (q : Fin dim → Fin nS → K) (u : Fin nS → K) (w : Fin nP → K) :
    (∀ i : Fin nP, ∑ j : Fin nP, (if i.1 = 0 ∧ j.1 = 0 then E.pp_phiphi 0 0 else E.pp_nablaphinablaphifunc time i j) * w j =
      if i.1 = 0 then u ⟨0, hS⟩ * E.pp_phiphi 0 0 else -∑ d : Fin dim, ∑ j : Fin nS, E.pp_nablaphiphi i j d * q d j) ↔
    IsPostprocessed (postForm E time) q u w := by
  have hm1 : (postForm E time).meanP ⬝ᵥ w = E.pp_phiphi 0 0 * w ⟨0, hP⟩ :=
    sum_first hP (fun i => E.pp_phiphi i 0 * w i) fun i hi => by rw [hE.ortho_pp i hi, zero_mul]
  have hm2 : (postForm E time).mean ⬝ᵥ u = E.vol_phiphi 0 0 * u ⟨0, hS⟩ :=
    sum_first hS (fun i => E.vol_phiphi i 0 * u i) fun i hi => by rw [hE.ortho i hi, zero_mul]
  have hrow0 : ∑ j : Fin nP, (if (0 : Nat) = 0 ∧ j.1 = 0 then E.pp_phiphi 0 0 else E.pp_nablaphinablaphifunc time 0 j) * w j = E.pp_phiphi 0 0 * w ⟨0, hP⟩ := by
    rw [sum_first hP]
    · simp
    · intro j hj
      rw [if_neg (fun h => hj h.2), hE.stiff_row, zero_mul]
  have hrow : ∀ i : Fin nP, i.1 ≠ 0 → ∑ j : Fin nP, (if i.1 = 0 ∧ j.1 = 0 then E.pp_phiphi 0 0 else E.pp_nablaphinablaphifunc time i j) * w j =
      ((postForm E time).stiff *ᵥ w) i := fun i hi => by
    simp only [hi, false_and, if_false]
    rfl
  have hright : ∀ i : Fin nP, (-∑ d, (postForm E time).grad d *ᵥ q d) i = -∑ d : Fin dim, ∑ j : Fin nS, E.pp_nablaphiphi i j d * q d j := fun i => by
    rw [Pi.neg_apply, Finset.sum_apply]
    rfl
  constructor
  · intro h
    constructor
    · funext i
      rw [hright]
      by_cases hi : i.1 = 0
      · obtain ⟨i, hi'⟩ := i
        obtain rfl : i = 0 := hi
        simp only [hE.grad_row, zero_mul, Finset.sum_const_zero, neg_zero]
        show ∑ j : Fin nP, E.pp_nablaphinablaphifunc time 0 j * w j = 0
        exact Finset.sum_eq_zero fun j _ => by rw [hE.stiff_row, zero_mul]
      · rw [← hrow i hi, h i, if_neg hi]
    · have := h ⟨0, hP⟩
      rw [if_pos rfl] at this
      rw [hm1, hm2, ← hE.same, ← hrow0, mul_comm _ (u _)]
      exact this
  · rintro ⟨h1, h2⟩ i
    by_cases hi : i.1 = 0
    · obtain ⟨i, hi'⟩ := i
      obtain rfl : i = 0 := hi
      rw [if_pos rfl, hrow0, ← hm1, h2, hm2, hE.same, mul_comm]
    · rw [hrow i hi, if_neg hi, h1, hright]

theorem solve_pp (m : Mode) (gesv_pp : Gesv nP 1 K) (hg : GesvSpec gesv_pp) (E : Edge dim nS nP K) (time : K) (hP : 0 < nP) (hS : 0 < nS) (hE : ConstantFirst E time)
    (x : SmallVec ((dim + 1) * nS) K) :
    (Postprocessable (postForm E time) → ∃ sol, (do
        let matrix ← ppMatrix m E time
        let vector ← ppVector m E x
        solve gesv_pp vector matrix) = .ok sol ∧ IsPostprocessed (postForm E time) (qOf (toMat x)) (uOf (toMat x)) fun i => toMat sol i 0) ∧
    (¬ Postprocessable (postForm E time) → (do
        let matrix ← ppMatrix m E time
        let vector ← ppVector m E x
        solve gesv_pp vector matrix) = .throw .lapack) := by
  obtain ⟨M, hM1, hM2⟩ := ppMatrix_spec m E time hP
  obtain ⟨v, hv1, hv2⟩ := ppVector_spec m E x hP hS
  have hunit : Postprocessable (postForm E time) ↔ IsUnit (toMat M) := by
    rw [← Matrix.mulVec_injective_iff_isUnit]
    have key : ∀ w : Fin nP → K, toMat M *ᵥ w = 0 ↔ IsPostprocessed (postForm E time) 0 0 w := fun w => by
      rw [← system_iff E time hP hS hE, funext_iff]
      refine forall_congr' fun i => ?_
      simp only [Pi.zero_apply, zero_mul, mul_zero, Finset.sum_const_zero, neg_zero, ite_self, mulVec, dotProduct, hM2]
    constructor
    · intro h
      refine (injective_iff_map_eq_zero (Matrix.mulVecLin (toMat M))).mpr fun w hw => ?_
      obtain ⟨h1, h2⟩ := (key w).mp hw
      refine h w ?_ ?_
      · rw [h1]; simp
      · rw [h2]; simp
    · intro h w h1 h2
      refine h ((show toMat M *ᵥ w = 0 from (key w).mpr ⟨?_, ?_⟩).trans (Matrix.mulVec_zero _).symm)
      · rw [h1]; simp
      · rw [h2]; simp
  rw [hunit, hM1, hv1]
  simp only [Res.ok_bind]
  constructor
  · intro hu
    obtain ⟨LU, X, y, h2, h3, h4⟩ := hg.regular M v (toMat M) (toMat v) (represents_iff.mpr rfl) (represents_iff.mpr rfl) hu
    rw [represents_iff] at h3
    subst h3
    refine ⟨X, ?_, ?_⟩
    · unfold solve solve_in_place
      rw [h2]; rfl
    · rw [← system_iff E time hP hS hE]
      intro i
      rw [← hv2 i, ← h4]
      simp only [Matrix.mul_apply, hM2]
  · intro hu
    have := hg.singular M v (toMat M) (represents_iff.mpr rfl) hu
    unfold solve solve_in_place
    rw [this]
    rfl

end HyperHDG.DiffusionPostprocess

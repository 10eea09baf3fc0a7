import Verif.Spec.Elliptic
import Verif.Proofs.TensorIntegrator
import Verif.Proofs.AffineForm
import Mathlib.Tactic.FinCases

/-!
# Functions without derivatives are determined by their trace on one face
-/

namespace HyperHDG.Spec

open Finset

variable {K : Type} {n d : Nat}

theorem sum_insert_axis [AddCommMonoid K] (a : Fin (d + 1)) (g : Fin (n ^ (d + 1)) → K) :
    ∑ i, g i = ∑ b : Fin n, ∑ r : Fin d → Fin n, g (ofDigs (a.insertNth (α := fun _ => Fin n) b r)) := by
  rw [← Equiv.sum_comp ((Fin.insertNthEquiv (fun _ => Fin n) a).trans finFunctionFinEquiv), ← Finset.univ_product_univ, Finset.sum_product]
  rfl

/-- A function of one variable without derivative has the same value at both ends. -/
theorem ends_eq [CommRing K] [NoZeroDivisors K] {B : Basis1D n K} (hB : B.Lawful) {u : Fin n → K} (hu : ∀ j : Fin n, ∑ i : Fin n, B.D i j * u i = 0)
    (h1 : ∑ i : Fin n, B.at1 i * u i = 0) : ∑ i : Fin n, B.at0 i * u i = 0 := by
  have h : ∑ i : Fin n, ∑ j : Fin n, (B.D i j + B.D j i) * u i * u j = 0 := by
    have e1 : ∑ i : Fin n, ∑ j : Fin n, B.D i j * u i * u j = 0 := by
      rw [Finset.sum_comm]
      refine Finset.sum_eq_zero fun j _ => ?_
      rw [← Finset.sum_mul, hu j, zero_mul]
    have e2 : ∑ i : Fin n, ∑ j : Fin n, B.D j i * u i * u j = 0 := by
      refine Finset.sum_eq_zero fun i _ => ?_
      have : ∀ j : Fin n, B.D j i * u i * u j = u i * (B.D j i * u j) := fun j => by ring
      simp only [this, ← Finset.mul_sum, hu i, mul_zero]
    simp only [add_mul, Finset.sum_add_distrib, e1, e2, add_zero]
  have h2 : ∑ i : Fin n, ∑ j : Fin n, (B.D i j + B.D j i) * u i * u j =
      (∑ i : Fin n, B.at1 i * u i) * (∑ i : Fin n, B.at1 i * u i) - (∑ i : Fin n, B.at0 i * u i) * (∑ i : Fin n, B.at0 i * u i) := by
    rw [Finset.sum_mul_sum, Finset.sum_mul_sum, ← Finset.sum_sub_distrib]
    refine Finset.sum_congr rfl fun i _ => ?_
    rw [← Finset.sum_sub_distrib]
    refine Finset.sum_congr rfl fun j _ => ?_
    rw [hB.by_parts]
    ring
  rw [h2, h1] at h
  have h3 : (∑ i : Fin n, B.at0 i * u i) * (∑ i : Fin n, B.at0 i * u i) = 0 := by linear_combination -h
  exact mul_self_eq_zero.mp h3

theorem tensor_rigid [CommRing K] [NoZeroDivisors K] (B : Basis1D n K) (hB : B.Lawful) :
    RigidIntegrator (tensorIntegrator n (d + 1) B) (d + 1) (n ^ (d + 1)) (n ^ d) := by
  classical
  intro u f hc ht
  funext k
  let c : Fin (d + 1) := axis f
  -- fix all digits but that of the axis of the face
  let r : Fin d → Fin n := c.removeNth (digs k)
  have hder : ∀ b : Fin n, ∑ a : Fin n, B.D a b * u (ofDigs (c.insertNth (α := fun _ => Fin n) a r)) = 0 := by
    intro b
    have := hc c (ofDigs (c.insertNth (α := fun _ => Fin n) b r))
    rw [sum_insert_axis c] at this
    rw [← this]
    refine Finset.sum_congr rfl fun a _ => ?_
    rw [Finset.sum_eq_single r]
    · simp only [tensorIntegrator]
      have h1 : SameExcept n (d + 1) c (ofDigs (c.insertNth (α := fun _ => Fin n) a r)) (ofDigs (c.insertNth (α := fun _ => Fin n) b r)) := by
        rw [sameExcept_iff, digs_ofDigs, digs_ofDigs]
        simp
      rw [if_pos h1, ← digs_val, ← digs_val, digs_ofDigs, digs_ofDigs]
      simp
    · intro r' _ hr'
      simp only [tensorIntegrator]
      rw [if_neg, zero_mul]
      intro h2
      rw [sameExcept_iff, digs_ofDigs, digs_ofDigs] at h2
      apply hr'
      simpa using h2
    · simp
  have htr : ∑ a : Fin n, (if f.1 % 2 = 0 then B.at0 a else B.at1 a) * u (ofDigs (c.insertNth (α := fun _ => Fin n) a r)) = 0 := by
    have := congrFun ht (ofDigs r)
    unfold traceOf at this
    rw [sum_insert_axis c] at this
    refine Eq.trans ?_ this
    have haf : (f : Nat) / 2 = c.1 := rfl
    refine Finset.sum_congr rfl fun a _ => ?_
    rw [Finset.sum_eq_single r]
    · simp only [tensorIntegrator, haf]
      have h1 : SameFace n (d + 1) c (ofDigs (c.insertNth (α := fun _ => Fin n) a r)) (ofDigs r) := by
        rw [sameFace_iff, digs_ofDigs, digs_ofDigs]
        simp
      rw [if_pos h1, ← digs_val, digs_ofDigs]
      simp
    · intro r' _ hr'
      simp only [tensorIntegrator, haf]
      rw [if_neg, zero_mul]
      intro h2
      rw [sameFace_iff, digs_ofDigs, digs_ofDigs] at h2
      apply hr'
      simpa using h2.symm
    · simp
  have hzero : (fun a : Fin n => u (ofDigs (c.insertNth (α := fun _ => Fin n) a r))) = 0 := by
    refine hB.unisolvent _ hder ?_
    by_cases hf : f.1 % 2 = 0
    · simpa only [hf, if_true] using htr
    · simp only [hf, if_false] at htr
      exact ends_eq hB hder htr
  have := congrFun hzero (digs k c)
  have hk : ofDigs (c.insertNth (α := fun _ => Fin n) (digs k c) r) = k := by
    have : c.insertNth (α := fun _ => Fin n) (digs k c) r = digs k := Fin.insertNth_self_removeNth _ _
    rw [this]
    exact finFunctionFinEquiv.apply_symm_apply k
  simp only [hk] at this
  exact this

open Matrix in
theorem affine_rigid {dim nS nB : Nat} [Field K] [LinearOrder K] [IsStrictOrderedRing K] (I : Integrator K) (hI : RigidIntegrator I dim nS nB) (A : Affine dim K)
    (hA : AffineLaws A) (mass : Matrix (Fin nS) (Fin nS) K) : Rigid (affineForm (nB := nB) I A mass) := by
  intro u f hc ht
  refine hI u f (fun a j => ?_) ?_
  · have key : A.cofᵀ *ᵥ (fun a => ∑ i : Fin nS, I.vol_Dphiphi i j a * u i) = 0 := by
      funext d
      have h := congrFun (hc d) j
      simp only [affineForm, mulVec, dotProduct, transpose_apply, of_apply, Pi.zero_apply] at h ⊢
      rw [← h]
      simp only [Finset.mul_sum, Finset.sum_mul]
      rw [Finset.sum_comm]
      exact Finset.sum_congr rfl fun i _ => Finset.sum_congr rfl fun a _ => by ring
    have hu : IsUnit A.cofᵀ := (Matrix.isUnit_transpose _).mpr hA.cof_inv
    obtain ⟨⟨M, N, hMN, hNM⟩, rfl : M = A.cofᵀ⟩ := hu
    have := congrArg (N *ᵥ ·) key
    simp only [mulVec_mulVec, hNM, one_mulVec, mulVec_zero] at this
    exact congrFun this a
  · funext k
    have h := congrFun ht k
    simp only [affineForm, mulVec, dotProduct, transpose_apply, of_apply, Pi.zero_apply] at h
    have h2 : A.area f * traceOf (dim := dim) I nB u f k = 0 := by
      rw [← h, traceOf, Finset.mul_sum]
      exact Finset.sum_congr rfl fun i _ => by ring
    exact (mul_eq_zero.mp h2).resolve_left (hA.area_pos f).ne'

/-- A property of hypernodes which each hyperedge passes on from one of its faces to all others holds everywhere, if it holds for the nodes of `D`. -/
theorem Anchored.all {E N F : Nat} {nodes : Fin E → Fin F → Fin N} {D : Fin N → Prop} (h : Anchored nodes D) (P : Fin N → Prop) (h0 : ∀ v, D v → P v)
    (hs : ∀ e f g, P (nodes e f) → P (nodes e g)) (v : Fin N) : P v := by
  obtain ⟨w, hw, hp⟩ := h v
  have hPw := h0 w hw
  clear hw
  induction hp with
  | refl => exact hPw
  | tail _ hab ih =>
    obtain ⟨e, f, g, rfl, rfl⟩ := hab
    exact hs e f g ih

end HyperHDG.Spec

import Verif.Proofs.Neumann
import Verif.Proofs.ErrorRate
import Mathlib.Analysis.Calculus.MeanValue

/-!
# Proof support: the constants among tensor products of polynomials
-/

namespace HyperHDG.Estimate

open Finset Spec Matrix Diffusion Polynomial

variable {p d : Nat} {P : Fin (p + 1) → ℝ[X]}

/-- A function without derivatives is constant. -/
theorem const_of_partials {n : Nat} {f : (Fin n → ℝ) → ℝ} (h : ∀ a, IsPartial a f fun _ => 0) (x : Fin n → ℝ) : f x = f 0 := by
  have h1 : ∀ (y : Fin n → ℝ) (a : Fin n) (r : ℝ), f (Function.update y a r) = f y := fun y a r => by
    have hd : ∀ s, HasDerivAt (fun r => f (Function.update y a r)) 0 s := fun s => by
      have := h a (Function.update y a s)
      simpa only [Function.update_idem, Function.update_self] using this
    have := is_const_of_deriv_eq_zero (fun s => (hd s).differentiableAt) (fun s => (hd s).deriv) r (y a)
    simpa only [Function.update_eq_self] using this
  have h2 : ∀ s : Finset (Fin n), f (s.piecewise x 0) = f 0 := fun s => by
    induction s using Finset.induction_on with
    | empty => rw [Finset.piecewise_empty]
    | insert a s _ ih => rw [Finset.piecewise_insert, h1, ih]
  have := h2 univ
  rwa [Finset.piecewise_univ] at this

theorem affine_const {dim nS nB : Nat} (I : Integrator ℝ) (A : Affine dim ℝ) (hA : AffineLaws A) (mass : Matrix (Fin nS) (Fin nS) ℝ) (u : Fin nS → ℝ) :
    IsConst (affineForm (nB := nB) I A mass) u ↔ ∀ (a : Fin dim) (j : Fin nS), ∑ i : Fin nS, I.vol_Dphiphi i j a * u i = 0 := by
  have h0 : ∀ (d : Fin dim) (j : Fin nS), (((affineForm (nB := nB) I A mass).grad d)ᵀ *ᵥ u) j = (A.cofᵀ *ᵥ (fun a => ∑ i : Fin nS, I.vol_Dphiphi i j a * u i)) d := fun d j => by
    simp only [affineForm, mulVec, dotProduct, transpose_apply, of_apply]
    simp only [Finset.mul_sum, Finset.sum_mul]
    rw [Finset.sum_comm]
    exact Finset.sum_congr rfl fun i _ => Finset.sum_congr rfl fun a _ => by ring
  constructor
  · intro hc a j
    have key : A.cofᵀ *ᵥ (fun a => ∑ i : Fin nS, I.vol_Dphiphi i j a * u i) = 0 := by
      funext d
      rw [← h0, hc d]
      rfl
    have hu : IsUnit A.cofᵀ := (Matrix.isUnit_transpose _).mpr hA.cof_inv
    obtain ⟨⟨M, N, hMN, hNM⟩, rfl : M = A.cofᵀ⟩ := hu
    have := congrArg (N *ᵥ ·) key
    simp only [mulVec_mulVec, hNM, one_mulVec, mulVec_zero] at this
    exact congrFun this a
  · intro h d
    funext j
    rw [h0, show (fun a : Fin dim => ∑ i : Fin nS, I.vol_Dphiphi i j a * u i) = 0 from funext fun a => h a j, mulVec_zero]
    rfl

variable (hP : OrthonormalPolys p P) {B : Data d} (hB : B.Admissible) {time : ℝ} {E : Edge (d + 1) ((p + 1) ^ (d + 1)) ℝ} (hE : ExactIntegrals P B time E)

include hP

theorem coeff_of_fun {n : Nat} {u v : Fin ((p + 1) ^ n) → ℝ} (h : ∀ x, polyFun P u x = polyFun P v x) : u = v := by
  funext i
  rw [← int_polyFun hP u i, ← int_polyFun hP v i]
  simp only [h]

include hB hE

theorem exact_constants {one : Fin ((p + 1) ^ (d + 1)) → ℝ} {oneB : Fin ((p + 1) ^ d) → ℝ} (h1 : ∀ x, polyFun P one x = 1) (h2 : ∀ y, polyFun P oneB y = 1) :
    Constants (form E ((p + 1) ^ d) time) one oneB where
  const := by
    rw [hE.form, affine_const _ _ hB.affine]
    intro a
    have h3 : IsPartial a (polyFun P one) fun _ => 0 := fun x => by
      simp only [h1]
      exact hasDerivAt_const _ _
    have h4 := partial_unique (polyFun_partial hP one a) h3
    have h5 : (fun j : Fin ((p + 1) ^ (d + 1)) => ∑ i : Fin ((p + 1) ^ (d + 1)), (tensorIntegrator (p + 1) (d + 1) (exactBasis P)).vol_Dphiphi i j a * one i) = 0 :=
      coeff_of_fun hP fun x => by
        rw [h4]
        simp [polyFun]
    exact congrFun h5
  trace f := by
    unfold IsTrace
    funext j
    rw [psiT_apply hP hE, Pi.smul_apply, smul_eq_mul, hE.form]
    refine congrArg _ ?_
    rw [← int_polyFun hP oneB j]
    simp only [h1, h2]
  only u hu := by
    rw [hE.form, affine_const _ _ hB.affine] at hu
    have h3 : ∀ a, IsPartial a (polyFun P u) fun _ => 0 := fun a => by
      have h4 := polyFun_partial hP u a
      rw [show (fun j : Fin ((p + 1) ^ (d + 1)) => ∑ i : Fin ((p + 1) ^ (d + 1)), (tensorIntegrator (p + 1) (d + 1) (exactBasis P)).vol_Dphiphi i j a * u i) = 0 from funext (hu a)] at h4
      simpa [polyFun, IsPartial] using h4
    refine ⟨polyFun P u 0, coeff_of_fun hP fun x => ?_⟩
    rw [const_of_partials h3 x]
    have h5 : polyFun P (polyFun P u 0 • one) x = polyFun P u 0 * polyFun P one x := by
      simp only [polyFun, Pi.smul_apply, smul_eq_mul, mul_sum, mul_assoc]
    rw [h5, h1, mul_one]
  nonzero h := by
    have := h2 0
    rw [h] at this
    simp [polyFun] at this

omit hP hB in
theorem exact_source {one : Fin ((p + 1) ^ (d + 1)) → ℝ} (h1 : ∀ x, polyFun P one x = 1) (hf : Continuous B.f) : one ⬝ᵥ source E time = B.A.vol * cubeInt B.f := by
  have h3 := int_test (P := P) hf one
  simp only [h1, mul_one] at h3
  rw [h3, mul_sum]
  refine sum_congr rfl fun i _ => ?_
  show one i * E.vol_phifunc time i = _
  rw [hE.source]
  ring

end HyperHDG.Estimate

import Mathlib.Tactic.Linarith
import Mathlib.Tactic.LinearCombination
import Mathlib.Algebra.Order.BigOperators.Group.Finset
import Verif.Proofs.AdvectionParab
import Verif.Proofs.ParabolicEnergy

/-!
# Energy estimates for the upwind HDG method
-/

set_option linter.unusedSectionVars false

namespace HyperHDG.AdvectionParab

open Spec Finset Matrix

variable {K : Type} {dim nS nB : Nat}

section
variable [CommRing K]

/-- The rate without source and Dirichlet data. -/
def homRate (E : Edge dim nS K) (tau time : K) (x : State dim nS nB K) : Fin nS → K := conv E time *ᵥ x.u - ∑ f, fluxTested E tau time x f

theorem fluxTested_comb (E : Edge dim nS K) (tau time a b : K) (x y : State dim nS nB K) (f : Fin (2 * dim)) :
    fluxTested E tau time (comb a b x y) f = a • fluxTested E tau time x f + b • fluxTested E tau time y f := by
  simp only [fluxTested_eq, comb, Pi.add_apply, Pi.smul_apply, mulVec_add, mulVec_smul, smul_add]
  abel

theorem homRate_comb (E : Edge dim nS K) (tau time a b : K) (x y : State dim nS nB K) :
    homRate E tau time (comb a b x y) = a • homRate E tau time x + b • homRate E tau time y := by
  simp only [homRate, fluxTested_comb, Finset.sum_add_distrib, ← Finset.smul_sum]
  rw [show (comb a b x y).u = a • x.u + b • y.u from rfl, mulVec_add, mulVec_smul, mulVec_smul]
  module

theorem flux_comb (E : Edge dim nS K) (tau time a b : K) (x y : State dim nS nB K) (f : Fin (2 * dim)) :
    flux E tau time (comb a b x y) f = a • flux E tau time x f + b • flux E tau time y f := by
  funext i
  simp only [flux, comb, Pi.add_apply, Pi.smul_apply, smul_eq_mul, mul_add, Finset.sum_add_distrib, Finset.mul_sum]
  simp only [mul_left_comm a, mul_left_comm b]
  ring

theorem stabFlux_comb (E : Edge dim nS K) (tau time a b : K) (x y : State dim nS nB K) (f : Fin (2 * dim)) :
    stabFlux E tau time (comb a b x y) f = a • stabFlux E tau time x f + b • stabFlux E tau time y f := by
  funext i
  simp only [stabFlux, comb, Pi.add_apply, Pi.smul_apply, smul_eq_mul, mul_add, mul_sub, Finset.sum_add_distrib, Finset.mul_sum]
  simp only [mul_left_comm a, mul_left_comm b]
  ring

variable [LinearOrder K]

theorem nodeFlux_comb (E : Edge dim nS K) (tau time a b : K) (x y : State dim nS nB K) :
    nodeFlux E tau time (comb a b x y) = a • nodeFlux E tau time x + b • nodeFlux E tau time y := by
  funext f
  simp only [nodeFlux, Pi.add_apply, Pi.smul_apply]
  split
  · exact stabFlux_comb ..
  · exact flux_comb ..

theorem rate_eq (E : Edge dim nS K) (tau time : K) (x : State dim nS nB K) :
    rate E tau time x = homRate E tau time x + (source E time - ∑ f, dirichletFlux E time f) := by
  simp only [rate, homRate, Finset.sum_add_distrib]
  abel

theorem rate_sub (E : Edge dim nS K) (tau time : K) (x y : State dim nS nB K) :
    rate E tau time x - rate E tau time y = homRate E tau time (comb 1 (-1) x y) := by
  rw [homRate_comb, rate_eq, rate_eq]
  module

theorem off_comb (E : Edge dim nS K) (time a b : K) (y z : LocDofs dim nB K) :
    offDirichlet E time (a • y + b • z) = a • offDirichlet E time y + b • offDirichlet E time z := by
  funext f j
  simp only [offDirichlet, Pi.add_apply, Pi.smul_apply, smul_eq_mul]
  split <;> simp

theorem pair_off {E : Edge dim nS K} {time : K} {mu : LocDofs dim nB K} (hm : VanishesOnDirichlet E time mu) (y : LocDofs dim nB K) :
    ∑ f, ∑ j, mu f j * offDirichlet E time y f j = ∑ f, mu f ⬝ᵥ y f := by
  refine Finset.sum_congr rfl fun f _ => ?_
  by_cases hf : IsDirichlet E time f
  · rw [hm f hf]; simp
  · simp [offDirichlet, hf, dotProduct]

end

section Quadrature
variable [CommRing K]

theorem quad_pair {n a b : Nat} (c : Fin n → K) (A : Fin n → Fin a → K) (B : Fin n → Fin b → K) (M : Fin a → Fin b → K)
    (hM : ∀ i j, M i j = ∑ k, c k * (A k i * B k j)) (x : Fin a → K) (y : Fin b → K) :
    ∑ i, x i * ∑ j, M i j * y j = ∑ k, c k * ((∑ i, A k i * x i) * (∑ j, B k j * y j)) := by
  simp only [hM, Finset.mul_sum, Finset.sum_mul]
  calc ∑ i, ∑ j, ∑ k, x i * (c k * (A k i * B k j) * y j) = ∑ k, ∑ i, ∑ j, x i * (c k * (A k i * B k j) * y j) := by
        rw [Finset.sum_comm (s := (Finset.univ : Finset (Fin n)))]
        exact Finset.sum_congr rfl fun i _ => Finset.sum_comm
    _ = _ := by
        refine Finset.sum_congr rfl fun k _ => ?_
        rw [Finset.sum_comm]
        exact Finset.sum_congr rfl fun j _ => Finset.sum_congr rfl fun i _ => by ring

end Quadrature

section
variable [Field K] [LinearOrder K] [IsStrictOrderedRing K] {E : Edge dim nS K} {time : K} {P : Points dim nS nB K} (hP : UpwindLaws E time P)
include hP

/-- The flux tested by a function on the hyperedge. -/
theorem test_flux (tau : K) (w : Fin nS → K) (x : State dim nS nB K) (f : Fin (2 * dim)) : w ⬝ᵥ fluxTested E tau time x f =
    ∑ k, P.weight f k * (P.val f k w * P.upwind tau f k (P.val f k x.u) (P.tr f k (x.lambda f))) := by
  have h1 := quad_pair (fun k => P.weight f k * (max (P.wind f k) 0 + tau * P.stab f k)) (P.phi f) (P.phi f)
    (fun i j : Fin nS => E.bdr_phiphinu time i j f + tau * E.bdr_phiphi time i j f) (fun i j => by
      rw [hP.phiphinu, hP.phiphi, Finset.mul_sum, ← Finset.sum_add_distrib]
      exact Finset.sum_congr rfl fun k _ => by ring) w x.u
  have h2 := quad_pair (fun k => P.weight f k * (min (P.wind f k) 0 - tau * P.stab f k)) (P.phi f) (P.psi f)
    (fun (i : Fin nS) (j : Fin nB) => E.bdr_phipsinu time i j f - tau * E.bdr_phipsi time i j f) (fun i j => by
      rw [hP.phipsinu, hP.phipsi, Finset.mul_sum, ← Finset.sum_sub_distrib]
      exact Finset.sum_congr rfl fun k _ => by ring) w (x.lambda f)
  simp only [dotProduct, fluxTested, mul_add, Finset.sum_add_distrib]
  simp only [mul_add] at h1 h2
  rw [h1, h2, ← Finset.sum_add_distrib]
  refine Finset.sum_congr rfl fun k _ => ?_
  simp only [Points.upwind, Points.val, Points.tr]
  ring

/-- The flux tested by a function on the face. -/
theorem test_bdr_flux (tau : K) (mu : Fin nB → K) (x : State dim nS nB K) (f : Fin (2 * dim)) : mu ⬝ᵥ flux E tau time x f =
    ∑ k, P.weight f k * (P.tr f k mu * P.upwind tau f k (P.val f k x.u) (P.tr f k (x.lambda f))) := by
  have h1 := quad_pair (fun k => P.weight f k * (max (P.wind f k) 0 + tau * P.stab f k)) (P.psi f) (P.phi f)
    (fun (i : Fin nB) (j : Fin nS) => E.bdr_psiphinu time i j f + tau * E.bdr_psiphi time i j f) (fun i j => by
      rw [hP.psiphinu, hP.psiphi, Finset.mul_sum, ← Finset.sum_add_distrib]
      exact Finset.sum_congr rfl fun k _ => by ring) mu x.u
  have h2 := quad_pair (fun k => P.weight f k * (min (P.wind f k) 0 - tau * P.stab f k)) (P.psi f) (P.psi f)
    (fun (i j : Fin nB) => E.bdr_psipsinu time i j f - tau * E.bdr_psipsi time i j f) (fun i j => by
      rw [hP.psipsinu, hP.psipsi, Finset.mul_sum, ← Finset.sum_sub_distrib]
      exact Finset.sum_congr rfl fun k _ => by ring) mu (x.lambda f)
  simp only [dotProduct, flux, mul_add, Finset.sum_add_distrib]
  simp only [mul_add] at h1 h2
  rw [h1, h2, ← Finset.sum_add_distrib]
  refine Finset.sum_congr rfl fun k _ => ?_
  simp only [Points.upwind, Points.val, Points.tr]
  ring

theorem test_stab_flux (tau : K) (mu : Fin nB → K) (x : State dim nS nB K) (f : Fin (2 * dim)) : mu ⬝ᵥ stabFlux E tau time x f =
    ∑ k, P.weight f k * (P.tr f k mu * (tau * P.stab f k * (P.val f k x.u - P.tr f k (x.lambda f)))) := by
  have h1 := quad_pair (fun k => P.weight f k * (tau * P.stab f k)) (P.psi f) (P.phi f)
    (fun (i : Fin nB) (j : Fin nS) => tau * E.bdr_psiphi time i j f) (fun i j => by
      rw [hP.psiphi, Finset.mul_sum]
      exact Finset.sum_congr rfl fun k _ => by ring) mu x.u
  have h2 := quad_pair (fun k => P.weight f k * (tau * P.stab f k)) (P.psi f) (P.psi f)
    (fun (i j : Fin nB) => tau * E.bdr_psipsi time i j f) (fun i j => by
      rw [hP.psipsi, Finset.mul_sum]
      exact Finset.sum_congr rfl fun k _ => by ring) mu (x.lambda f)
  simp only [dotProduct, stabFlux, mul_sub, Finset.sum_sub_distrib]
  rw [h1, h2]
  congr 1 <;> refine Finset.sum_congr rfl fun k _ => ?_
  all_goals
    simp only [Points.val, Points.tr]
    ring

omit hP in
/-- The energy lost at the points of a face. -/
def lossAt (E : Edge dim nS K) (tau time : K) (P : Points dim nS nB K) (x : State dim nS nB K) (f : Fin (2 * dim)) (k : Fin P.n) : K :=
  if IsOutflow E time f then 1 / 2 * (P.wind f k * P.val f k x.u ^ 2) + tau * P.stab f k * (P.val f k x.u - P.tr f k (x.lambda f)) ^ 2
  else (1 / 2 * |P.wind f k| + tau * P.stab f k) * (P.val f k x.u - P.tr f k (x.lambda f)) ^ 2

omit hP in
/-- What flows through a face into the node, weighted with the square of the trace. -/
def inflow (E : Edge dim nS K) (time : K) (P : Points dim nS nB K) (f : Fin (2 * dim)) (mu : Fin nB → K) : K :=
  if IsOutflow E time f then 0 else ∑ k, P.weight f k * P.wind f k * P.tr f k mu ^ 2

omit hP in
theorem point_identity (b t v l : K) : v * (max b 0 * v + min b 0 * l + t * (v - l)) - 1 / 2 * (b * v ^ 2) - l * (max b 0 * v + min b 0 * l + t * (v - l)) =
    (1 / 2 * |b| + t) * (v - l) ^ 2 - 1 / 2 * (b * l ^ 2) := by
  rcases le_total 0 b with h | h
  · rw [max_eq_left h, min_eq_right h, abs_of_nonneg h]; ring
  · rw [max_eq_right h, min_eq_left h, abs_of_nonpos h]; ring

theorem energy (hN : NoSinks E time P) (tau : K) (hout : ∀ f, IsOutflow E time f → ∀ k, 0 ≤ P.wind f k) (x : State dim nS nB K) :
    x.u ⬝ᵥ homRate E tau time x + ∑ f, x.lambda f ⬝ᵥ nodeFlux E tau time x f + ∑ f, ∑ k, P.weight f k * lossAt E tau time P x f k ≤
      1 / 2 * ∑ f, inflow E time P f (x.lambda f) := by
  have h1 := hN x.u
  have h2 : ∀ f, x.u ⬝ᵥ fluxTested E tau time x f - 1 / 2 * ∑ k, P.weight f k * P.wind f k * P.val f k x.u ^ 2 - x.lambda f ⬝ᵥ nodeFlux E tau time x f =
      ∑ k, P.weight f k * lossAt E tau time P x f k - 1 / 2 * inflow E time P f (x.lambda f) := by
    intro f
    rw [test_flux hP]
    unfold nodeFlux inflow lossAt
    by_cases ho : IsOutflow E time f
    · simp only [if_pos ho, mul_zero, sub_zero]
      rw [test_stab_flux hP, Finset.mul_sum, ← Finset.sum_sub_distrib, ← Finset.sum_sub_distrib]
      refine Finset.sum_congr rfl fun k _ => ?_
      rw [Points.upwind, max_eq_left (hout f ho k), min_eq_right (hout f ho k)]
      ring
    · simp only [if_neg ho]
      rw [test_bdr_flux hP, Finset.mul_sum, Finset.mul_sum, ← Finset.sum_sub_distrib, ← Finset.sum_sub_distrib, ← Finset.sum_sub_distrib]
      refine Finset.sum_congr rfl fun k _ => ?_
      have := point_identity (P.wind f k) (tau * P.stab f k) (P.val f k x.u) (P.tr f k (x.lambda f))
      rw [Points.upwind]
      linear_combination P.weight f k * this
  have h3 := Finset.sum_congr (rfl : (Finset.univ : Finset (Fin (2 * dim))) = Finset.univ) fun f _ => h2 f
  simp only [Finset.sum_sub_distrib, ← Finset.mul_sum] at h3
  rw [homRate, dotProduct_sub, dotProduct_sum]
  linarith

theorem loss_nonneg {tau : K} (ht : 0 ≤ tau) (hout : ∀ f, IsOutflow E time f → ∀ k, 0 ≤ P.wind f k) (x : State dim nS nB K) (f : Fin (2 * dim)) (k : Fin P.n) :
    0 ≤ P.weight f k * lossAt E tau time P x f k := by
  refine mul_nonneg (hP.weight f k) ?_
  unfold lossAt
  have h2 := mul_nonneg ht (hP.stab f k)
  split
  next ho =>
    have h1 := mul_nonneg (hout f ho k) (sq_nonneg (P.val f k x.u))
    have h3 := mul_nonneg h2 (sq_nonneg (P.val f k x.u - P.tr f k (x.lambda f)))
    linarith
  next ho =>
    refine mul_nonneg ?_ (sq_nonneg _)
    have := abs_nonneg (P.wind f k)
    linarith

/-- What is lost determines the trace where the primal unknown vanishes. -/
theorem loss_zero {tau : K} (ht : 0 ≤ tau) {x : State dim nS nB K} (hu : x.u = 0) {f : Fin (2 * dim)} {k : Fin P.n}
    (h : P.weight f k * lossAt E tau time P x f k = 0) :
    P.weight f k * ((if IsOutflow E time f then 0 else |P.wind f k|) + tau * P.stab f k) * P.tr f k (x.lambda f) = 0 := by
  have hv : P.val f k x.u = 0 := by rw [hu]; simp [Points.val]
  unfold lossAt at h
  rw [hv] at h
  rcases mul_eq_zero.mp h with h | h
  · rw [h, zero_mul, zero_mul]
  · have h2 := mul_nonneg ht (hP.stab f k)
    by_cases ho : IsOutflow E time f
    · rw [if_pos ho] at h
      have h3 : tau * P.stab f k * P.tr f k (x.lambda f) ^ 2 = 0 := by linear_combination h
      rw [if_pos ho, zero_add]
      rcases mul_eq_zero.mp h3 with h4 | h4
      · rw [h4]; ring
      · rw [pow_eq_zero_iff two_ne_zero] at h4; rw [h4]; ring
    · rw [if_neg ho] at h
      rw [if_neg ho]
      rcases mul_eq_zero.mp h with h4 | h4
      · have := abs_nonneg (P.wind f k)
        have h5 : |P.wind f k| + tau * P.stab f k = 0 := by linarith
        rw [h5]; ring
      · rw [pow_eq_zero_iff two_ne_zero, zero_sub, neg_eq_zero] at h4; rw [h4]; ring

theorem solvable_of (S : Solver K) (ht : 0 ≤ S.tau) (hth : 0 ≤ S.theta * S.delta_t) (hN : NoSinks E time P) : Solvable S E nB time := by
  intro u hu
  by_contra hne
  have h1 := hP.mass_pos u hne
  have h2 := hN u
  have h3 : mass E *ᵥ u = (S.theta * S.delta_t) • homRate E S.tau time (⟨u, 0⟩ : State dim nS nB K) := sub_eq_zero.mp hu
  rw [h3, dotProduct_smul, smul_eq_mul] at h1
  have h4 : u ⬝ᵥ homRate E S.tau time (⟨u, 0⟩ : State dim nS nB K) ≤ 0 := by
    rw [homRate, dotProduct_sub, dotProduct_sum]
    have h5 : ∀ f, 1 / 2 * ∑ k, P.weight f k * P.wind f k * P.val f k u ^ 2 ≤ u ⬝ᵥ fluxTested E S.tau time (⟨u, 0⟩ : State dim nS nB K) f := by
      intro f
      rw [test_flux hP, Finset.mul_sum]
      refine Finset.sum_le_sum fun k _ => ?_
      have hl : P.tr f k ((⟨u, 0⟩ : State dim nS nB K).lambda f) = 0 := by simp [Points.tr]
      rw [hl]
      have := point_identity (P.wind f k) (S.tau * P.stab f k) (P.val f k u) 0
      have h6 : 0 ≤ P.weight f k * ((1 / 2 * |P.wind f k| + S.tau * P.stab f k) * (P.val f k u - 0) ^ 2) := by
        refine mul_nonneg (hP.weight f k) (mul_nonneg ?_ (sq_nonneg _))
        have := abs_nonneg (P.wind f k)
        have := mul_nonneg ht (hP.stab f k)
        linarith
      rw [Points.upwind]
      have h7 := congrArg (fun z => P.weight f k * z) this
      nlinarith [h6, h7]
    have h8 := Finset.sum_le_sum (s := Finset.univ) fun f _ => h5 f
    rw [← Finset.mul_sum] at h8
    linarith
  have := mul_nonpos_of_nonneg_of_nonpos hth h4
  linarith

end

end HyperHDG.AdvectionParab

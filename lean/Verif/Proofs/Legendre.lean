import Verif.Spec.Legendre
import Mathlib.RingTheory.Polynomial.Basic
import Mathlib.Topology.Algebra.Polynomial
import Mathlib.Analysis.Calculus.Deriv.Polynomial
import Mathlib.Analysis.InnerProductSpace.PiL2
import Mathlib.LinearAlgebra.FiniteDimensional.Basic

/-!
# Orthonormal polynomials satisfy the laws, and exist for each degree
-/

namespace HyperHDG.Spec

open Polynomial MeasureTheory

theorem poly_int (f : ℝ[X]) (a b : ℝ) : IntervalIntegrable (fun x => f.eval x) volume a b := f.continuous.intervalIntegrable a b

theorem int_by_parts (f g : ℝ[X]) : (∫ x in (0 : ℝ)..1, f.derivative.eval x * g.eval x) + (∫ x in (0 : ℝ)..1, g.derivative.eval x * f.eval x) =
    f.eval 1 * g.eval 1 - f.eval 0 * g.eval 0 := by
  have h := intervalIntegral.integral_deriv_mul_eq_sub (a := 0) (b := 1) (u := fun x => f.eval x) (v := fun x => g.eval x)
    (u' := fun x => f.derivative.eval x) (v' := fun x => g.derivative.eval x) (fun x _ => f.hasDerivAt x) (fun x _ => g.hasDerivAt x)
    (poly_int _ _ _) (poly_int _ _ _)
  rw [← h, ← intervalIntegral.integral_add]
  · refine intervalIntegral.integral_congr fun x _ => ?_
    ring
  · exact (f.derivative.continuous.mul g.continuous).intervalIntegrable _ _
  · exact (g.derivative.continuous.mul f.continuous).intervalIntegrable _ _

theorem int_sq_zero (f : ℝ[X]) (h : ∫ x in (0 : ℝ)..1, f.eval x * f.eval x = 0) : f = 0 := by
  by_contra hf
  have hc : ∃ c ∈ Set.Icc (0 : ℝ) 1, f.eval c ≠ 0 := by
    by_contra hn
    push Not at hn
    apply hf
    refine Polynomial.eq_zero_of_infinite_isRoot f (Set.Infinite.mono (fun x hx => hn x hx) ?_)
    exact Set.Icc_infinite (by norm_num)
  obtain ⟨c, hc1, hc2⟩ := hc
  have := intervalIntegral.integral_pos (a := 0) (b := 1) (f := fun x => f.eval x * f.eval x) (by norm_num)
    (f.continuous.mul f.continuous).continuousOn (fun x _ => mul_self_nonneg _) ⟨c, hc1, mul_self_pos.mpr hc2⟩
  rw [h] at this
  exact lt_irrefl _ this

theorem int_sum {p : Nat} (P : Fin (p + 1) → ℝ[X]) (u : Fin (p + 1) → ℝ) (g : ℝ[X]) :
    ∫ x in (0 : ℝ)..1, (∑ i, C (u i) * P i).eval x * g.eval x = ∑ i, u i * ∫ x in (0 : ℝ)..1, (P i).eval x * g.eval x := by
  have : ∀ x : ℝ, (∑ i, C (u i) * P i).eval x * g.eval x = ∑ i, u i * ((P i).eval x * g.eval x) := by
    intro x
    rw [Polynomial.eval_finsetSum, Finset.sum_mul]
    refine Finset.sum_congr rfl fun i _ => ?_
    simp; ring
  simp only [this]
  rw [intervalIntegral.integral_finsetSum]
  · refine Finset.sum_congr rfl fun i _ => ?_
    rw [intervalIntegral.integral_const_mul]
  · intro i _
    exact (continuous_const.mul ((P i).continuous.mul g.continuous)).intervalIntegrable _ _

variable {p : Nat} {P : Fin (p + 1) → ℝ[X]}

theorem ortho_indep (hP : OrthonormalPolys p P) : LinearIndependent ℝ P := by
  rw [Fintype.linearIndependent_iff]
  intro g hg i
  have h1 := int_sum P g (P i)
  have h2 : (∑ i, C (g i) * P i) = 0 := by
    rw [← hg]
    exact Finset.sum_congr rfl fun i _ => (Polynomial.smul_eq_C_mul _).symm
  rw [h2] at h1
  simp [hP.ortho] at h1
  exact h1.symm

theorem ortho_span (hP : OrthonormalPolys p P) (f : ℝ[X]) (hf : f.natDegree ≤ p) : ∃ c : Fin (p + 1) → ℝ, f = ∑ i, C (c i) * P i := by
  have hmem : ∀ g : ℝ[X], g.natDegree ≤ p → g ∈ degreeLT ℝ (p + 1) := by
    intro g hg
    rw [mem_degreeLT]
    exact lt_of_le_of_lt degree_le_natDegree (by exact_mod_cast Nat.lt_succ_of_le hg)
  let Q : Fin (p + 1) → degreeLT ℝ (p + 1) := fun i => ⟨P i, hmem _ (hP.degree i)⟩
  have hQ : LinearIndependent ℝ Q := by
    refine LinearIndependent.of_comp (degreeLT ℝ (p + 1)).subtype ?_
    exact ortho_indep hP
  have hfr : Module.finrank ℝ (degreeLT ℝ (p + 1)) = p + 1 := by
    rw [(degreeLTEquiv ℝ (p + 1)).finrank_eq]; simp
  have hfin : FiniteDimensional ℝ (degreeLT ℝ (p + 1)) := Module.Finite.equiv (degreeLTEquiv ℝ (p + 1)).symm
  have htop := hQ.span_eq_top_of_card_eq_finrank' (by rw [hfr]; simp)
  have hf' : (⟨f, hmem f hf⟩ : degreeLT ℝ (p + 1)) ∈ Submodule.span ℝ (Set.range Q) := by rw [htop]; trivial
  obtain ⟨c, hc⟩ := (Submodule.mem_span_range_iff_exists_fun ℝ).mp hf'
  refine ⟨c, ?_⟩
  have := congrArg (degreeLT ℝ (p + 1)).subtype hc
  rw [map_sum] at this
  simp only [map_smul, Submodule.subtype_apply, Q] at this
  rw [← this]
  exact Finset.sum_congr rfl fun i _ => Polynomial.smul_eq_C_mul _

theorem exact_lawful (hP : OrthonormalPolys p P) : (exactBasis P).Lawful := by
  constructor
  · intro i j
    simp only [exactBasis, Fin.is_lt, and_self, dif_pos, Fin.eta]
    exact int_by_parts _ _
  · intro u h1 h2
    simp only [exactBasis, Fin.is_lt, and_self, dif_pos, Fin.eta] at h1 h2
    let f : ℝ[X] := ∑ i, C (u i) * P i
    have hfd : f.derivative = ∑ i, C (u i) * (P i).derivative := by
      simp [f]
    have horth : ∀ j, ∫ x in (0 : ℝ)..1, f.derivative.eval x * (P j).eval x = 0 := by
      intro j
      rw [hfd, int_sum (fun i => (P i).derivative) u (P j)]
      refine Eq.trans (Finset.sum_congr rfl fun i _ => mul_comm _ _) (h1 j)
    have hdeg : f.natDegree ≤ p := by
      refine Polynomial.natDegree_sum_le_of_forall_le _ _ fun i _ => ?_
      exact (Polynomial.natDegree_C_mul_le _ _).trans (hP.degree i)
    obtain ⟨c, hc⟩ := ortho_span hP f.derivative ((Polynomial.natDegree_derivative_le f).trans (by omega))
    have hz : f.derivative = 0 := by
      refine int_sq_zero _ ?_
      have h3 := int_sum P c f.derivative
      rw [← hc] at h3
      rw [h3]
      refine Finset.sum_eq_zero fun i _ => ?_
      have : ∫ x in (0 : ℝ)..1, (P i).eval x * f.derivative.eval x = ∫ x in (0 : ℝ)..1, f.derivative.eval x * (P i).eval x :=
        intervalIntegral.integral_congr fun x _ => mul_comm _ _
      rw [this, horth, mul_zero]
    have hf0 : f.eval 0 = 0 := by
      simp only [f, Polynomial.eval_finsetSum, Polynomial.eval_mul, Polynomial.eval_C]
      exact Eq.trans (Finset.sum_congr rfl fun i _ => mul_comm _ _) h2
    have hf : f = 0 := by
      have hconst := Polynomial.derivative_eq_zero.mp hz
      rw [Polynomial.eq_C_of_natDegree_eq_zero hconst] at hf0 ⊢
      simp at hf0
      rw [hf0]; simp
    funext j
    have h4 := int_sum P u (P j)
    rw [show (∑ i, C (u i) * P i) = 0 from hf] at h4
    simp [hP.ortho] at h4
    exact h4.symm

/-- The scalar product on polynomials of bounded degree. -/
@[instance_reducible] noncomputable def polyCore (n : Nat) : InnerProductSpace.Core ℝ (degreeLT ℝ n) where
  inner f g := ∫ x in (0 : ℝ)..1, f.1.eval x * g.1.eval x
  conj_inner_symm f g := by
    simp only [conj_trivial]
    exact intervalIntegral.integral_congr fun x _ => mul_comm _ _
  re_inner_nonneg f := by
    simp only [RCLike.re_to_real]
    exact intervalIntegral.integral_nonneg (by norm_num) fun x _ => mul_self_nonneg _
  add_left f g h := by
    rw [← intervalIntegral.integral_add]
    · refine intervalIntegral.integral_congr fun x _ => ?_
      simp; ring
    · exact (f.1.continuous.mul h.1.continuous).intervalIntegrable _ _
    · exact (g.1.continuous.mul h.1.continuous).intervalIntegrable _ _
  smul_left f g r := by
    simp only [conj_trivial]
    rw [← intervalIntegral.integral_const_mul]
    refine intervalIntegral.integral_congr fun x _ => ?_
    change eval x (r • f.1) * _ = _
    rw [Polynomial.eval_smul, smul_eq_mul]; ring
  definite f h := Subtype.ext (int_sq_zero f.1 h)

theorem exists_orthonormal (p : Nat) : ∃ P : Fin (p + 1) → ℝ[X], OrthonormalPolys p P := by
  let _ : NormedAddCommGroup (degreeLT ℝ (p + 1)) := (polyCore (p + 1)).toNormedAddCommGroup
  let _ : InnerProductSpace ℝ (degreeLT ℝ (p + 1)) := InnerProductSpace.ofCore (polyCore (p + 1)).toCore
  have : FiniteDimensional ℝ (degreeLT ℝ (p + 1)) := Module.Finite.equiv (degreeLTEquiv ℝ (p + 1)).symm
  have hfr : Module.finrank ℝ (degreeLT ℝ (p + 1)) = p + 1 := by
    rw [(degreeLTEquiv ℝ (p + 1)).finrank_eq]; simp
  let b := (stdOrthonormalBasis ℝ (degreeLT ℝ (p + 1))).reindex (finCongr hfr)
  refine ⟨fun i => (b i).1, fun i => ?_, fun i j => ?_⟩
  · have := (b i).2
    rw [mem_degreeLT] at this
    by_cases h0 : (b i).1 = 0
    · rw [h0]; simp
    · rw [Polynomial.degree_eq_natDegree h0] at this
      have := Nat.cast_lt.mp this
      omega
  · have := orthonormal_iff_ite.mp b.orthonormal i j
    exact this

end HyperHDG.Spec

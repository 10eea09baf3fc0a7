import Verif.Proofs.PolynomialProblem
import Mathlib.MeasureTheory.Constructions.Pi
import Mathlib.MeasureTheory.Integral.Prod
import Mathlib.MeasureTheory.Integral.IntervalIntegral.FundThmCalculus

/-!
# The divergence theorem on the reference cube
-/

namespace HyperHDG.Diffusion

open Spec HyGraph MeasureTheory Polynomial Finset Matrix

variable {p d : Nat} {P : Fin (p + 1) → ℝ[X]}

theorem insertNth_cont (l : Fin (d + 1)) : Continuous fun z : ℝ × (Fin d → ℝ) => l.insertNth (α := fun _ => ℝ) z.1 z.2 := by
  refine continuous_pi fun k => ?_
  refine Fin.succAboveCases l ?_ (fun j => ?_) k
  · simp only [Fin.insertNth_apply_same]; exact continuous_fst
  · simp only [Fin.insertNth_apply_succAbove]; exact (continuous_apply j).comp continuous_snd

theorem face_cont (f : Fin (2 * (d + 1))) : Continuous fun y : Fin d → ℝ => facePoint f y :=
  (insertNth_cont (axis f)).comp (Continuous.prodMk continuous_const continuous_id)

/-- The fundamental theorem of calculus in direction `l`. -/
theorem cube_ftc (l : Fin (d + 1)) {h dh : (Fin (d + 1) → ℝ) → ℝ} (hp : IsPartial l h dh) (hh : Continuous h) (hd : Continuous dh) :
    cubeInt dh = cubeInt (fun y : Fin d → ℝ => h (l.insertNth (α := fun _ => ℝ) 1 y)) - cubeInt (fun y : Fin d → ℝ => h (l.insertNth (α := fun _ => ℝ) 0 y)) := by
  have hmp := (volume_preserving_piFinSuccAbove (fun _ : Fin (d + 1) => ℝ) l).symm
  have h1 := hmp.setIntegral_preimage_emb (MeasurableEquiv.piFinSuccAbove (fun _ : Fin (d + 1) => ℝ) l).symm.measurableEmbedding dh (Set.univ.pi fun _ => Set.Icc 0 1)
  have hpre : (MeasurableEquiv.piFinSuccAbove (fun _ : Fin (d + 1) => ℝ) l).symm ⁻¹' (Set.univ.pi fun _ => Set.Icc 0 1) =
      Set.Icc (0 : ℝ) 1 ×ˢ (Set.univ.pi fun _ : Fin d => Set.Icc (0 : ℝ) 1) := by
    ext z
    constructor
    · intro hz
      have h2 : ∀ k, l.insertNth (α := fun _ => ℝ) z.1 z.2 k ∈ Set.Icc (0 : ℝ) 1 := fun k => hz k trivial
      refine ⟨by simpa using h2 l, fun j _ => by simpa using h2 (l.succAbove j)⟩
    · intro hz k _
      show l.insertNth (α := fun _ => ℝ) z.1 z.2 k ∈ Set.Icc (0 : ℝ) 1
      refine Fin.succAboveCases l ?_ (fun j => ?_) k
      · simpa using hz.1
      · simpa using hz.2 j trivial
  rw [hpre] at h1
  have h2 : cubeInt dh = ∫ z in Set.Icc (0 : ℝ) 1 ×ˢ (Set.univ.pi fun _ : Fin d => Set.Icc (0 : ℝ) 1), dh (l.insertNth (α := fun _ => ℝ) z.1 z.2) := h1.symm
  have hint : IntegrableOn (fun z : ℝ × (Fin d → ℝ) => dh (l.insertNth (α := fun _ => ℝ) z.1 z.2)) (Set.Icc (0 : ℝ) 1 ×ˢ (Set.univ.pi fun _ : Fin d => Set.Icc (0 : ℝ) 1)) :=
    (hd.comp (insertNth_cont l)).continuousOn.integrableOn_compact (isCompact_Icc.prod (isCompact_univ_pi fun _ => isCompact_Icc))
  rw [h2]
  unfold IntegrableOn at hint
  rw [Measure.volume_eq_prod, ← Measure.prod_restrict] at hint ⊢
  rw [integral_prod_symm _ hint]
  have hs : ∀ r : ℝ, IntegrableOn (fun y : Fin d → ℝ => h (l.insertNth (α := fun _ => ℝ) r y)) (Set.univ.pi fun _ => Set.Icc (0 : ℝ) 1) := fun r =>
    cube_integrable (f := fun y : Fin d → ℝ => h (l.insertNth (α := fun _ => ℝ) r y)) (hh.comp ((insertNth_cont l).comp (Continuous.prodMk continuous_const continuous_id)))
  refine Eq.trans ?_ (integral_sub (hs 1) (hs 0))
  refine integral_congr_ae (Filter.Eventually.of_forall fun y => ?_)
  show ∫ r in Set.Icc (0 : ℝ) 1, dh (l.insertNth (α := fun _ => ℝ) r y) = _
  rw [int_Icc]
  refine intervalIntegral.integral_eq_sub_of_hasDerivAt (f := fun r => h (l.insertNth (α := fun _ => ℝ) r y)) (fun r _ => ?_) ?_
  · have := hp (l.insertNth (α := fun _ => ℝ) r y)
    simpa [Fin.update_insertNth] using this
  · exact (hd.comp ((insertNth_cont l).comp (Continuous.prodMk continuous_id continuous_const))).intervalIntegrable _ _

theorem partial_mul {l : Fin d} {f g df dg : (Fin d → ℝ) → ℝ} (hf : IsPartial l f df) (hg : IsPartial l g dg) :
    IsPartial l (fun x => f x * g x) (fun x => df x * g x + f x * dg x) := fun x => by
  have := (hf x).mul (hg x)
  simp only [Function.update_eq_self] at this
  exact this

/-- Integration by parts with a shape function. -/
theorem parts_shape (hP : OrthonormalPolys p P) (i : Fin ((p + 1) ^ (d + 1))) (l : Fin (d + 1)) {g dg : (Fin (d + 1) → ℝ) → ℝ} (hp : IsPartial l g dg) (hg : Continuous g) (hd : Continuous dg) :
    cubeInt (fun x => dg x * shape P i x) + ∑ j : Fin ((p + 1) ^ (d + 1)), (tensorIntegrator (p + 1) (d + 1) (exactBasis P)).vol_Dphiphi i j l * cubeInt (fun x => g x * shape P j x) =
      ∑ f : Fin (2 * (d + 1)), if axis f = l then normal f * cubeInt (fun y => g (facePoint f y) * shape P i (facePoint f y)) else 0 := by
  have h0 := partial_mul hp (shape_partial hP i l)
  have hds : Continuous fun x => ∑ j : Fin ((p + 1) ^ (d + 1)), (tensorIntegrator (p + 1) (d + 1) (exactBasis P)).vol_Dphiphi i j l * shape P j x :=
    continuous_finsetSum _ fun j _ => continuous_const.mul (shape_cont j)
  have h1 := cube_ftc l h0 (hg.mul (shape_cont i)) ((hd.mul (shape_cont i)).add (hg.mul hds))
  have h2 : cubeInt (fun x => dg x * shape P i x + g x * ∑ j : Fin ((p + 1) ^ (d + 1)), (tensorIntegrator (p + 1) (d + 1) (exactBasis P)).vol_Dphiphi i j l * shape P j x) =
      cubeInt (fun x => dg x * shape P i x) + ∑ j : Fin ((p + 1) ^ (d + 1)), (tensorIntegrator (p + 1) (d + 1) (exactBasis P)).vol_Dphiphi i j l * cubeInt (fun x => g x * shape P j x) := by
    have h3 : ∀ x, dg x * shape P i x + g x * ∑ j : Fin ((p + 1) ^ (d + 1)), (tensorIntegrator (p + 1) (d + 1) (exactBasis P)).vol_Dphiphi i j l * shape P j x =
        dg x * shape P i x + ∑ j : Fin ((p + 1) ^ (d + 1)), (tensorIntegrator (p + 1) (d + 1) (exactBasis P)).vol_Dphiphi i j l * (g x * shape P j x) := fun x => by
      rw [mul_sum]
      exact congrArg _ (sum_congr rfl fun j _ => by ring)
    simp only [h3]
    have hc : ∀ j : Fin ((p + 1) ^ (d + 1)), Continuous fun x => (tensorIntegrator (p + 1) (d + 1) (exactBasis P)).vol_Dphiphi i j l * (g x * shape P j x) :=
      fun j => continuous_const.mul (hg.mul (shape_cont j))
    have h4 : cubeInt (fun x => dg x * shape P i x + ∑ j : Fin ((p + 1) ^ (d + 1)), (tensorIntegrator (p + 1) (d + 1) (exactBasis P)).vol_Dphiphi i j l * (g x * shape P j x)) =
        cubeInt (fun x => dg x * shape P i x) + cubeInt fun x => ∑ j : Fin ((p + 1) ^ (d + 1)), (tensorIntegrator (p + 1) (d + 1) (exactBasis P)).vol_Dphiphi i j l * (g x * shape P j x) :=
      integral_add (cube_integrable (hd.mul (shape_cont i))) (cube_integrable (continuous_finsetSum _ fun j _ => hc j))
    rw [h4, cubeInt_sum univ hc]
    exact congrArg _ (sum_congr rfl fun j _ => cubeInt_mul _ _)
  rw [← h2, h1, sum_faces]
  have e0 : ∀ a : Fin (d + 1), axis (lowFace a) = a := fun a => Fin.ext (by simp only [axis, lowFace]; omega)
  have e1 : ∀ a : Fin (d + 1), axis (highFace a) = a := fun a => Fin.ext (by simp only [axis, highFace]; omega)
  rw [sum_eq_single l]
  · rw [if_pos (e0 l), if_pos (e1 l)]
    have f0 : ∀ y : Fin d → ℝ, facePoint (lowFace l) y = l.insertNth (α := fun _ => ℝ) 0 y := fun y => by
      unfold facePoint
      rw [e0, if_pos (by simp [lowFace])]
    have f1 : ∀ y : Fin d → ℝ, facePoint (highFace l) y = l.insertNth (α := fun _ => ℝ) 1 y := fun y => by
      unfold facePoint
      rw [e1, if_neg (by simp [highFace])]
    have n0 : (normal (lowFace l) : ℝ) = -1 := by simp [Spec.normal, lowFace]
    have n1 : (normal (highFace l) : ℝ) = 1 := by
      unfold Spec.normal
      rw [if_neg (by simp [highFace])]
    rw [n0, n1]
    simp only [f0, f1]
    ring
  · intro a _ ha
    rw [if_neg (by rw [e0]; exact ha), if_neg (by rw [e1]; exact ha), add_zero]
  · simp

end HyperHDG.Diffusion

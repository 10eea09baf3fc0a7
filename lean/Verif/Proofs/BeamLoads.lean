import Verif.Proofs.BeamExact
import Mathlib.Analysis.Calculus.Deriv.MeanValue

/-!
# Beams with loads
-/

namespace HyperHDG.Timoshenko

open Finset Spec Matrix Polynomial MeasureTheory intervalIntegral

/-- The antiderivative which vanishes at zero. -/
noncomputable def prim (g : ℝ → ℝ) (s : ℝ) : ℝ := ∫ r in (0 : ℝ)..s, g r

theorem prim_deriv {g : ℝ → ℝ} (hg : Continuous g) (s : ℝ) : HasDerivAt (prim g) (g s) s :=
  integral_hasDerivAt_right (hg.intervalIntegrable 0 s) (hg.stronglyMeasurableAtFilter _ _) hg.continuousAt

theorem prim_cont {g : ℝ → ℝ} (hg : Continuous g) : Continuous (prim g) := continuous_iff_continuousAt.mpr fun s => (prim_deriv hg s).continuousAt

theorem solves_add {B : Beam} {Q U : ℝ → Fin 6 → ℝ} (h : B.Solves Q U) {q u : Fin 6 → ℝ[X]} (h' : PolyBeam B.length B.stiffness q u) :
    B.Solves (fun s d => Q s d + (q d).eval s) fun s d => U s d + (u d).eval s where
  cont_Q d := (h.cont_Q d).add (q d).continuousOn
  cont_U d := (h.cont_U d).add (u d).continuousOn
  strain d s hs := by
    refine ((h.strain d s hs).add ((u d).hasDerivAt s)).congr_deriv ?_
    rw [h'.strain]
    fin_cases d <;> simp [both, angPart, cross_apply] <;> ring
  balance d s hs := by
    refine ((h.balance d s hs).add ((q d).hasDerivAt s)).congr_deriv ?_
    rw [h'.balance]
    fin_cases d <;> simp [both, linPart, cross_apply] <;> ring

theorem particular_exists {B : Beam} (hB : B.Admissible) : ∃ Q U : ℝ → Fin 6 → ℝ, B.Solves Q U := by
  let g : Fin 6 → ℝ → ℝ := fun d s => inFrame B.frame (B.load s) d
  have hg : ∀ d, Continuous (g d) := load_cont hB
  let l := B.length
  let c := B.stiffness
  have step : ∀ h : ℝ → ℝ, Continuous h → ∃ H : ℝ → ℝ, Continuous H ∧ ∀ s, HasDerivAt H (h s) s := fun h hh => ⟨prim h, prim_cont hh, prim_deriv hh⟩
  obtain ⟨q0, c0, d0⟩ := step (fun s => l * g 0 s) ((hg 0).const_mul _)
  obtain ⟨q1, c1, d1⟩ := step (fun s => l * g 1 s) ((hg 1).const_mul _)
  obtain ⟨q2, c2, d2⟩ := step (fun s => l * g 2 s) ((hg 2).const_mul _)
  obtain ⟨q3, c3, d3⟩ := step (fun s => l * g 3 s) ((hg 3).const_mul _)
  obtain ⟨q4, c4, d4⟩ := step (fun s => l * (g 4 s - q2 s)) (((hg 4).sub c2).const_mul _)
  obtain ⟨q5, c5, d5⟩ := step (fun s => l * (g 5 s + q1 s)) (((hg 5).add c1).const_mul _)
  obtain ⟨u0, a0, b0⟩ := step (fun s => l * (0 - q0 s / c 0)) ((continuous_const.sub (c0.div_const _)).const_mul _)
  obtain ⟨u3, a3, b3⟩ := step (fun s => l * (0 - q3 s / c 3)) ((continuous_const.sub (c3.div_const _)).const_mul _)
  obtain ⟨u4, a4, b4⟩ := step (fun s => l * (0 - q4 s / c 4)) ((continuous_const.sub (c4.div_const _)).const_mul _)
  obtain ⟨u5, a5, b5⟩ := step (fun s => l * (0 - q5 s / c 5)) ((continuous_const.sub (c5.div_const _)).const_mul _)
  obtain ⟨u1, a1, b1⟩ := step (fun s => l * (-u5 s - q1 s / c 1)) ((a5.neg.sub (c1.div_const _)).const_mul _)
  obtain ⟨u2, a2, b2⟩ := step (fun s => l * (u4 s - q2 s / c 2)) ((a4.sub (c2.div_const _)).const_mul _)
  refine ⟨fun s => ![q0 s, q1 s, q2 s, q3 s, q4 s, q5 s], fun s => ![u0 s, u1 s, u2 s, u3 s, u4 s, u5 s], fun d => ?_, fun d => ?_, fun d s _ => ?_, fun d s _ => ?_⟩
  · fin_cases d
    exacts [c0.continuousOn, c1.continuousOn, c2.continuousOn, c3.continuousOn, c4.continuousOn, c5.continuousOn]
  · fin_cases d
    exacts [a0.continuousOn, a1.continuousOn, a2.continuousOn, a3.continuousOn, a4.continuousOn, a5.continuousOn]
  · fin_cases d
    · exact (b0 s).congr_deriv (by simp [both, angPart, cross_apply, l, c])
    · exact (b1 s).congr_deriv (by simp [both, angPart, cross_apply, l, c])
    · exact (b2 s).congr_deriv (by simp [both, angPart, cross_apply, l, c])
    · exact (b3 s).congr_deriv (by simp [both, angPart, cross_apply, l, c])
    · exact (b4 s).congr_deriv (by simp [both, angPart, cross_apply, l, c])
    · exact (b5 s).congr_deriv (by simp [both, angPart, cross_apply, l, c])
  · fin_cases d
    · exact (d0 s).congr_deriv (by simp [both, linPart, cross_apply, l, g])
    · exact (d1 s).congr_deriv (by simp [both, linPart, cross_apply, l, g])
    · exact (d2 s).congr_deriv (by simp [both, linPart, cross_apply, l, g])
    · exact (d3 s).congr_deriv (by simp [both, linPart, cross_apply, l, g])
    · exact (d4 s).congr_deriv (by simp [both, linPart, cross_apply, l, g, sub_eq_add_neg])
    · exact (d5 s).congr_deriv (by simp [both, linPart, cross_apply, l, g])

/-- A beam has a solution for all displacements and rotations of the ends. -/
theorem solves_exists {B : Beam} (hB : B.Admissible) (mu : Fin (2 * 1) → Fin 6 → ℝ) : ∃ Q U : ℝ → Fin 6 → ℝ, B.Solves Q U ∧ ∀ f : Fin (2 * 1), U f.1 = mu f := by
  obtain ⟨Q, U, h⟩ := particular_exists hB
  obtain ⟨q, u, _, h', hend⟩ := polyBeam_exists hB.length_pos hB.stiffness_pos fun f d => mu f d - U f.1 d
  exact ⟨_, _, solves_add h h', fun f => funext fun d => by rw [hend]; ring⟩

/-- It has only one. -/
theorem solves_unique {B : Beam} {Q U Q' U' : ℝ → Fin 6 → ℝ} (h : B.Solves Q U) (h' : B.Solves Q' U') (hQ : Q 0 = Q' 0) (hU : U 0 = U' 0) (s : ℝ) (hs : s ∈ Set.Icc (0 : ℝ) 1) : Q s = Q' s ∧ U s = U' s := by
  have step : ∀ F F' : ℝ → ℝ, ContinuousOn F (Set.Icc 0 1) → ContinuousOn F' (Set.Icc 0 1) → (∀ s ∈ Set.Ioo (0 : ℝ) 1, ∃ g, HasDerivAt F g s ∧ HasDerivAt F' g s) → F 0 = F' 0 → ∀ s ∈ Set.Icc (0 : ℝ) 1, F s = F' s :=
    fun F F' hF hF' hd h0 s hs => by
    rcases hs.1.eq_or_lt with rfl | hpos
    · exact h0
    obtain ⟨x, hx, he⟩ := exists_hasDerivAt_eq_slope (fun s => F s - F' s) (fun _ => 0) hpos ((hF.sub hF').mono (Set.Icc_subset_Icc_right hs.2)) fun x hx => by
      obtain ⟨g, h1, h2⟩ := hd x ⟨hx.1, hx.2.trans_le hs.2⟩
      exact (h1.sub h2).congr_deriv (sub_self g)
    rw [h0, sub_self, sub_zero, sub_zero, eq_comm, div_eq_zero_iff, or_iff_left hpos.ne', sub_eq_zero] at he
    exact he
  have sQ : ∀ d, (∀ s ∈ Set.Ioo (0 : ℝ) 1, (both 0 (![1, 0, 0] ⨯₃ linPart (Q s)) : Fin 6 → ℝ) d = both 0 (![1, 0, 0] ⨯₃ linPart (Q' s)) d) → ∀ s ∈ Set.Icc (0 : ℝ) 1, Q s d = Q' s d := fun d he =>
    step _ _ (h.cont_Q d) (h'.cont_Q d) (fun s hs => ⟨_, h.balance d s hs, (h'.balance d s hs).congr_deriv (by rw [he s hs])⟩) (congrFun hQ d)
  have q0 := sQ 0 fun _ _ => by simp [both]
  have q1 := sQ 1 fun _ _ => by simp [both]
  have q2 := sQ 2 fun _ _ => by simp [both]
  have q3 := sQ 3 fun _ _ => by simp [both, linPart, cross_apply]
  have q4 := sQ 4 fun s hs => by simp [both, linPart, cross_apply, q2 s ⟨hs.1.le, hs.2.le⟩]
  have q5 := sQ 5 fun s hs => by simp [both, linPart, cross_apply, q1 s ⟨hs.1.le, hs.2.le⟩]
  have hq : ∀ s ∈ Set.Icc (0 : ℝ) 1, Q s = Q' s := fun s hs => funext fun d => by
    fin_cases d
    exacts [q0 s hs, q1 s hs, q2 s hs, q3 s hs, q4 s hs, q5 s hs]
  have sU : ∀ d, (∀ s ∈ Set.Ioo (0 : ℝ) 1, (both (![1, 0, 0] ⨯₃ angPart (U s)) 0 : Fin 6 → ℝ) d = both (![1, 0, 0] ⨯₃ angPart (U' s)) 0 d) → ∀ s ∈ Set.Icc (0 : ℝ) 1, U s d = U' s d := fun d he =>
    step _ _ (h.cont_U d) (h'.cont_U d) (fun s hs => ⟨_, h.strain d s hs, (h'.strain d s hs).congr_deriv (by rw [he s hs, hq s ⟨hs.1.le, hs.2.le⟩])⟩) (congrFun hU d)
  have u3 := sU 3 fun _ _ => by simp [both]
  have u4 := sU 4 fun _ _ => by simp [both]
  have u5 := sU 5 fun _ _ => by simp [both]
  have u0 := sU 0 fun _ _ => by simp [both, angPart, cross_apply]
  have u1 := sU 1 fun s hs => by simp [both, angPart, cross_apply, u5 s ⟨hs.1.le, hs.2.le⟩]
  have u2 := sU 2 fun s hs => by simp [both, angPart, cross_apply, u4 s ⟨hs.1.le, hs.2.le⟩]
  refine ⟨hq s hs, funext fun d => ?_⟩
  fin_cases d
  exacts [u0 s hs, u1 s hs, u2 s hs, u3 s hs, u4 s hs, u5 s hs]

end HyperHDG.Timoshenko

import Verif.Spec.BeamRefinement
import Verif.Proofs.NetworkRefinement
import Verif.Proofs.BeamExact

/-!
# Refined networks of beams
-/

namespace HyperHDG.Timoshenko

open Finset Spec Matrix HyGraph Estimate Diffusion

theorem beamPart_admissible {B : Beam} (hB : B.Admissible) {n : Nat} (hn : 0 < n) (k : Nat) : (B.part n k).Admissible where
  length_pos := div_pos hB.length_pos (Nat.cast_pos.mpr hn)
  frame_ortho := hB.frame_ortho
  stiffness_pos := hB.stiffness_pos
  load_cont := hB.load_cont.comp ((continuous_const.add continuous_id).div_const _)

theorem beamPart_solves {B : Beam} {Q U : ℝ → Fin 6 → ℝ} (h : B.Solves Q U) {n k : Nat} (hk : k < n) : (B.part n k).Solves (fun s => Q ((k + s) / n)) fun s => U ((k + s) / n) := by
  have hn : (0 : ℝ) < n := Nat.cast_pos.mpr (Nat.zero_lt_of_lt hk)
  have hx : ∀ s : ℝ, HasDerivAt (fun s : ℝ => (k + s) / n) (1 / n : ℝ) s := fun s => ((hasDerivAt_id s).const_add (k : ℝ)).div_const (n : ℝ)
  have hxc : Continuous fun s : ℝ => (k + s) / n := (continuous_const.add continuous_id).div_const _
  have hk1 : (k : ℝ) + 1 ≤ n := by exact_mod_cast hk
  have hk0 : (0 : ℝ) ≤ k := Nat.cast_nonneg k
  have hcc : Set.MapsTo (fun s : ℝ => (k + s) / n) (Set.Icc 0 1) (Set.Icc 0 1) := fun s hs => ⟨div_nonneg (add_nonneg hk0 hs.1) hn.le, (div_le_one hn).mpr (by linarith [hs.2])⟩
  have hoo : Set.MapsTo (fun s : ℝ => (k + s) / n) (Set.Ioo 0 1) (Set.Ioo 0 1) := fun s hs => ⟨div_pos (add_pos_of_nonneg_of_pos hk0 hs.1) hn, (div_lt_one hn).mpr (by linarith [hs.2])⟩
  have hscale : ∀ x : ℝ, B.length * x * (1 / n) = B.length / n * x := fun x => by ring
  refine ⟨fun d => (h.cont_Q d).comp hxc.continuousOn hcc, fun d => (h.cont_U d).comp hxc.continuousOn hcc, fun d s hs => ?_, fun d s hs => ?_⟩
  · refine ((h.strain d _ (hoo hs)).comp s (hx s)).congr_deriv ?_
    exact hscale _
  · refine ((h.balance d _ (hoo hs)).comp s (hx s)).congr_deriv ?_
    exact hscale _

end HyperHDG.Timoshenko

namespace HyperHDG.Estimate.Subdivides

open Finset Spec Matrix HyGraph Diffusion Timoshenko

variable {n nE nN nE' nN' : Nat} {nodes : Fin nE → Fin (2 * (0 + 1)) → Fin nN} {nodes' : Fin nE' → Fin (2 * (0 + 1)) → Fin nN'} {coarse : Fin nE' → Fin nE} {pos : Fin nE' → Fin n}
  {N : Fin nE → Nat → Fin nN'} {ι : Fin nN → Fin nN'} (hS : Subdivides n nodes nodes' coarse pos N ι)

include hS

open Classical in
/-- The equilibrium of the refined network. -/
theorem equilibrium {B : Fin nE → Beam} {D : Fin nN → Prop} {Q U : Fin nE → ℝ → Fin 6 → ℝ} {w : Fin nN → Fin 6 → ℝ} (h : IsEquilibrium B nodes D Q U w) (hn : 0 < n) :
    ∃ w' : Fin nN' → Fin 6 → ℝ, (∀ v, w' (ι v) = w v) ∧ IsEquilibrium (fun e' => (B (coarse e')).part n (pos e')) nodes' (fun v' => ∃ v, v' = ι v ∧ D v)
      (fun e' s => Q (coarse e') (((pos e').1 + s) / n)) (fun e' s => U (coarse e') (((pos e').1 + s) / n)) w' := by
  have hn' : (n : ℝ) ≠ 0 := (Nat.cast_pos.mpr hn).ne'
  have hD' : ∀ v, (∃ v₀, ι v = ι v₀ ∧ D v₀) ↔ D v := fun v => ⟨fun ⟨v₀, h1, h2⟩ => by rw [hS.inj h1]; exact h2, fun h => ⟨v, rfl, h⟩⟩
  let w' : Fin nN' → Fin 6 → ℝ := fun v' => if h : ∃ v, v' = ι v then w h.choose else if h : ∃ x : Fin nE × Nat, 0 < x.2 ∧ x.2 < n ∧ v' = N x.1 x.2 then inSpace (B h.choose.1).frame (U h.choose.1 (h.choose.2 / n)) else 0
  have hold : ∀ v, w' (ι v) = w v := fun v => by
    have h1 : ∃ v₀, ι v = ι v₀ := ⟨v, rfl⟩
    simp only [w', dif_pos h1]
    rw [← hS.inj h1.choose_spec]
  have hnew : ∀ E t, 0 < t → t < n → w' (N E t) = inSpace (B E).frame (U E (t / n)) := fun E t h0 ht => by
    have h1 : ¬ ∃ v, N E t = ι v := fun ⟨v, hv⟩ => hS.apart E t v h0 ht hv
    have h2 : ∃ x : Fin nE × Nat, 0 < x.2 ∧ x.2 < n ∧ N E t = N x.1 x.2 := ⟨(E, t), h0, ht, rfl⟩
    simp only [w', dif_neg h1, dif_pos h2]
    obtain ⟨h3, h4, h5⟩ := h2.choose_spec
    obtain ⟨h6, h7⟩ := hS.inside _ _ _ _ h0 ht h3 h4 h5
    rw [← h6, ← h7]
  have v0 : ((0 : Fin (2 * (0 + 1))).1 : ℝ) = 0 := Nat.cast_zero
  have v1 : ((1 : Fin (2 * (0 + 1))).1 : ℝ) = 1 := Nat.cast_one
  have hpos : ∀ e' (f : Fin (2 * (0 + 1))), (((pos e').1 : ℝ) + f.1) / n = (((pos e').1 + f.1 : Nat) : ℝ) / n := fun e' f => by
    push_cast
    rfl
  have hcases : ∀ e' (f : Fin (2 * (0 + 1))), ((pos e').1 + f.1 = 0 ∧ f = 0) ∨ ((pos e').1 + f.1 = n ∧ f = 1) ∨ (0 < (pos e').1 + f.1 ∧ (pos e').1 + f.1 < n) := fun e' f => by
    have := (pos e').2
    rcases face_cases f with rfl | rfl
    · have : (0 : Fin (2 * (0 + 1))).1 = 0 := rfl
      by_cases h0 : (pos e').1 = 0
      · exact .inl ⟨by omega, rfl⟩
      · exact .inr (.inr ⟨by omega, by omega⟩)
    · have : (1 : Fin (2 * (0 + 1))).1 = 1 := rfl
      by_cases h0 : (pos e').1 + 1 = n
      · exact .inr (.inl ⟨by omega, rfl⟩)
      · exact .inr (.inr ⟨by omega, by omega⟩)
  refine ⟨w', hold, fun e' => beamPart_solves (h.beams (coarse e')) (pos e').2, fun e' f hf => ?_, fun e' f hf => ?_, fun v' hv' => ?_⟩
  · rw [hpos]
    rw [hS.node] at hf ⊢
    show inSpace (B (coarse e')).frame _ = _
    rcases hcases e' f with ⟨h1, rfl⟩ | ⟨h1, rfl⟩ | ⟨h1, h2⟩
    · rw [h1, hS.first, hD'] at hf
      rw [h1, hS.first, hold, Nat.cast_zero, zero_div, ← v0]
      exact h.joints _ _ hf
    · rw [h1, hS.last, hD'] at hf
      rw [h1, hS.last, hold, div_self hn', ← v1]
      exact h.joints _ _ hf
    · rw [hnew _ _ h1 h2]
  · rw [hpos]
    rw [hS.node] at hf
    show inSpace (B (coarse e')).frame _ = (B (coarse e')).fixed f
    rcases hcases e' f with ⟨h1, rfl⟩ | ⟨h1, rfl⟩ | ⟨h1, h2⟩
    · rw [h1, hS.first, hD'] at hf
      rw [h1, Nat.cast_zero, zero_div, ← v0]
      exact h.fixed _ _ hf
    · rw [h1, hS.last, hD'] at hf
      rw [h1, div_self hn', ← v1]
      exact h.fixed _ _ hf
    · obtain ⟨v, hv, _⟩ := hf
      exact absurd hv (hS.apart _ _ _ h1 h2)
  · -- forces and moments along a beam
    let ψ : Fin nE → Nat → Fin 6 → ℝ := fun E t => if N E t = v' then inSpace (B E).frame (Q E (t / n)) else 0
    have n0 : endSign 0 = -1 := if_pos rfl
    have n1 : endSign 1 = 1 := if_neg one_ne_zero
    have hterm : ∀ e', ∑ f : Fin (2 * 1), (if nodes' e' f = v' then endSign f • inSpace ((B (coarse e')).part n (pos e')).frame (Q (coarse e') (((pos e').1 + f.1) / n)) else 0) =
        ψ (coarse e') ((pos e').1 + 1) - ψ (coarse e') (pos e').1 := fun e' => by
      have h1 : ∀ f : Fin (2 * (0 + 1)), (if nodes' e' f = v' then endSign f • inSpace ((B (coarse e')).part n (pos e')).frame (Q (coarse e') (((pos e').1 + f.1) / n)) else 0) = endSign f • ψ (coarse e') ((pos e').1 + f.1) := fun f => by
        rw [hS.node, hpos]
        simp only [ψ]
        split
        · rfl
        · rw [smul_zero]
      refine (sum_congr rfl fun f _ => h1 f).trans ((Fin.sum_univ_two _).trans ?_)
      rw [n0, n1, show (0 : Fin (2 * (0 + 1))).1 = 0 from rfl, show (1 : Fin (2 * (0 + 1))).1 = 1 from rfl, Nat.add_zero, neg_one_smul, one_smul]
      abel
    have hsum : ∑ e', (ψ (coarse e') ((pos e').1 + 1) - ψ (coarse e') (pos e').1) = ∑ E, (ψ E n - ψ E 0) := by
      refine ((Equiv.ofBijective _ hS.bij).sum_comp fun x : Fin nE × Fin n => ψ x.1 (x.2.1 + 1) - ψ x.1 x.2.1).trans ?_
      rw [Fintype.sum_prod_type]
      refine sum_congr rfl fun E _ => ?_
      rw [Fin.sum_univ_eq_sum_range (fun t => ψ E (t + 1) - ψ E t) n, sum_range_sub]
    rw [sum_congr rfl fun e' _ => hterm e', hsum]
    by_cases hv : ∃ v, v' = ι v
    · obtain ⟨v, rfl⟩ := hv
      rw [hD'] at hv'
      refine Eq.trans (sum_congr rfl fun E _ => ?_) (h.balance v hv')
      refine Eq.trans ?_ (Fin.sum_univ_two _).symm
      simp only [ψ]
      rw [hS.first, hS.last, n0, n1, v0, v1, div_self hn', Nat.cast_zero, zero_div]
      simp only [hS.inj.eq_iff, neg_one_smul, one_smul]
      split <;> split <;> abel
    · refine sum_eq_zero fun E _ => ?_
      simp only [ψ]
      rw [hS.first, hS.last, if_neg fun h => hv ⟨_, h.symm⟩, if_neg fun h => hv ⟨_, h.symm⟩, sub_zero]

end HyperHDG.Estimate.Subdivides

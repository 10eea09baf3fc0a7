import Verif.Spec.Network
import Verif.Spec.Elliptic
import Verif.Proofs.LDG
import Verif.Proofs.GlobalSolve
import Mathlib.Order.ConditionallyCompleteLattice.Finset
import Mathlib.Data.Finset.Max

/-!
# Networks: the flux of an edge and the maximum principle
-/

namespace HyperHDG.Spec

open Matrix Finset

variable {nE nN nS : Nat} {K : Type}

theorem two_faces [AddCommMonoid K] (h : Fin (2 * 1) → K) : ∑ f, h f = h 0 + h 1 := Fin.sum_univ_two h

theorem two_cases {P : Fin (2 * 1) → Prop} (h0 : P 0) (h1 : P 1) (f : Fin (2 * 1)) : P f := by
  match f with
  | ⟨0, _⟩ => exact h0
  | ⟨1, _⟩ => exact h1

theorem rev_zero : (0 : Fin (2 * 1)).rev = 1 := by decide

theorem rev_one : (1 : Fin (2 * 1)).rev = 0 := by decide

/-- A map of the values at both ends to fluxes which is symmetric, vanishes for equal values and is negative for `(1, 0)` is a multiple of the difference. -/
theorem two_by_two [CommRing K] (Phi : (Fin (2 * 1) → Fin 1 → K) → Fin (2 * 1) → Fin 1 → K) (hsym : ∀ x y, ∑ f, y f ⬝ᵥ Phi x f = ∑ f, x f ⬝ᵥ Phi y f)
    (hone : Phi (fun _ _ => 1) = 0) (x : Fin (2 * 1) → Fin 1 → K) :
    Phi x = fun f _ => -(Phi (fun f _ => if f = 0 then 1 else 0) 0 0) * (x f.rev 0 - x f 0) := by
  have h1 := hsym x fun _ _ => 1
  have h2 := hsym x fun f _ => if f = 0 then 1 else 0
  have h3 := hsym (fun f _ => if f = 0 then 1 else 0) fun _ _ => 1
  rw [hone] at h1 h3
  simp only [two_faces, dotProduct, Fin.sum_univ_one, one_mul, Pi.zero_apply, mul_zero, add_zero, zero_mul, if_pos, one_ne_zero, if_false] at h1 h2 h3
  funext f j
  obtain rfl : j = 0 := Subsingleton.elim _ _
  revert f
  refine two_cases ?_ ?_
  · rw [rev_zero]
    linear_combination h2 + x 1 0 * h3
  · rw [rev_one]
    linear_combination h1 - h2 - x 1 0 * h3

/-- At the dof of node `v` the contributions of the edges which end there are summed up. -/
theorem assemble_node [AddCommMonoid K] (nodes : Fin nE → Fin (2 * 1) → Fin nN) (y : Fin nE → Fin (2 * 1) → Fin 1 → K) (v : Fin nN) :
    assemble nodes y (dof v 0) = ∑ e, ∑ f, if nodes e f = v then y e f 0 else 0 := by
  unfold assemble
  refine Finset.sum_congr rfl fun e _ => Finset.sum_congr rfl fun f _ => ?_
  rw [Fin.sum_univ_one]
  have : dof (nodes e f) (0 : Fin 1) = dof v 0 ↔ nodes e f = v := ⟨fun h => (HyGraph.dof_inj h).1, fun h => by rw [h]⟩
  simp only [this]

section Order
variable [Field K] [LinearOrder K] [IsStrictOrderedRing K]

/-- If at each node outside of `D` the differences to the other ends have a nonnegative weighted sum and the values at the ends in `D` are at most `M`, all values are at most `M`. -/
theorem max_principle (nodes : Fin nE → Fin (2 * 1) → Fin nN) (D : Fin nN → Prop) (hcon : Anchored nodes D) (c : Fin nE → K) (hc : ∀ e, 0 < c e) (w : Fin nE → Fin (2 * 1) → K) (x : Fin nN → K)
    (hw : ∀ e f, ¬ D (nodes e f) → w e f = x (nodes e f)) (M : K) (hM : ∀ e f, D (nodes e f) → w e f ≤ M)
    (hsub : ∀ v, ¬ D v → 0 ≤ ∑ e, ∑ f, if nodes e f = v then c e * (w e f.rev - x v) else 0) (v : Fin nN) (hv : ¬ D v) : x v ≤ M := by
  classical
  by_contra hlt
  rw [not_le] at hlt
  obtain ⟨v0, hv0, hmax⟩ := Finset.exists_max_image (univ.filter fun v => ¬ D v) x ⟨v, by simpa using hv⟩
  rw [mem_filter] at hv0
  have hmax' : ∀ z, ¬ D z → x z ≤ x v0 := fun z hz => hmax z (by simpa using hz)
  have hbig : M < x v0 := hlt.trans_le (hmax' v hv)
  have hle : ∀ e f, w e f ≤ x v0 := fun e f => by
    by_cases hf : D (nodes e f)
    · exact (hM e f hf).trans hbig.le
    · rw [hw e f hf]
      exact hmax' _ hf
  -- a node with the largest value has neighbours with the largest value only
  have hstep : ∀ z, ¬ D z → x z = x v0 → ∀ e f, nodes e f = z → w e f.rev = x v0 := by
    intro z hz hxz e f hf
    have h1 : ∀ e ∈ (univ : Finset (Fin nE)), (∑ f, if nodes e f = z then c e * (w e f.rev - x z) else 0) ≤ 0 := fun e _ => Finset.sum_nonpos fun f _ => by
      split
      · exact mul_nonpos_of_nonneg_of_nonpos (hc e).le (by rw [hxz]; linarith [hle e f.rev])
      · exact le_rfl
    have h2 := (Finset.sum_eq_zero_iff_of_nonpos h1).mp (le_antisymm (Finset.sum_nonpos h1) (hsub z hz)) e (mem_univ e)
    have h3 : ∀ f ∈ (univ : Finset (Fin (2 * 1))), (if nodes e f = z then c e * (w e f.rev - x z) else 0) ≤ 0 := fun f _ => by
      split
      · exact mul_nonpos_of_nonneg_of_nonpos (hc e).le (by rw [hxz]; linarith [hle e f.rev])
      · exact le_rfl
    have h4 := (Finset.sum_eq_zero_iff_of_nonpos h3).mp h2 f (mem_univ f)
    rw [if_pos hf, hxz] at h4
    have h5 := (mul_eq_zero.mp h4).resolve_left (hc e).ne'
    linarith
  -- so the set of these nodes is closed under adjacency
  have hadj : ∀ z z', ¬ D z → x z = x v0 → Adjacent nodes z' z → ¬ D z' ∧ x z' = x v0 := by
    rintro z z' hz hxz ⟨e, f, g, rfl, rfl⟩
    by_cases hfg : f = g
    · subst hfg
      exact ⟨hz, hxz⟩
    · have hrev : g.rev = f := by
        have : ∀ a b : Fin (2 * 1), ¬ a = b → b.rev = a := by decide
        exact this f g hfg
      have h1 := hstep _ hz hxz e g rfl
      rw [hrev] at h1
      by_cases hf : D (nodes e f)
      · have := hM e f hf
        linarith
      · exact ⟨hf, by rw [← hw e f hf, h1]⟩
  obtain ⟨z, hz, hchain⟩ := hcon v0
  have : ¬ D z ∧ x z = x v0 := by
    clear hz
    induction hchain using Relation.ReflTransGen.head_induction_on with
    | refl => exact ⟨hv0.2, rfl⟩
    | head h _ ih => exact hadj _ _ ih.1 ih.2 h
  exact this.1 hz

/-- The flux of an edge without source is a positive multiple of the difference of the values at its ends. -/
theorem edge_flux {F : Form 1 nS 1 K} (hF : FormLaws F) (hR : Rigid F) {one : Fin nS → K} (h1 : IsUnit1 F one) {tau : K} (ht : 0 < tau)
    (hex : ∀ lambda : Fin (2 * 1) → Fin 1 → K, ∃ q u, IsSolution F tau 0 1 (moments F lambda) 0 q u) (hs : Solvable F tau 0 1) :
    ∃ c, 0 < c ∧ ∀ lambda q u, IsSolution F tau 0 1 (moments F lambda) 0 q u → faceFlux F tau lambda q u = fun f _ => c * (lambda f.rev 0 - lambda f 0) := by
  choose Q U hQU using hex
  let delta : Fin (2 * 1) → Fin 1 → K := fun f _ => if f = 0 then 1 else 0
  have hPhi := two_by_two (fun lambda => faceFlux F tau lambda (Q lambda) (U lambda))
    (fun x y => by
      rw [flux_form hF one_ne_zero (hQU x) (hQU y), flux_form hF one_ne_zero (hQU y) (hQU x), bilin_symm hF]
      simp)
    (by
      have h2 := const_solution hF h1.const h1.trace tau 1
      obtain ⟨h3, h4⟩ := solution_unique hs (hQU fun _ _ => 1) h2
      rw [h3, h4]
      exact const_flux h1.trace)
  refine ⟨-(faceFlux F tau delta (Q delta) (U delta) 0 0), ?_, fun lambda q u h => ?_⟩
  · have h2 := flux_form hF one_ne_zero (hQU delta) (hQU delta)
    have h3 := bilin_nonneg hF ht.le (Q delta) (U delta) delta
    have h4 : ∑ f, delta f ⬝ᵥ faceFlux F tau delta (Q delta) (U delta) f = faceFlux F tau delta (Q delta) (U delta) 0 0 := by
      rw [two_faces]
      simp [delta, dotProduct]
    rw [h4] at h2
    simp only [dotProduct_zero, zero_mul, sub_zero, mul_zero, add_zero] at h2
    refine lt_of_le_of_ne (by rw [h2, neg_neg]; exact h3) fun h0 => ?_
    have h5 : bilin F tau (Q delta) (U delta) delta (Q delta) (U delta) delta = 0 := by rw [h2, neg_neg] at h0; exact h0.symm
    have htr := bilin_trace_zero hF ht h5
    have hq := bilin_q_zero hF ht.le h5
    have hsol := hQU delta
    rw [hq] at hsol
    have hz := hR _ 1 (const_of hF hsol htr) (by
      have := htr 1
      unfold IsTrace at this
      rw [← this]
      funext j
      simp [delta])
    have h6 := congrFun (htr 0) 0
    rw [hz] at h6
    simp [delta] at h6
    exact (hF.area_pos 0).ne' h6
  · obtain ⟨rfl, rfl⟩ := solution_unique hs h (hQU lambda)
    exact hPhi lambda

end Order

end HyperHDG.Spec

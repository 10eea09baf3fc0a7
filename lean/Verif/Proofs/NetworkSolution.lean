import Verif.Props.NodalExact
import Mathlib.MeasureTheory.Integral.IntervalIntegral.FundThmCalculus

/-!
# Classical solutions of diffusion problems on networks: the equations on an edge
-/

namespace HyperHDG.Estimate

open Finset Spec Matrix HyGraph Diffusion EllipticProgram Exact MeasureTheory intervalIntegral

/-- A function of one variable on the reference interval. -/
theorem line_point (z : Fin (0 + 1) → ℝ) : z = fun _ => z 0 := funext fun _ => congrArg z (Subsingleton.elim (α := Fin 1) _ _)

theorem isPartial_line {U U' : ℝ → ℝ} (h : ∀ s, HasDerivAt U (U' s) s) (l : Fin (0 + 1)) : IsPartial l (fun z : Fin (0 + 1) → ℝ => U (z 0)) fun z => U' (z 0) := fun z => by
  rw [show l = 0 from Subsingleton.elim (α := Fin 1) _ _]
  simp only [Function.update_self]
  exact h (z 0)

theorem deriv_line {u du : (Fin (0 + 1) → ℝ) → ℝ} (h : IsPartial 0 u du) (s : ℝ) : HasDerivAt (fun r => u fun _ => r) (du fun _ => s) s := by
  have h1 := h fun _ => s
  have h2 : (fun r => u (Function.update (fun _ => s) 0 r)) = fun r => u fun _ => r := funext fun r => congrArg u (funext fun k => by
    rw [show k = 0 from Subsingleton.elim (α := Fin 1) _ _, Function.update_self])
  rw [h2] at h1
  exact h1

theorem sum_line (g : Fin (0 + 1) → ℝ) : ∑ k, g k = g 0 := Fin.sum_univ_one g

theorem sum_ends (g : Fin (2 * (0 + 1)) → ℝ) : ∑ f, g f = g 0 + g 1 := Fin.sum_univ_two g

theorem face_cases (f : Fin (2 * (0 + 1))) : f = 0 ∨ f = 1 := by
  rcases (show f.1 = 0 ∨ f.1 = 1 by have := f.2; omega) with h | h
  · exact .inl (Fin.ext h)
  · exact .inr (Fin.ext h)

theorem facePoint_line (f : Fin (2 * (0 + 1))) (y : Fin 0 → ℝ) : facePoint f y = fun _ => (f.1 : ℝ) := by
  rw [line_point (facePoint f y), facePoint_zero one_pos]

/-- The equations on an edge, as equations for functions of one variable. -/
theorem solves_line {B : Data 0} {Q U : ℝ → ℝ} {Q' U' : ℝ → ℝ} (hQ : ∀ s, HasDerivAt Q (Q' s) s) (hU : ∀ s, HasDerivAt U (U' s) s) (hQc : Continuous Q') (hUc : Continuous U')
    (h : ∀ s ∈ Set.Icc (0 : ℝ) 1, B.A.vol * (B.a (fun _ => s) * Q s) + B.A.cof 0 0 * U' s = 0 ∧ B.A.cof 0 0 * Q' s = B.A.vol * B.f fun _ => s) :
    SolvesClassically B (fun _ z => Q (z 0)) fun z => U (z 0) := by
  have hUc' : Continuous U := continuous_iff_continuousAt.mpr fun r => (hU r).continuousAt
  have hQc' : Continuous Q := continuous_iff_continuousAt.mpr fun r => (hQ r).continuousAt
  refine ⟨fun _ z => U' (z 0), fun _ _ z => Q' (z 0), fun l => ⟨isPartial_line hU l, hUc.comp (continuous_apply 0)⟩, fun k l => ⟨isPartial_line hQ l, hQc.comp (continuous_apply 0)⟩,
    hUc'.comp (continuous_apply 0), fun k => hQc'.comp (continuous_apply 0), fun z hz => ?_⟩
  have h1 := h (z 0) (hz 0 (Set.mem_univ _))
  rw [← line_point z] at h1
  refine ⟨fun k => ?_, ?_⟩
  · rw [show k = 0 from Subsingleton.elim (α := Fin 1) _ _, sum_line]
    exact h1.1
  · rw [sum_line, sum_line]
    exact h1.2

theorem line_solves {B : Data 0} {q : Fin (0 + 1) → (Fin (0 + 1) → ℝ) → ℝ} {u : (Fin (0 + 1) → ℝ) → ℝ} (h : SolvesClassically B q u) : ∃ Q' U' : ℝ → ℝ, Continuous Q' ∧ Continuous U' ∧
    (∀ s, HasDerivAt (fun r => q 0 fun _ => r) (Q' s) s) ∧ (∀ s, HasDerivAt (fun r => u fun _ => r) (U' s) s) ∧
    ∀ s ∈ Set.Icc (0 : ℝ) 1, B.A.vol * (B.a (fun _ => s) * q 0 fun _ => s) + B.A.cof 0 0 * U' s = 0 ∧ B.A.cof 0 0 * Q' s = B.A.vol * B.f fun _ => s := by
  obtain ⟨du, dq, h1, h2, _, _, h5⟩ := h
  have hc : Continuous fun s : ℝ => (fun _ : Fin (0 + 1) => s) := continuous_pi fun _ => continuous_id
  refine ⟨fun s => dq 0 0 fun _ => s, fun s => du 0 fun _ => s, (h2 0 0).2.comp hc, (h1 0).2.comp hc, deriv_line (h2 0 0).1, deriv_line (h1 0).1, fun s hs => ?_⟩
  obtain ⟨h6, h7⟩ := h5 (fun _ => s) fun _ _ => hs
  have h6 := h6 0
  rw [sum_line] at h6 h7
  rw [sum_line] at h7
  exact ⟨h6, h7⟩

section Edge
variable {B : Data 0} (hB : B.Admissible) (hf : Continuous B.f)

include hB in
theorem cof_ne : B.A.cof 0 0 ≠ 0 := by
  have h1 := (isUnit_iff_isUnit_det _).mp hB.affine.cof_inv
  have h2 : B.A.cof.det = B.A.cof 0 0 := det_fin_one _
  rw [h2] at h1
  exact h1.ne_zero

include hB in
theorem end_normal (f : Fin (2 * (0 + 1))) : B.A.area f * B.A.normal f 0 = Spec.normal f * B.A.cof 0 0 := by
  have p0 := hB.affine.piola f 0
  rw [show axis f = 0 from Subsingleton.elim (α := Fin 1) _ _] at p0
  rw [mul_comm, p0]

/-- The integral of the inverse coefficient. -/
noncomputable def resistance (B : Data 0) : ℝ := ∫ s in (0 : ℝ)..1, B.a fun _ => s

/-- The integral of the right-hand side up to `s`. -/
noncomputable def load (B : Data 0) (s : ℝ) : ℝ := ∫ r in (0 : ℝ)..s, B.f fun _ => r

/-- The integral of the inverse coefficient times `load`. -/
noncomputable def moment (B : Data 0) : ℝ := ∫ s in (0 : ℝ)..1, B.a (fun _ => s) * load B s

/-- Flux at an end of an edge per difference of the values at the ends. -/
noncomputable def conductance (B : Data 0) : ℝ := B.A.cof 0 0 ^ 2 / (B.A.vol * resistance B)

/-- Flux at an end of an edge if the values at both ends agree. -/
noncomputable def loadFlux (B : Data 0) (f : Fin (2 * (0 + 1))) : ℝ :=
  if f = 0 then B.A.vol * moment B / resistance B else B.A.vol * load B 1 - B.A.vol * moment B / resistance B

theorem const_cont : Continuous fun s : ℝ => (fun _ : Fin (0 + 1) => s) := continuous_pi fun _ => continuous_id

include hB in
theorem resistance_pos : 0 < resistance B :=
  intervalIntegral_pos_of_pos ((hB.cont.comp const_cont).intervalIntegrable 0 1) (fun _ => hB.pos _) one_pos

include hf in
theorem load_deriv (s : ℝ) : HasDerivAt (load B) (B.f fun _ => s) s :=
  integral_hasDerivAt_right ((hf.comp const_cont).intervalIntegrable 0 s) ((hf.comp const_cont).stronglyMeasurableAtFilter _ _) (hf.comp const_cont).continuousAt

include hf in
theorem load_cont : Continuous (load B) := continuous_iff_continuousAt.mpr fun s => (load_deriv hf s).continuousAt

theorem load_zero : load B 0 = 0 := integral_same

include hB in
theorem conductance_pos : 0 < conductance B := by
  have := resistance_pos hB
  have := hB.affine.vol_pos
  have := cof_ne hB
  unfold conductance
  positivity

include hB in
/-- The flux inside an edge. -/
theorem flux_inside {q : Fin (0 + 1) → (Fin (0 + 1) → ℝ) → ℝ} {u : (Fin (0 + 1) → ℝ) → ℝ} (h : SolvesClassically B q u) (s : ℝ) (hs : s ∈ Set.Icc (0 : ℝ) 1) :
    q 0 (fun _ => s) = q 0 (fun _ => 0) + B.A.vol / B.A.cof 0 0 * load B s := by
  obtain ⟨Q', U', hQc, _, hQ, _, he⟩ := line_solves h
  have hcof := cof_ne hB
  have h1 := integral_eq_sub_of_hasDerivAt (a := 0) (b := s) (fun r _ => hQ r) (hQc.intervalIntegrable _ _)
  have h2 : ∫ r in (0 : ℝ)..s, Q' r = B.A.vol / B.A.cof 0 0 * load B s := by
    unfold load
    rw [← intervalIntegral.integral_const_mul]
    refine integral_congr fun r hr => ?_
    rw [Set.uIcc_of_le hs.1] at hr
    have h3 := (he r ⟨hr.1, hr.2.trans hs.2⟩).2
    field_simp
    linear_combination h3
  rw [h2] at h1
  linear_combination -h1

include hB in
/-- The value inside an edge. -/
theorem value_inside {q : Fin (0 + 1) → (Fin (0 + 1) → ℝ) → ℝ} {u : (Fin (0 + 1) → ℝ) → ℝ} (h : SolvesClassically B q u) (s : ℝ) (hs : s ∈ Set.Icc (0 : ℝ) 1) :
    u (fun _ => s) = u (fun _ => 0) - B.A.vol / B.A.cof 0 0 * ∫ r in (0 : ℝ)..s, B.a (fun _ => r) * (q 0 (fun _ => 0) + B.A.vol / B.A.cof 0 0 * load B r) := by
  obtain ⟨Q', U', _, hUc, _, hU, he⟩ := line_solves h
  have hcof := cof_ne hB
  have h1 := integral_eq_sub_of_hasDerivAt (a := 0) (b := s) (fun r _ => hU r) (hUc.intervalIntegrable _ _)
  have h2 : ∫ r in (0 : ℝ)..s, U' r = -(B.A.vol / B.A.cof 0 0 * ∫ r in (0 : ℝ)..s, B.a (fun _ => r) * (q 0 (fun _ => 0) + B.A.vol / B.A.cof 0 0 * load B r)) := by
    rw [← neg_mul, ← intervalIntegral.integral_const_mul]
    refine integral_congr fun r hr => ?_
    rw [Set.uIcc_of_le hs.1] at hr
    have hr' : r ∈ Set.Icc (0 : ℝ) 1 := ⟨hr.1, hr.2.trans hs.2⟩
    have h3 := (he r hr').1
    have h4 := flux_inside hB h r hr'
    rw [← h4]
    field_simp
    linear_combination h3
  rw [h2] at h1
  linear_combination -h1

include hB hf in
/-- The values at the ends of an edge determine the fluxes there. -/
theorem edge_flux {q : Fin (0 + 1) → (Fin (0 + 1) → ℝ) → ℝ} {u : (Fin (0 + 1) → ℝ) → ℝ} (h : SolvesClassically B q u) (y : Fin 0 → ℝ) (f : Fin (2 * (0 + 1))) :
    B.A.area f * (B.A.normal f 0 * q 0 (facePoint f y)) = conductance B * (u (facePoint f.rev y) - u (facePoint f y)) + loadFlux B f := by
  have hcof := cof_ne hB
  have hvol := hB.affine.vol_pos.ne'
  have hres := (resistance_pos hB).ne'
  have i01 : (1 : ℝ) ∈ Set.Icc (0 : ℝ) 1 := ⟨zero_le_one, le_rfl⟩
  have h1 := value_inside hB h 1 i01
  have h2 := flux_inside hB h 1 i01
  have h3 : ∫ r in (0 : ℝ)..1, B.a (fun _ => r) * (q 0 (fun _ => 0) + B.A.vol / B.A.cof 0 0 * load B r) = q 0 (fun _ => 0) * resistance B + B.A.vol / B.A.cof 0 0 * moment B := by
    unfold resistance moment
    rw [← intervalIntegral.integral_const_mul, ← intervalIntegral.integral_const_mul, ← intervalIntegral.integral_add]
    · exact integral_congr fun r _ => by ring
    · exact (continuous_const.mul (hB.cont.comp const_cont)).intervalIntegrable _ _
    · exact (continuous_const.mul ((hB.cont.comp const_cont).mul (load_cont hf))).intervalIntegrable _ _
  rw [h3] at h1
  rw [← mul_assoc, end_normal hB]
  simp only [facePoint_line]
  have v0 : ((0 : Fin (2 * (0 + 1))).1 : ℝ) = 0 := Nat.cast_zero
  have v1 : ((1 : Fin (2 * (0 + 1))).1 : ℝ) = 1 := Nat.cast_one
  have n0 : Spec.normal (dim := 0 + 1) (K := ℝ) 0 = -1 := by simp [Spec.normal]
  have n1 : Spec.normal (dim := 0 + 1) (K := ℝ) 1 = 1 := by simp [Spec.normal]
  rcases face_cases f with rfl | rfl
  · rw [show (0 : Fin (2 * (0 + 1))).rev = 1 from rfl, v0, v1, n0, loadFlux, if_pos rfl, h1]
    unfold conductance
    field_simp
    ring
  · rw [show (1 : Fin (2 * (0 + 1))).rev = 0 from rfl, v0, v1, n1, loadFlux, if_neg (by decide), h1, h2]
    unfold conductance
    field_simp
    ring

include hB hf in
/-- On an edge there is a solution with any values at the ends. -/
theorem edge_exists (b : Fin (2 * (0 + 1)) → ℝ) : ∃ (q : Fin (0 + 1) → (Fin (0 + 1) → ℝ) → ℝ) (u : (Fin (0 + 1) → ℝ) → ℝ), SolvesClassically B q u ∧ ∀ f y, u (facePoint f y) = b f := by
  have hcof := cof_ne hB
  have hvol := hB.affine.vol_pos.ne'
  have hres := (resistance_pos hB).ne'
  let Q0 : ℝ := -(B.A.cof 0 0 / B.A.vol * (b 1 - b 0) + B.A.vol / B.A.cof 0 0 * moment B) / resistance B
  let Q : ℝ → ℝ := fun s => Q0 + B.A.vol / B.A.cof 0 0 * load B s
  have hQ : ∀ s, HasDerivAt Q (B.A.vol / B.A.cof 0 0 * B.f fun _ => s) s := fun s => ((load_deriv hf s).const_mul _).const_add _
  have hQc : Continuous Q := continuous_iff_continuousAt.mpr fun s => (hQ s).continuousAt
  have haQ : Continuous fun s => B.a (fun _ => s) * Q s := (hB.cont.comp const_cont).mul hQc
  let U : ℝ → ℝ := fun s => b 0 - B.A.vol / B.A.cof 0 0 * ∫ r in (0 : ℝ)..s, B.a (fun _ => r) * Q r
  have hU : ∀ s, HasDerivAt U (-(B.A.vol / B.A.cof 0 0 * (B.a (fun _ => s) * Q s))) s := fun s =>
    ((integral_hasDerivAt_right (haQ.intervalIntegrable 0 s) (haQ.stronglyMeasurableAtFilter _ _) haQ.continuousAt).const_mul _).const_sub _
  refine ⟨fun _ z => Q (z 0), fun z => U (z 0), solves_line hQ hU (continuous_const.mul (hf.comp const_cont)) (continuous_const.mul haQ).neg fun s _ => ⟨?_, ?_⟩, fun f y => ?_⟩
  · field_simp
    ring
  · field_simp
  · show U (facePoint f y 0) = b f
    rw [facePoint_zero one_pos]
    have v0 : ((0 : Fin (2 * (0 + 1))).1 : ℝ) = 0 := Nat.cast_zero
    have v1 : ((1 : Fin (2 * (0 + 1))).1 : ℝ) = 1 := Nat.cast_one
    rcases face_cases f with rfl | rfl
    · rw [v0]
      simp only [U, integral_same, mul_zero, sub_zero]
    · rw [v1]
      have h3 : ∫ r in (0 : ℝ)..1, B.a (fun _ => r) * Q r = Q0 * resistance B + B.A.vol / B.A.cof 0 0 * moment B := by
        unfold resistance moment
        rw [← intervalIntegral.integral_const_mul, ← intervalIntegral.integral_const_mul, ← intervalIntegral.integral_add]
        · exact integral_congr fun r _ => by simp only [Q]; ring
        · exact (continuous_const.mul (hB.cont.comp const_cont)).intervalIntegrable _ _
        · exact (continuous_const.mul ((hB.cont.comp const_cont).mul (load_cont hf))).intervalIntegrable _ _
      simp only [U]
      rw [h3]
      simp only [Q0]
      field_simp
      ring

end Edge

section Network
variable {nE nN : Nat} (B : Fin nE → Data 0) (hB : ∀ e, (B e).Admissible) (hf : ∀ e, Continuous (B e).f) (nodes : Fin nE → Fin (2 * (0 + 1)) → Fin nN) (D : Fin nN → Prop) (hcon : Anchored nodes D)

include hcon in
/-- Only zero has balanced differences and vanishes at the nodes of `D`. -/
theorem balanced_zero (c : Fin nE → ℝ) (hc : ∀ e, 0 < c e) (w : Fin nN → ℝ) (hD : ∀ v, D v → w v = 0)
    (h : ∀ v, ¬ D v → ∑ e, ∑ f, (if nodes e f = v then c e * (w (nodes e f.rev) - w (nodes e f)) else 0) = 0) : w = 0 := by
  have heq := energy_zero nodes D c hc w hD h
  funext v
  have h4 := anchored_bound nodes D hcon w (fun _ => 0) (fun _ => le_rfl) hD (fun e f g => by
    rcases face_cases f with rfl | rfl <;> rcases face_cases g with rfl | rfl <;> simp [heq e]) v
  rw [sum_const_zero] at h4
  exact abs_nonpos_iff.mp h4

include hcon in
open Classical in
/-- The equations for the values at the nodes have a solution. -/
theorem balanced_exists (c : Fin nE → ℝ) (hc : ∀ e, 0 < c e) (r : Fin nN → ℝ) : ∃ w : Fin nN → ℝ, (∀ v, D v → w v = 0) ∧
    ∀ v, ¬ D v → ∑ e, ∑ f, (if nodes e f = v then c e * (w (nodes e f.rev) - w (nodes e f)) else 0) = r v := by
  let L : (Fin nN → ℝ) →ₗ[ℝ] Fin nN → ℝ :=
    { toFun := fun w v => if D v then w v else ∑ e, ∑ f, (if nodes e f = v then c e * (w (nodes e f.rev) - w (nodes e f)) else 0)
      map_add' := fun w w' => funext fun v => by
        by_cases hv : D v
        · simp only [Pi.add_apply, if_pos hv]
        · simp only [Pi.add_apply, if_neg hv]
          rw [← sum_add_distrib]
          refine sum_congr rfl fun e _ => ?_
          rw [← sum_add_distrib]
          refine sum_congr rfl fun f _ => ?_
          split
          · ring
          · rw [add_zero]
      map_smul' := fun t w => funext fun v => by
        by_cases hv : D v
        · simp only [Pi.smul_apply, if_pos hv, RingHom.id_apply]
        · simp only [Pi.smul_apply, if_neg hv, RingHom.id_apply, smul_eq_mul]
          rw [mul_sum]
          refine sum_congr rfl fun e _ => ?_
          rw [mul_sum]
          refine sum_congr rfl fun f _ => ?_
          split
          · ring
          · rw [mul_zero] }
  have hL : ∀ w v, L w v = if D v then w v else ∑ e, ∑ f, (if nodes e f = v then c e * (w (nodes e f.rev) - w (nodes e f)) else 0) := fun _ _ => rfl
  have hinj : Function.Injective L := (injective_iff_map_eq_zero L).mpr fun w hw => by
    refine balanced_zero nodes D hcon c hc w (fun v hv => ?_) fun v hv => ?_
    · have := congrFun hw v
      rwa [hL, if_pos hv] at this
    · have := congrFun hw v
      rwa [hL, if_neg hv] at this
  obtain ⟨w, hw⟩ := LinearMap.injective_iff_surjective.mp hinj fun v => if D v then 0 else r v
  refine ⟨w, fun v hv => ?_, fun v hv => ?_⟩
  · have := congrFun hw v
    simp only [hL, if_pos hv] at this
    exact this
  · have := congrFun hw v
    simp only [hL, if_neg hv] at this
    exact this

include hB hf hcon in
theorem network_exists : ∃ (q : Fin nE → Fin (0 + 1) → (Fin (0 + 1) → ℝ) → ℝ) (u : Fin nE → (Fin (0 + 1) → ℝ) → ℝ) (w : Fin nN → (Fin 0 → ℝ) → ℝ), IsClassicalSolution B nodes D q u w := by
  classical
  let y0 : Fin 0 → ℝ := fun k => k.elim0
  have hpt : ∀ y : Fin 0 → ℝ, y = y0 := fun y => funext fun k => k.elim0
  let g : Fin nE → Fin (2 * (0 + 1)) → ℝ := fun e f => if D (nodes e f) then (B e).g (facePoint f y0) else 0
  obtain ⟨w, hw, hbal⟩ := balanced_exists nodes D hcon (fun e => conductance (B e)) (fun e => conductance_pos (hB e))
    fun v => -∑ e, ∑ f, (if nodes e f = v then conductance (B e) * (g e f.rev - g e f) + loadFlux (B e) f else 0)
  have hed := fun e => edge_exists (hB e) (hf e) fun f => w (nodes e f) + g e f
  choose q u hs hu using hed
  refine ⟨q, u, fun v _ => w v, hs, fun e f hfD y _ => ?_, fun e f hfD y _ => ?_, fun v hv y _ => ?_⟩
  · rw [hu]
    simp only [g, if_neg hfD, add_zero]
  · rw [hu, hw _ hfD]
    simp only [g, if_pos hfD, zero_add]
    rw [hpt y]
  · refine Eq.trans ?_ (add_eq_zero_iff_eq_neg.mpr (hbal v hv))
    rw [← sum_add_distrib]
    refine sum_congr rfl fun e _ => ?_
    rw [← sum_add_distrib]
    refine sum_congr rfl fun f _ => ?_
    split
    · rw [sum_line, edge_flux (hB e) (hf e) (hs e), hu, hu]
      ring
    · rw [add_zero]

include hB hf hcon in
/-- The solution is unique: the values at the nodes, and values and fluxes on the edges. -/
theorem network_unique {q q' : Fin nE → Fin (0 + 1) → (Fin (0 + 1) → ℝ) → ℝ} {u u' : Fin nE → (Fin (0 + 1) → ℝ) → ℝ} {w w' : Fin nN → (Fin 0 → ℝ) → ℝ}
    (h : IsClassicalSolution B nodes D q u w) (h' : IsClassicalSolution B nodes D q' u' w') :
    (∀ v, ¬ D v → w v = w' v) ∧ ∀ e, ∀ z ∈ cube (0 + 1), u e z = u' e z ∧ q e 0 z = q' e 0 z := by
  classical
  let y0 : Fin 0 → ℝ := fun k => k.elim0
  have hpt : ∀ y : Fin 0 → ℝ, y = y0 := fun y => funext fun k => k.elim0
  have hy0 : y0 ∈ cube 0 := fun k => k.elim0
  let err : Fin nN → ℝ := fun v => if D v then 0 else w v y0 - w' v y0
  have herr : ∀ e f, u e (facePoint f y0) - u' e (facePoint f y0) = err (nodes e f) := fun e f => by
    by_cases hfD : D (nodes e f)
    · rw [h.dirichlet e f hfD y0 hy0, h'.dirichlet e f hfD y0 hy0, sub_self]
      simp only [err, if_pos hfD]
    · rw [h.continuous e f hfD y0 hy0, h'.continuous e f hfD y0 hy0]
      simp only [err, if_neg hfD]
  have hzero : err = 0 := by
    refine balanced_zero nodes D hcon (fun e => conductance (B e)) (fun e => conductance_pos (hB e)) err (fun v hv => if_pos hv) fun v hv => ?_
    refine Eq.trans ?_ ((congrArg₂ (· - ·) (h.balance v hv y0 hy0) (h'.balance v hv y0 hy0)).trans (sub_zero 0))
    rw [← sum_sub_distrib]
    refine sum_congr rfl fun e _ => ?_
    rw [← sum_sub_distrib]
    refine sum_congr rfl fun f _ => ?_
    split
    · rw [sum_line, sum_line, edge_flux (hB e) (hf e) (h.equation e), edge_flux (hB e) (hf e) (h'.equation e), ← herr, ← herr]
      ring
    · rw [sub_zero]
  have hends : ∀ e f, u e (facePoint f y0) = u' e (facePoint f y0) := fun e f => by
    have h1 := herr e f
    rw [hzero] at h1
    exact sub_eq_zero.mp h1
  refine ⟨fun v hv => funext fun y => ?_, fun e z hz => ?_⟩
  · have h1 := congrFun hzero v
    simp only [err, if_neg hv] at h1
    rw [hpt y]
    exact sub_eq_zero.mp h1
  · have hcof := cof_ne (hB e)
    have v0 : ((0 : Fin (2 * (0 + 1))).1 : ℝ) = 0 := Nat.cast_zero
    have q0 : q e 0 (fun _ => 0) = q' e 0 fun _ => 0 := by
      have h1 := edge_flux (hB e) (hf e) (h.equation e) y0 0
      have h2 := edge_flux (hB e) (hf e) (h'.equation e) y0 0
      rw [hends, hends, ← h2, ← mul_assoc, ← mul_assoc, end_normal (hB e), facePoint_line, v0] at h1
      refine mul_left_cancel₀ (mul_ne_zero ?_ hcof) h1
      simp [Spec.normal]
    have u0 : u e (fun _ => 0) = u' e fun _ => 0 := by
      have h1 := hends e 0
      rwa [facePoint_line, v0] at h1
    have hz0 := hz 0 (Set.mem_univ _)
    rw [line_point z]
    exact ⟨by rw [value_inside (hB e) (h.equation e) _ hz0, value_inside (hB e) (h'.equation e) _ hz0, q0, u0],
      by rw [flux_inside (hB e) (h.equation e) _ hz0, flux_inside (hB e) (h'.equation e) _ hz0, q0]⟩

end Network

end HyperHDG.Estimate

import Verif.Props.NodalExact

/-!
# Networks: moments of the primal unknown, and changes of the right-hand side which keep the values at the ends
-/

namespace HyperHDG.Estimate

open Finset Spec Matrix HyGraph Diffusion EllipticProgram Polynomial Exact

variable {p : Nat} {P : Fin (p + 1) → ℝ[X]}

theorem end_zero (y : Fin 0 → ℝ) : (0 : Fin (0 + 1)).insertNth (α := fun _ => ℝ) 0 y = facePoint 0 y := by
  unfold facePoint
  rw [show axis (0 : Fin (2 * (0 + 1))) = 0 from Subsingleton.elim (α := Fin 1) _ _]
  rfl

theorem end_one (y : Fin 0 → ℝ) : (0 : Fin (0 + 1)).insertNth (α := fun _ => ℝ) 1 y = facePoint 1 y := by
  unfold facePoint
  rw [show axis (1 : Fin (2 * (0 + 1))) = 0 from Subsingleton.elim (α := Fin 1) _ _]
  rfl

/-- The fundamental theorem of calculus on an edge. -/
theorem edge_ftc {g dg : (Fin (0 + 1) → ℝ) → ℝ} (hg : IsPartial 0 g dg) (hc : Continuous g) (hd : Continuous dg) (y : Fin 0 → ℝ) : cubeInt dg = g (facePoint 1 y) - g (facePoint 0 y) := by
  rw [cube_ftc 0 hg hc hd, int_point _ y, int_point _ y, end_zero, end_one]

theorem line_normals {A : Affine (0 + 1) ℝ} (hA : AffineLaws A) (harea : ∀ f, A.area f = 1) : A.normal 0 0 = -A.cof 0 0 ∧ A.normal 1 0 = A.cof 0 0 ∧ A.cof 0 0 ≠ 0 := by
  refine ⟨?_, ?_, ?_⟩
  · have p0 := hA.piola 0 0
    rw [harea, mul_one, show axis (0 : Fin (2 * (0 + 1))) = 0 from Subsingleton.elim (α := Fin 1) _ _] at p0
    rw [p0]
    simp [Spec.normal]
  · have p1 := hA.piola 1 0
    rw [harea, mul_one, show axis (1 : Fin (2 * (0 + 1))) = 0 from Subsingleton.elim (α := Fin 1) _ _] at p1
    rw [p1]
    simp [Spec.normal]
  · have h1 := (isUnit_iff_isUnit_det _).mp hA.cof_inv
    have h2 : A.cof.det = A.cof 0 0 := det_fin_one _
    rw [h2] at h1
    exact h1.ne_zero

section
variable (hP : OrthonormalPolys p P) {B : Data 0} (hB : B.Admissible) (harea : ∀ f, B.A.area f = 1) {time : ℝ} {E : Edge (0 + 1) ((p + 1) ^ (0 + 1)) ℝ} (hE : ExactIntegrals P B time E)

include hP hB harea hE

/-- The difference of the exact and the discrete solution in the first equation, for exact values at the ends. -/
theorem primal_difference {tau : ℝ} {G : Fin (2 * (0 + 1)) → Fin ((p + 1) ^ (0 + 1)) → ℝ} {s : Fin ((p + 1) ^ (0 + 1)) → ℝ} {q' : Fin (0 + 1) → Fin ((p + 1) ^ (0 + 1)) → ℝ} {u' : Fin ((p + 1) ^ (0 + 1)) → ℝ}
    (h : IsSolution (form E ((p + 1) ^ 0) time) tau 0 1 G s q' u') {q : Fin (0 + 1) → (Fin (0 + 1) → ℝ) → ℝ} {u : (Fin (0 + 1) → ℝ) → ℝ} (hs : SolvesClassically B q u)
    (hG : ∀ f i, G f i = B.A.area f * cubeInt fun y => u (facePoint f y) * shape P i (facePoint f y))
    {c : Fin ((p + 1) ^ (0 + 1)) → ℝ} {g dg : (Fin (0 + 1) → ℝ) → ℝ} (hc : ∀ z, g z = polyFun P c z) (hg : IsPartial 0 g dg) (hdg : Continuous dg) :
    B.A.vol * cubeInt (fun z => B.a z * (q 0 z - polyFun P (q' 0) z) * g z) = B.A.cof 0 0 * cubeInt fun z => dg z * (u z - polyFun P u' z) := by
  obtain rfl : g = polyFun P c := funext hc
  obtain ⟨du, dq, h1, h2, hu, hq, h3⟩ := hs
  let y : Fin 0 → ℝ := fun k => k.elim0
  have hn : (form E ((p + 1) ^ 0) time).normal = B.A.normal := by rw [hE.form]; rfl
  have hone : ∀ g : Fin (0 + 1) → ℝ, ∑ k, g k = g 0 := fun g => Fin.sum_univ_one g
  have hsum : ∀ g : Fin (2 * (0 + 1)) → ℝ, ∑ f, g f = g 0 + g 1 := fun g => Fin.sum_univ_two g
  obtain ⟨hn0, hn1, _⟩ := line_normals hB.affine harea
  have h4 := congrArg (fun v => c ⬝ᵥ v) (h.flux 0)
  simp only [dotProduct_add, dot_sum, dotProduct_sub, dotProduct_smul, smul_eq_mul, dotProduct_zero] at h4
  have hgrad : c ⬝ᵥ (form E ((p + 1) ^ 0) time).grad 0 *ᵥ u' = B.A.cof 0 0 * cubeInt fun z => dg z * polyFun P u' z := by
    have h5 := partial_unique (polyFun_partial hP c 0) hg
    have h6 : ((form E ((p + 1) ^ 0) time).grad 0)ᵀ *ᵥ c = B.A.cof 0 0 • fun j : Fin ((p + 1) ^ (0 + 1)) => ∑ i : Fin ((p + 1) ^ (0 + 1)), (tensorIntegrator (p + 1) (0 + 1) (exactBasis P)).vol_Dphiphi i j (0 : Fin (0 + 1)) * c i := by
      rw [hE.form]
      funext j
      simp only [affineForm, mulVec, dotProduct, transpose_apply, of_apply, hone, Pi.smul_apply, smul_eq_mul, mul_sum, mul_assoc]
    rw [dotProduct_mulVec, ← mulVec_transpose, h6, smul_dotProduct, smul_eq_mul, dotProduct_comm, dot_polyFun hP, h5]
  have hmass : c ⬝ᵥ (form E ((p + 1) ^ 0) time).mass *ᵥ q' 0 = B.A.vol * cubeInt fun z => B.a z * polyFun P (q' 0) z * polyFun P c z := by
    have hm : ∀ i, ((form E ((p + 1) ^ 0) time).mass *ᵥ q' 0) i = B.A.vol * cubeInt fun x => B.a x * polyFun P (q' 0) x * shape P i x := fun i => by
      rw [hE.form]
      simp only [affineForm, mulVec, dotProduct, of_apply, mul_assoc, ← mul_sum]
      rw [mass_apply hB.cont]
      simp only [mul_assoc]
    rw [int_test (hB.cont.fun_mul (polyFun_cont (P := P) (q' 0))), mul_sum]
    simp only [dotProduct, hm]
    exact sum_congr rfl fun i _ => by ring
  have hG' : ∀ f, c ⬝ᵥ G f = polyFun P c (facePoint f y) * u (facePoint f y) := fun f => by
    simp only [dotProduct, hG, harea, one_mul]
    have h5 : ∀ i : Fin ((p + 1) ^ (0 + 1)), cubeInt (fun y => u (facePoint f y) * shape P i (facePoint f y)) = u (facePoint f y) * shape P i (facePoint f y) := fun i => int_point _ y
    simp only [h5]
    unfold polyFun
    rw [sum_mul]
    exact sum_congr rfl fun i _ => by ring
  have h7 := edge_ftc (partial_mul (h1 0).1 hg) (hu.mul (polyFun_cont c)) (((h1 0).2.mul (polyFun_cont c)).add (hu.mul hdg)) y
  rw [cubeInt_add ((h1 0).2.fun_mul (polyFun_cont c)) (hu.fun_mul hdg)] at h7
  have h8 : B.A.vol * cubeInt (fun z => B.a z * q 0 z * polyFun P c z) = -(B.A.cof 0 0 * cubeInt fun z => du 0 z * polyFun P c z) := by
    rw [← cubeInt_mul, ← cubeInt_mul, ← neg_one_mul, ← cubeInt_mul]
    refine cubeInt_congr fun z hz => ?_
    have h6 := (h3 z hz).1 0
    rw [hone] at h6
    linear_combination polyFun P c z * h6
  have h9 : cubeInt (fun z => dg z * (u z - polyFun P u' z)) = cubeInt (fun z => u z * dg z) - cubeInt fun z => dg z * polyFun P u' z := by
    rw [← cubeInt_sub (hu.fun_mul hdg) (hdg.fun_mul (polyFun_cont _))]
    exact cubeInt_congr fun z _ => by ring
  have h10 : cubeInt (fun z => B.a z * (q 0 z - polyFun P (q' 0) z) * polyFun P c z) = cubeInt (fun z => B.a z * q 0 z * polyFun P c z) - cubeInt fun z => B.a z * polyFun P (q' 0) z * polyFun P c z := by
    rw [← cubeInt_sub ((hB.cont.fun_mul (hq 0)).fun_mul (polyFun_cont _)) ((hB.cont.fun_mul (polyFun_cont _)).fun_mul (polyFun_cont _))]
    exact cubeInt_congr fun z _ => by ring
  rw [hmass, hgrad, hsum, hn, hn0, hn1, hG', hG'] at h4
  rw [h9, h10, mul_sub, h8]
  linear_combination -h4 - B.A.cof 0 0 * h7

/-- With unit coefficient and exact values and fluxes at the ends, the primal unknown has the moments of the exact solution up to degree `p - 2`. -/
theorem primal_moments (ha : ∀ z, B.a z = 1) {tau : ℝ} {G : Fin (2 * (0 + 1)) → Fin ((p + 1) ^ (0 + 1)) → ℝ} {q' : Fin (0 + 1) → Fin ((p + 1) ^ (0 + 1)) → ℝ} {u' : Fin ((p + 1) ^ (0 + 1)) → ℝ}
    (h : IsSolution (form E ((p + 1) ^ 0) time) tau 0 1 G (source E time) q' u') {q : Fin (0 + 1) → (Fin (0 + 1) → ℝ) → ℝ} {u : (Fin (0 + 1) → ℝ) → ℝ} (hs : SolvesClassically B q u)
    (hG : ∀ f i, G f i = B.A.area f * cubeInt fun y => u (facePoint f y) * shape P i (facePoint f y))
    (hflux : ∀ f y, B.A.normal f 0 * q 0 (facePoint f y) - (B.A.normal f 0 * polyFun P (q' 0) (facePoint f y) + tau * (polyFun P u' (facePoint f y) - u (facePoint f y))) = 0)
    (r : ℝ[X]) (hr : r.natDegree + 2 ≤ p) : cubeInt (fun z => r.eval (z 0) * (u z - polyFun P u' z)) = 0 := by
  obtain ⟨R1, hR1, hd1⟩ := antiderivative (p := r.natDegree + 1) r (Nat.lt_succ_self _)
  obtain ⟨R2, hR2, hd2⟩ := antiderivative (p := p) R1 (by omega)
  obtain ⟨_, _, hcof⟩ := line_normals hB.affine harea
  obtain ⟨c1, hc1⟩ := poly_mem hP (isPoly_line R1 (show R1.natDegree ≤ p by omega))
  obtain ⟨c2, hc2⟩ := poly_mem hP (isPoly_line R2 hd2)
  have hcont : ∀ R : ℝ[X], Continuous fun z : Fin (0 + 1) → ℝ => R.eval (z 0) := fun R => R.continuous.comp (continuous_apply 0)
  have h1 := flux_difference hP hB harea hE h (T := fun f y => u (facePoint f y)) hG hs hc2 (partial_line _) (hcont _) fun k => k.elim0
  simp only [hflux, mul_zero, sum_const_zero, hR2] at h1
  have h2 := (mul_eq_zero.mp h1.symm).resolve_left hcof
  have h3 := primal_difference hP hB harea hE h hs hG hc1 (partial_line _) (hcont _)
  simp only [ha, one_mul, hR1] at h3
  have h4 : cubeInt (fun z => (q 0 z - polyFun P (q' 0) z) * R1.eval (z 0)) = 0 := (cubeInt_congr fun z _ => mul_comm _ _).trans h2
  rw [h4, mul_zero] at h3
  exact (mul_eq_zero.mp h3.symm).resolve_left hcof

end

/-- A change of the right-hand side by a function whose moments of degree zero and one vanish changes neither the values nor the fluxes at the ends of an edge. -/
theorem change_source {B : Data 0} (hB : AffineLaws B.A) (harea : ∀ f, B.A.area f = 1) (ha : ∀ z, B.a z = 1) (delta : ℝ → ℝ) (hd : Continuous delta) (h0 : cubeInt (fun z : Fin (0 + 1) → ℝ => delta (z 0)) = 0)
    (h1 : cubeInt (fun z : Fin (0 + 1) → ℝ => z 0 * delta (z 0)) = 0) {q : Fin (0 + 1) → (Fin (0 + 1) → ℝ) → ℝ} {u : (Fin (0 + 1) → ℝ) → ℝ} (hs : SolvesClassically B q u) :
    ∃ q' u', SolvesClassically { B with f := fun z => B.f z + delta (z 0) } q' u' ∧ ∀ f y, u' (facePoint f y) = u (facePoint f y) ∧ q' 0 (facePoint f y) = q 0 (facePoint f y) := by
  obtain ⟨_, _, hcof⟩ := line_normals hB harea
  let y0 : Fin 0 → ℝ := fun k => k.elim0
  have hpt : ∀ y : Fin 0 → ℝ, y = y0 := fun y => funext fun k => k.elim0
  let D1 : ℝ → ℝ := fun t => ∫ s in (0 : ℝ)..t, delta s
  have hD1 : ∀ t, HasDerivAt D1 (delta t) t := fun t => hd.integral_hasStrictDerivAt 0 t |>.hasDerivAt
  have hD1c : Continuous D1 := continuous_iff_continuousAt.mpr fun t => (hD1 t).continuousAt
  let D2 : ℝ → ℝ := fun t => ∫ s in (0 : ℝ)..t, D1 s
  have hD2 : ∀ t, HasDerivAt D2 (D1 t) t := fun t => hD1c.integral_hasStrictDerivAt 0 t |>.hasDerivAt
  have hD2c : Continuous D2 := continuous_iff_continuousAt.mpr fun t => (hD2 t).continuousAt
  have z10 : D1 0 = 0 := intervalIntegral.integral_same
  have z20 : D2 0 = 0 := intervalIntegral.integral_same
  have hcomp : ∀ {g : ℝ → ℝ}, Continuous g → Continuous fun z : Fin (0 + 1) → ℝ => g (z 0) := fun hg => hg.comp (continuous_apply 0)
  have hpart : ∀ {g dg : ℝ → ℝ}, (∀ t, HasDerivAt g (dg t) t) → IsPartial 0 (fun z : Fin (0 + 1) → ℝ => g (z 0)) fun z => dg (z 0) := fun hg z => by
    simp only [Function.update_self]
    exact hg (z 0)
  have hface : ∀ (f : Fin (2 * (0 + 1))) (y : Fin 0 → ℝ), facePoint f y 0 = f.1 := fun f y => facePoint_zero one_pos f y
  have v0 : ((0 : Fin (2 * (0 + 1))).1 : ℝ) = 0 := Nat.cast_zero
  have v1 : ((1 : Fin (2 * (0 + 1))).1 : ℝ) = 1 := Nat.cast_one
  have z11 : D1 1 = 0 := by
    have h := edge_ftc (hpart hD1) (hcomp hD1c) (hcomp hd) y0
    rw [hface, hface, v0, v1, z10, h0, sub_zero] at h
    exact h.symm
  have z21 : D2 1 = 0 := by
    have h := edge_ftc (hpart hD2) (hcomp hD2c) (hcomp hD1c) y0
    have h' := edge_ftc (hpart fun t => (hasDerivAt_id t).mul (hD1 t)) (hcomp (continuous_id.mul hD1c)) (hcomp ((continuous_const.mul hD1c).add (continuous_id.mul hd))) y0
    simp only [id, Pi.mul_apply, hface, v0, v1, z10, z20, z11, one_mul, sub_zero, mul_zero] at h h'
    rw [cubeInt_add (hcomp hD1c) (g := fun z : Fin (0 + 1) → ℝ => z 0 * delta (z 0)) (hcomp (continuous_id.mul hd)), h1, add_zero] at h'
    rw [← h, h']
  have hends : ∀ f : Fin (2 * (0 + 1)), ∀ y, D1 (facePoint f y 0) = 0 ∧ D2 (facePoint f y 0) = 0 := fun f y => by
    rw [hface]
    rcases (show f.1 = 0 ∨ f.1 = 1 by have := f.2; omega) with h | h <;> rw [h]
    · exact ⟨by rw [Nat.cast_zero]; exact z10, by rw [Nat.cast_zero]; exact z20⟩
    · exact ⟨by rw [Nat.cast_one]; exact z11, by rw [Nat.cast_one]; exact z21⟩
  obtain ⟨du, dq, g1, g2, hu, hq, g3⟩ := hs
  let k : ℝ := B.A.vol / B.A.cof 0 0
  have hone : ∀ g : Fin (0 + 1) → ℝ, ∑ k, g k = g 0 := fun g => Fin.sum_univ_one g
  have hl : ∀ l : Fin (0 + 1), l = 0 := fun l => Subsingleton.elim (α := Fin 1) _ _
  refine ⟨fun l z => q l z + k * D1 (z 0), fun z => u z - k ^ 2 * D2 (z 0), ⟨fun l z => du l z - k ^ 2 * D1 (z 0), fun a b z => dq a b z + k * delta (z 0), fun l => ?_, fun a b => ?_,
    hu.sub (continuous_const.mul (hcomp hD2c)), fun l => (hq l).add (continuous_const.mul (hcomp hD1c)), fun z hz => ⟨fun l => ?_, ?_⟩⟩, fun f y => ?_⟩
  · obtain rfl := hl l
    exact ⟨fun z => ((g1 0).1 z).sub ((hpart hD2 z).const_mul _), (g1 0).2.sub (continuous_const.mul (hcomp hD1c))⟩
  · obtain rfl := hl a
    obtain rfl := hl b
    exact ⟨fun z => ((g2 0 0).1 z).add ((hpart hD1 z).const_mul _), (g2 0 0).2.add (continuous_const.mul (hcomp hd))⟩
  · obtain rfl := hl l
    have h := (g3 z hz).1 0
    rw [hone] at h ⊢
    simp only [ha, one_mul] at h ⊢
    have hk : B.A.vol = B.A.cof 0 0 * k := by simp only [k]; field_simp
    rw [hk] at h ⊢
    linear_combination h
  · have h := (g3 z hz).2
    rw [hone, hone] at h ⊢
    have hk : B.A.vol = B.A.cof 0 0 * k := by simp only [k]; field_simp
    simp only at h ⊢
    rw [mul_add, h, mul_add]
    congr 1
    rw [← mul_assoc, ← hk]
  · simp only [(hends f y).1, (hends f y).2, mul_zero, sub_zero, add_zero, and_self]

section
variable (hP : OrthonormalPolys p P) {nE nN : Nat} {B : Fin nE → Data 0} (hB : ∀ e, (B e).Admissible) (harea : ∀ e f, (B e).A.area f = 1) (ha : ∀ e, PolynomialCoefficient p (B e)) {time : ℝ}
    {E : Fin nE → Edge (0 + 1) ((p + 1) ^ (0 + 1)) ℝ} (hE : ∀ e, ExactIntegrals P (B e) time (E e)) {nodes : Fin nE → Fin (2 * (0 + 1)) → Fin nN} {D : Fin nN → Prop}
    (hD : ∀ (e : Fin nE) (f : Fin (2 * (0 + 1))), (E e).node_descriptor f ∈ (E e).dirichlet_nodes ↔ D (nodes e f)) (hcon : Anchored nodes D)
    {q : Fin nE → Fin (0 + 1) → (Fin (0 + 1) → ℝ) → ℝ} {u : Fin nE → (Fin (0 + 1) → ℝ) → ℝ} {w : Fin nN → (Fin 0 → ℝ) → ℝ} (h : IsClassicalSolution B nodes D q u w) {tau : ℝ}
    {x : Fin (nN * (p + 1) ^ 0) → ℝ} (hx0 : VanishesAt D x) {q' : Fin nE → Fin (0 + 1) → Fin ((p + 1) ^ (0 + 1)) → ℝ} {u' : Fin nE → Fin ((p + 1) ^ (0 + 1)) → ℝ}
    (h2 : ∀ e, IsSolution (form (E e) ((p + 1) ^ 0) time) tau 0 1 (moments (form (E e) ((p + 1) ^ 0) time) (faceValues nodes x e) + dirichletMoments (E e) time) (source (E e) time) (q' e) (u' e))
    (h3 : ∀ v, ¬ D v → ∀ j, ∑ e, ∑ f, (if nodes e f = v then faceFlux (form (E e) ((p + 1) ^ 0) time) tau (faceValues nodes x e) (q' e) (u' e) f j else 0) = 0)

include hP hB harea ha hE hD hcon h hx0 h2 h3 in
/-- Local solutions whose fluxes balance have the values and the fluxes of the exact solution at the ends of the edges. -/
theorem nodal_values : (∀ v, ¬ D v → ∀ j y, x (dof v j) = w v y) ∧
    (∀ e f i, (moments (form (E e) ((p + 1) ^ 0) time) (faceValues nodes x e) + dirichletMoments (E e) time) f i = (B e).A.area f * cubeInt fun y => u e (facePoint f y) * shape P i (facePoint f y)) ∧
    ∀ e f y, (B e).A.normal f 0 * q e 0 (facePoint f y) - ((B e).A.normal f 0 * polyFun P (q' e 0) (facePoint f y) + tau * (polyFun P (u' e) (facePoint f y) - u e (facePoint f y))) = 0 := by
  classical
  let T : Fin nE → Fin (2 * (0 + 1)) → (Fin 0 → ℝ) → ℝ := fun e f => if D (nodes e f) then fun y => u e (facePoint f y) else polyFun P (faceValues nodes x e f)
  have hTD : ∀ e f, D (nodes e f) → T e f = fun y => u e (facePoint f y) := fun e f hf => if_pos hf
  have hTN : ∀ e f, ¬ D (nodes e f) → T e f = polyFun P (faceValues nodes x e f) := fun e f hf => if_neg hf
  have hc := fun e : Fin nE => end_fluxes hP (hB e) (harea e) (hE e) (ha e)
  choose c hc0 hc using hc
  have hpt : ∀ y y' : Fin 0 → ℝ, y' = y := fun y y' => funext fun k => k.elim0
  let j0 : Fin ((p + 1) ^ 0) := ⟨0, by simp⟩
  let y0 : Fin 0 → ℝ := fun k => k.elim0
  let err : Fin nN → ℝ := fun v => if D v then 0 else w v y0 - x (dof v j0)
  have herr : ∀ e f, u e (facePoint f y0) - T e f y0 = err (nodes e f) := fun e f => by
    by_cases hf : D (nodes e f)
    · simp only [err]
      rw [hTD e f hf, if_pos hf, sub_self]
    · simp only [err]
      rw [hTN e f hf, if_neg hf, h.continuous e f hf y0 (fun k => k.elim0), polyFun_point _ j0]
      rfl
  have hmom := face_moments hP hE hD h hx0 hTD hTN
  have hdiff : ∀ (e : Fin nE) f, (B e).A.normal f 0 * q e 0 (facePoint f y0) - ((B e).A.normal f 0 * polyFun P (q' e 0) (facePoint f y0) + tau * (polyFun P (u' e) (facePoint f y0) - T e f y0)) =
      c e * (err (nodes e f.rev) - err (nodes e f)) := fun e f => by
    rw [hc e tau _ (q' e) (u' e) (h2 e) (T e) (hmom e) (q e) (u e) (h.equation e) y0 f, herr, herr]
  have hT0 : ∀ e f, ¬ D (nodes e f) → T e f y0 = faceValues nodes x e f j0 := fun e f hf => by rw [hTN e f hf, polyFun_point _ j0]
  have hone : ∀ g : Fin (0 + 1) → ℝ, ∑ k, g k = g 0 := fun g => Fin.sum_univ_one g
  have hbal : ∀ v, ¬ D v → ∑ e, ∑ f, (if nodes e f = v then c e * (err (nodes e f.rev) - err (nodes e f)) else 0) = 0 := fun v hv => by
    have h4 := h.balance v hv y0 fun k => k.elim0
    have h5 := h3 v hv j0
    refine Eq.trans ?_ ((congrArg₂ (· - ·) h4 h5).trans (sub_zero 0))
    rw [← sum_sub_distrib]
    refine sum_congr rfl fun e _ => ?_
    rw [← sum_sub_distrib]
    refine sum_congr rfl fun f _ => ?_
    by_cases hf : nodes e f = v
    · rw [if_pos hf, if_pos hf, if_pos hf, ← hdiff, harea, one_mul, hone, faceFlux_point hP (harea e) (hE e) tau _ _ _ f j0 y0, hT0 e f (hf ▸ hv)]
    · rw [if_neg hf, if_neg hf, if_neg hf, sub_zero]
  have heq := energy_zero nodes D c hc0 err (fun v hv => if_pos hv) hbal
  have hzero : ∀ v, err v = 0 := fun v => by
    have h4 := anchored_bound nodes D hcon err (fun _ => 0) (fun _ => le_rfl) (fun v hv => if_pos hv) (fun e f g => by
      have hf : ∀ f : Fin (2 * (0 + 1)), f = 0 ∨ f = 1 := fun f => by
        rcases (show f.1 = 0 ∨ f.1 = 1 by have := f.2; omega) with h | h
        · exact .inl (Fin.ext h)
        · exact .inr (Fin.ext h)
      rcases hf f with rfl | rfl <;> rcases hf g with rfl | rfl <;> simp [heq e]) v
    rw [sum_const_zero] at h4
    exact abs_nonpos_iff.mp h4
  have hTu : ∀ e f, T e f = fun y => u e (facePoint f y) := fun e f => funext fun y => by
    rw [hpt y0 y]
    exact (sub_eq_zero.mp ((herr e f).trans (hzero _))).symm
  refine ⟨fun v hv j y => ?_, fun e f i => ?_, fun e f y => ?_⟩
  · have h4 := hzero v
    simp only [err] at h4
    rw [if_neg hv, sub_eq_zero] at h4
    rw [hpt y0 y, h4]
    exact congrArg x (congrArg (dof v) (Subsingleton.elim (α := Fin 1) _ _))
  · rw [hmom, hTu]
  · have h6 := hdiff e f
    rw [hzero, hzero, sub_zero, mul_zero, hTu] at h6
    rw [hpt y0 y]
    exact h6

end

end HyperHDG.Estimate

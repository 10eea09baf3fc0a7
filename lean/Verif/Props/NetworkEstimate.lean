import Verif.Proofs.NetworkEdge

/-!
# Property C94 on networks: the errors at the nodes and the error which `errors` returns

A network is a hypergraph of edges (dimension one); its nodes are points, so their areas are one.
-/

namespace HyperHDG.Estimate

open Finset Spec Matrix HyGraph Diffusion EllipticProgram Polynomial Exact

variable {p : Nat} {P : Fin (p + 1) → ℝ[X]}

/-- What the approximation errors contribute to the squared error of the flux. -/
noncomputable def fluxBound {nE : Nat} (vol : Fin nE → ℝ) (tau amax : ℝ) (epsq epsu : Fin nE → ℝ) : ℝ := ∑ e, (vol e * amax * epsq e ^ 2 + 2 * (epsq e ^ 2 / tau + tau * epsu e ^ 2))

section
variable (hP : OrthonormalPolys p P) {nE nN : Nat} {B : Fin nE → Data 0} (hB : ∀ e, (B e).Admissible) (harea : ∀ e f, (B e).A.area f = 1) (hN : ∀ e f, ∑ k, (B e).A.normal f k ^ 2 = 1) {time : ℝ}
  {E : Fin nE → Edge (0 + 1) ((p + 1) ^ (0 + 1)) ℝ} (hE : ∀ e, ExactIntegrals P (B e) time (E e)) {nodes : Fin nE → Fin (2 * (0 + 1)) → Fin nN} {D : Fin nN → Prop}
  (hD : ∀ (e : Fin nE) (f : Fin (2 * (0 + 1))), IsDirichlet (E e) f ↔ D (nodes e f)) (hcon : Anchored nodes D)
  {q : Fin nE → Fin (0 + 1) → (Fin (0 + 1) → ℝ) → ℝ} {u : Fin nE → (Fin (0 + 1) → ℝ) → ℝ} {w : Fin nN → (Fin 0 → ℝ) → ℝ} (h : IsClassicalSolution B nodes D q u w) {amax : ℝ} (ha : ∀ e, ∀ z ∈ cube (0 + 1), (B e).a z ≤ amax)
  {tau : ℝ} {x : Fin (nN * (p + 1) ^ 0) → ℝ} (hx0 : VanishesAt D x) {q' : Fin nE → Fin (0 + 1) → Fin ((p + 1) ^ (0 + 1)) → ℝ} {u' : Fin nE → Fin ((p + 1) ^ (0 + 1)) → ℝ}
  (hsol : ∀ e, IsSolution (form (E e) ((p + 1) ^ 0) time) tau 0 1 (moments (form (E e) ((p + 1) ^ 0) time) (faceValues nodes x e) + dirichletMoments (E e) time) (source (E e) time) (q' e) (u' e))
  {T : Fin nE → Fin (2 * (0 + 1)) → (Fin 0 → ℝ) → ℝ} (hTD : ∀ e f, D (nodes e f) → T e f = fun y => u e (facePoint f y)) (hTN : ∀ e f, ¬ D (nodes e f) → T e f = polyFun P (faceValues nodes x e f))

include hP hE hD h hx0 hTD hTN in
theorem face_moments (e : Fin nE) (f : Fin (2 * (0 + 1))) (i : Fin ((p + 1) ^ (0 + 1))) : (moments (form (E e) ((p + 1) ^ 0) time) (faceValues nodes x e) + dirichletMoments (E e) time) f i =
    (B e).A.area f * cubeInt fun y => T e f y * shape P i (facePoint f y) :=
  moments_of hP (hE e) (u := u e) f (fun hd => ⟨funext fun j => hx0 _ ((hD e f).mp hd) j, h.dirichlet e f ((hD e f).mp hd), hTD e f ((hD e f).mp hd)⟩) (fun hd => hTN e f fun h' => hd ((hD e f).mpr h')) i

include hP hB harea hN hE hD hcon h ha hx0 hsol hTD hTN in
/-- The errors at the nodes of a network. -/
theorem network_nodes (e : Fin nE) (f : Fin (2 * (0 + 1))) (y : Fin 0 → ℝ) :
    (u e (facePoint f y) - T e f y) ^ 2 ≤ (∑ e, (B e).A.vol) * amax * ∑ e, (B e).A.vol * cubeInt fun z => (B e).a z * ∑ k, (q e k z - polyFun P (q' e k) z) ^ 2 := by
  classical
  have hqc : ∀ e k, Continuous (q e k) := fun e => let ⟨_, _, _, _, _, hq, _⟩ := h.equation e; hq
  have hpt : ∀ y' : Fin 0 → ℝ, y' = y := fun y' => funext fun k => k.elim0
  have hmem : y ∈ cube 0 := fun k => k.elim0
  have hTc : ∀ e f, Continuous (T e f) := fun e f => by
    have h1 : T e f = fun _ => T e f y := funext fun y' => by rw [hpt y']
    rw [h1]
    exact continuous_const
  let err : Fin nN → ℝ := fun v => if D v then 0 else w v y - polyFun P (fun j : Fin ((p + 1) ^ 0) => x (dof v j)) y
  have herr : ∀ e f, u e (facePoint f y) - T e f y = err (nodes e f) := fun e f => by
    by_cases hf : D (nodes e f)
    · simp only [err]
      rw [hTD e f hf, if_pos hf, sub_self]
    · simp only [err]
      rw [hTN e f hf, if_neg hf, h.continuous e f hf y hmem]
      rfl
  let t : Fin nE → ℝ := fun e => (B e).A.vol * cubeInt fun z => (B e).a z * (q e 0 z - polyFun P (q' e 0) z)
  have hsum : ∀ g : Fin (2 * (0 + 1)) → ℝ, ∑ f, g f = g 0 + g 1 := fun g => Fin.sum_univ_two g
  have hstep : ∀ e, |err (nodes e 1) - err (nodes e 0)| = |t e| := fun e => by
    have h3 := mean_flux hP (hB e) (hE e) (hsol e) (hTc e) (face_moments hP hE hD h hx0 hTD hTN e) 0
    have h4 := mean_exact hP (hB e) (hE e) (h.equation e) 0
    have i1 : ∀ f : Fin (2 * (0 + 1)), cubeInt (fun y => u e (facePoint f y)) = u e (facePoint f y) := fun f => int_point _ y
    have i2 : ∀ f : Fin (2 * (0 + 1)), cubeInt (T e f) = T e f y := fun f => int_point _ y
    simp only [hsum, harea, one_mul, i1, i2] at h3 h4
    have h5 : t e = (B e).A.vol * cubeInt (fun z => (B e).a z * q e 0 z) - (B e).A.vol * cubeInt fun z => (B e).a z * polyFun P (q' e 0) z := by
      rw [← mul_sub, ← cubeInt_sub ((hB e).cont.fun_mul (hqc e 0)) ((hB e).cont.fun_mul (polyFun_cont _))]
      simp only [t, mul_sub]
    have hnorm : (B e).A.normal 1 0 ^ 2 = 1 := by
      rw [← hN e 1]
      exact (Fin.sum_univ_one fun k => (B e).A.normal 1 k ^ 2).symm
    have hn0 : (B e).A.normal 0 0 = -(B e).A.normal 1 0 := by
      have p0 := (hB e).affine.piola 0 0
      have p1 := (hB e).affine.piola 1 0
      rw [harea, mul_one, show axis (0 : Fin (2 * (0 + 1))) = 0 from Subsingleton.elim (α := Fin 1) _ _] at p0
      rw [harea, mul_one, show axis (1 : Fin (2 * (0 + 1))) = 0 from Subsingleton.elim (α := Fin 1) _ _] at p1
      rw [p0, p1]
      simp [Spec.normal]
    rw [hn0] at h3 h4
    have h6 : t e = -(B e).A.normal 1 0 * (err (nodes e 1) - err (nodes e 0)) := by
      rw [h5, ← herr, ← herr]
      linear_combination h4 - h3
    have h7 : |(B e).A.normal 1 0| = 1 := by
      rw [← abs_one]
      exact (sq_eq_sq_iff_abs_eq_abs _ _).mp (by rw [hnorm, one_pow])
    rw [h6, abs_mul, abs_neg, h7, one_mul]
  have hbound := anchored_bound nodes D hcon err (fun e => |t e|) (fun e => abs_nonneg _) (fun v hv => if_pos hv) (fun e f g => by
    have hf : ∀ f : Fin (2 * (0 + 1)), f = 0 ∨ f = 1 := fun f => by
      rcases (show f.1 = 0 ∨ f.1 = 1 by have := f.2; omega) with h | h
      · exact .inl (Fin.ext h)
      · exact .inr (Fin.ext h)
    rcases hf f with rfl | rfl <;> rcases hf g with rfl | rfl
    · rw [sub_self, abs_zero]; exact abs_nonneg _
    · rw [abs_sub_comm]; exact (hstep e).le
    · exact (hstep e).le
    · rw [sub_self, abs_zero]; exact abs_nonneg _) (nodes e f)
  rw [herr, ← sq_abs]
  refine (pow_le_pow_left₀ (abs_nonneg _) hbound 2).trans ?_
  have h8 := sum_sq_le_sum_mul_sum_of_sq_eq_mul univ (r := fun e => |t e|) (f := fun e => (B e).A.vol) (g := fun e => (B e).A.vol * (cubeInt fun z => (B e).a z * (q e 0 z - polyFun P (q' e 0) z)) ^ 2)
    (fun e _ => (hB e).affine.vol_pos.le) (fun e _ => mul_nonneg (hB e).affine.vol_pos.le (sq_nonneg _)) (fun e _ => by
      rw [sq_abs]
      simp only [t]
      ring)
  refine h8.trans ?_
  rw [mul_assoc]
  refine mul_le_mul_of_nonneg_left ?_ (sum_nonneg fun e _ => (hB e).affine.vol_pos.le)
  rw [mul_sum]
  refine sum_le_sum fun e _ => ?_
  have hone : ∀ g : Fin (0 + 1) → ℝ, ∑ k, g k = g 0 := fun g => Fin.sum_univ_one g
  simp only [hone]
  rw [mul_left_comm]
  refine mul_le_mul_of_nonneg_left ?_ (hB e).affine.vol_pos.le
  have cg : Continuous fun z => q e 0 z - polyFun P (q' e 0) z := (hqc e 0).sub (polyFun_cont _)
  refine (mean_sq ((hB e).cont.fun_mul cg)).trans ?_
  rw [← cubeInt_mul]
  refine cubeInt_mono (((hB e).cont.mul cg).pow 2) (continuous_const.mul ((hB e).cont.mul (cg.pow 2))) fun z hz => ?_
  have h9 := mul_le_mul_of_nonneg_right (ha e z hz) (mul_nonneg ((hB e).pos z).le (sq_nonneg (q e 0 z - polyFun P (q' e 0) z)))
  show ((B e).a z * (q e 0 z - polyFun P (q' e 0) z)) ^ 2 ≤ _
  linarith

end

/-- The error of the primal unknown on a network. -/
theorem network_error (hP : OrthonormalPolys p P) : ∃ C : ℝ, 0 ≤ C ∧ ∀ (nE nN : Nat) (B : Fin nE → Data 0) (_ : ∀ e, (B e).Admissible) (_ : ∀ e f, (B e).A.area f = 1) (_ : ∀ e f, ∑ k, (B e).A.normal f k ^ 2 = 1) (time : ℝ)
    (E : Fin nE → Edge (0 + 1) ((p + 1) ^ (0 + 1)) ℝ) (_ : ∀ e, ExactIntegrals P (B e) time (E e)) (nodes : Fin nE → Fin (2 * (0 + 1)) → Fin nN) (D : Fin nN → Prop)
    (_ : ∀ (e : Fin nE) (f : Fin (2 * (0 + 1))), IsDirichlet (E e) f ↔ D (nodes e f)) (_ : Anchored nodes D)
    (q : Fin nE → Fin (0 + 1) → (Fin (0 + 1) → ℝ) → ℝ) (u : Fin nE → (Fin (0 + 1) → ℝ) → ℝ) (w : Fin nN → (Fin 0 → ℝ) → ℝ) (_ : IsClassicalSolution B nodes D q u w)
    (amax : ℝ) (_ : 0 ≤ amax) (_ : ∀ e, ∀ z ∈ cube (0 + 1), (B e).a z ≤ amax) (epsu : Fin nE → ℝ) (_ : ∀ e, ApproxBy p (epsu e) (u e)) (tau : ℝ) (_ : 0 < tau)
    (x : Fin (nN * (p + 1) ^ 0) → ℝ) (_ : VanishesAt D x) (q' : Fin nE → Fin (0 + 1) → Fin ((p + 1) ^ (0 + 1)) → ℝ) (u' : Fin nE → Fin ((p + 1) ^ (0 + 1)) → ℝ)
    (_ : ∀ e, IsSolution (form (E e) ((p + 1) ^ 0) time) tau 0 1 (moments (form (E e) ((p + 1) ^ 0) time) (faceValues nodes x e) + dirichletMoments (E e) time) (source (E e) time) (q' e) (u' e))
    (T : Fin nE → Fin (2 * (0 + 1)) → (Fin 0 → ℝ) → ℝ) (_ : ∀ e f, D (nodes e f) → T e f = fun y => u e (facePoint f y)) (_ : ∀ e f, ¬ D (nodes e f) → T e f = polyFun P (faceValues nodes x e f)) (R : ℝ)
    (_ : (∑ e, (B e).A.vol * cubeInt (fun z => (B e).a z * ∑ k, (q e k z - polyFun P (q' e k) z) ^ 2)) +
        tau * ∑ e, ∑ f, (B e).A.area f * cubeInt (fun y => (polyFun P (proj P (u e) - u' e) (facePoint f y) - polyFun P (proj P fun y => u e (facePoint f y) - T e f y) y) ^ 2) ≤ R),
    ∑ e, (B e).A.vol * cubeInt (fun z => (polyFun P (u' e) z - u e z) ^ 2) ≤ C * ((∑ e, (B e).A.vol * epsu e ^ 2) + (amax * (∑ e, (B e).A.vol) ^ 2 + (∑ e, (B e).A.vol) / tau) * R) := by
  obtain ⟨C1, hC1, hedge⟩ := edge_error hP
  obtain ⟨C2, hC2, hst⟩ := proj_stable hP (0 + 1)
  refine ⟨2 * C2 ^ 2 + 6 * C1, by positivity, fun nE nN B hB harea hN time E hE nodes D hD hcon q u w h amax ham ha epsu hu tau ht x hx0 q' u' hsol T hTD hTN R hR => ?_⟩
  have hqc : ∀ e k, Continuous (q e k) := fun e => let ⟨_, _, _, _, _, hq, _⟩ := h.equation e; hq
  have huc : ∀ e, Continuous (u e) := fun e => let ⟨_, _, _, _, hu, _, _⟩ := h.equation e; hu
  let L : ℝ := ∑ e, (B e).A.vol
  let Q : Fin nE → ℝ := fun e => (B e).A.vol * cubeInt (fun z => (B e).a z * ∑ k, (q e k z - polyFun P (q' e k) z) ^ 2)
  let y : Fin 0 → ℝ := fun k => k.elim0
  let J : Fin nE → ℝ := fun e => (polyFun P (proj P (u e) - u' e) (facePoint 0 y) - (u e (facePoint 0 y) - T e 0 y)) ^ 2
  have hL : 0 ≤ L := sum_nonneg fun e _ => (hB e).affine.vol_pos.le
  have hvol : ∀ e, (B e).A.vol ≤ L := fun e => single_le_sum (f := fun e => (B e).A.vol) (fun e _ => (hB e).affine.vol_pos.le) (mem_univ e)
  have hQ : ∀ e, 0 ≤ Q e := fun e => mul_nonneg (hB e).affine.vol_pos.le
    (cubeInt_nonneg ((hB e).cont.mul (continuous_finsetSum _ fun k _ => ((hqc e k).sub (polyFun_cont _)).pow 2)) fun z _ => mul_nonneg ((hB e).pos z).le (sum_nonneg fun k _ => sq_nonneg _))
  have hJ : ∑ e, J e ≤ ∑ e, ∑ f, (B e).A.area f * cubeInt (fun y => (polyFun P (proj P (u e) - u' e) (facePoint f y) - polyFun P (proj P fun y => u e (facePoint f y) - T e f y) y) ^ 2) := by
    refine sum_le_sum fun e _ => ?_
    have h1 : ∀ f : Fin (2 * (0 + 1)), (B e).A.area f * cubeInt (fun y => (polyFun P (proj P (u e) - u' e) (facePoint f y) - polyFun P (proj P fun y => u e (facePoint f y) - T e f y) y) ^ 2) =
        (polyFun P (proj P (u e) - u' e) (facePoint f y) - (u e (facePoint f y) - T e f y)) ^ 2 := fun f => by
      rw [harea, one_mul, int_point _ y, proj_point hP]
    simp only [h1]
    exact single_le_sum (f := fun f : Fin (2 * (0 + 1)) => (polyFun P (proj P (u e) - u' e) (facePoint f y) - (u e (facePoint f y) - T e f y)) ^ 2) (fun f _ => sq_nonneg _) (mem_univ 0)
  have hJ0 : 0 ≤ ∑ e, J e := sum_nonneg fun e _ => sq_nonneg _
  have hQ0 : 0 ≤ ∑ e, Q e := sum_nonneg fun e _ => hQ e
  have hQR : ∑ e, Q e ≤ R := le_trans (le_add_of_nonneg_right (mul_nonneg ht.le (hJ0.trans hJ))) hR
  have hJR : ∑ e, J e ≤ R / tau := by
    rw [le_div_iff₀ ht, mul_comm]
    exact (mul_le_mul_of_nonneg_left hJ ht.le).trans (le_trans (le_add_of_nonneg_left hQ0) hR)
  have hR0 : 0 ≤ R := hQ0.trans hQR
  have hnode : ∀ e f, (u e (facePoint f y) - T e f y) ^ 2 ≤ L * amax * R := fun e f =>
    (network_nodes hP hB harea hN hE hD hcon h ha hx0 hsol hTD hTN e f y).trans (mul_le_mul_of_nonneg_left hQR (mul_nonneg hL ham))
  -- the error on each edge
  have hone : ∀ g : Fin (0 + 1) → ℝ, ∑ k, g k = g 0 := fun g => Fin.sum_univ_one g
  have he : ∀ e, (B e).A.vol * ((proj P (u e) - u' e) ⬝ᵥ (proj P (u e) - u' e)) ≤ C1 * (L ^ 2 * amax * Q e + 2 * ((B e).A.vol * (L * amax * R)) + L * J e) := fun e => by
    have h1 := hedge (B e) (hB e) (harea e) (hN e) time (E e) (hE e) tau (q e) (u e) (h.equation e) _ _ (q' e) (u' e) (hsol e) (T e) (face_moments hP hE hD h hx0 hTD hTN e) amax (ha e) y
    have hv := (hB e).affine.vol_pos.le
    have hQe : Q e = (B e).A.vol * cubeInt fun z => (B e).a z * (q e 0 z - polyFun P (q' e 0) z) ^ 2 := by
      simp only [Q, hone]
    have h2 := mul_le_mul_of_nonneg_left h1 hv
    refine h2.trans ?_
    rw [mul_left_comm]
    refine mul_le_mul_of_nonneg_left ?_ hC1
    have h3 : (B e).A.vol * ((B e).A.vol ^ 2 * amax * cubeInt fun z => (B e).a z * (q e 0 z - polyFun P (q' e 0) z) ^ 2) ≤ L ^ 2 * amax * Q e := by
      have h4 := mul_le_mul_of_nonneg_right (pow_le_pow_left₀ hv (hvol e) 2) (mul_nonneg ham (hQ e))
      rw [hQe] at h4 ⊢
      linarith
    have h4 := mul_le_mul_of_nonneg_left (hnode e 0) hv
    have h5 := mul_le_mul_of_nonneg_left (hnode e 1) hv
    have h6 : (B e).A.vol * J e ≤ L * J e := mul_le_mul_of_nonneg_right (hvol e) (sq_nonneg _)
    have h7 : (B e).A.vol * (polyFun P (proj P (u e) - u' e) (facePoint 0 y) - (u e (facePoint 0 y) - T e 0 y)) ^ 2 = (B e).A.vol * J e := rfl
    rw [mul_add, mul_add, mul_add, h7]
    linarith
  have hsplit : ∀ e, (B e).A.vol * cubeInt (fun z => (polyFun P (u' e) z - u e z) ^ 2) ≤ 2 * C2 ^ 2 * ((B e).A.vol * epsu e ^ 2) + 2 * ((B e).A.vol * ((proj P (u e) - u' e) ⬝ᵥ (proj P (u e) - u' e))) := fun e => by
    have h1 : cubeInt (fun z => (polyFun P (u' e) z - u e z) ^ 2) ≤ cubeInt fun z => 2 * (C2 * epsu e) ^ 2 + 2 * (polyFun P (proj P (u e) - u' e) z * polyFun P (proj P (u e) - u' e) z) := by
      refine cubeInt_mono (((polyFun_cont _).sub (huc e)).pow 2) (continuous_const.add (continuous_const.mul ((polyFun_cont _).mul (polyFun_cont _)))) fun z hz => ?_
      have h2 := hst _ _ (huc e) (hu e) z hz
      have h3 := pow_le_pow_left₀ (abs_nonneg _) h2 2
      rw [sq_abs] at h3
      have h4 := polyFun_sub (P := P) (proj P (u e)) (u' e) z
      rw [h4]
      have h5 := sq_nonneg ((polyFun P (proj P (u e)) z - u e z) + (polyFun P (proj P (u e)) z - polyFun P (u' e) z))
      linarith
    rw [cubeInt_add continuous_const (continuous_const.fun_mul ((polyFun_cont _).fun_mul (polyFun_cont _))), cubeInt_const, cubeInt_mul, ← dot_polyFun hP] at h1
    have h2 := mul_le_mul_of_nonneg_left h1 (hB e).affine.vol_pos.le
    linarith
  have h1 := sum_le_sum fun e (_ : e ∈ univ) => hsplit e
  have h2 := sum_le_sum fun e (_ : e ∈ univ) => he e
  simp only [sum_add_distrib, ← mul_sum, ← sum_mul] at h1 h2
  have h3 : L ^ 2 * amax * ∑ e, Q e + 2 * (L * (L * amax * R)) + L * ∑ e, J e ≤ 3 * ((amax * L ^ 2 + L / tau) * R) := by
    have h4 := mul_le_mul_of_nonneg_left hQR (mul_nonneg (sq_nonneg L) ham)
    have h5 := mul_le_mul_of_nonneg_left hJR hL
    have h6 : 0 ≤ L / tau * R := by positivity
    have h7 : L * (R / tau) = L / tau * R := by ring
    rw [h7] at h5
    linarith
  have h4 := mul_le_mul_of_nonneg_left h3 hC1
  have h5 : 0 ≤ ∑ e, (B e).A.vol * epsu e ^ 2 := sum_nonneg fun e _ => mul_nonneg (hB e).affine.vol_pos.le (sq_nonneg _)
  have h6 : 0 ≤ (amax * L ^ 2 + L / tau) * R := by positivity
  have h7 := mul_nonneg hC1 h5
  have h8 := mul_nonneg (sq_nonneg C2) h6
  show _ ≤ (2 * C2 ^ 2 + 6 * C1) * ((∑ e, (B e).A.vol * epsu e ^ 2) + (amax * L ^ 2 + L / tau) * R)
  refine h1.trans ?_
  have h9 := h2.trans h4
  linarith

/-- **C94** (networks).  On a network of edges, where each node is connected to a Dirichlet node, with a classical solution and a coefficient at most `amax`: for the only vector `x` which vanishes at the Dirichlet nodes and
has residual zero, the squared errors at the nodes are at most `C` times total length, `amax` and `fluxBound`; the sum of the squared errors which `errors` returns, with the solution as analytic result, is at most
`C` times the squared approximation error of the solution plus `amax * length ^ 2 + length / tau` times `fluxBound`. -/
theorem C94_network (hP : OrthonormalPolys p P) : ∃ C : ℝ, 0 ≤ C ∧ ∀ (m : Mode) (gesv : Gesv (((0 + 1) + 1) * (p + 1) ^ (0 + 1)) 1 ℝ) (_ : GesvSpec gesv) (tau : ℝ) (_ : 0 < tau)
    (B : Nat → Data 0) (_ : ∀ e, (B e).Admissible) (_ : ∀ e f, (B e).A.area f = 1) (_ : ∀ e f, ∑ k, (B e).A.normal f k ^ 2 = 1) (time : ℝ) (E : Nat → Edge (0 + 1) ((p + 1) ^ (0 + 1)) ℝ)
    (_ : ∀ e, ExactIntegrals P (B e) time (E e))
    (G : HyGraph (0 + 1) ((p + 1) ^ 0)) (nodes : Fin G.n_hyEdges → Fin (2 * (0 + 1)) → Fin G.n_hyNodes) (_ : G.WF nodes)
    (D : Fin G.n_hyNodes → Prop) (_ : ∀ (e : Fin G.n_hyEdges) (f : Fin (2 * (0 + 1))), (E e).node_descriptor f ∈ (E e).dirichlet_nodes ↔ D (nodes e f)) (_ : Anchored nodes D)
    (q : Fin G.n_hyEdges → Fin (0 + 1) → (Fin (0 + 1) → ℝ) → ℝ) (u : Fin G.n_hyEdges → (Fin (0 + 1) → ℝ) → ℝ) (w : Fin G.n_hyNodes → (Fin 0 → ℝ) → ℝ)
    (_ : IsClassicalSolution (fun e : Fin G.n_hyEdges => B e) nodes D q u w) (_ : ∀ e : Fin G.n_hyEdges, ∀ z ∈ cube (0 + 1), (B e).w z = u e z)
    (amax : ℝ) (_ : 0 ≤ amax) (_ : ∀ e : Fin G.n_hyEdges, ∀ z ∈ cube (0 + 1), (B e).a z ≤ amax)
    (epsq epsu : Fin G.n_hyEdges → ℝ) (_ : ∀ e k, ApproxBy p (epsq e) (q e k)) (_ : ∀ e, ApproxBy p (epsu e) (u e)),
    ∃ (x : Fin (G.n_hyNodes * (p + 1) ^ 0) → ℝ) (err : Fin G.n_hyEdges → ℝ),
      (∀ old0 new0 y, (VanishesAt D y ∧
        (Elliptic.mk' G).apply m (localResidual m gesv tau E time) old0 new0 (List.ofFn y) = .ok (List.replicate (G.n_hyNodes * (p + 1) ^ 0) 0)) ↔ y = x) ∧
      (∀ e f, ¬ D (nodes e f) → ∀ y, (u e (facePoint f y) - polyFun P (faceValues nodes x e f) y) ^ 2 ≤
        C * ((∑ e : Fin G.n_hyEdges, (B e).A.vol) * amax * fluxBound (fun e : Fin G.n_hyEdges => (B e).A.vol) tau amax epsq epsu)) ∧
      (∀ e : Fin G.n_hyEdges, errors m gesv tau (faceValues nodes x e) (E e) time = .ok fun _ => err e) ∧
      ∑ e, err e ≤ C * ((∑ e : Fin G.n_hyEdges, (B e).A.vol * epsu e ^ 2) +
        (amax * (∑ e : Fin G.n_hyEdges, (B e).A.vol) ^ 2 + (∑ e : Fin G.n_hyEdges, (B e).A.vol) / tau) * fluxBound (fun e : Fin G.n_hyEdges => (B e).A.vol) tau amax epsq epsu) := by
  classical
  obtain ⟨C1, hC1, hflux⟩ := energy_estimate hP 0
  obtain ⟨C2, hC2, herr⟩ := network_error hP
  refine ⟨C1 + C2 * (1 + C1), by positivity, fun m gesv hg tau ht B hB harea hN time E hE G nodes hwf D hD hcon q u w h hw amax ham ha epsq epsu hq hu => ?_⟩
  obtain ⟨x, q', u', h1, h2, h3⟩ := discrete_solution hP m gesv hg tau ht B hB time E hE G nodes hwf D hD hcon
  have hx0 := ((h1 0 0 x).mpr rfl).1
  let T : Fin G.n_hyEdges → Fin (2 * (0 + 1)) → (Fin 0 → ℝ) → ℝ := fun e f => if D (nodes e f) then fun y => u e (facePoint f y) else polyFun P (faceValues nodes x e f)
  have hTD : ∀ e f, D (nodes e f) → T e f = fun y => u e (facePoint f y) := fun e f hf => if_pos hf
  have hTN : ∀ e f, ¬ D (nodes e f) → T e f = polyFun P (faceValues nodes x e f) := fun e f hf => if_neg hf
  have hR := hflux tau ht B hB hN time E hE G nodes D hD q u w h (fun _ => amax) epsq epsu ha hq hu x q' u' hx0 h2 h3 T hTD hTN
  have hF : (∑ e : Fin G.n_hyEdges, ((B e).A.vol * amax * epsq e ^ 2 + (∑ f, (B e).A.area f) * (epsq e ^ 2 / tau + tau * epsu e ^ 2))) = fluxBound (fun e : Fin G.n_hyEdges => (B e).A.vol) tau amax epsq epsu := by
    refine sum_congr rfl fun e _ => ?_
    have h4 : ∑ f, (B e).A.area f = 2 := by
      simp only [harea]
      exact (Fin.sum_univ_two _).trans one_add_one_eq_two
    rw [h4]
  rw [hF] at hR
  have hL : 0 ≤ ∑ e : Fin G.n_hyEdges, (B e).A.vol := sum_nonneg fun e _ => (hB e).affine.vol_pos.le
  have hB0 : 0 ≤ fluxBound (fun e : Fin G.n_hyEdges => (B e).A.vol) tau amax epsq epsu := sum_nonneg fun e _ =>
    add_nonneg (mul_nonneg (mul_nonneg (hB e).affine.vol_pos.le ham) (sq_nonneg _)) (by positivity)
  have hqc : ∀ e k, Continuous (q e k) := fun e => let ⟨_, _, _, _, _, hq, _⟩ := h.equation e; hq
  have hjump : 0 ≤ tau * ∑ e : Fin G.n_hyEdges, ∑ f, (B e).A.area f * cubeInt (fun y => (polyFun P (proj P (u e) - u' e) (facePoint f y) - polyFun P (proj P fun y => u e (facePoint f y) - T e f y) y) ^ 2) :=
    mul_nonneg ht.le (sum_nonneg fun e _ => sum_nonneg fun f _ => mul_nonneg ((hB e).affine.area_pos f).le
      (cubeInt_nonneg ((((polyFun_cont _).comp (face_cont f)).sub (polyFun_cont _)).pow 2) fun y _ => sq_nonneg _))
  refine ⟨x, fun e => (B e).A.vol * cubeInt fun z => (polyFun P (u' e) z - u e z) ^ 2, h1, fun e f hf y => ?_, fun e => ?_, ?_⟩
  · have h4 := network_nodes hP (B := fun e : Fin G.n_hyEdges => B e) (fun e => hB e) (fun e => harea e) (fun e => hN e) (E := fun e : Fin G.n_hyEdges => E e) (fun e => hE e) hD hcon h ha hx0 h2 hTD hTN e f y
    rw [hTN e f hf] at h4
    refine h4.trans ((mul_le_mul_of_nonneg_left ((le_add_of_nonneg_right hjump).trans hR) (mul_nonneg hL ham)).trans ?_)
    have h5 := mul_nonneg (mul_nonneg hC2 (add_nonneg zero_le_one hC1)) (mul_nonneg (mul_nonneg hL ham) hB0)
    linarith
  · have hS := (C21_solvable m gesv hg tau (E e) time (exact_laws hP (hB e) (hE e)).1 ht (0 : LocDofs (0 + 1) ((p + 1) ^ 0) ℝ) 0).1
    obtain ⟨q'', u'', h4, h5⟩ := C48_errors m gesv hg tau (E e) time hS (faceValues nodes x e)
    obtain ⟨_, rfl⟩ := solution_unique hS h4 (h2 e)
    rw [h5, (hE e).diff]
    have h6 : cubeInt (fun z => (polyFun P (u' e) z - (B e).w z) ^ 2) = cubeInt fun z => (polyFun P (u' e) z - u e z) ^ 2 := cubeInt_congr fun z hz => by rw [hw e z hz]
    rw [h6]
  · have h4 := herr _ _ (fun e : Fin G.n_hyEdges => B e) (fun e => hB e) (fun e => harea e) (fun e => hN e) time (fun e : Fin G.n_hyEdges => E e) (fun e => hE e) nodes D hD hcon q u w h amax ham ha epsu hu tau ht x hx0 q' u' h2
      T hTD hTN _ hR
    refine h4.trans ?_
    have h5 : 0 ≤ ∑ e : Fin G.n_hyEdges, (B e).A.vol * epsu e ^ 2 := sum_nonneg fun e _ => mul_nonneg (hB e).affine.vol_pos.le (sq_nonneg _)
    have h6 : 0 ≤ (amax * (∑ e : Fin G.n_hyEdges, (B e).A.vol) ^ 2 + (∑ e : Fin G.n_hyEdges, (B e).A.vol) / tau) * fluxBound (fun e : Fin G.n_hyEdges => (B e).A.vol) tau amax epsq epsu :=
      mul_nonneg (add_nonneg (mul_nonneg ham (sq_nonneg _)) (div_nonneg hL ht.le)) hB0
    have h7 := mul_nonneg hC1 h5
    have h8 := mul_nonneg hC1 h6
    have h9 := mul_nonneg hC2 h7
    have h10 := mul_nonneg hC2 h6
    linarith

open Exact.Example

/-- **C94** (rate of the returned errors).  For a diffusion problem with a smooth solution on the unit interval, divided into `n` edges: the sum of the squared errors which `errors` returns is at most a constant, which does
not depend on `n` and `tau`, times `(1 + 1 / tau) (1 + tau + 1 / tau) (1 / n)^(2 p + 1)`. -/
theorem C94_rate_errors (hP : OrthonormalPolys p P) (L : Line) (hu : ContDiff ℝ (p + 1) L.u) (hq : ContDiff ℝ (p + 1) L.q) :
    ∃ C : ℝ, ∀ (n : Nat) (_ : 0 < n) (_ : n + 1 < U32) (m : Mode) (gesv : Gesv (((0 + 1) + 1) * (p + 1) ^ (0 + 1)) 1 ℝ) (_ : GesvSpec gesv) (tau : ℝ) (_ : 0 < tau),
    ∃ (x : Fin ((path p n).n_hyNodes * (p + 1) ^ 0) → ℝ) (err : Fin (path p n).n_hyEdges → ℝ),
      (∀ old0 new0 y, (VanishesAt (Ends p n) y ∧
        (Elliptic.mk' (path p n)).apply m (localResidual m gesv tau (L.edges P n) 0) old0 new0 (List.ofFn y) = .ok (List.replicate ((path p n).n_hyNodes * (p + 1) ^ 0) 0)) ↔ y = x) ∧
      (∀ e : Fin (path p n).n_hyEdges, errors m gesv tau (faceValues (pathNodes p n) x e) (L.edges P n e) 0 = .ok fun _ => err e) ∧
      ∑ e, err e ≤ C * ((1 + 1 / tau) * ((1 + tau + 1 / tau) * (1 / n : ℝ) ^ (2 * p + 1))) := by
  obtain ⟨A, hA'⟩ := isCompact_Icc (a := (0 : ℝ)) (b := 1) |>.exists_bound_of_continuousOn L.cont.continuousOn
  have hA : ∀ r ∈ Set.Icc (0 : ℝ) 1, L.a r ≤ A := fun r hr => (le_abs_self _).trans (hA' r hr)
  have hA0 : 0 ≤ A := (L.pos 0).le.trans (hA 0 ⟨le_rfl, zero_le_one⟩)
  have hfc : Continuous L.f := by
    have h1 : deriv L.q = L.f := funext fun r => (L.balance r).deriv
    rw [← h1]
    exact hq.continuous_deriv (by norm_cast; omega)
  obtain ⟨C, hC, hest⟩ := C94_network hP
  obtain ⟨Mq, hMq0, hMq⟩ := taylor_approx hq
  obtain ⟨Mu, hMu0, hMu⟩ := taylor_approx hu
  let K : ℝ := A * Mq ^ 2 + 2 * (Mq ^ 2 + Mu ^ 2)
  have hK : 0 ≤ K := by positivity
  refine ⟨C * (Mu ^ 2 + (1 + A) * K), fun n hn hU m gesv hg tau ht => ?_⟩
  have hn' : (0 : ℝ) < n := Nat.cast_pos.mpr hn
  have hN : ∀ e f, ∑ k, (L.data n e).A.normal f k ^ 2 = 1 := fun e f => by
    simp only [Line.data]
    rw [Fin.sum_univ_one]
    split <;> norm_num
  obtain ⟨x, err, h1, _, h2, h3⟩ := hest m gesv hg tau ht (L.data n) (data_admissible L hn) (fun e f => rfl) hN 0 (L.edges P n) (line_integrals P L n) (path p n) (pathNodes p n) (path_wf p n hU) (Ends p n) (line_types L n)
    (path_anchored p n) (fun e _ z => L.q ((e.1 + z 0) / n)) (fun e z => L.u ((e.1 + z 0) / n)) (fun v _ => L.u (v.1 / n)) (line_solution L hn p hfc) (fun e z _ => rfl)
    A hA0 (fun e z hz => hA _ (line_mem hn e z hz)) (fun _ => Mq * (1 / n : ℝ) ^ (p + 1)) (fun _ => Mu * (1 / n : ℝ) ^ (p + 1)) (fun e k => hMq n e.1 e.2) (fun e => hMu n e.1 e.2)
  refine ⟨x, err, h1, h2, h3.trans ?_⟩
  have hsum : ∑ e : Fin (path p n).n_hyEdges, (L.data n e).A.vol = 1 := by
    show ∑ e : Fin n, (1 / n : ℝ) = 1
    rw [sum_const, card_univ, Fintype.card_fin, nsmul_eq_mul, mul_one_div_cancel hn'.ne']
  have hF : fluxBound (fun e : Fin (path p n).n_hyEdges => (L.data n e).A.vol) tau A (fun _ => Mq * (1 / n : ℝ) ^ (p + 1)) (fun _ => Mu * (1 / n : ℝ) ^ (p + 1)) ≤ K * ((1 + tau + 1 / tau) * (1 / n : ℝ) ^ (2 * p + 1)) := by
    have h4 := rate_rhs (p := p) L hn (Mq := Mq) (Mu := Mu) ht hA0 (zero_le_one (α := ℝ))
    rw [one_mul, one_mul, mul_assoc] at h4
    refine le_trans (le_of_eq (sum_congr rfl fun e _ => ?_)) h4
    have h7 : (∑ f, (L.data n e).A.area f) = 2 := by
      show ∑ f : Fin 2, (1 : ℝ) = 2
      simp
    rw [h7]
  rw [← sum_mul, hsum, one_mul, one_pow, mul_one, mul_assoc]
  refine mul_le_mul_of_nonneg_left ?_ hC
  have hpow : (Mu * (1 / n : ℝ) ^ (p + 1)) ^ 2 ≤ Mu ^ 2 * (1 / n : ℝ) ^ (2 * p + 1) := by
    rw [mul_pow, ← pow_mul]
    refine mul_le_mul_of_nonneg_left (pow_le_pow_of_le_one (by positivity) ?_ (by omega)) (sq_nonneg _)
    rw [div_le_one hn']
    exact_mod_cast hn
  have hA1 : A + 1 / tau ≤ (1 + A) * (1 + 1 / tau) := by
    have : 0 ≤ A * (1 / tau) := by positivity
    linarith
  have h5 : 0 ≤ A + 1 / tau := by positivity
  have h6 : 0 ≤ K * ((1 + tau + 1 / tau) * (1 / n : ℝ) ^ (2 * p + 1)) := by positivity
  have h7 := (mul_le_mul_of_nonneg_left hF h5).trans (mul_le_mul_of_nonneg_right hA1 h6)
  have h8 : (1 : ℝ) ≤ (1 + 1 / tau) * (1 + tau + 1 / tau) := by
    have : 0 < 1 / tau := by positivity
    nlinarith
  have h9 := mul_le_mul_of_nonneg_right h8 (show 0 ≤ Mu ^ 2 * (1 / n : ℝ) ^ (2 * p + 1) by positivity)
  linarith

end HyperHDG.Estimate

import Verif.Proofs.ErrorEstimate

/-!
# The error of the discrete solution
-/

namespace HyperHDG.Diffusion

open Spec HyGraph MeasureTheory Polynomial Finset Matrix

variable {p d : Nat} {P : Fin (p + 1) → ℝ[X]}

theorem faceFlux_sub {dim nS nB : Nat} {K : Type} [CommRing K] (F : Form dim nS nB K) (tau : K) (l l' : Fin (2 * dim) → Fin nB → K) (q q' : Fin dim → Fin nS → K) (u u' : Fin nS → K) (f : Fin (2 * dim)) :
    faceFlux F tau (l - l') (q - q') (u - u') f = faceFlux F tau l q u f - faceFlux F tau l' q' u' f := by
  unfold faceFlux
  have h1 : ∑ d, F.normal f d • (q - q') d + tau • (u - u') = (∑ d, F.normal f d • q d + tau • u) - (∑ d, F.normal f d • q' d + tau • u') := by
    simp only [Pi.sub_apply, smul_sub, sum_sub_distrib]
    abel
  rw [h1, mulVec_sub, Pi.sub_apply, smul_sub]
  abel

/-- The estimate for the difference from the projections; `T` are the values on the faces which belong to the vector `x`. -/
theorem error_energy (hP : OrthonormalPolys p P) {nE nN : Nat} (B : Fin nE → Data d) (hB : ∀ e, (B e).Admissible) (time : ℝ) (E : Fin nE → Edge (d + 1) ((p + 1) ^ (d + 1)) ℝ)
    (hE : ∀ e : Fin nE, ExactIntegrals P (B e) time (E e)) (nodes : Fin nE → Fin (2 * (d + 1)) → Fin nN) (D : Fin nN → Prop) (hD : ∀ e (f : Fin (2 * (d + 1))), IsDirichlet (E e) f ↔ D (nodes e f))
    {q : Fin nE → Fin (d + 1) → (Fin (d + 1) → ℝ) → ℝ} {u : Fin nE → (Fin (d + 1) → ℝ) → ℝ} {w : Fin nN → (Fin d → ℝ) → ℝ} (h : IsClassicalSolution B nodes D q u w) (tau : ℝ) (ht : 0 < tau)
    (x : Fin (nN * (p + 1) ^ d) → ℝ) (hx0 : ∀ v, D v → ∀ j, x (dof v j) = 0) (q' : Fin nE → Fin (d + 1) → Fin ((p + 1) ^ (d + 1)) → ℝ) (u' : Fin nE → Fin ((p + 1) ^ (d + 1)) → ℝ)
    (hsol : ∀ e, IsSolution (form (E e) ((p + 1) ^ d) time) tau 0 1 (moments (form (E e) ((p + 1) ^ d) time) (faceValues nodes x e) + dirichletMoments (E e) time) (source (E e) time) (q' e) (u' e))
    (hbal : ∀ v, ¬ D v → ∀ j, ∑ e, ∑ f, (if nodes e f = v then faceFlux (form (E e) ((p + 1) ^ d) time) tau (faceValues nodes x e) (q' e) (u' e) f j else 0) = 0)
    (T : Fin nE → Fin (2 * (d + 1)) → (Fin d → ℝ) → ℝ) (hTD : ∀ e f, D (nodes e f) → T e f = fun y => u e (facePoint f y)) (hTN : ∀ e f, ¬ D (nodes e f) → T e f = polyFun P (faceValues nodes x e f)) :
    (∑ e, ∑ k, (B e).A.vol * cubeInt (fun z => (B e).a z * (polyFun P (proj P (q e k)) z - polyFun P (q' e k) z) ^ 2)) +
        tau * ∑ e, ∑ f, (B e).A.area f * cubeInt (fun y => (polyFun P (proj P (u e) - u' e) (facePoint f y) - polyFun P (proj P fun y => u e (facePoint f y) - T e f y) y) ^ 2) ≤
      (∑ e, ∑ k, (B e).A.vol * cubeInt fun z => (B e).a z * (polyFun P (proj P (q e k)) z - q e k z) ^ 2) +
        tau⁻¹ * ∑ e, ∑ f, (B e).A.area f * cubeInt fun y => faceDefect P (B e) tau (q e) (u e) f y ^ 2 := by
  classical
  have hqc : ∀ e k, Continuous (q e k) := fun e => let ⟨_, _, _, _, _, hq, _⟩ := h.equation e; hq
  have huc : ∀ e, Continuous (u e) := fun e => let ⟨_, _, _, _, hu, _, _⟩ := h.equation e; hu
  -- the values at the nodes
  have h4 : ∀ k : Fin (nN * (p + 1) ^ d), ∃ r, ∀ v j, dof v j = k → r = if D v then 0 else proj P (w v) j := fun k => by
    obtain ⟨v, j, hk⟩ := dof_surj k
    refine ⟨if D v then 0 else proj P (w v) j, fun v' j' hk' => ?_⟩
    obtain ⟨rfl, rfl⟩ := HyGraph.dof_inj (hk.trans hk'.symm)
    rfl
  choose X hX' using h4
  have hX : ∀ v j, X (dof v j) = if D v then 0 else proj P (w v) j := fun v j => hX' _ v j rfl
  have hXD : ∀ e f, D (nodes e f) → faceValues nodes X e f = 0 := fun e f hf => funext fun j => by
    rw [faceValues, hX, if_pos hf]; rfl
  have hXN : ∀ e f, ¬ D (nodes e f) → faceValues nodes X e f = proj P fun y => u e (facePoint f y) := fun e f hf => funext fun j => by
    rw [faceValues, hX, if_neg hf]
    exact cubeInt_congr fun y hy => by rw [← h.continuous e f hf y hy]
  have hG : ∀ e f (i : Fin ((p + 1) ^ (d + 1))), (moments (form (E e) ((p + 1) ^ d) time) (faceValues nodes X e) + dirichletMoments (E e) time) f i =
      (B e).A.area f * cubeInt fun y => u e (facePoint f y) * shape P i (facePoint f y) := fun e f i => by
    rw [Pi.add_apply, Pi.add_apply, moments]
    by_cases hf : D (nodes e f)
    · rw [hXD e f hf, mulVec_zero, Pi.zero_apply, zero_add, dirichletMoments, if_pos ((hD e f).mpr hf), (hE e).dirichlet]
      exact congrArg _ (cubeInt_congr fun y hy => by rw [h.dirichlet e f hf y hy])
    · rw [hXN e f hf, psi_proj (hE e) (g := fun y => u e (facePoint f y)) ((huc e).comp (face_cont f)), dirichletMoments, if_neg fun h => hf ((hD e f).mp h), add_zero]
  have hval : ∀ e, faceValues nodes (X - x) e = faceValues nodes X e - faceValues nodes x e := fun e => rfl
  have hmom : ∀ e f, moments (form (E e) ((p + 1) ^ d) time) (faceValues nodes (X - x) e) f =
      (moments (form (E e) ((p + 1) ^ d) time) (faceValues nodes X e) + dirichletMoments (E e) time) f -
        (moments (form (E e) ((p + 1) ^ d) time) (faceValues nodes x e) + dirichletMoments (E e) time) f := fun e f => by
    rw [Pi.add_apply, Pi.add_apply, add_sub_add_right_eq_sub, hval]
    exact mulVec_sub _ _ _
  have hF : ∀ e, FormLaws (form (E e) ((p + 1) ^ d) time) := fun e => (exact_laws hP (hB e) (hE e)).1
  have harea : ∀ e, (form (E e) ((p + 1) ^ d) time).area = (B e).A.area := fun e => by rw [(hE e).form]; rfl
  have hmain := defect_bound nodes (fun e => form (E e) ((p + 1) ^ d) time) hF tau ht (X - x) (fun e => (fun k => proj P (q e k)) - q' e) (fun e => proj P (u e) - u' e)
    (fun e k i => (B e).A.vol * cubeInt fun z => (B e).a z * (polyFun P (proj P (q e k)) z - q e k z) * shape P i z) (fun e f => proj P (faceDefect P (B e) tau (q e) (u e) f)) ?_ ?_
    (fun e k => (B e).A.vol * cubeInt fun z => (B e).a z * (polyFun P (proj P (q e k)) z - q e k z) ^ 2) ?_
  · -- from coefficients to functions
    have hmass : ∀ e k, ((fun k => proj P (q e k)) - q' e) k ⬝ᵥ (form (E e) ((p + 1) ^ d) time).mass *ᵥ ((fun k => proj P (q e k)) - q' e) k =
        (B e).A.vol * cubeInt fun z => (B e).a z * (polyFun P (proj P (q e k)) z - polyFun P (q' e k) z) ^ 2 := fun e k => by
      rw [mass_dot (hB e) (hE e)]
      exact congrArg _ (cubeInt_congr fun z _ => by rw [Pi.sub_apply, polyFun_sub])
    have hdel : ∀ e f, proj P (faceDefect P (B e) tau (q e) (u e) f) ⬝ᵥ proj P (faceDefect P (B e) tau (q e) (u e) f) ≤ cubeInt fun y => faceDefect P (B e) tau (q e) (u e) f y ^ 2 :=
      fun e f => proj_le hP (faceDefect_cont (hqc e) (huc e) f)
    have hjump : ∀ e f, jump (form (E e) ((p + 1) ^ d) time) (faceValues nodes (X - x) e) (proj P (u e) - u' e) f ⬝ᵥ jump (form (E e) ((p + 1) ^ d) time) (faceValues nodes (X - x) e) (proj P (u e) - u' e) f =
        cubeInt fun y => (polyFun P (proj P (u e) - u' e) (facePoint f y) - polyFun P (proj P fun y => u e (facePoint f y) - T e f y) y) ^ 2 := fun e f => by
      have hl : faceValues nodes (X - x) e f = proj P fun y => u e (facePoint f y) - T e f y := by
        by_cases hf : D (nodes e f)
        · rw [hTD e f hf]
          simp only [sub_self]
          rw [hval, Pi.sub_apply, hXD e f hf]
          funext j
          have h1 : faceValues nodes x e f j = 0 := hx0 _ hf j
          simp only [Pi.sub_apply, Pi.zero_apply, h1, sub_zero, proj, zero_mul]
          exact (cubeInt_const 0).symm
        · rw [hTN e f hf, hval, Pi.sub_apply, hXN e f hf]
          funext j
          simp only [Pi.sub_apply, proj, sub_mul]
          have hc : Continuous fun y : Fin d → ℝ => u e (facePoint f y) := (huc e).comp (face_cont f)
          rw [cubeInt_sub (hc.fun_mul (shape_cont j)) ((polyFun_cont _).fun_mul (shape_cont j)), int_polyFun hP]
      have hj : ∀ y, polyFun P (jump (form (E e) ((p + 1) ^ d) time) (faceValues nodes (X - x) e) (proj P (u e) - u' e) f) y =
          polyFun P (proj P (u e) - u' e) (facePoint f y) - polyFun P (proj P fun y => u e (facePoint f y) - T e f y) y := fun y => by
        unfold jump
        rw [hl, polyFun_sub]
        congr 1
        rw [polyFun_face]
        have h2 : ∀ v w : Fin ((p + 1) ^ d) → ℝ, v = w → polyFun P v y = polyFun P w y := fun v w h => by rw [h]
        refine h2 _ _ (funext fun j => ?_)
        rw [Pi.smul_apply, psiT_apply hP (hE e), harea, smul_eq_mul, ← mul_assoc, inv_mul_cancel₀ ((hB e).affine.area_pos f).ne', one_mul]
        simp only [polyFun_face]
        rw [int_polyFun hP]
      rw [dot_polyFun hP]
      simp only [hj, sq]
    simp only [hmass, harea, hjump] at hmain
    refine hmain.trans (add_le_add_right (mul_le_mul_of_nonneg_left (sum_le_sum fun e _ => sum_le_sum fun f _ => ?_) (inv_nonneg.mpr ht.le)) _)
    · exact mul_le_mul_of_nonneg_left (hdel e f) ((hB e).affine.area_pos f).le
  · intro e
    have h1 := defect_primal hP (hB e) (hE e) tau (h.equation e) (hG e)
    have h2 := (hsol e).primal
    rw [zero_smul, zero_add, one_smul] at h2
    constructor
    · intro k
      refine Eq.trans ?_ ((congrArg₂ (· - ·) (defect_flux hP (hB e) (hE e) (h.equation e) (hG e) k) ((hsol e).flux k)).trans (sub_zero _))
      simp only [hmom, smul_sub, sum_sub_distrib, Pi.sub_apply, mulVec_sub]
      abel
    · refine Eq.trans ?_ ((congrArg₂ (· - ·) h1 h2).trans (add_sub_cancel_left _ _))
      simp only [hmom, smul_sub, sum_sub_distrib, sum_add_distrib, Pi.sub_apply, mulVec_sub, mulVec_add]
      abel
  · intro v j
    by_cases hv : D v
    · left
      rw [Pi.sub_apply, hX, if_pos hv, hx0 v hv, sub_zero]
    · right
      have h1 : ∀ e f, (if nodes e f = v then (faceFlux (form (E e) ((p + 1) ^ d) time) tau (faceValues nodes (X - x) e) ((fun k => proj P (q e k)) - q' e) (proj P (u e) - u' e) f -
            (form (E e) ((p + 1) ^ d) time).area f • proj P (faceDefect P (B e) tau (q e) (u e) f)) j else 0) =
          (cubeInt fun y => (if nodes e f = v then (B e).A.area f * ∑ k, (B e).A.normal f k * q e k (facePoint f y) else 0) * shape P j y) -
            if nodes e f = v then faceFlux (form (E e) ((p + 1) ^ d) time) tau (faceValues nodes x e) (q' e) (u' e) f j else 0 := fun e f => by
        by_cases hef : nodes e f = v
        · simp only [if_pos hef]
          rw [← defect_faceFlux hP (hE e) tau (h.equation e) (hXN e f (hef ▸ hv)) j, hval, faceFlux_sub]
          simp only [Pi.sub_apply]
          ring
        · simp only [if_neg hef, zero_mul, sub_zero]
          rw [cubeInt_const]
      have hcont : ∀ e f, Continuous fun y => (if nodes e f = v then (B e).A.area f * ∑ k, (B e).A.normal f k * q e k (facePoint f y) else 0) * shape P j y := by
        intro e f
        split
        · exact (continuous_const.mul (continuous_finsetSum _ fun k _ => continuous_const.mul ((hqc e k).comp (face_cont f)))).mul (shape_cont j)
        · exact continuous_const.mul (shape_cont j)
      simp only [h1, sum_sub_distrib]
      rw [hbal v hv j, sub_zero, sum_congr rfl fun e _ => (cubeInt_sum univ (hcont e)).symm, ← cubeInt_sum univ fun e => continuous_finsetSum univ fun f _ => hcont e f]
      rw [cubeInt_congr (g := fun _ => 0) fun y hy => ?_]
      · exact cubeInt_const 0
      · simp only [← sum_mul]
        rw [h.balance v hv y hy, zero_mul]
  · intro e k
    rw [mass_dot (hB e) (hE e), dot_mass_test (hB e) (hqc e k)]
    rw [← mul_add, mul_left_comm, ← cubeInt_mul]
    refine mul_le_mul_of_nonneg_left ?_ (hB e).affine.vol_pos.le
    have c1 : Continuous fun z => (B e).a z * polyFun P (((fun k => proj P (q e k)) - q' e) k) z ^ 2 := (hB e).cont.mul ((polyFun_cont _).pow 2)
    have c2 : Continuous fun z => (B e).a z * (polyFun P (proj P (q e k)) z - q e k z) ^ 2 := (hB e).cont.mul (((polyFun_cont _).sub (hqc e k)).pow 2)
    rw [← cubeInt_add c1 c2]
    refine cubeInt_mono (continuous_const.mul (((hB e).cont.mul ((polyFun_cont _).sub (hqc e k))).mul (polyFun_cont _))) (c1.add c2) fun z _ => ?_
    have := mul_nonneg ((hB e).pos z).le (sq_nonneg (polyFun P (((fun k => proj P (q e k)) - q' e) k) z - (polyFun P (proj P (q e k)) z - q e k z)))
    linarith

end HyperHDG.Diffusion

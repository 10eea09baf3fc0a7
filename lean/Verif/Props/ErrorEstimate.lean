import Verif.Proofs.ErrorGlobal
import Verif.Props.ExactPolynomials

/-!
# Property C94: the error of the flux is bounded by the best approximation of the solution

`IsClassicalSolution` and `ApproxBy` (`Verif/Spec/ErrorEstimate.lean`) mention neither the method nor its unknowns.
-/

namespace HyperHDG.Estimate

open Finset Spec Matrix HyGraph Diffusion EllipticProgram Polynomial Exact

variable {p d : Nat} {P : Fin (p + 1) → ℝ[X]}

section
variable (hP : OrthonormalPolys p P) (m : Mode) (gesv : Gesv (((d + 1) + 1) * (p + 1) ^ (d + 1)) 1 ℝ) (hg : GesvSpec gesv) (tau : ℝ) (ht : 0 < tau)
    (B : Nat → Data d) (hB : ∀ e, (B e).Admissible) (time : ℝ) (E : Nat → Edge (d + 1) ((p + 1) ^ (d + 1)) ℝ) (hE : ∀ e, ExactIntegrals P (B e) time (E e))
    (G : HyGraph (d + 1) ((p + 1) ^ d)) (nodes : Fin G.n_hyEdges → Fin (2 * (d + 1)) → Fin G.n_hyNodes) (hwf : G.WF nodes)
    (D : Fin G.n_hyNodes → Prop) (hD : ∀ (e : Fin G.n_hyEdges) (f : Fin (2 * (d + 1))), (E e).node_descriptor f ∈ (E e).dirichlet_nodes ↔ D (nodes e f)) (hcon : Anchored nodes D)

include hP hg ht hB hE hwf hD hcon

/-- The discrete solution and its local solutions. -/
theorem discrete_solution : ∃ (x : Fin (G.n_hyNodes * (p + 1) ^ d) → ℝ) (q' : Fin G.n_hyEdges → Fin (d + 1) → Fin ((p + 1) ^ (d + 1)) → ℝ) (u' : Fin G.n_hyEdges → Fin ((p + 1) ^ (d + 1)) → ℝ),
    (∀ old0 new0 y, (VanishesAt D y ∧
      (Elliptic.mk' G).apply m (localResidual m gesv tau E time) old0 new0 (List.ofFn y) = .ok (List.replicate (G.n_hyNodes * (p + 1) ^ d) 0)) ↔ y = x) ∧
    (∀ e : Fin G.n_hyEdges, IsSolution (form (E e) ((p + 1) ^ d) time) tau 0 1 (moments (form (E e) ((p + 1) ^ d) time) (faceValues nodes x e) + dirichletMoments (E e) time)
      (source (E e) time) (q' e) (u' e)) ∧
    (∀ v, ¬ D v → ∀ j, ∑ e : Fin G.n_hyEdges, ∑ f, (if nodes e f = v then faceFlux (form (E e) ((p + 1) ^ d) time) tau (faceValues nodes x e) (q' e) (u' e) f j else 0) = 0) := by
  have hF := fun e => (exact_laws hP (hB e) (hE e)).1
  have hR := fun e => (exact_laws hP (hB e) (hE e)).2
  have hS := fun e => (C21_solvable m gesv hg tau (E e) time (hF e) ht (0 : LocDofs (d + 1) ((p + 1) ^ d) ℝ) 0).1
  obtain ⟨x, h1, h2⟩ := C54_unique m gesv hg tau ht E time hF hR G nodes hwf D hD hcon (0 : LocDofs (d + 1) ((p + 1) ^ d) ℝ) 0
  have hex : ∀ e : Fin G.n_hyEdges, ∃ q' u', IsSolution (form (E e) ((p + 1) ^ d) time) tau 0 1 (moments (form (E e) ((p + 1) ^ d) time) (faceValues nodes x e) + dirichletMoments (E e) time)
      (source (E e) time) q' u' ∧ localResidual m gesv tau E time e (faceValues nodes x e) (fun _ _ => 0) =
        .ok (offDirichlet (E e) (faceFlux (form (E e) ((p + 1) ^ d) time) tau (faceValues nodes x e) q' u')) := fun e =>
    (C21_residual m gesv hg tau (E e) time (faceValues nodes x e) (fun _ _ => 0)).1 (hS e)
  choose q' u' hsol hloc using hex
  have hres : ∀ old0 new0, (Elliptic.mk' G).apply m (localResidual m gesv tau E time) old0 new0 (List.ofFn x) = .ok (List.ofFn (assemble nodes fun e : Fin G.n_hyEdges =>
      offDirichlet (E e) (faceFlux (form (E e) ((p + 1) ^ d) time) tau (faceValues nodes x e) (q' e) (u' e)))) := fun old0 new0 => by
    rw [C23_fresh, mat_vec_eq m G nodes hwf _ x _ hloc old0 new0]
  have hzero := h1.2
  rw [hres, ← List.ofFn_const] at hzero
  have hasm := List.ofFn_injective (Res.ok.inj hzero)
  have hx : ∀ old0 new0, (Elliptic.mk' G).apply m (localResidual m gesv tau E time) old0 new0 (List.ofFn x) = .ok (List.replicate (G.n_hyNodes * (p + 1) ^ d) 0) := fun old0 new0 => by
    rw [hres, hasm, List.ofFn_const]
  refine ⟨x, q', u', fun old0 new0 y => ⟨fun h => ?_, ?_⟩, hsol, fun v hv j => ?_⟩
  · obtain ⟨z, _, h4⟩ := C54_unique m gesv hg tau ht E time hF hR G nodes hwf D hD hcon old0 new0
    exact (h4 y h).trans (h4 x ⟨h1.1, hx old0 new0⟩).symm
  · rintro rfl
    exact ⟨h1.1, hx old0 new0⟩
  · have h5 := congrFun hasm (dof v j)
    rw [assemble_at] at h5
    refine Eq.trans (sum_congr rfl fun e _ => sum_congr rfl fun f _ => ?_) h5
    split
    next h =>
      have hf : ¬ D (nodes e f) := h ▸ hv
      rw [offDirichlet, if_neg (show ¬ IsDirichlet (E e) f from fun h => hf ((hD e f).mp h))]
    next => rfl

end

/-- The errors of the flux and of the jumps at the faces; `T` are the values on the faces which belong to the vector `x`. -/
theorem energy_estimate (hP : OrthonormalPolys p P) (d : Nat) : ∃ C : ℝ, 0 ≤ C ∧ ∀ (tau : ℝ) (_ : 0 < tau)
    (B : Nat → Data d) (_ : ∀ e, (B e).Admissible) (_ : ∀ e f, ∑ k, (B e).A.normal f k ^ 2 = 1) (time : ℝ) (E : Nat → Edge (d + 1) ((p + 1) ^ (d + 1)) ℝ) (_ : ∀ e, ExactIntegrals P (B e) time (E e))
    (G : HyGraph (d + 1) ((p + 1) ^ d)) (nodes : Fin G.n_hyEdges → Fin (2 * (d + 1)) → Fin G.n_hyNodes)
    (D : Fin G.n_hyNodes → Prop) (_ : ∀ (e : Fin G.n_hyEdges) (f : Fin (2 * (d + 1))), (E e).node_descriptor f ∈ (E e).dirichlet_nodes ↔ D (nodes e f))
    (q : Fin G.n_hyEdges → Fin (d + 1) → (Fin (d + 1) → ℝ) → ℝ) (u : Fin G.n_hyEdges → (Fin (d + 1) → ℝ) → ℝ) (w : Fin G.n_hyNodes → (Fin d → ℝ) → ℝ)
    (_ : IsClassicalSolution (fun e : Fin G.n_hyEdges => B e) nodes D q u w)
    (amax epsq epsu : Fin G.n_hyEdges → ℝ) (_ : ∀ e : Fin G.n_hyEdges, ∀ z ∈ cube (d + 1), (B e).a z ≤ amax e) (_ : ∀ e k, ApproxBy p (epsq e) (q e k)) (_ : ∀ e, ApproxBy p (epsu e) (u e))
    (x : Fin (G.n_hyNodes * (p + 1) ^ d) → ℝ) (q' : Fin G.n_hyEdges → Fin (d + 1) → Fin ((p + 1) ^ (d + 1)) → ℝ) (u' : Fin G.n_hyEdges → Fin ((p + 1) ^ (d + 1)) → ℝ)
    (_ : VanishesAt D x)
    (_ : ∀ e : Fin G.n_hyEdges, IsSolution (form (E e) ((p + 1) ^ d) time) tau 0 1 (moments (form (E e) ((p + 1) ^ d) time) (faceValues nodes x e) + dirichletMoments (E e) time)
      (source (E e) time) (q' e) (u' e))
    (_ : ∀ v, ¬ D v → ∀ j, ∑ e : Fin G.n_hyEdges, ∑ f, (if nodes e f = v then faceFlux (form (E e) ((p + 1) ^ d) time) tau (faceValues nodes x e) (q' e) (u' e) f j else 0) = 0)
    (T : Fin G.n_hyEdges → Fin (2 * (d + 1)) → (Fin d → ℝ) → ℝ) (_ : ∀ e f, D (nodes e f) → T e f = fun y => u e (facePoint f y)) (_ : ∀ e f, ¬ D (nodes e f) → T e f = polyFun P (faceValues nodes x e f)),
    (∑ e : Fin G.n_hyEdges, (B e).A.vol * cubeInt (fun z => (B e).a z * ∑ k, (q e k z - polyFun P (q' e k) z) ^ 2)) +
        tau * ∑ e : Fin G.n_hyEdges, ∑ f, (B e).A.area f * cubeInt (fun y => (polyFun P (proj P (u e) - u' e) (facePoint f y) - polyFun P (proj P fun y => u e (facePoint f y) - T e f y) y) ^ 2) ≤
      C * ∑ e : Fin G.n_hyEdges, ((B e).A.vol * amax e * epsq e ^ 2 + (∑ f, (B e).A.area f) * (epsq e ^ 2 / tau + tau * epsu e ^ 2)) := by
  obtain ⟨C, hC, hst⟩ := proj_stable hP (d + 1)
  refine ⟨4 * C ^ 2 * (d + 1) ^ 2, by positivity, fun tau ht B hB hN time E hE G nodes D hD q u w h amax epsq epsu ha hq hu x q' u' h1 h2 h3 T hTD hTN => ?_⟩
  have hmain := error_energy hP (fun e : Fin G.n_hyEdges => B e) (fun e => hB e) time (fun e : Fin G.n_hyEdges => E e) (fun e => hE e) nodes D hD h tau ht x
    h1 q' u' h2 h3 T hTD hTN
  have hqc : ∀ e k, Continuous (q e k) := fun e => let ⟨_, _, _, _, _, hq, _⟩ := h.equation e; hq
  have huc : ∀ e, Continuous (u e) := fun e => let ⟨_, _, _, _, hu, _, _⟩ := h.equation e; hu
  have h0 : (fun _ => 0 : Fin (d + 1) → ℝ) ∈ cube (d + 1) := fun _ _ => ⟨le_rfl, zero_le_one⟩
  have hamax : ∀ e, 0 ≤ amax e := fun e => ((hB e).pos _).le.trans (ha e _ h0)
  have he : ∀ {g : (Fin (d + 1) → ℝ) → ℝ} {eps : ℝ}, ApproxBy p eps g → 0 ≤ eps := fun ⟨r, _, hr⟩ => (abs_nonneg _).trans (hr _ h0)
  have heq : ∀ e, 0 ≤ epsq e := fun e => he (hq e 0)
  have heu : ∀ e, 0 ≤ epsu e := fun e => he (hu e)
  -- the projection errors
  have hpq : ∀ e k, ∀ z ∈ cube (d + 1), (polyFun P (proj P (q e k)) z - q e k z) ^ 2 ≤ (C * epsq e) ^ 2 := fun e k z hz =>
    sq_le_sq' (by linarith [(abs_le.mp (hst _ _ (hqc e k) (hq e k) z hz)).1]) (abs_le.mp (hst _ _ (hqc e k) (hq e k) z hz)).2
  have hface : ∀ (f : Fin (2 * (d + 1))) (y : Fin d → ℝ), y ∈ cube d → facePoint f y ∈ cube (d + 1) := fun f y hy k _ => by
    unfold facePoint
    refine Fin.succAboveCases (axis f) ?_ (fun l => ?_) k
    · rw [Fin.insertNth_apply_same]
      split <;> simp
    · rw [Fin.insertNth_apply_succAbove]
      exact hy l trivial
  have hvol : ∀ (e : Fin G.n_hyEdges) k, (B e).A.vol * cubeInt (fun z => (B e).a z * (polyFun P (proj P (q e k)) z - q e k z) ^ 2) ≤ (B e).A.vol * amax e * (C * epsq e) ^ 2 := fun e k => by
    rw [mul_assoc]
    refine mul_le_mul_of_nonneg_left ?_ (hB e).affine.vol_pos.le
    rw [← cubeInt_const (n := d + 1) (amax e * (C * epsq e) ^ 2)]
    exact cubeInt_mono ((hB e).cont.mul (((polyFun_cont _).sub (hqc e k)).pow 2)) continuous_const fun z hz => mul_le_mul (ha e z hz) (hpq e k z hz) (sq_nonneg _) (hamax e)
  have hdef : ∀ (e : Fin G.n_hyEdges) f, cubeInt (fun y => faceDefect P (B e) tau (q e) (u e) f y ^ 2) ≤ 2 * C ^ 2 * (d + 1) ^ 2 * (epsq e ^ 2 + tau ^ 2 * epsu e ^ 2) := fun e f => by
    rw [← cubeInt_const (n := d) (2 * C ^ 2 * (d + 1) ^ 2 * (epsq e ^ 2 + tau ^ 2 * epsu e ^ 2))]
    refine cubeInt_mono ((faceDefect_cont (hqc e) (huc e) f).pow 2) continuous_const fun y hy => ?_
    have hz := hface f y hy
    have hn : ∀ k, |(B e).A.normal f k| ≤ 1 := fun k => by
      rw [← sq_le_one_iff_abs_le_one, ← hN e f]
      exact single_le_sum (f := fun k => (B e).A.normal f k ^ 2) (fun k _ => sq_nonneg _) (mem_univ k)
    have hs : |∑ k, (B e).A.normal f k * (polyFun P (proj P (q e k)) (facePoint f y) - q e k (facePoint f y))| ≤ (d + 1) * (C * epsq e) := by
      refine (abs_sum_le_sum_abs _ _).trans ?_
      have : ∀ k ∈ univ, |(B e).A.normal f k * (polyFun P (proj P (q e k)) (facePoint f y) - q e k (facePoint f y))| ≤ C * epsq e := fun k _ => by
        rw [abs_mul, ← one_mul (C * epsq e)]
        exact mul_le_mul (hn k) (hst _ _ (hqc e k) (hq e k) _ hz) (abs_nonneg _) zero_le_one
      refine (sum_le_card_nsmul _ _ _ this).trans (le_of_eq ?_)
      rw [card_univ, Fintype.card_fin, nsmul_eq_mul]
      push_cast
      rfl
    have ht' : |tau * (polyFun P (proj P (u e)) (facePoint f y) - u e (facePoint f y))| ≤ (d + 1) * (tau * (C * epsu e)) := by
      rw [abs_mul, abs_of_pos ht]
      have := mul_le_mul_of_nonneg_left (hst _ _ (huc e) (hu e) _ hz) ht.le
      have h6 : 0 ≤ (d : ℝ) * (tau * (C * epsu e)) := mul_nonneg (Nat.cast_nonneg d) (mul_nonneg ht.le (mul_nonneg hC (heu e)))
      linarith
    unfold faceDefect
    rw [← sq_abs]
    have hsum := (abs_add_le (∑ k, (B e).A.normal f k * (polyFun P (proj P (q e k)) (facePoint f y) - q e k (facePoint f y)))
      (tau * (polyFun P (proj P (u e)) (facePoint f y) - u e (facePoint f y)))).trans (add_le_add hs ht')
    have h7 := pow_le_pow_left₀ (abs_nonneg _) hsum 2
    have h8 := sq_nonneg ((d + 1) * (C * epsq e) - (d + 1) * (tau * (C * epsu e)))
    linarith
  -- split the error
  have hsplit : ∀ e : Fin G.n_hyEdges, (B e).A.vol * cubeInt (fun z => (B e).a z * ∑ k, (q e k z - polyFun P (q' e k) z) ^ 2) ≤
      2 * ∑ k, (B e).A.vol * cubeInt (fun z => (B e).a z * (polyFun P (proj P (q e k)) z - q e k z) ^ 2) +
        2 * ∑ k, (B e).A.vol * cubeInt (fun z => (B e).a z * (polyFun P (proj P (q e k)) z - polyFun P (q' e k) z) ^ 2) := fun e => by
    have c1 : ∀ k, Continuous fun z => (B e).a z * (polyFun P (proj P (q e k)) z - q e k z) ^ 2 := fun k => (hB e).cont.mul (((polyFun_cont _).sub (hqc e k)).pow 2)
    have c2 : ∀ k, Continuous fun z => (B e).a z * (polyFun P (proj P (q e k)) z - polyFun P (q' e k) z) ^ 2 := fun k => (hB e).cont.mul (((polyFun_cont _).sub (polyFun_cont _)).pow 2)
    simp only [← mul_sum]
    rw [← cubeInt_sum univ c1, ← cubeInt_sum univ c2, mul_left_comm, mul_left_comm 2, ← mul_add, ← cubeInt_mul 2, ← cubeInt_mul 2,
      ← cubeInt_add (continuous_const.fun_mul (continuous_finsetSum _ fun k _ => c1 k)) (continuous_const.fun_mul (continuous_finsetSum _ fun k _ => c2 k))]
    refine mul_le_mul_of_nonneg_left (cubeInt_mono ((hB e).cont.mul (continuous_finsetSum _ fun k _ => ((hqc e k).sub (polyFun_cont _)).pow 2))
      ((continuous_const.mul (continuous_finsetSum _ fun k _ => c1 k)).add (continuous_const.mul (continuous_finsetSum _ fun k _ => c2 k))) fun z _ => ?_) (hB e).affine.vol_pos.le
    simp only [mul_sum, ← sum_add_distrib]
    refine sum_le_sum fun k _ => ?_
    have := mul_nonneg ((hB e).pos z).le (sq_nonneg ((polyFun P (proj P (q e k)) z - q e k z) + (polyFun P (proj P (q e k)) z - polyFun P (q' e k) z)))
    linarith
  have hA : ∑ e : Fin G.n_hyEdges, ∑ k, (B e).A.vol * cubeInt (fun z => (B e).a z * (polyFun P (proj P (q e k)) z - q e k z) ^ 2) ≤ C ^ 2 * (d + 1) ^ 2 * ∑ e : Fin G.n_hyEdges, (B e).A.vol * amax e * epsq e ^ 2 := by
    rw [mul_sum]
    refine sum_le_sum fun e _ => (sum_le_card_nsmul _ _ _ fun k _ => hvol e k).trans ?_
    rw [card_univ, Fintype.card_fin, nsmul_eq_mul]
    have h9 : 0 ≤ (B e).A.vol * amax e * (C * epsq e) ^ 2 := mul_nonneg (mul_nonneg (hB e).affine.vol_pos.le (hamax e)) (sq_nonneg _)
    have h10 : ((d + 1 : ℕ) : ℝ) ≤ (d + 1) ^ 2 := by
      push_cast
      have : (0 : ℝ) ≤ d := Nat.cast_nonneg d
      nlinarith
    have := mul_le_mul_of_nonneg_right h10 h9
    linarith
  have hT : tau⁻¹ * ∑ e : Fin G.n_hyEdges, ∑ f, (B e).A.area f * cubeInt (fun y => faceDefect P (B e) tau (q e) (u e) f y ^ 2) ≤
      2 * C ^ 2 * (d + 1) ^ 2 * ∑ e : Fin G.n_hyEdges, (∑ f, (B e).A.area f) * (epsq e ^ 2 / tau + tau * epsu e ^ 2) := by
    rw [mul_sum, mul_sum]
    refine sum_le_sum fun e _ => ?_
    rw [sum_mul, mul_sum, mul_sum]
    refine sum_le_sum fun f _ => ?_
    have h11 := mul_le_mul_of_nonneg_left (mul_le_mul_of_nonneg_left (hdef e f) ((hB e).affine.area_pos f).le) (inv_nonneg.mpr ht.le)
    refine h11.trans (le_of_eq ?_)
    field_simp
  have hjump : 0 ≤ tau * ∑ e : Fin G.n_hyEdges, ∑ f, (B e).A.area f * cubeInt (fun y => (polyFun P (proj P (u e) - u' e) (facePoint f y) - polyFun P (proj P fun y => u e (facePoint f y) - T e f y) y) ^ 2) :=
    mul_nonneg ht.le (sum_nonneg fun e _ => sum_nonneg fun f _ => mul_nonneg ((hB e).affine.area_pos f).le
      (cubeInt_nonneg ((((polyFun_cont _).comp (face_cont f)).sub (polyFun_cont _)).pow 2) fun y _ => sq_nonneg _))
  have hall := sum_le_sum fun e (_ : e ∈ univ) => hsplit e
  simp only [sum_add_distrib, ← mul_sum] at hall hmain hA hT ⊢
  linarith


/-- The estimate for the discrete solution, where the constant `C` depends only on the degree, the dimension and the basis. -/
theorem flux_estimate (hP : OrthonormalPolys p P) (d : Nat) : ∃ C : ℝ, 0 ≤ C ∧ ∀ (tau : ℝ) (_ : 0 < tau)
    (B : Nat → Data d) (_ : ∀ e, (B e).Admissible) (_ : ∀ e f, ∑ k, (B e).A.normal f k ^ 2 = 1) (time : ℝ) (E : Nat → Edge (d + 1) ((p + 1) ^ (d + 1)) ℝ) (_ : ∀ e, ExactIntegrals P (B e) time (E e))
    (G : HyGraph (d + 1) ((p + 1) ^ d)) (nodes : Fin G.n_hyEdges → Fin (2 * (d + 1)) → Fin G.n_hyNodes)
    (D : Fin G.n_hyNodes → Prop) (_ : ∀ (e : Fin G.n_hyEdges) (f : Fin (2 * (d + 1))), (E e).node_descriptor f ∈ (E e).dirichlet_nodes ↔ D (nodes e f))
    (q : Fin G.n_hyEdges → Fin (d + 1) → (Fin (d + 1) → ℝ) → ℝ) (u : Fin G.n_hyEdges → (Fin (d + 1) → ℝ) → ℝ) (w : Fin G.n_hyNodes → (Fin d → ℝ) → ℝ)
    (_ : IsClassicalSolution (fun e : Fin G.n_hyEdges => B e) nodes D q u w)
    (amax epsq epsu : Fin G.n_hyEdges → ℝ) (_ : ∀ e : Fin G.n_hyEdges, ∀ z ∈ cube (d + 1), (B e).a z ≤ amax e) (_ : ∀ e k, ApproxBy p (epsq e) (q e k)) (_ : ∀ e, ApproxBy p (epsu e) (u e))
    (x : Fin (G.n_hyNodes * (p + 1) ^ d) → ℝ) (q' : Fin G.n_hyEdges → Fin (d + 1) → Fin ((p + 1) ^ (d + 1)) → ℝ) (u' : Fin G.n_hyEdges → Fin ((p + 1) ^ (d + 1)) → ℝ)
    (_ : VanishesAt D x)
    (_ : ∀ e : Fin G.n_hyEdges, IsSolution (form (E e) ((p + 1) ^ d) time) tau 0 1 (moments (form (E e) ((p + 1) ^ d) time) (faceValues nodes x e) + dirichletMoments (E e) time)
      (source (E e) time) (q' e) (u' e))
    (_ : ∀ v, ¬ D v → ∀ j, ∑ e : Fin G.n_hyEdges, ∑ f, (if nodes e f = v then faceFlux (form (E e) ((p + 1) ^ d) time) tau (faceValues nodes x e) (q' e) (u' e) f j else 0) = 0),
    ∑ e : Fin G.n_hyEdges, (B e).A.vol * cubeInt (fun z => (B e).a z * ∑ k, (q e k z - polyFun P (q' e k) z) ^ 2) ≤
      C * ∑ e : Fin G.n_hyEdges, ((B e).A.vol * amax e * epsq e ^ 2 + (∑ f, (B e).A.area f) * (epsq e ^ 2 / tau + tau * epsu e ^ 2)) := by
  classical
  obtain ⟨C, hC, hest⟩ := energy_estimate hP d
  refine ⟨C, hC, fun tau ht B hB hN time E hE G nodes D hD q u w h amax epsq epsu ha hq hu x q' u' h1 h2 h3 => ?_⟩
  have h4 := hest tau ht B hB hN time E hE G nodes D hD q u w h amax epsq epsu ha hq hu x q' u' h1 h2 h3 (fun e f => if D (nodes e f) then fun y => u e (facePoint f y) else polyFun P (faceValues nodes x e f))
    (fun e f hf => if_pos hf) (fun e f hf => if_neg hf)
  refine le_trans (le_add_of_nonneg_right ?_) h4
  exact mul_nonneg ht.le (sum_nonneg fun e _ => sum_nonneg fun f _ => mul_nonneg ((hB e).affine.area_pos f).le
    (cubeInt_nonneg ((((polyFun_cont _).comp (face_cont f)).sub (polyFun_cont _)).pow 2) fun y _ => sq_nonneg _))

/-- **C94** (flux).  For a classical solution of a diffusion problem on a hypergraph of affine hyperedges, where each hypernode is connected to a Dirichlet node, and for each `tau > 0`: there is exactly one vector `x`
which vanishes at the Dirichlet nodes and has residual zero; for this vector, `bulk_values` returns the values of functions `qh`, `uh`, `errors` compares `uh` with the analytic result, and the error of the flux is
bounded by the errors with which polynomials of degree `p` approximate the solution: the constant `C` depends only on the degree, the dimension and the basis. -/
theorem C94_flux (hP : OrthonormalPolys p P) (d : Nat) : ∃ C : ℝ, 0 ≤ C ∧ ∀ (m : Mode) (gesv : Gesv (((d + 1) + 1) * (p + 1) ^ (d + 1)) 1 ℝ) (_ : GesvSpec gesv) (tau : ℝ) (_ : 0 < tau)
    (B : Nat → Data d) (_ : ∀ e, (B e).Admissible) (_ : ∀ e f, ∑ k, (B e).A.normal f k ^ 2 = 1) (time : ℝ) (E : Nat → Edge (d + 1) ((p + 1) ^ (d + 1)) ℝ) (_ : ∀ e, ExactIntegrals P (B e) time (E e))
    (G : HyGraph (d + 1) ((p + 1) ^ d)) (nodes : Fin G.n_hyEdges → Fin (2 * (d + 1)) → Fin G.n_hyNodes) (_ : G.WF nodes)
    (D : Fin G.n_hyNodes → Prop) (_ : ∀ (e : Fin G.n_hyEdges) (f : Fin (2 * (d + 1))), (E e).node_descriptor f ∈ (E e).dirichlet_nodes ↔ D (nodes e f)) (_ : Anchored nodes D)
    (q : Fin G.n_hyEdges → Fin (d + 1) → (Fin (d + 1) → ℝ) → ℝ) (u : Fin G.n_hyEdges → (Fin (d + 1) → ℝ) → ℝ) (w : Fin G.n_hyNodes → (Fin d → ℝ) → ℝ)
    (_ : IsClassicalSolution (fun e : Fin G.n_hyEdges => B e) nodes D q u w)
    (amax epsq epsu : Fin G.n_hyEdges → ℝ) (_ : ∀ e : Fin G.n_hyEdges, ∀ z ∈ cube (d + 1), (B e).a z ≤ amax e) (_ : ∀ e k, ApproxBy p (epsq e) (q e k)) (_ : ∀ e, ApproxBy p (epsu e) (u e)),
    ∃ (x : Fin (G.n_hyNodes * (p + 1) ^ d) → ℝ) (qh : Fin G.n_hyEdges → Fin (d + 1) → (Fin (d + 1) → ℝ) → ℝ) (uh : Fin G.n_hyEdges → (Fin (d + 1) → ℝ) → ℝ),
      (∀ old0 new0 y, (VanishesAt D y ∧
        (Elliptic.mk' G).apply m (localResidual m gesv tau E time) old0 new0 (List.ofFn y) = .ok (List.replicate (G.n_hyNodes * (p + 1) ^ d) 0)) ↔ y = x) ∧
      (∀ (e : Fin G.n_hyEdges) abscissas vals0, ∃ vals, bulk_values m gesv (fun c l => polyFun P c (coords (d + 1) l)) tau abscissas (faceValues nodes x e) (E e) time vals0 = .ok vals ∧
        ∀ pt : Fin (Hypercube.pow (d + 1) abscissas.length), ∃ l, Hypercube.tensorial_pt m (d + 1) pt abscissas = .ok l ∧
          (∀ k : Fin (d + 1), vals k.castSucc pt = qh e k (coords (d + 1) l)) ∧ vals (Fin.last (d + 1)) pt = uh e (coords (d + 1) l)) ∧
      (∀ e : Fin G.n_hyEdges, errors m gesv tau (faceValues nodes x e) (E e) time = .ok fun _ => (B e).A.vol * cubeInt fun z => (uh e z - (B e).w z) ^ 2) ∧
      ∑ e : Fin G.n_hyEdges, (B e).A.vol * cubeInt (fun z => (B e).a z * ∑ k, (q e k z - qh e k z) ^ 2) ≤
        C * ∑ e : Fin G.n_hyEdges, ((B e).A.vol * amax e * epsq e ^ 2 + (∑ f, (B e).A.area f) * (epsq e ^ 2 / tau + tau * epsu e ^ 2)) := by
  obtain ⟨C, hC, hst⟩ := flux_estimate hP d
  refine ⟨C, hC, fun m gesv hg tau ht B hB hN time E hE G nodes hwf D hD hcon q u w h amax epsq epsu ha hq hu => ?_⟩
  obtain ⟨x, q', u', h1, h2, h3⟩ := discrete_solution hP m gesv hg tau ht B hB time E hE G nodes hwf D hD hcon
  have hF := fun e => (exact_laws hP (hB e) (hE e)).1
  have hS := fun e => (C21_solvable m gesv hg tau (E e) time (hF e) ht (0 : LocDofs (d + 1) ((p + 1) ^ d) ℝ) 0).1
  refine ⟨x, fun e k => polyFun P (q' e k), fun e => polyFun P (u' e), h1, fun e abscissas vals0 => ?_, fun e => ?_, ?_⟩
  · obtain ⟨q'', u'', h4, h5⟩ := C48_bulk_values m gesv hg tau (E e) time (hS e) (fun c l => polyFun P c (coords (d + 1) l)) abscissas (faceValues nodes x e) vals0
    obtain ⟨rfl, rfl⟩ := solution_unique (hS e) h4 (h2 e)
    exact h5
  · obtain ⟨q'', u'', h4, h5⟩ := C48_errors m gesv hg tau (E e) time (hS e) (faceValues nodes x e)
    obtain ⟨_, rfl⟩ := solution_unique (hS e) h4 (h2 e)
    rw [h5, (hE e).diff]
  · exact hst tau ht B hB hN time E hE G nodes D hD q u w h amax epsq epsu ha hq hu x q' u' ((h1 0 0 x).mpr rfl).1 h2 h3

end HyperHDG.Estimate

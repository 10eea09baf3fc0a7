import Verif.Proofs.ErrorRate
import Mathlib.Analysis.Normed.Module.FiniteDimension

/-!
# Estimates on networks of edges

The values at the nodes and on the edges are bounded by the errors of the flux.
-/

namespace HyperHDG.Diffusion

open Spec HyGraph MeasureTheory Polynomial Finset Matrix

variable {p d : Nat} {P : Fin (p + 1) → ℝ[X]}

/-- Connected to `w` by edges of `S`. -/
def ConnIn {E N F : Nat} (nodes : Fin E → Fin F → Fin N) (S : Finset (Fin E)) : Fin N → Fin N → Prop :=
  Relation.ReflTransGen fun a b => ∃ e ∈ S, ∃ f g, nodes e f = a ∧ nodes e g = b

theorem conn_erase {E N F : Nat} {nodes : Fin E → Fin F → Fin N} {S : Finset (Fin E)} {w v : Fin N} (h : ConnIn nodes S w v) (e : Fin E) :
    ConnIn nodes (S.erase e) w v ∨ ∃ f, ConnIn nodes (S.erase e) w (nodes e f) := by
  induction h with
  | refl => exact .inl .refl
  | tail h1 h2 ih =>
    obtain ⟨e', he', f, g, hf, hg⟩ := h2
    rcases ih with ih | ih
    · by_cases he : e' = e
      · subst he
        subst hf
        exact .inr ⟨f, ih⟩
      · exact .inl (ih.tail ⟨e', mem_erase.mpr ⟨he, he'⟩, f, g, hf, hg⟩)
    · exact .inr ih

/-- If the values at nodes of the same edge `e` differ by at most `t e`, each value is at most the sum of all `t e`. -/
theorem chain_bound {E N F : Nat} (nodes : Fin E → Fin F → Fin N) (D : Fin N → Prop) (err : Fin N → ℝ) (t : Fin E → ℝ) (ht : ∀ e, 0 ≤ t e) (hD : ∀ v, D v → err v = 0)
    (h : ∀ e f g, |err (nodes e f) - err (nodes e g)| ≤ t e) (S : Finset (Fin E)) : ∀ (v w : Fin N), D w → ConnIn nodes S w v → |err v| ≤ ∑ e ∈ S, t e := by
  induction S using Finset.strongInduction with
  | H S ih =>
    intro v w hw hv
    rcases Relation.ReflTransGen.cases_tail hv with h1 | ⟨b, h1, e, he, f, g, hf, hg⟩
    · rw [h1, hD w hw, abs_zero]
      exact sum_nonneg fun e _ => ht e
    · obtain ⟨f', h2⟩ : ∃ f', ConnIn nodes (S.erase e) w (nodes e f') := by
        rcases conn_erase h1 e with h2 | h2
        · exact ⟨f, hf ▸ h2⟩
        · exact h2
      have h3 := ih (S.erase e) (erase_ssubset he) _ w hw h2
      have h4 := h e g f'
      rw [← add_sum_erase S t he, ← hg]
      have h5 : err (nodes e g) = (err (nodes e g) - err (nodes e f')) + err (nodes e f') := by ring
      rw [h5]
      exact (abs_add_le _ _).trans (add_le_add h4 h3)

theorem anchored_bound {E N F : Nat} (nodes : Fin E → Fin F → Fin N) (D : Fin N → Prop) (hcon : Anchored nodes D) (err : Fin N → ℝ) (t : Fin E → ℝ) (ht : ∀ e, 0 ≤ t e) (hD : ∀ v, D v → err v = 0)
    (h : ∀ e f g, |err (nodes e f) - err (nodes e g)| ≤ t e) (v : Fin N) : |err v| ≤ ∑ e, t e := by
  obtain ⟨w, hw, hv⟩ := hcon v
  refine chain_bound nodes D err t ht hD h univ v w hw ?_
  clear h hD ht
  induction hv with
  | refl => exact .refl
  | tail _ h2 ih =>
    obtain ⟨e, f, g, hf, hg⟩ := h2
    exact ih.tail ⟨e, mem_univ e, f, g, hf, hg⟩

/-- The error of `u` tested by derivatives of test functions. -/
theorem grad_error (hP : OrthonormalPolys p P) {B : Data d} (hB : B.Admissible) {time : ℝ} {E : Edge (d + 1) ((p + 1) ^ (d + 1)) ℝ} (hE : ExactIntegrals P B time E) {tau : ℝ}
    {q : Fin (d + 1) → (Fin (d + 1) → ℝ) → ℝ} {u : (Fin (d + 1) → ℝ) → ℝ} (hs : SolvesClassically B q u)
    {G : Fin (2 * (d + 1)) → Fin ((p + 1) ^ (d + 1)) → ℝ} {s : Fin ((p + 1) ^ (d + 1)) → ℝ} {q' : Fin (d + 1) → Fin ((p + 1) ^ (d + 1)) → ℝ} {u' : Fin ((p + 1) ^ (d + 1)) → ℝ}
    (h : IsSolution (form E ((p + 1) ^ d) time) tau 0 1 G s q' u') {T : Fin (2 * (d + 1)) → (Fin d → ℝ) → ℝ} (hTc : ∀ f, Continuous (T f))
    (hT : ∀ f i, G f i = B.A.area f * cubeInt fun y => T f y * shape P i (facePoint f y)) (k : Fin (d + 1)) (i : Fin ((p + 1) ^ (d + 1))) :
    ((form E ((p + 1) ^ d) time).grad k *ᵥ (proj P u - u')) i = B.A.vol * cubeInt (fun z => B.a z * (q k z - polyFun P (q' k) z) * shape P i z) +
      ∑ f, B.A.normal f k * (B.A.area f * cubeInt fun y => (u (facePoint f y) - T f y) * shape P i (facePoint f y)) := by
  have hu : Continuous u := let ⟨_, _, _, _, hu, _, _⟩ := hs; hu
  have hq : Continuous (q k) := let ⟨_, _, _, _, _, hq, _⟩ := hs; hq k
  have hn : (form E ((p + 1) ^ d) time).normal = B.A.normal := by rw [hE.form]; rfl
  have hm : ∀ c, ((form E ((p + 1) ^ d) time).mass *ᵥ c) i = B.A.vol * cubeInt fun x => B.a x * polyFun P c x * shape P i x := fun c => by
    rw [hE.form]
    simp only [affineForm, mulVec, dotProduct, of_apply, mul_assoc, ← mul_sum]
    rw [mass_apply hB.cont]
    simp only [mul_assoc]
  have h1 := congrFun (defect_flux hP hB hE hs (G := fun f i => B.A.area f * cubeInt fun y => u (facePoint f y) * shape P i (facePoint f y)) (fun f i => rfl) k) i
  have h2 := congrFun (h.flux k) i
  simp only [Pi.add_apply, Pi.sub_apply, Finset.sum_apply, Pi.smul_apply, smul_eq_mul, Pi.zero_apply, hm, hn, hT] at h1 h2
  have c1 : ∀ g : (Fin (d + 1) → ℝ) → ℝ, Continuous g → Continuous fun z => B.a z * g z * shape P i z := fun g hg => (hB.cont.mul hg).mul (shape_cont i)
  have h3 : cubeInt (fun x => B.a x * (polyFun P (proj P (q k)) x - q k x) * shape P i x) = cubeInt (fun x => B.a x * polyFun P (proj P (q k)) x * shape P i x) - cubeInt fun x => B.a x * q k x * shape P i x := by
    rw [← cubeInt_sub (c1 _ (polyFun_cont _)) (c1 _ hq)]
    exact cubeInt_congr fun z _ => by ring
  have h4 : cubeInt (fun x => B.a x * (q k x - polyFun P (q' k) x) * shape P i x) = cubeInt (fun x => B.a x * q k x * shape P i x) - cubeInt fun x => B.a x * polyFun P (q' k) x * shape P i x := by
    rw [← cubeInt_sub (c1 _ hq) (c1 _ (polyFun_cont _))]
    exact cubeInt_congr fun z _ => by ring
  have h5 : ∀ f : Fin (2 * (d + 1)), cubeInt (fun y => (u (facePoint f y) - T f y) * shape P i (facePoint f y)) =
      cubeInt (fun y => u (facePoint f y) * shape P i (facePoint f y)) - cubeInt fun y => T f y * shape P i (facePoint f y) := fun f => by
    have c2 : Continuous fun y : Fin d → ℝ => u (facePoint f y) := hu.comp (face_cont f)
    have c3 : Continuous fun y : Fin d → ℝ => shape P i (facePoint f y) := (shape_cont i).comp (face_cont f)
    rw [← cubeInt_sub (c2.fun_mul c3) ((hTc f).fun_mul c3)]
    exact cubeInt_congr fun z _ => by ring
  rw [h3] at h1
  rw [mulVec_sub, Pi.sub_apply, h4]
  simp only [h5, mul_sub, sum_sub_distrib]
  linear_combination h2 - h1

theorem norm_sq_le {n : Nat} (v : Fin n → ℝ) : ‖v‖ ^ 2 ≤ v ⬝ᵥ v := by
  have h0 : 0 ≤ v ⬝ᵥ v := dot_self_nonneg v
  have h1 : ‖v‖ ≤ Real.sqrt (v ⬝ᵥ v) := (pi_norm_le_iff_of_nonneg (Real.sqrt_nonneg _)).mpr fun i => by
    rw [Real.norm_eq_abs]
    refine Real.abs_le_sqrt ?_
    rw [sq]
    exact single_le_sum (f := fun i => v i * v i) (fun i _ => mul_self_nonneg _) (mem_univ i)
  calc ‖v‖ ^ 2 ≤ Real.sqrt (v ⬝ᵥ v) ^ 2 := pow_le_pow_left₀ (norm_nonneg _) h1 2
    _ = v ⬝ᵥ v := Real.sq_sqrt h0

theorem dot_le_norm {n : Nat} (v : Fin n → ℝ) : v ⬝ᵥ v ≤ n * ‖v‖ ^ 2 := by
  have h : ∀ i ∈ univ, v i * v i ≤ ‖v‖ ^ 2 := fun i _ => by
    have h1 : |v i| ≤ ‖v‖ := by rw [← Real.norm_eq_abs]; exact norm_le_pi_norm v i
    rw [← sq, ← sq_abs]
    exact pow_le_pow_left₀ (abs_nonneg _) h1 2
  refine (sum_le_card_nsmul _ _ _ h).trans (le_of_eq ?_)
  rw [card_univ, Fintype.card_fin, nsmul_eq_mul]

/-- A function on an edge is bounded by its products with derivatives and its value at one end. -/
theorem edge_stable {nS nB : Nat} {F : Form (0 + 1) nS nB ℝ} (hF : FormLaws F) (hn : F.normal 1 0 ≠ 0) :
    ∃ C : ℝ, 0 ≤ C ∧ ∀ w, w ⬝ᵥ w ≤ C * ((F.grad 0 *ᵥ w) ⬝ᵥ (F.grad 0 *ᵥ w) + ((F.psi 0)ᵀ *ᵥ w) ⬝ᵥ ((F.psi 0)ᵀ *ᵥ w)) := by
  have hsum : ∀ g : Fin (2 * (0 + 1)) → ℝ, ∑ f, g f = g 0 + g 1 := fun g => Fin.sum_univ_two g
  let L := (F.grad 0).mulVecLin.prod ((F.psi 0)ᵀ).mulVecLin
  have hker : LinearMap.ker L = ⊥ := by
    rw [LinearMap.ker_eq_bot']
    intro w hw
    have h1 : F.grad 0 *ᵥ w = 0 := congrArg Prod.fst hw
    have h2 : (F.psi 0)ᵀ *ᵥ w = 0 := congrArg Prod.snd hw
    have h3 := parts_dot hF 0 w w
    rw [h1, dotProduct_zero, add_zero, hsum] at h3
    have h4 : ∀ f, (F.psi f)ᵀ *ᵥ w = 0 → F.bdr f *ᵥ w = 0 := fun f hf => by
      have h5 : F.area f • (F.bdr f *ᵥ w) = 0 := by rw [← smul_mulVec, hF.trace, ← mulVec_mulVec, hf, mulVec_zero]
      exact (smul_eq_zero.mp h5).resolve_left (hF.area_pos f).ne'
    rw [h4 0 h2, dotProduct_zero, mul_zero, zero_add] at h3
    have h5 : w ⬝ᵥ F.bdr 1 *ᵥ w = 0 := (mul_eq_zero.mp h3.symm).resolve_left hn
    have h6 := bdr_dot hF 1 w w
    rw [h5, mul_zero] at h6
    have h7 : (F.psi 1)ᵀ *ᵥ w = 0 := dot_self_zero h6.symm
    have hall : ∀ f : Fin (2 * (0 + 1)), (F.psi f)ᵀ *ᵥ w = 0 := fun f => by
      rcases (show f.1 = 0 ∨ f.1 = 1 by have := f.2; omega) with h | h
      · rw [show f = 0 from Fin.ext h]; exact h2
      · rw [show f = 1 from Fin.ext h]; exact h7
    refine hF.unisolvent w (fun k => ?_) hall
    have hk : k = 0 := Subsingleton.elim (α := Fin 1) _ _
    subst hk
    have h8 := congrArg (· *ᵥ w) (hF.by_parts 0)
    simp only [add_mulVec, h1, zero_add, sum_mulVec, smul_mulVec] at h8
    rw [h8]
    exact sum_eq_zero fun f _ => by rw [h4 f (hall f), smul_zero]
  obtain ⟨K, hK, hL⟩ := L.exists_antilipschitzWith hker
  refine ⟨nS * (K : ℝ) ^ 2, by positivity, fun w => (dot_le_norm w).trans ?_⟩
  have h1 := hL.le_mul_dist w 0
  rw [dist_zero_right, map_zero, dist_zero_right] at h1
  rw [mul_assoc]
  refine mul_le_mul_of_nonneg_left ?_ (Nat.cast_nonneg _)
  refine (pow_le_pow_left₀ (norm_nonneg _) h1 2).trans ?_
  rw [mul_pow]
  refine mul_le_mul_of_nonneg_left ?_ (sq_nonneg _)
  have h2 := norm_sq_le (F.grad 0 *ᵥ w)
  have h3 := norm_sq_le ((F.psi 0)ᵀ *ᵥ w)
  have h4 : ‖L w‖ = max ‖F.grad 0 *ᵥ w‖ ‖(F.psi 0)ᵀ *ᵥ w‖ := rfl
  rw [h4]
  rcases max_choice ‖F.grad 0 *ᵥ w‖ ‖(F.psi 0)ᵀ *ᵥ w‖ with h | h <;> rw [h]
  · exact h2.trans (le_add_of_nonneg_right (dot_self_nonneg _))
  · exact h3.trans (le_add_of_nonneg_left (dot_self_nonneg _))

end HyperHDG.Diffusion

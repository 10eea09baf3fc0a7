import Verif.Spec.Neumann
import Verif.Spec.Connected
import Verif.Proofs.LDG
import Verif.Proofs.Exact
import Verif.Proofs.GlobalSolve

/-!
# Proof support: balances, and problems without Dirichlet nodes
-/

namespace HyperHDG.Spec

open Finset Matrix

variable {dim nS nB : Nat} {K : Type}

section
variable [Field K] [LinearOrder K] [IsStrictOrderedRing K] {F : Form dim nS nB K} {one : Fin nS → K} {oneB : Fin nB → K} {tau : K}

omit [LinearOrder K] [IsStrictOrderedRing K] in
/-- The sum of what flows out through the faces is the integral of the source. -/
theorem outflow_sum (h1 : IsConst F one) {g : Fin (2 * dim) → Fin nS → K} {s : Fin nS → K} {q : Fin dim → Fin nS → K} {u : Fin nS → K} (h : IsSolution F tau 0 1 g s q u) :
    ∑ f, outflow F one tau g q u f = one ⬝ᵥ s := by
  rw [← h.primal, zero_smul, zero_add, one_smul, dotProduct_add, dotProduct_neg, dotProduct_sum, dotProduct_sum]
  have h2 : ∑ d, one ⬝ᵥ F.grad d *ᵥ q d = 0 := by
    refine sum_eq_zero fun d _ => ?_
    rw [dotProduct_mulVec, ← mulVec_transpose, h1 d, zero_dotProduct]
  rw [h2, neg_zero, zero_add]
  rfl

omit [IsStrictOrderedRing K] in
theorem bdr_one (hF : FormLaws F) {f : Fin (2 * dim)} (h1 : IsTrace F one f oneB) (v : Fin nS → K) : one ⬝ᵥ F.bdr f *ᵥ v = oneB ⬝ᵥ (F.psi f)ᵀ *ᵥ v := by
  have h2 : F.area f * (one ⬝ᵥ F.bdr f *ᵥ v) = F.area f * (oneB ⬝ᵥ (F.psi f)ᵀ *ᵥ v) := by
    rw [← smul_eq_mul, ← dotProduct_smul, ← smul_mulVec, hF.trace f, ← mulVec_mulVec, dotProduct_mulVec, ← mulVec_transpose, ← h1, smul_dotProduct, smul_eq_mul]
  exact mul_left_cancel₀ (hF.area_pos f).ne' h2

omit [IsStrictOrderedRing K] in
/-- The flux on a face tested by the constant is what flows out. -/
theorem flux_outflow (hF : FormLaws F) {f : Fin (2 * dim)} (h1 : IsTrace F one f oneB) (lambda : Fin (2 * dim) → Fin nB → K) {g : Fin (2 * dim) → Fin nS → K} (hg : g f = moments F lambda f)
    (q : Fin dim → Fin nS → K) (u : Fin nS → K) : oneB ⬝ᵥ faceFlux F tau lambda q u f = outflow F one tau g q u f := by
  have h2 : one ⬝ᵥ moments F lambda f = F.area f * (oneB ⬝ᵥ lambda f) := by
    rw [moments, dotProduct_mulVec, ← mulVec_transpose, ← h1, smul_dotProduct, smul_eq_mul]
  rw [outflow, faceFlux, dotProduct_sub, dotProduct_sub, bdr_one hF h1, hg, dotProduct_smul, dotProduct_smul, h2, smul_eq_mul, smul_eq_mul, mul_assoc]

omit [IsStrictOrderedRing K] in
theorem Constants.rigid (hF : FormLaws F) (h : Constants F one oneB) : Rigid F := by
  intro u f hu ht
  obtain ⟨c, rfl⟩ := h.only u hu
  rw [mulVec_smul, ← h.trace f, smul_eq_zero, smul_eq_zero] at ht
  rcases ht with ht | ht | ht
  · rw [ht, zero_smul]
  · exact absurd ht (hF.area_pos f).ne'
  · exact absurd ht h.nonzero

end

/-- The vector whose entries at each hypernode are `c`. -/
def everywhere {N : Nat} (c : Fin nB → K) : Fin (N * nB) → K := fun k => c ⟨k.1 % nB, Nat.mod_lt _ (Nat.pos_of_ne_zero fun h => by have := k.2; subst h; simp at this)⟩

theorem everywhere_dof {N : Nat} (c : Fin nB → K) (v : Fin N) (j : Fin nB) : everywhere c (dof v j) = c j := by
  refine congrArg c (Fin.ext ?_)
  show (v.1 * nB + j.1) % nB = j.1
  rw [Nat.mul_comm, Nat.mul_add_mod, Nat.mod_eq_of_lt j.2]

theorem sum_dof {N : Nat} [AddCommMonoid K] (g : Fin (N * nB) → K) : ∑ k, g k = ∑ v, ∑ j, g (dof v j) := by
  rw [← Equiv.sum_comp finProdFinEquiv, ← Finset.univ_product_univ, Finset.sum_product]
  refine sum_congr rfl fun v _ => sum_congr rfl fun j _ => congrArg g (Fin.ext ?_)
  show j.1 + nB * v.1 = v.1 * nB + j.1
  rw [Nat.mul_comm, Nat.add_comm]

/-- A symmetric operator, for which the vectors without energy are the multiples of one vector: its values are the vectors orthogonal to it. -/
theorem semidefinite_range {ι : Type} [Fintype ι] [Field K] [LinearOrder K] [IsStrictOrderedRing K] (A : (ι → K) →ₗ[K] (ι → K)) (w : ι → K) (hw : w ≠ 0) (hAw : A w = 0)
    (hsym : ∀ x z, z ⬝ᵥ A x = x ⬝ᵥ A z) (hker : ∀ x, x ⬝ᵥ A x = 0 → ∃ c : K, x = c • w) (b : ι → K) : (∃ x, A x = b) ↔ w ⬝ᵥ b = 0 := by
  have hw2 : 0 < w ⬝ᵥ w := lt_of_le_of_ne (sum_nonneg fun i _ => mul_self_nonneg _) fun h => hw (funext fun i =>
    mul_self_eq_zero.mp ((sum_eq_zero_iff_of_nonneg fun i _ => mul_self_nonneg (w i)).mp h.symm i (mem_univ i)))
  have horth : ∀ x, w ⬝ᵥ A x = 0 := fun x => by rw [hsym, hAw, dotProduct_zero]
  constructor
  · rintro ⟨x, rfl⟩
    exact horth x
  · intro hb
    let B : (ι → K) →ₗ[K] (ι → K) :=
      { toFun := fun x => A x - (w ⬝ᵥ x) • w
        map_add' := fun x y => by rw [map_add, dotProduct_add, add_smul]; abel
        map_smul' := fun a x => by rw [map_smul, dotProduct_smul, RingHom.id_apply, smul_sub, smul_eq_mul, mul_smul] }
    have hinj : Function.Injective B := by
      rw [← LinearMap.ker_eq_bot, LinearMap.ker_eq_bot']
      intro x hx
      have h1 : A x - (w ⬝ᵥ x) • w = 0 := hx
      have h2 : w ⬝ᵥ x = 0 := by
        have := congrArg (w ⬝ᵥ ·) h1
        simp only [dotProduct_sub, horth, dotProduct_smul, dotProduct_zero, smul_eq_mul, zero_sub, neg_eq_zero] at this
        exact (mul_eq_zero.mp this).resolve_right hw2.ne'
      rw [h2, zero_smul, sub_zero] at h1
      obtain ⟨c, rfl⟩ := hker x (by rw [h1, dotProduct_zero])
      rw [dotProduct_smul, smul_eq_mul] at h2
      rw [(mul_eq_zero.mp h2).resolve_right hw2.ne', zero_smul]
    obtain ⟨x, hx⟩ := LinearMap.injective_iff_surjective.mp hinj b
    have h1 : A x - (w ⬝ᵥ x) • w = b := hx
    have h2 : w ⬝ᵥ x = 0 := by
      have := congrArg (w ⬝ᵥ ·) h1
      simp only [dotProduct_sub, horth, dotProduct_smul, hb, smul_eq_mul, zero_sub, neg_eq_zero] at this
      exact (mul_eq_zero.mp this).resolve_right hw2.ne'
    rw [h2, zero_smul, sub_zero] at h1
    exact ⟨x, h1⟩

/-- A vector which on each hyperedge is the same multiple of `c` on all faces is a multiple of `c` everywhere, if the hypergraph is connected. -/
theorem constant_everywhere [Field K] {E N F : Nat} {nodes : Fin E → Fin F → Fin N} (hcon : Connected nodes) {c : Fin nB → K} (hc : c ≠ 0) (x : Fin (N * nB) → K)
    (h : ∀ e, ∃ a : K, ∀ f, faceValues nodes x e f = a • c) (hcov : ∀ v, ∃ e f, nodes e f = v) : ∃ a : K, ∀ v j, x (dof v j) = a * c j := by
  by_cases hN : 0 < N
  · obtain ⟨e0, f0, h0⟩ := hcov ⟨0, hN⟩
    obtain ⟨a, ha⟩ := h e0
    refine ⟨a, fun v => ?_⟩
    have hp := hcon ⟨0, hN⟩ v
    have hs : ∀ j, x (dof ⟨0, hN⟩ j) = a * c j := fun j => by
      rw [← h0]
      exact congrFun (ha f0) j
    induction hp with
    | refl => exact hs
    | tail _ hab ih =>
      obtain ⟨e, f, g, hf, hg⟩ := hab
      obtain ⟨b, hb⟩ := h e
      have hab' : a = b := by
        obtain ⟨j, hj⟩ := Function.ne_iff.mp hc
        have h1 := congrFun (hb f) j
        rw [faceValues, hf, ih j] at h1
        exact mul_right_cancel₀ hj h1
      intro j
      have h2 := congrFun (hb g) j
      rw [faceValues, hg] at h2
      rw [h2, hab']
      rfl
  · exact ⟨0, fun v => absurd v.2 (by omega)⟩

end HyperHDG.Spec

import Verif.Proofs.MatrixDeriv
import Verif.Proofs.LDGSystem

/-!
# Dependence of local solutions on trace and eigenvalue
-/

namespace HyperHDG.LDG

open Spec Finset Matrix DiffusionUniform Topology Filter

variable {K : Type} {dim nS nB : Nat}

theorem isMat_exists [CommRing K] (F : Form dim nS nB K) (tau rho sigma : K) : ∃ A, IsMat F tau rho sigma A := by
  choose b i h using fun k : Fin ((dim + 1) * nS) => ix_surj k
  refine ⟨fun k l => block F tau rho sigma (b k) (b l) (i k) (i l), fun b' i' c' j' => ?_⟩
  have h1 := ix_inj.mp (h (ix b' i'))
  have h2 := ix_inj.mp (h (ix c' j'))
  dsimp only
  rw [h1.1, h1.2, h2.1, h2.2]

theorem isRhs_pack [CommRing K] (F : Form dim nS nB K) (tau sigma : K) (g : Fin (2 * dim) → Fin nS → K) (s : Fin nS → K) :
    IsRhs F tau sigma g s (packQU (fun d => blockRhs F tau sigma g s d.castSucc) (blockRhs F tau sigma g s (Fin.last dim))) := by
  intro b i
  induction b using Fin.lastCases with
  | last => exact congrFun (uOf_pack (fun d : Fin dim => blockRhs F tau sigma g s d.castSucc) (blockRhs F tau sigma g s (Fin.last dim))) i
  | cast d => exact congrFun (congrFun (qOf_pack (fun d : Fin dim => blockRhs F tau sigma g s d.castSucc) (blockRhs F tau sigma g s (Fin.last dim))) d) i

/-- The derivative of local solutions with respect to trace and eigenvalue solves the local problem with the derivative of the trace and a source. -/
theorem solution_deriv (F : Form dim nS nB ℝ) (tau eig de : ℝ) (l dl : Fin (2 * dim) → Fin nB → ℝ) (hs : Solvable F tau (-eig) 1)
    (q : ℝ → Fin dim → Fin nS → ℝ) (u : ℝ → Fin nS → ℝ)
    (h : ∀ t, Solvable F tau (-(eig + t * de)) 1 → IsSolution F tau (-(eig + t * de)) 1 (moments F (l + t • dl)) 0 (q t) (u t)) :
    (∀ᶠ t in 𝓝 (0 : ℝ), Solvable F tau (-(eig + t * de)) 1) ∧
    ∀ q' u', IsSolution F tau (-eig) 1 (moments F dl) (de • F.mass0 *ᵥ u 0) q' u' → HasDerivAt q q' 0 ∧ HasDerivAt u u' 0 := by
  obtain ⟨A, hA⟩ := isMat_exists F tau (-eig) 1
  obtain ⟨B, hB⟩ := isMat_exists F tau (-(eig + de)) 1
  have hAt : ∀ t : ℝ, IsMat F tau (-(eig + t * de)) 1 (A + t • (B - A)) := by
    intro t b i c j
    rw [Matrix.add_apply, Matrix.smul_apply, Matrix.sub_apply, hA, hB]
    unfold block
    split
    · split
      · split <;> simp
      · simp
    · split
      · simp
      · simp only [Matrix.add_apply, Matrix.smul_apply, smul_eq_mul]
        ring
  let v := packQU (fun d => blockRhs F tau 1 (moments F l) 0 d.castSucc) (blockRhs F tau 1 (moments F l) 0 (Fin.last dim))
  let w := packQU (fun d => blockRhs F tau 1 (moments F dl) 0 d.castSucc) (blockRhs F tau 1 (moments F dl) 0 (Fin.last dim))
  have hv : IsRhs F tau 1 (moments F l) 0 v := isRhs_pack F tau 1 _ _
  have hw : IsRhs F tau 1 (moments F dl) 0 w := isRhs_pack F tau 1 _ _
  have hvw : ∀ t : ℝ, IsRhs F tau 1 (moments F (l + t • dl)) 0 (v + t • w) := by
    intro t b i
    rw [Matrix.add_apply, Matrix.smul_apply, hv, hw]
    have hm := moments_lin (F := F) (lambda := l) (mu := dl) 1 t
    simp only [one_smul] at hm
    rw [hm]
    induction b using Fin.lastCases with
    | last =>
      simp only [rhs_l, Pi.add_apply, Pi.smul_apply, Finset.sum_apply, smul_eq_mul, Finset.sum_add_distrib, Finset.mul_sum, Pi.zero_apply, zero_add, mul_add, one_mul]
      congr 1
      exact Finset.sum_congr rfl fun f _ => by ring
    | cast d =>
      simp only [rhs_c, Pi.add_apply, Pi.smul_apply, Finset.sum_apply, smul_eq_mul, Finset.sum_add_distrib, Finset.mul_sum, Pi.neg_apply, mul_add, neg_add, mul_neg]
      congr 2
      exact Finset.sum_congr rfl fun f _ => by ring
  let x : ℝ → Fin ((dim + 1) * nS) → ℝ := fun t k => packQU (q t) (u t) k 0
  have hcol : ∀ (M : Matrix (Fin ((dim + 1) * nS)) (Fin ((dim + 1) * nS)) ℝ) (y z : Matrix (Fin ((dim + 1) * nS)) (Fin 1) ℝ),
      M * y = z ↔ M *ᵥ (fun k => y k 0) = fun k => z k 0 := by
    intro M y z
    constructor
    · rintro rfl; rfl
    · intro h
      funext k j
      obtain rfl : j = 0 := Subsingleton.elim _ _
      exact congrFun h k
  have hx : ∀ t : ℝ, IsUnit (A + t • (B - A)) → (A + t • (B - A)) *ᵥ x t = (fun k => v k 0) + t • fun k => w k 0 := by
    intro t ht
    have hs' := (isUnit_iff F tau _ 1 _ (hAt t)).mp ht
    have h1 := (system_iff F tau _ 1 _ _ _ (hAt t) _ (hvw t) (packQU (q t) (u t))).mpr (by simpa only [qOf_pack, uOf_pack] using h t hs')
    exact (hcol _ _ _).mp h1
  obtain ⟨h1, h2⟩ := MatrixDeriv.hasDerivAt_solve A (B - A) _ _ ((isUnit_iff F tau _ 1 A hA).mpr hs) x hx
  refine ⟨h1.mono fun t ht => (isUnit_iff F tau _ 1 _ (hAt t)).mp ht, fun q' u' hq => ?_⟩
  -- the right-hand side for the derivative
  have hr : IsRhs F tau 1 (moments F dl) (de • F.mass0 *ᵥ u 0) (w - (B - A) * packQU (q 0) (u 0)) := by
    intro b i
    rw [Matrix.sub_apply, hw, Matrix.mul_apply, sum_ix, Fin.sum_univ_castSucc]
    simp only [Matrix.sub_apply, hA _ _ _ _, hB _ _ _ _]
    have e1 : ∀ j, packQU (q 0) (u 0) (ix (Fin.last dim) j) 0 = u 0 j := fun j => congrFun (uOf_pack (q 0) (u 0)) j
    induction b using Fin.lastCases with
    | last =>
      simp only [block_lc, block_ll, rhs_l, e1, sub_self, zero_mul, Finset.sum_const_zero, zero_add, Matrix.add_apply, Matrix.smul_apply, smul_eq_mul, Pi.add_apply,
        Pi.zero_apply, Pi.smul_apply, mulVec, dotProduct, Finset.mul_sum]
      rw [sub_eq_iff_eq_add, add_right_comm, ← Finset.sum_add_distrib]
      symm
      rw [add_eq_right]
      exact Finset.sum_eq_zero fun j _ => by ring
    | cast d =>
      simp only [block_cc, block_cl, rhs_c, sub_self, zero_mul, Finset.sum_const_zero, add_zero, sub_zero]
  have h3 := (system_iff F tau _ 1 _ _ A hA _ hr (packQU q' u')).mpr (by simpa only [qOf_pack, uOf_pack] using hq)
  have h4 := h2 (fun k => packQU q' u' k 0) (by
    rw [(hcol _ _ _).mp h3]
    rfl)
  have h5 := hasDerivAt_pi.mp h4
  constructor
  · refine hasDerivAt_pi.mpr fun d => hasDerivAt_pi.mpr fun i => ?_
    have h6 := h5 (ix d.castSucc i)
    have e : ∀ (p : Fin dim → Fin nS → ℝ) (w : Fin nS → ℝ), packQU p w (ix d.castSucc i) 0 = p d i := fun p w => congrFun (congrFun (qOf_pack p w) d) i
    simpa only [x, e] using h6
  · refine hasDerivAt_pi.mpr fun i => ?_
    have h6 := h5 (ix (Fin.last dim) i)
    have e : ∀ (p : Fin dim → Fin nS → ℝ) (w : Fin nS → ℝ), packQU p w (ix (Fin.last dim) i) 0 = w i := fun p w => congrFun (uOf_pack p w) i
    simpa only [x, e] using h6

/-- The flux of differentiable families. -/
theorem flux_deriv (F : Form dim nS nB ℝ) (tau : ℝ) {l : ℝ → Fin (2 * dim) → Fin nB → ℝ} {q : ℝ → Fin dim → Fin nS → ℝ} {u : ℝ → Fin nS → ℝ} {l' q' u'} {t : ℝ}
    (hl : HasDerivAt l l' t) (hq : HasDerivAt q q' t) (hu : HasDerivAt u u' t) :
    HasDerivAt (fun t => faceFlux F tau (l t) (q t) (u t)) (faceFlux F tau l' q' u') t := by
  refine hasDerivAt_pi.mpr fun f => hasDerivAt_pi.mpr fun j => ?_
  simp only [faceFlux, Pi.sub_apply, mulVec, dotProduct, Pi.add_apply, Finset.sum_apply, Pi.smul_apply, smul_eq_mul]
  have hq' : ∀ d i, HasDerivAt (fun t => q t d i) (q' d i) t := fun d i => hasDerivAt_pi.mp (hasDerivAt_pi.mp hq d) i
  have hu' : ∀ i, HasDerivAt (fun t => u t i) (u' i) t := fun i => hasDerivAt_pi.mp hu i
  have hl' : ∀ f j, HasDerivAt (fun t => l t f j) (l' f j) t := fun f j => hasDerivAt_pi.mp (hasDerivAt_pi.mp hl f) j
  refine HasDerivAt.sub (HasDerivAt.fun_sum fun i _ => HasDerivAt.const_mul _ (HasDerivAt.add (HasDerivAt.fun_sum fun d _ => (hq' d i).const_mul _) ((hu' i).const_mul _)))
    ((hl' f j).const_mul _)

end HyperHDG.LDG

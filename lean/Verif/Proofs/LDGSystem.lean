import Verif.Proofs.LDG
import Verif.Proofs.DiffusionUniform

/-!
# The linear systems assembled by the LDG-H solvers
-/

set_option linter.unusedSectionVars false

namespace HyperHDG.LDG

open Spec Finset Matrix DiffusionUniform

variable {K : Type} {dim nS nB : Nat}

section Ring
variable [CommRing K]

/-- The blocks of the local matrix. -/
def block (F : Form dim nS nB K) (tau rho sigma : K) (b c : Fin (dim + 1)) : Matrix (Fin nS) (Fin nS) K :=
  if h : b.1 < dim then
    if c.1 < dim then if b = c then F.mass else 0
    else -F.grad ⟨b, h⟩
  else
    if h' : c.1 < dim then sigma • (-F.grad ⟨c, h'⟩ + ∑ f, F.normal f ⟨c, h'⟩ • F.bdr f)
    else rho • F.mass0 + (sigma * tau) • ∑ f, F.bdr f

/-- The blocks of the right-hand side. -/
def blockRhs (F : Form dim nS nB K) (tau sigma : K) (g : Fin (2 * dim) → Fin nS → K) (s : Fin nS → K) (b : Fin (dim + 1)) : Fin nS → K :=
  if h : b.1 < dim then -∑ f, F.normal f ⟨b, h⟩ • g f else s + (sigma * tau) • ∑ f, g f

theorem block_cc (F : Form dim nS nB K) (tau rho sigma : K) (b c : Fin dim) :
    block F tau rho sigma b.castSucc c.castSucc = if b = c then F.mass else 0 := by
  simp [block]

theorem block_cl (F : Form dim nS nB K) (tau rho sigma : K) (b : Fin dim) : block F tau rho sigma b.castSucc (Fin.last dim) = -F.grad b := by
  simp [block]

theorem block_lc (F : Form dim nS nB K) (tau rho sigma : K) (c : Fin dim) :
    block F tau rho sigma (Fin.last dim) c.castSucc = sigma • (-F.grad c + ∑ f, F.normal f c • F.bdr f) := by
  simp [block]

theorem block_ll (F : Form dim nS nB K) (tau rho sigma : K) :
    block F tau rho sigma (Fin.last dim) (Fin.last dim) = rho • F.mass0 + (sigma * tau) • ∑ f, F.bdr f := by
  simp [block]

theorem rhs_c (F : Form dim nS nB K) (tau sigma : K) (g : Fin (2 * dim) → Fin nS → K) (s : Fin nS → K) (b : Fin dim) :
    blockRhs F tau sigma g s b.castSucc = -∑ f, F.normal f b • g f := by simp [blockRhs]

theorem rhs_l (F : Form dim nS nB K) (tau sigma : K) (g : Fin (2 * dim) → Fin nS → K) (s : Fin nS → K) :
    blockRhs F tau sigma g s (Fin.last dim) = s + (sigma * tau) • ∑ f, g f := by simp [blockRhs]

/-- `A` consists of the blocks. -/
def IsMat (F : Form dim nS nB K) (tau rho sigma : K) (A : Matrix (Fin ((dim + 1) * nS)) (Fin ((dim + 1) * nS)) K) : Prop :=
  ∀ b i c j, A (ix b i) (ix c j) = block F tau rho sigma b c i j

def IsRhs (F : Form dim nS nB K) (tau sigma : K) (g : Fin (2 * dim) → Fin nS → K) (s : Fin nS → K)
    (v : Matrix (Fin ((dim + 1) * nS)) (Fin 1) K) : Prop :=
  ∀ b i, v (ix b i) 0 = blockRhs F tau sigma g s b i

theorem system_iff (F : Form dim nS nB K) (tau rho sigma : K) (g : Fin (2 * dim) → Fin nS → K) (s : Fin nS → K)
    (A : Matrix (Fin ((dim + 1) * nS)) (Fin ((dim + 1) * nS)) K) (hA : IsMat F tau rho sigma A)
    (v : Matrix (Fin ((dim + 1) * nS)) (Fin 1) K) (hv : IsRhs F tau sigma g s v) (x : Matrix (Fin ((dim + 1) * nS)) (Fin 1) K) :
    A * x = v ↔ IsSolution F tau rho sigma g s (qOf x) (uOf x) := by
  have hA' : ∀ b i c j, A (ix b i) (ix c j) = block F tau rho sigma b c i j := hA
  have hv' : ∀ b i, v (ix b i) 0 = blockRhs F tau sigma g s b i := hv
  have hrow : ∀ (b : Fin (dim + 1)), (fun i : Fin nS => (A * x) (ix b i) 0) = (∑ c : Fin dim, block F tau rho sigma b c.castSucc *ᵥ qOf x c) +
      block F tau rho sigma b (Fin.last dim) *ᵥ uOf x := by
    intro b
    funext i
    rw [Matrix.mul_apply, sum_ix]
    simp only [hA']
    rw [Fin.sum_univ_castSucc]
    simp [mulVec, dotProduct, qOf, uOf]
  have hflux : ∀ d : Fin dim, (∀ i : Fin nS, (A * x) (ix d.castSucc i) 0 = v (ix d.castSucc i) 0) ↔
      F.mass *ᵥ qOf x d - F.grad d *ᵥ uOf x + ∑ f, F.normal f d • g f = 0 := by
    intro d
    have h1 : (∑ c : Fin dim, block F tau rho sigma d.castSucc c.castSucc *ᵥ qOf x c) = F.mass *ᵥ qOf x d := by
      rw [Finset.sum_eq_single d]
      · simp [block_cc]
      · intro c _ hc; simp [block_cc, Ne.symm hc]
      · simp
    have h2 : (∀ i : Fin nS, (A * x) (ix d.castSucc i) 0 = v (ix d.castSucc i) 0) ↔
        (fun i : Fin nS => (A * x) (ix d.castSucc i) 0) = blockRhs F tau sigma g s d.castSucc := by
      simp only [hv' d.castSucc]
      exact ⟨fun h => funext h, fun h i => congrFun h i⟩
    rw [h2, hrow, h1, block_cl, rhs_c, neg_mulVec, ← sub_eq_add_neg, eq_neg_iff_add_eq_zero]
  have hprimal : (∀ i : Fin nS, (A * x) (ix (Fin.last dim) i) 0 = v (ix (Fin.last dim) i) 0) ↔
      rho • F.mass0 *ᵥ uOf x + sigma • (-(∑ d, F.grad d *ᵥ qOf x d) +
        ∑ f, (F.bdr f *ᵥ (∑ d, F.normal f d • qOf x d + tau • uOf x) - tau • g f)) = s := by
    have h2 : (∀ i : Fin nS, (A * x) (ix (Fin.last dim) i) 0 = v (ix (Fin.last dim) i) 0) ↔
        (fun i : Fin nS => (A * x) (ix (Fin.last dim) i) 0) = blockRhs F tau sigma g s (Fin.last dim) := by
      simp only [hv' (Fin.last dim)]
      exact ⟨fun h => funext h, fun h i => congrFun h i⟩
    rw [h2, hrow, block_ll, rhs_l, ← sub_eq_iff_eq_add]
    have h3 : (∑ c : Fin dim, block F tau rho sigma (Fin.last dim) c.castSucc *ᵥ qOf x c) + (rho • F.mass0 + (sigma * tau) • ∑ f, F.bdr f) *ᵥ uOf x -
        (sigma * tau) • ∑ f, g f = rho • F.mass0 *ᵥ uOf x + sigma • (-(∑ d, F.grad d *ᵥ qOf x d) +
        ∑ f, (F.bdr f *ᵥ (∑ d, F.normal f d • qOf x d + tau • uOf x) - tau • g f)) := by
      simp only [block_lc, smul_mulVec, add_mulVec, neg_mulVec, sum_mulVec, mulVec_add, mulVec_sum, mulVec_smul, Finset.sum_add_distrib,
        Finset.sum_sub_distrib, ← Finset.smul_sum, mul_smul, Finset.sum_neg_distrib, smul_add, smul_sub, smul_neg]
      rw [Finset.sum_comm]
      abel
    rw [h3]
  constructor
  · intro h
    exact ⟨fun d => (hflux d).mp fun i => congrFun (congrFun h _) _, hprimal.mp fun i => congrFun (congrFun h _) _⟩
  · rintro ⟨h1, h2⟩
    funext k l
    obtain ⟨b, i, rfl⟩ := ix_surj k
    obtain rfl : l = 0 := Subsingleton.elim _ _
    induction b using Fin.lastCases with
    | last => exact hprimal.mpr h2 i
    | cast d => exact (hflux d).mpr (h1 d) i

end Ring

section Field
variable [Field K]

theorem isUnit_iff (F : Form dim nS nB K) (tau rho sigma : K) (A : Matrix (Fin ((dim + 1) * nS)) (Fin ((dim + 1) * nS)) K)
    (hA : IsMat F tau rho sigma A) : IsUnit A ↔ Solvable F tau rho sigma := by
  have hv : IsRhs F tau sigma 0 0 (0 : Matrix (Fin ((dim + 1) * nS)) (Fin 1) K) := by
    intro b i
    induction b using Fin.lastCases with
    | last => simp [rhs_l]
    | cast d => simp [rhs_c]
  constructor
  · intro hu q u h
    have hinv' := Matrix.nonsing_inv_mul A ((Matrix.isUnit_iff_isUnit_det _).mp hu)
    have h' := (system_iff F tau rho sigma 0 0 A hA 0 hv (packQU q u)).mpr (by simpa only [qOf_pack, uOf_pack] using h)
    have h2 : packQU q u = 0 := by
      have := congrArg (fun X => A⁻¹ * X) h'
      simpa only [← Matrix.mul_assoc, hinv', Matrix.one_mul, Matrix.mul_zero] using this
    constructor
    · rw [← qOf_pack q u, h2]; rfl
    · rw [← uOf_pack q u, h2]; rfl
  · intro h
    rw [← Matrix.mulVec_injective_iff_isUnit]
    intro x y hxy
    have hw : A.mulVec (x - y) = 0 := by rw [Matrix.mulVec_sub]; exact sub_eq_zero.mpr hxy
    have h1 := h _ _ ((system_iff F tau rho sigma 0 0 A hA 0 hv (Matrix.of fun k (_ : Fin 1) => (x - y) k)).mp (by
      funext k l
      exact congrFun hw k))
    have h2 : (Matrix.of fun k (_ : Fin 1) => (x - y) k) = (0 : Matrix (Fin ((dim + 1) * nS)) (Fin 1) K) := ext_of h1.1 h1.2
    exact sub_eq_zero.mp (funext fun k => congrFun (congrFun h2 k) 0)

theorem solve_spec (F : Form dim nS nB K) (tau rho sigma : K) (gesv : Gesv ((dim + 1) * nS) 1 K) (hg : GesvSpec gesv)
    (A : SmallMat ((dim + 1) * nS) ((dim + 1) * nS) K) (hA : IsMat F tau rho sigma (toMat A)) (v : SmallVec ((dim + 1) * nS) K) :
    (Solvable F tau rho sigma → ∃ x, solve gesv v A = .ok x ∧
      ∀ g s, IsRhs F tau sigma g s (toMat v) → IsSolution F tau rho sigma g s (qOf (toMat x)) (uOf (toMat x))) ∧
    (¬ Solvable F tau rho sigma → solve gesv v A = .throw .lapack) := by
  rw [← isUnit_iff F tau rho sigma (toMat A) hA]
  constructor
  · intro hu
    obtain ⟨LU, X, x, h2, h3, h4⟩ := hg.regular A v (toMat A) (toMat v) (represents_iff.mpr rfl) (represents_iff.mpr rfl) hu
    rw [represents_iff] at h3
    subst h3
    refine ⟨X, ?_, fun g s hv => (system_iff F tau rho sigma g s _ hA _ hv _).mp h4⟩
    unfold solve solve_in_place
    rw [h2]; rfl
  · intro hu
    have h2 := hg.singular A v (toMat A) (represents_iff.mpr rfl) hu
    unfold solve solve_in_place
    rw [h2]; rfl

end Field

end HyperHDG.LDG

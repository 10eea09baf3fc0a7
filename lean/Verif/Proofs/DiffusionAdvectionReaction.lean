import Verif.Spec.DiffusionAdvectionReaction
import Verif.Proofs.Blocks

/-!
# Lemmas about the local solver for diffusion, advection and reaction
-/

set_option linter.unusedSectionVars false

namespace HyperHDG.DAR

open Spec hiding IsSolution Solvable solution_lin solution_unique
open Spec.DAR Finset Matrix
open LDG (blockRhs rhs_c rhs_l IsRhs)
open DiffusionUniform (qOf uOf)
open Diffusion (hl hd mk_last mk_cast locAdd matrix_loop form dirichletMoments source offDirichlet dataOf catch_ok catch_throw writeFlux_eq writeMassFlux_eq)
open Blocks (blk Regular)

variable {K : Type} {dim nS nB : Nat}

section Assembly
variable [CommRing K]

theorem locMatrixStep_eq (m : Mode) (E : Edge dim nS K) (tau time : K) (i j : Fin nS) (M : SmallMat ((dim + 1) * nS) ((dim + 1) * nS) K) :
    locMatrixStep m E tau time i j M = .ok (M + locAdd (tau * ∑ f : Fin (2 * dim), E.bdr_phiphi i j f + E.vol_phiphireact time i j) (E.vol_phiphifunc time i j)
      (fun d => -E.vol_nablaphiphi i j d + ∑ f : Fin (2 * dim), E.bdr_phiphi i j f * E.local_normal f d)
      (fun d => -E.vol_nablaphiphi i j d + -E.vol_phiphivecfunc 0 i j d) i j) := by
  unfold locMatrixStep
  have hface : forUp (2 * dim) (fun face (s : K × (Fin dim → K)) => do
      let helper := E.bdr_phiphi i j face
      return (s.1 + helper, fun d => s.2 d + helper * E.local_normal face d)) (0, fun _ => 0) =
      .ok (∑ f : Fin (2 * dim), E.bdr_phiphi i j f, fun d => ∑ f : Fin (2 * dim), E.bdr_phiphi i j f * E.local_normal f d) := by
    rw [forUp_add (2 * dim) _ (fun f => ((E.bdr_phiphi i j f, fun d => E.bdr_phiphi i j f * E.local_normal f d) : K × (Fin dim → K))) (fun _ _ => rfl)]
    refine congrArg Res.ok (Prod.ext ?_ ?_)
    · simp [Prod.fst_sum]
    · funext d; simp [Prod.snd_sum, Finset.sum_apply]
  dsimp only
  rw [hface, Res.ok_bind, addAt_single m _ (hl i) (hl j), Res.ok_bind]
  rw [forUp_add dim _ (fun d => singleMat (ix d.castSucc i) (ix d.castSucc j) (E.vol_phiphifunc time i j) +
    singleMat (ix (Fin.last dim) i) (ix d.castSucc j) (-E.vol_nablaphiphi i j d) +
    singleMat (ix d.castSucc i) (ix (Fin.last dim) j) (-E.vol_nablaphiphi i j d) +
    singleMat (ix (Fin.last dim) i) (ix d.castSucc j) (∑ f : Fin (2 * dim), E.bdr_phiphi i j f * E.local_normal f d) +
    singleMat (ix d.castSucc i) (ix (Fin.last dim) j) (-E.vol_phiphivecfunc 0 i j d))]
  · unfold locAdd
    rw [add_assoc, mk_last, mk_last]
    refine congrArg Res.ok (congrArg _ (congrArg _ (Finset.sum_congr rfl fun d _ => ?_)))
    have : ∀ (r c : Fin ((dim + 1) * nS)) (x y : K), singleMat r c (x + y) = singleMat r c x + singleMat r c y := fun r c x y => Pi.single_add _ _ _
    rw [this, this]
    abel
  · intro d M
    dsimp only
    rw [addAt_single m M (hd d i) (hd d j), Res.ok_bind, arrGet_lt _ d.2, Res.ok_bind, subAt_single m _ (hl i) (hd d j), Res.ok_bind,
      subAt_single m _ (hd d i) (hl j), Res.ok_bind, arrGet_lt _ d.2, Res.ok_bind, addAt_single m _ (hl i) (hd d j), Res.ok_bind,
      subAt_single m _ (hd d i) (hl j)]
    refine congrArg Res.ok ?_
    simp only [← add_assoc]
    rfl

/-- The blocks of the local matrix. -/
def block (F : Form dim nS nB K) (C : Coeffs dim nS K) (tau : K) (b c : Fin (dim + 1)) : Matrix (Fin nS) (Fin nS) K :=
  if h : b.1 < dim then
    if c.1 < dim then if b = c then F.mass else 0
    else -F.grad ⟨b, h⟩ - C.advect ⟨b, h⟩
  else
    if h' : c.1 < dim then -F.grad ⟨c, h'⟩ + ∑ f, F.normal f ⟨c, h'⟩ • F.bdr f
    else C.react + tau • ∑ f, F.bdr f

theorem assemble_loc_matrix_spec (m : Mode) (E : Edge dim nS K) (nB : Nat) (tau time : K) :
    ∃ A, assemble_loc_matrix m E tau time = .ok A ∧ ∀ b i c j, toMat A (ix b i) (ix c j) = block (form E.toEdge nB time) (coeffs E 0 time) tau b c i j := by
  obtain ⟨A, h1, h2⟩ := matrix_loop (fun i j M => locMatrixStep m E tau time i j M) _ _ _ _ (fun i j M => locMatrixStep_eq m E tau time i j M)
  refine ⟨A, h1, fun b i c j => ?_⟩
  rw [h2]
  unfold block
  split
  next h =>
    split
    next h' => split <;> simp [form]
    next h' => simp [form, coeffs, sub_eq_add_neg]
  next h =>
    split
    next h' => simp [form, Matrix.sum_apply, mul_comm]
    next h' => simp [form, coeffs, Matrix.sum_apply, add_comm]

/-- The vector of the components of a solution. -/
def joined (q : Fin dim → Fin nS → K) (u : Fin nS → K) : Fin (dim + 1) → Fin nS → K := fun b => if h : b.1 < dim then q ⟨b, h⟩ else u

theorem joined_cast (q : Fin dim → Fin nS → K) (u : Fin nS → K) (d : Fin dim) : joined q u d.castSucc = q d := by simp [joined]
theorem joined_last (q : Fin dim → Fin nS → K) (u : Fin nS → K) : joined q u (Fin.last dim) = u := by simp [joined]

theorem joined_eq (y : Fin (dim + 1) → Fin nS → K) : joined (fun d => y d.castSucc) (y (Fin.last dim)) = y := by
  funext b
  induction b using Fin.lastCases with
  | last => rw [joined_last]
  | cast d => rw [joined_cast]

theorem blk_eq (x : SmallVec ((dim + 1) * nS) K) : blk x = joined (qOf (toMat x)) (uOf (toMat x)) := (joined_eq (blk x)).symm

theorem system_iff (F : Form dim nS nB K) (C : Coeffs dim nS K) (tau : K) (g : Fin (2 * dim) → Fin nS → K) (s : Fin nS → K) (q : Fin dim → Fin nS → K) (u : Fin nS → K) :
    (∀ b, ∑ c, block F C tau b c *ᵥ joined q u c = blockRhs F tau 1 g s b) ↔ IsSolution F C tau g s q u := by
  have hrow : ∀ b, ∑ c, block F C tau b c *ᵥ joined q u c = (∑ c : Fin dim, block F C tau b c.castSucc *ᵥ q c) + block F C tau b (Fin.last dim) *ᵥ u := fun b => by
    rw [Fin.sum_univ_castSucc]
    simp only [joined_cast, joined_last]
  have hflux : ∀ d : Fin dim, ∑ c, block F C tau d.castSucc c *ᵥ joined q u c = blockRhs F tau 1 g s d.castSucc ↔
      F.mass *ᵥ q d - F.grad d *ᵥ u - C.advect d *ᵥ u + ∑ f, F.normal f d • g f = 0 := by
    intro d
    have h1 : (∑ c : Fin dim, block F C tau d.castSucc c.castSucc *ᵥ q c) = F.mass *ᵥ q d := by
      rw [Finset.sum_eq_single d]
      · simp [block]
      · intro c _ hc; simp [block, Ne.symm hc]
      · simp
    rw [hrow, h1, rhs_c, eq_neg_iff_add_eq_zero]
    simp only [block, Fin.val_castSucc, d.2, dif_pos, Fin.val_last, lt_irrefl, if_false, sub_mulVec, neg_mulVec]
    rw [show ∀ a b c e : Fin nS → K, a + (-b - c) + e = a - b - c + e from fun a b c e => by abel]
  have hprimal : ∑ c, block F C tau (Fin.last dim) c *ᵥ joined q u c = blockRhs F tau 1 g s (Fin.last dim) ↔
      C.react *ᵥ u - ∑ d, F.grad d *ᵥ q d + ∑ f, (F.bdr f *ᵥ (∑ d, F.normal f d • q d + tau • u) - tau • g f) = s := by
    rw [hrow, rhs_l, ← sub_eq_iff_eq_add]
    have : (∑ c : Fin dim, block F C tau (Fin.last dim) c.castSucc *ᵥ q c) + block F C tau (Fin.last dim) (Fin.last dim) *ᵥ u - (1 * tau) • ∑ f, g f =
        C.react *ᵥ u - ∑ d, F.grad d *ᵥ q d + ∑ f, (F.bdr f *ᵥ (∑ d, F.normal f d • q d + tau • u) - tau • g f) := by
      have h1 : ∀ c : Fin dim, block F C tau (Fin.last dim) c.castSucc = -F.grad c + ∑ f, F.normal f c • F.bdr f := fun c => by simp [block]
      have h2 : block F C tau (Fin.last dim) (Fin.last dim) = C.react + tau • ∑ f, F.bdr f := by simp [block]
      simp only [h1, h2, smul_mulVec, add_mulVec, neg_mulVec, sum_mulVec, mulVec_add, mulVec_sum, mulVec_smul, Finset.sum_add_distrib,
        Finset.sum_sub_distrib, ← Finset.smul_sum, one_mul, Finset.sum_neg_distrib]
      rw [Finset.sum_comm]
      abel
    rw [this]
  constructor
  · intro h
    exact ⟨fun d => (hflux d).mp (h _), hprimal.mp (h _)⟩
  · rintro ⟨h1, h2⟩ b
    induction b using Fin.lastCases with
    | last => exact hprimal.mpr h2
    | cast d => exact (hflux d).mpr (h1 d)

theorem rhs_zero (F : Form dim nS nB K) (tau : K) (b : Fin (dim + 1)) : blockRhs F tau 1 0 0 b = 0 := by
  induction b using Fin.lastCases with
  | last => simp [rhs_l]
  | cast d => simp [rhs_c]

theorem regular_iff (F : Form dim nS nB K) (C : Coeffs dim nS K) (tau : K) : Regular (block F C tau) ↔ Solvable F C tau := by
  constructor
  · intro h q u hs
    have h1 := h (joined q u) fun b => by rw [(system_iff F C tau 0 0 q u).mpr hs, rhs_zero]
    exact ⟨funext fun d => by rw [← joined_cast q u d, h1]; rfl, by rw [← joined_last q u, h1]; rfl⟩
  · intro h y hy
    rw [← joined_eq y] at hy ⊢
    obtain ⟨h1, h2⟩ := h _ _ ((system_iff F C tau 0 0 _ _).mp fun b => by rw [hy, rhs_zero])
    rw [h1, h2]
    funext b
    induction b using Fin.lastCases with
    | last => rw [joined_last]; rfl
    | cast d => rw [joined_cast]; rfl

end Assembly

section Solve
variable [Field K]

theorem solve_rhs (m : Mode) (gesv : Gesv ((dim + 1) * nS) 1 K) (hg : GesvSpec gesv) (E : Edge dim nS K) (tau time : K) (rhs : SmallVec ((dim + 1) * nS) K)
    (g : Fin (2 * dim) → Fin nS → K) (s : Fin nS → K) (hr : IsRhs (form E.toEdge nB time) tau 1 g s (toMat rhs)) :
    (Solvable (form E.toEdge nB time) (coeffs E 0 time) tau → ∃ x, catchLapack m (do let A ← assemble_loc_matrix m E tau time; solve gesv rhs A) = .ok x ∧
      IsSolution (form E.toEdge nB time) (coeffs E 0 time) tau g s (qOf (toMat x)) (uOf (toMat x))) ∧
    (¬ Solvable (form E.toEdge nB time) (coeffs E 0 time) tau → catchLapack m (do let A ← assemble_loc_matrix m E tau time; solve gesv rhs A) = solveFailure m) := by
  obtain ⟨A, hA1, hA2⟩ := assemble_loc_matrix_spec m E nB tau time
  obtain ⟨h1, h2⟩ := Blocks.solve_spec (block (form E.toEdge nB time) (coeffs E 0 time) tau) gesv hg A hA2 rhs
  rw [regular_iff] at h1 h2
  rw [hA1, Res.ok_bind]
  refine ⟨fun hs => ?_, fun hs => ?_⟩
  · obtain ⟨x, hx1, hx2⟩ := h1 hs
    refine ⟨x, by rw [hx1]; rfl, (system_iff _ _ _ _ _ _ _).mp fun b => ?_⟩
    rw [← blk_eq, hx2]
    exact funext fun i => hr b i
  · rw [h2 hs, catch_throw]

theorem solve_local_problem_spec (m : Mode) (gesv : Gesv ((dim + 1) * nS) 1 K) (hg : GesvSpec gesv) (E : Edge dim nS K) (tau time : K)
    (lambda : LocDofs dim nB K) (t : Nat) (ht : t = 0 ∨ t = 1) :
    (Solvable (form E.toEdge nB time) (coeffs E 0 time) tau → ∃ x, solve_local_problem m gesv E tau lambda t time = .ok x ∧
      IsSolution (form E.toEdge nB time) (coeffs E 0 time) tau (dataOf E.toEdge time lambda t).1 (dataOf E.toEdge time lambda t).2 (qOf (toMat x)) (uOf (toMat x))) ∧
    (¬ Solvable (form E.toEdge nB time) (coeffs E 0 time) tau → solve_local_problem m gesv E tau lambda t time = solveFailure m) := by
  obtain ⟨v, hv1, hv2⟩ := Diffusion.rhs_lambda_spec m E.toEdge tau time lambda
  obtain ⟨w, hw1, hw2⟩ := Diffusion.rhs_global_spec (nB := nB) m E.toEdge tau time
  have key : ∃ rhs, IsRhs (form E.toEdge nB time) tau 1 (dataOf E.toEdge time lambda t).1 (dataOf E.toEdge time lambda t).2 (toMat rhs) ∧
      solve_local_problem m gesv E tau lambda t time = catchLapack m (do let A ← assemble_loc_matrix m E tau time; solve gesv rhs A) := by
    rcases ht with rfl | rfl
    · refine ⟨v, by simpa [dataOf] using hv2, ?_⟩
      simp [solve_local_problem, hv1]
    · refine ⟨v + w, by simpa [dataOf] using Diffusion.isRhs_add hv2 hw2, ?_⟩
      simp [solve_local_problem, hv1, hw1, Diffusion.add_mat_spec]
  obtain ⟨rhs, hr1, hr2⟩ := key
  rw [hr2]
  exact solve_rhs m gesv hg E tau time rhs _ _ hr1

theorem solve_mass_problem_spec (m : Mode) (gesv : Gesv ((dim + 1) * nS) 1 K) (hg : GesvSpec gesv) (E : Edge dim nS K) (tau time : K)
    (y : SmallVec ((dim + 1) * nS) K) (hs : Solvable (form E.toEdge nB time) (coeffs E 0 time) tau) :
    ∃ x, solve_mass_problem m gesv E tau y time = .ok x ∧
      IsSolution (form E.toEdge nB time) (coeffs E 0 time) tau 0 ((form E.toEdge nB time).mass0 *ᵥ uOf (toMat y)) (qOf (toMat x)) (uOf (toMat x)) := by
  obtain ⟨v, hv1, hv2⟩ := Diffusion.rhs_coeffs_spec (nB := nB) m E.toEdge tau time y
  obtain ⟨x, hx1, hx2⟩ := (solve_rhs m gesv hg E tau time v _ _ hv2).1 hs
  exact ⟨x, by rw [← hx1]; simp [solve_mass_problem, hv1], hx2⟩

end Solve

section Linear
variable [CommRing K] {F : Form dim nS nB K} {C : Coeffs dim nS K} {tau : K} {g g' : Fin (2 * dim) → Fin nS → K} {s s' : Fin nS → K}
  {lambda mu : Fin (2 * dim) → Fin nB → K} {q q' : Fin dim → Fin nS → K} {u u' : Fin nS → K}

theorem solution_lin (a b : K) (h : IsSolution F C tau g s q u) (h' : IsSolution F C tau g' s' q' u') :
    IsSolution F C tau (a • g + b • g') (a • s + b • s') (a • q + b • q') (a • u + b • u') := by
  constructor
  · intro d
    have h1 := congrArg (fun x => a • x) (h.flux d)
    have h2 := congrArg (fun x => b • x) (h'.flux d)
    have h3 := congrArg₂ (· + ·) h1 h2
    simp only [smul_zero, add_zero] at h3
    rw [← h3]
    simp only [Pi.add_apply, Pi.smul_apply, mulVec_add, mulVec_smul, smul_add, smul_sub, Finset.smul_sum, Finset.sum_add_distrib, smul_comm a, smul_comm b]
    abel
  · have h1 := congrArg (fun x => a • x) h.primal
    have h2 := congrArg (fun x => b • x) h'.primal
    have h3 := congrArg₂ (· + ·) h1 h2
    rw [← h3]
    simp only [Pi.add_apply, Pi.smul_apply, mulVec_add, mulVec_smul, mulVec_sum, smul_add, smul_sub, Finset.smul_sum, Finset.sum_add_distrib,
      Finset.sum_sub_distrib, smul_comm a, smul_comm b]
    module

theorem solution_unique (hS : Solvable F C tau) (h : IsSolution F C tau g s q u) (h' : IsSolution F C tau g s q' u') : q = q' ∧ u = u' := by
  have := solution_lin 1 (-1) h h'
  simp only [one_smul, neg_smul, add_neg_cancel] at this
  obtain ⟨h1, h2⟩ := hS _ _ this
  exact ⟨by rwa [← sub_eq_add_neg, sub_eq_zero] at h1, by rwa [← sub_eq_add_neg, sub_eq_zero] at h2⟩

end Linear

end HyperHDG.DAR

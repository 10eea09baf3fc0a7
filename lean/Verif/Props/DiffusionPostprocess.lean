import Verif.Proofs.DiffusionPostprocess
import Verif.Props.Diffusion

/-!
# Property C78: the error of the postprocessed solution

`E` is what the solver knows about a hyperedge, `form E.toEdge nB time` its integrals for the LDG-H method (`Verif/Spec/LDG.lean`), `postForm E time` those for the
postprocessing (`Verif/Spec/Postprocess.lean`).  The functions of the class other than `errors` are those of `Diffusion`, for which see C21 and C48.
-/

namespace HyperHDG.DiffusionPostprocess

open Finset Spec Matrix DiffusionUniform Diffusion

variable {dim nS nP nB : Nat} {K : Type}

theorem postprocessed_unique [CommRing K] {F : PostForm dim nS nP K} (hF : Postprocessable F) {q : Fin dim → Fin nS → K} {u : Fin nS → K} {w w' : Fin nP → K}
    (h : IsPostprocessed F q u w) (h' : IsPostprocessed F q u w') : w = w' := by
  refine sub_eq_zero.mp (hF _ ?_ ?_)
  · rw [Matrix.mulVec_sub, h.flux, h'.flux, sub_self]
  · rw [dotProduct_sub, h.mean, h'.mean, sub_self]

section
variable [Field K] (m : Mode) (gesv : Gesv ((dim + 1) * nS) 1 K) (hg : GesvSpec gesv) (gesv_pp : Gesv nP 1 K) (hgp : GesvSpec gesv_pp) (tau : K)
  (E : Edge dim nS nP K) (time : K) (hP : 0 < nP) (hS : 0 < nS) (hE : ConstantFirst E time)

include hg hgp hP hS hE

/-- **C78** (what `errors` computes).  If the local problem and the postprocessing problem are uniquely solvable, `errors` compares the analytic result with the function `w`
of degree `k + 1` which satisfies `(kappa grad w, grad Phi) = - (q, grad Phi)` for all `Phi` of degree `k + 1` and has the mean value of `u`, where `q`, `u` is the local
solution with source and Dirichlet data.  Every function with these properties is `w`. -/
theorem C78_errors (hs : Solvable (form E.toEdge nB time) tau 0 1) (hp : Postprocessable (postForm E time)) (lambda : LocDofs dim nB K) :
    ∃ q u w, IsSolution (form E.toEdge nB time) tau 0 1 (moments (form E.toEdge nB time) lambda + dirichletMoments E.toEdge time) (source E.toEdge time) q u ∧
      IsPostprocessed (postForm E time) q u w ∧ (∀ w', IsPostprocessed (postForm E time) q u w' → w' = w) ∧
      errors m gesv gesv_pp tau lambda E time = .ok (fun _ => E.pp_diffsquare time w) := by
  obtain ⟨x, h1, h2⟩ := (solve_local_problem_spec m gesv hg E.toEdge tau time lambda 1 (.inr rfl)).1 hs
  obtain ⟨sol, h3, h4⟩ := (solve_pp m gesv_pp hgp E time hP hS hE x).1 hp
  refine ⟨_, _, _, h2, h4, fun w' hw' => postprocessed_unique hp hw' h4, ?_⟩
  unfold errors
  rw [h1, Res.ok_bind]
  obtain ⟨M, hM, h5⟩ := Res.bind_eq_ok.mp h3
  obtain ⟨v, hv, h6⟩ := Res.bind_eq_ok.mp h5
  rw [hM, Res.ok_bind, hv, Res.ok_bind, h6, Res.ok_bind]
  refine congrArg Res.ok (funext fun _ => congrArg _ (funext fun i => ?_))
  show sol _ = sol (pos i 0)
  congr 1
  simp [pos]

/-- **C78** (failure).  If the local problem is not uniquely solvable, the debug build aborts and the release build throws LAPACK's exception.  If only the postprocessing
problem is not uniquely solvable, both builds throw it (it is not turned into the message of the local solver). -/
theorem C78_failure (lambda : LocDofs dim nB K) :
    (¬ Solvable (form E.toEdge nB time) tau 0 1 → errors m gesv gesv_pp tau lambda E time = solveFailure m) ∧
    (Solvable (form E.toEdge nB time) tau 0 1 → ¬ Postprocessable (postForm E time) → errors m gesv gesv_pp tau lambda E time = .throw .lapack) := by
  obtain ⟨k1, k2⟩ := solve_local_problem_spec m gesv hg E.toEdge tau time lambda 1 (.inr rfl)
  refine ⟨fun hs => ?_, fun hs hp => ?_⟩
  · unfold errors
    rw [k2 hs]
    cases m <;> rfl
  · obtain ⟨x, h1, h2⟩ := k1 hs
    have h3 := (solve_pp m gesv_pp hgp E time hP hS hE x).2 hp
    obtain ⟨M, hM, _⟩ := ppMatrix_spec m E time hP
    obtain ⟨v, hv, _⟩ := ppVector_spec m E x hP hS
    rw [hM, Res.ok_bind, hv, Res.ok_bind] at h3
    unfold errors
    rw [h1, Res.ok_bind, hM, Res.ok_bind, hv, Res.ok_bind, h3]
    rfl

/-- **C78** (exactness).  Let `q`, `u` be the local solution and `p` a function of degree `k + 1` with the mean value of `u` whose flux `- kappa grad p` agrees with `q` when
tested by gradients.  Then the number returned is the error of `p`. -/
theorem C78_exact (hs : Solvable (form E.toEdge nB time) tau 0 1) (hp : Postprocessable (postForm E time)) (lambda : LocDofs dim nB K)
    {q : Fin dim → Fin nS → K} {u : Fin nS → K}
    (hsol : IsSolution (form E.toEdge nB time) tau 0 1 (moments (form E.toEdge nB time) lambda + dirichletMoments E.toEdge time) (source E.toEdge time) q u)
    {p : Fin nP → K} (hflux : ∀ i, ((postForm E time).stiff *ᵥ p) i = -∑ d, ((postForm E time).grad d *ᵥ q d) i)
    (hmean : (postForm E time).meanP ⬝ᵥ p = (postForm E time).mean ⬝ᵥ u) :
    errors m gesv gesv_pp tau lambda E time = .ok (fun _ => E.pp_diffsquare time p) := by
  obtain ⟨q', u', w, h1, h2, h3, h4⟩ := C78_errors m gesv hg gesv_pp hgp tau E time hP hS hE hs hp lambda
  obtain ⟨rfl, rfl⟩ := solution_unique hs h1 hsol
  rw [h3 p ⟨funext fun i => ?_, hmean⟩, h4]
  rw [hflux, Pi.neg_apply, Finset.sum_apply]

end

section
variable [Field K] [LinearOrder K] [IsStrictOrderedRing K] (m : Mode) (gesv : Gesv ((dim + 1) * nS) 1 K) (hg : GesvSpec gesv) (gesv_pp : Gesv nP 1 K)
  (hgp : GesvSpec gesv_pp) (tau : K) (E : Edge dim nS nP K) (time : K) (hP : 0 < nP) (hS : 0 < nS) (hE : ConstantFirst E time)

include hP hE in
/-- **C78** (solvability of the postprocessing).  If the shape function number 0 does not vanish, and the energy of a function which is no multiple of it is positive, the
postprocessing problem is uniquely solvable. -/
theorem C78_postprocessable (h0 : 0 < E.pp_phiphi 0 0) (hpos : ∀ w : Fin nP → K, (∃ i, i.1 ≠ 0 ∧ w i ≠ 0) → 0 < w ⬝ᵥ (postForm E time).stiff *ᵥ w) :
    Postprocessable (postForm E time) := by
  intro w h1 h2
  have hne : ∀ i : Fin nP, i.1 ≠ 0 → w i = 0 := by
    intro i hi
    by_contra hw
    have := hpos w ⟨i, hi, hw⟩
    rw [h1, dotProduct_zero] at this
    exact lt_irrefl _ this
  have hm : (postForm E time).meanP ⬝ᵥ w = E.pp_phiphi 0 0 * w ⟨0, hP⟩ :=
    sum_first hP (fun i => E.pp_phiphi i 0 * w i) fun i hi => by rw [hE.ortho_pp i hi, zero_mul]
  rw [hm] at h2
  funext i
  by_cases hi : i.1 = 0
  · obtain ⟨i, hi'⟩ := i
    obtain rfl : i = 0 := hi
    exact (mul_eq_zero.mp h2).resolve_left h0.ne'
  · exact hne i hi

include hg hgp hP hS hE in
/-- **C78** (it returns).  For `tau > 0`, a positive diffusion coefficient and lawful integrals `errors` returns for every trace. -/
theorem C78_returns (ht : 0 < tau) (hF : FormLaws (form E.toEdge nB time)) (h0 : 0 < E.pp_phiphi 0 0)
    (hpos : ∀ w : Fin nP → K, (∃ i, i.1 ≠ 0 ∧ w i ≠ 0) → 0 < w ⬝ᵥ (postForm E time).stiff *ᵥ w) (lambda : LocDofs dim nB K) :
    ∃ err, errors m gesv gesv_pp tau lambda E time = .ok err := by
  have hs := (C21_solvable m gesv hg tau E.toEdge time hF ht lambda lambda).1
  obtain ⟨_, _, _, _, _, _, h⟩ := C78_errors m gesv hg gesv_pp hgp tau E time hP hS hE hs (C78_postprocessable E time hP hE h0 hpos) lambda
  exact ⟨_, h⟩

end

/-! ## The hypotheses can be met -/

namespace Example

open DiffusionUniform.Example

noncomputable def I1 := tensorIntegrator 1 1 B0

theorem I1_lawful : Lawful I1 1 1 1 := tensor_lawful (d := 0) B0 B0_lawful

/-- The unit interval. -/
def A1 : Affine 1 ℚ := ⟨1, !![1], fun _ => 1, fun f _ => if f = 0 then -1 else 1⟩

theorem A1_laws : AffineLaws A1 where
  vol_pos := by norm_num [A1]
  cof_inv := by
    rw [Matrix.isUnit_iff_isUnit_det, isUnit_iff_ne_zero]
    norm_num [A1]
  area_pos := fun _ => by norm_num [A1]
  piola := fun f d => by
    fin_cases f <;> fin_cases d <;> norm_num [A1, Spec.normal, axis]

/-- The unit interval with diffusion coefficient 1, without source and Dirichlet nodes; polynomial degree 0.  The functions of degree 1 are `1` and `2 x - 1`, the analytic
result is `1 + 3 x`, that is `5/2 + 3/2 (2 x - 1)`. -/
noncomputable def E1 : Edge 1 1 2 ℚ where
  vol_phiphi := fun i j => I1.vol_phiphi i j
  vol_phiphifunc := fun _ i j => I1.vol_phiphi i j
  vol_nablaphiphi := fun i j d => ∑ a : Fin 1, A1.cof a d * I1.vol_Dphiphi i j a
  bdr_phiphi := fun i j f => 1 * I1.bdr_phiphi i j f
  bdr_phipsi := fun i j f => 1 * I1.bdr_phipsi i j f
  vol_phifunc := fun _ _ => 0
  bdr_phifunc := fun _ _ _ => 0
  bdrUni_psifunc := fun _ _ _ => 0
  vol_diffsquare := fun _ c => (c 0 - 5 / 2) ^ 2 + 3 / 4
  local_normal := fun f => if h : f < 2 then A1.normal ⟨f, h⟩ else 0
  face_area := fun _ => 1
  node_descriptor := fun f => f
  dirichlet_nodes := []
  pp_nablaphinablaphifunc := fun _ i j => if i = 1 ∧ j = 1 then 4 else 0
  pp_phiphi := fun i j => if i = j then if i = 0 then 1 else 1 / 3 else 0
  pp_nablaphiphi := fun i j _ => if i = 1 ∧ j = 0 then 2 else 0
  pp_diffsquare := fun _ c => (c 0 - 5 / 2) ^ 2 + (c 1 - 3 / 2) ^ 2 / 3

theorem E1_laws (time : ℚ) : FormLaws (form E1.toEdge 1 time) := by
  have h : form E1.toEdge 1 time = affineForm I1 A1 (.of fun i j => I1.vol_phiphi i j) := by
    simp only [form, affineForm, E1]
    congr 1
    · ext i j; simp [A1]
    · funext f d
      rw [dif_pos f.2]
  rw [h]
  refine affine_laws I1 I1_lawful A1 A1_laws _ ?_ fun v hv => ?_
  · ext i j
    simp only [transpose_apply, of_apply, I1_lawful.vol_symm i j]
  · refine lt_of_lt_of_eq (I1_lawful.vol_pos v hv) ?_
    simp only [dotProduct, mulVec, of_apply, Finset.mul_sum]

theorem E1_first (time : ℚ) : ConstantFirst E1 time where
  stiff_row := fun j => by simp [E1]
  stiff_col := fun i => by simp [E1]
  grad_row := fun j d => by simp [E1]
  ortho_pp := fun i hi => by simp [E1, hi]
  ortho := fun j hj => absurd (by omega : j.1 = 0) hj
  same := by simp [E1, I1, tensorIntegrator]

theorem E1_pos (time : ℚ) (w : Fin 2 → ℚ) (h : ∃ i, i.1 ≠ 0 ∧ w i ≠ 0) : 0 < w ⬝ᵥ (postForm E1 time).stiff *ᵥ w := by
  obtain ⟨i, hi, hw⟩ := h
  obtain rfl : i = 1 := by omega
  simp [postForm, E1, dotProduct, mulVec]
  nlinarith [mul_self_pos.mpr hw]

/-- The hypotheses of C78 can be met.  The trace is that of `1 + 3 x`; the solution of degree 0 is `5/2`, with error `3/4`, the postprocessed solution has no error. -/
example : errors .debug (cramerSolve _ _ ℚ) (cramerSolve _ _ ℚ) 1 (fun f _ => if f = 0 then 1 else 4 : LocDofs 1 1 ℚ) E1 0 = .ok (fun _ => 0) := by
  have hs := (C21_solvable (nB := 1) .debug _ (C44_example _ _ ℚ) 1 E1.toEdge 0 (E1_laws 0) one_pos (fun _ _ => 0) (fun _ _ => 0)).1
  have hp := C78_postprocessable E1 0 (by norm_num) (E1_first 0) (by simp [E1]) (E1_pos 0)
  have h1 : SameExcept 1 1 0 0 0 := fun k hk h => absurd (by omega) h
  have h2 : SameFace 1 1 0 0 0 := fun k hk => absurd hk (by omega)
  rw [C78_exact .debug _ (C44_example _ _ ℚ) _ (C44_example _ _ ℚ) 1 E1 0 (by norm_num) (by norm_num) (E1_first 0) hs hp _ (q := fun _ _ => -3) (u := fun _ => 5 / 2)
    (p := ![5 / 2, 3 / 2])]
  · simp [E1]
  · constructor
    · intro d
      funext i
      fin_cases d
      fin_cases i
      simp [form, E1, moments, dirichletMoments, mulVec, dotProduct, I1, tensorIntegrator, h2, A1, B0]
      norm_num
    · funext i
      fin_cases i
      simp [form, E1, moments, dirichletMoments, mulVec, dotProduct, I1, tensorIntegrator, source, h1, h2, A1, B0]
      norm_num
  · intro i
    fin_cases i <;> norm_num [postForm, E1, mulVec, dotProduct]
  · simp [postForm, E1, dotProduct, I1, tensorIntegrator]

end Example

end HyperHDG.DiffusionPostprocess

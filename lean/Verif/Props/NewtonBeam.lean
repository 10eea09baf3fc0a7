import Verif.Props.NewtonExamples

/-!
# Property C91: a concrete case for the bilaplacian
-/

namespace HyperHDG.NewtonProgram.Beam

open Spec _root_.Topology Filter Matrix
open ParabolicProgram (LinearSolver)
open BilaplacianEigs BilaplacianEigs.Example HyGraph.Example LDG Bilaplacian
open DiffusionEigs.Example (interval interval_solution interval_flux)

/-- The two intervals, all values prescribed at both ends. -/
noncomputable abbrev clampedR (e : Nat) : BilaplacianEigs.Edge 1 1 ℝ := beam (fun _ => 1) (if e = 0 then [0] else [1])

/-- The wrapper. -/
noncomputable abbrev W : Wrapper := bilaplacianWrapper .debug (cramerSolve _ _ ℝ) 1 clampedR path2 (fun _ _ => 7) (fun _ _ => 8) (fun _ _ => 9)

/-- The trace with the given values for `u` and the Laplacian at the node in the middle, and zero else. -/
def trace (s t : ℝ) : Fin (path2.n_hyNodes * (2 * 1)) → ℝ := fun k => if k.1 = 2 then s else if k.1 = 3 then t else 0

theorem trace_eta (x : Fin (path2.n_hyNodes * (2 * 1)) → ℝ) (h : ∀ k, k.1 ≠ 2 → k.1 ≠ 3 → x k = 0) : x = trace (x ⟨2, by decide⟩) (x ⟨3, by decide⟩) := by
  funext k
  unfold trace
  split
  · rename_i h1
    exact congrArg x (Fin.ext h1)
  · split
    · rename_i h1
      exact congrArg x (Fin.ext h1)
    · rename_i h1 h2
      exact h k h1 h2

theorem sum_path (f : Fin (path2.n_hyNodes * (2 * 1)) → ℝ) (h : ∀ k, k.1 ≠ 2 → k.1 ≠ 3 → f k = 0) : ∑ k, f k = f ⟨2, by decide⟩ + f ⟨3, by decide⟩ := by
  have h1 : ∑ k, f k = f ⟨0, by decide⟩ + f ⟨1, by decide⟩ + f ⟨2, by decide⟩ + f ⟨3, by decide⟩ + f ⟨4, by decide⟩ + f ⟨5, by decide⟩ := Fin.sum_univ_six f
  rw [h1, h ⟨0, by decide⟩ (by decide) (by decide), h ⟨1, by decide⟩ (by decide) (by decide), h ⟨4, by decide⟩ (by decide) (by decide), h ⟨5, by decide⟩ (by decide) (by decide)]
  ring

theorem assemble_path (z : Fin path2.n_hyEdges → LocDofs 1 (2 * 1) ℝ) (h : ∀ (e : Fin path2.n_hyEdges) (f : Fin (2 * 1)) (j : Fin (2 * 1)), f.1 ∈ (if e.1 = 0 then [0] else [1]) → z e f j = 0) :
    assemble pathNodes z = trace (z ⟨0, by decide⟩ 1 0 + z ⟨1, by decide⟩ 0 0) (z ⟨0, by decide⟩ 1 1 + z ⟨1, by decide⟩ 0 1) := by
  funext k
  have h0 : assemble pathNodes z k = ∑ e : Fin 2, ∑ i : Fin 2, ∑ j : Fin 2, if dof (pathNodes e i) j = k then z e i j else 0 := rfl
  rw [h0, Fin.sum_univ_two, Fin.sum_univ_two, Fin.sum_univ_two]
  simp only [Fin.sum_univ_two]
  have e1 (j) : z ⟨0, by decide⟩ 0 j = 0 := h _ _ _ (by decide)
  have e2 (j) : z ⟨1, by decide⟩ 1 j = 0 := h _ _ _ (by decide)
  have e1' (j) : z (0 : Fin 2) 0 j = 0 := e1 j
  have e2' (j) : z (1 : Fin 2) 1 j = 0 := e2 j
  simp only [e1', e2']
  match k with
  | ⟨0, _⟩ => simp [dof, pathNodes, trace, Fin.ext_iff]
  | ⟨1, _⟩ => simp [dof, pathNodes, trace, Fin.ext_iff]
  | ⟨2, _⟩ => simp [dof, pathNodes, trace, Fin.ext_iff]; rfl
  | ⟨3, _⟩ => simp [dof, pathNodes, trace, Fin.ext_iff]; rfl
  | ⟨4, _⟩ => simp [dof, pathNodes, trace, Fin.ext_iff]
  | ⟨5, _⟩ => simp [dof, pathNodes, trace, Fin.ext_iff]

/-- The sums of the values at the two ends. -/
theorem ends (s t : ℝ) (e : Fin path2.n_hyEdges) (j : Fin (2 * 1)) : faceValues pathNodes (trace s t) e 0 j + faceValues pathNodes (trace s t) e 1 j = if j.1 = 0 then s else t := by
  match e, j with
  | ⟨0, _⟩, ⟨0, _⟩ => simp [faceValues, trace, dof, pathNodes]
  | ⟨0, _⟩, ⟨1, _⟩ => simp [faceValues, trace, dof, pathNodes]
  | ⟨1, _⟩, ⟨0, _⟩ => simp [faceValues, trace, dof, pathNodes]
  | ⟨1, _⟩, ⟨1, _⟩ => simp [faceValues, trace, dof, pathNodes]

theorem beam_solution_source (b : ℝ → ℝ) (dir : List Nat) (tau eig g : ℝ) (lambda : LocDofs 1 (2 * 1) ℝ) (q : Fin 1 → Fin 1 → ℝ) (u : Fin 1 → ℝ) (p : Fin 1 → Fin 1 → ℝ) (w : Fin 1 → ℝ) :
    EigSolution (beam b dir) 1 tau eig (moments (form (beam b dir).stat 1) (upper lambda)) (moments (form (beam b dir).stat 1) (lower lambda)) (fun _ => g) q u p w ↔
      (q 0 0 = lambda 0 0 - lambda 1 0 ∧ 2 * tau * u 0 = tau * (lambda 0 0 + lambda 1 0) + b eig * w 0) ∧
      (p 0 0 = lambda 0 1 - lambda 1 1 ∧ 2 * tau * w 0 = tau * (lambda 0 1 + lambda 1 1) + (eig * u 0 + g)) := by
  have h1 := interval_solution (fun _ => 1) dir tau 0 (upper lambda) (b eig * w 0) q u
  have h2 := interval_solution (fun _ => 1) dir tau 0 (lower lambda) (eig * u 0 + g) p w
  rw [neg_zero, one_mul, sub_zero] at h1 h2
  have e1 : coupling (beam b dir).stat eig *ᵥ w = fun _ => b eig * w 0 := by
    funext i
    simp [coupling, beam, interval, mulVec, dotProduct]
  have e2 : eig • ((form (beam b dir).stat 1).mass0 *ᵥ u) + (fun _ => g) = fun _ => eig * u 0 + g := by
    funext i
    simp [form, beam, interval, mulVec, dotProduct]
  unfold EigSolution
  rw [e1, e2]
  exact and_congr h1 h2

theorem beam_jacobian (m : Mode) {gesv : Gesv (n_loc_dofs 1 1) 1 ℝ} (hg : GesvSpec gesv) (dir : List Nat) (eig ev : ℝ) (he : ev ≠ 4) (l lv out : LocDofs 1 (2 * 1) ℝ) (u0 u w : ℝ)
    (h0 : (4 - ev) * u0 = 2 * (lv 0 0 + lv 1 0) + (lv 0 1 + lv 1 1)) (h1 : 2 * u = l 0 0 + l 1 0 + w) (h2 : 2 * w = l 0 1 + l 1 1 + ev * u + eig * u0) :
    BilaplacianEigs.jacobian_of_trace_to_flux m gesv 1 l out eig lv ev (beam (fun _ => 1) dir) = .ok (fun f j => if f.1 ∈ dir then 0 else
      if j.1 = 0 then (if f.1 = 0 then -(l 0 1 - l 1 1) else l 0 1 - l 1 1) + w - l f 1 else (if f.1 = 0 then -(l 0 0 - l 1 0) else l 0 0 - l 1 0) + u - l f 0) := by
  have he' : (4 : ℝ) - ev ≠ 0 := sub_ne_zero.mpr he.symm
  have hs : EigSolvable (beam (fun _ : ℝ => 1) dir) 1 1 ev := beam_solvable _ _ _ _ (by norm_num; exact he.symm) (by norm_num)
  obtain ⟨qa, ua, pa, wa, qb, ub, pb, wb, k1, k2, k3⟩ := (C66_computes m gesv hg 1 (beam (fun _ => 1) dir) ev l out eig lv).1 hs
  obtain ⟨⟨_, a1⟩, _, a2⟩ := (beam_solution _ _ _ _ _ _ _ _ _).mp k1
  have hua : ua 0 = u0 := mul_left_cancel₀ he' (by rw [h0]; linear_combination 2 * a1 + a2)
  have hsrc : (eig * (beam (fun _ : ℝ => 1) dir).area) • ua = fun _ => eig * u0 := by
    funext i
    rw [Subsingleton.elim i 0, ← hua]
    show (eig * 1) * ua 0 = _
    rw [mul_one]
  rw [hsrc] at k2
  have k2' := (beam_solution_source (fun _ => 1) dir 1 ev (eig * u0) l (fun _ _ => l 0 0 - l 1 0) (fun _ => u) (fun _ _ => l 0 1 - l 1 1) (fun _ => w)).mpr
    ⟨⟨rfl, by linear_combination h1⟩, rfl, by linear_combination h2⟩
  obtain ⟨rfl, rfl, rfl, rfl⟩ := eig_unique hs k2 k2'
  rw [k3]
  refine congrArg Res.ok (funext fun f => funext fun j => ?_)
  obtain ⟨k, rfl | rfl⟩ := Mixed.halves_cases j
  · rw [offDirichlet_up, beam_form, interval_flux, Subsingleton.elim k 0, one_mul, one_mul]
    by_cases hd : f.1 ∈ dir
    · rw [if_pos hd]; exact if_pos hd
    · rw [if_neg hd]; exact (if_neg hd).trans (if_pos (by decide : ((Mixed.up (0 : Fin 1)) : Nat) = 0)).symm
  · rw [offDirichlet_lo, beam_form, interval_flux, Subsingleton.elim k 0, one_mul, one_mul]
    by_cases hd : f.1 ∈ dir
    · rw [if_pos hd]; exact if_pos hd
    · rw [if_neg hd]; exact (if_neg hd).trans (if_neg (by decide : ¬ ((Mixed.lo (0 : Fin 1)) : Nat) = 0)).symm

/-- The fluxes: `u` and `w` are the local solution. -/
theorem flux (s t eig u w : ℝ) (he : eig ≠ 4) (h1 : 2 * u = s + w) (h2 : 2 * w = t + eig * u) : HasFlux W (trace s t) eig (trace (2 * (w - 2 * t)) (2 * (u - 2 * s))) := by
  have h := flux_of_local .debug path2 (fun eig => BilaplacianEigs.localOperator .debug (cramerSolve _ _ ℝ) 1 clampedR eig)
    (fun eig eig_val => BilaplacianEigs.localJacobian .debug (cramerSolve _ _ ℝ) 1 clampedR eig eig_val) (fun e l => BilaplacianEigs.make_initial l (clampedR e) 0) (fun _ _ => 7) (fun _ _ => 8) (fun _ _ => 9)
    pathNodes path2_wf (x := trace s t) (eig := eig)
    (fun e => beam_trace_to_flux .debug (C44_example _ _ ℝ) (fun _ => 1) (if e.1 = 0 then [0] else [1]) 1 eig (by norm_num; exact he.symm) (by norm_num) (faceValues pathNodes (trace s t) e) (fun _ _ => 0) u w
      (by rw [ends, if_pos (by decide)]; linear_combination h1) (by rw [ends, if_neg (by decide)]; linear_combination h2))
  refine Eq.mpr (congrArg (HasFlux W (trace s t) eig) (Eq.trans ?_ (assemble_path _ (fun e f j hf => if_pos hf)).symm)) h
  congr 1
  · simp [faceValues, trace, dof, pathNodes]
    ring
  · simp [faceValues, trace, dof, pathNodes]
    ring

/-- The Jacobian: `u0` is the local solution for the point, `u` and `w` that for the direction. -/
theorem jacobian_path (s t eig s' t' ev u0 u w : ℝ) (he : ev ≠ 4) (h0 : (4 - ev) * u0 = 2 * s' + t') (h1 : 2 * u = s + w) (h2 : 2 * w = t + ev * u + eig * u0) :
    HasJacobian W (trace s' t') ev (trace s t) eig (trace (2 * (w - 2 * t)) (2 * (u - 2 * s))) := by
  have h := jacobian_of_local .debug path2 (fun eig => BilaplacianEigs.localOperator .debug (cramerSolve _ _ ℝ) 1 clampedR eig)
    (fun eig eig_val => BilaplacianEigs.localJacobian .debug (cramerSolve _ _ ℝ) 1 clampedR eig eig_val) (fun e l => BilaplacianEigs.make_initial l (clampedR e) 0) (fun _ _ => 7) (fun _ _ => 8) (fun _ _ => 9)
    pathNodes path2_wf (x := trace s t) (eig := eig) (x_val := trace s' t') (eig_val := ev)
    (fun e => beam_jacobian .debug (C44_example _ _ ℝ) (if e.1 = 0 then [0] else [1]) eig ev he (faceValues pathNodes (trace s t) e) (faceValues pathNodes (trace s' t') e) (fun _ _ => 0) u0 u w
      (by rw [ends, ends, if_pos (by decide), if_neg (by decide)]; exact h0) (by rw [ends, if_pos (by decide)]; exact h1) (by rw [ends, if_neg (by decide)]; exact h2))
  refine Eq.mpr (congrArg (HasJacobian W (trace s' t') ev (trace s t) eig) (Eq.trans ?_ (assemble_path _ (fun e f j hf => if_pos hf)).symm)) h
  congr 1
  · simp [faceValues, trace, dof, pathNodes]
    ring
  · simp [faceValues, trace, dof, pathNodes]
    ring

theorem on_prescribed (k : Fin (path2.n_hyNodes * (2 * 1))) (h2 : k.1 ≠ 2) (h3 : k.1 ≠ 3) : OnPrescribed clampedR path2 pathNodes k := by
  intro e f j hj
  have h1 : (e.1 + f.1) * 2 + j.1 = k.1 := by
    have := congrArg Fin.val hj
    simpa [dof, pathNodes] using this
  have he : e.1 < 2 := e.2
  have hf := f.2
  have hjl := j.2
  have hk := k.2
  have h4 : f.1 ∈ (if e.1 = 0 then [0] else [1]) := by
    split <;> rw [List.mem_singleton] <;> omega
  show if _ then _ else _
  split
  · exact h4
  · exact h4

/-- The eigenpair: 2 for `u` and 3 for the Laplacian, normalised, and 9/4. -/
noncomputable def p : (Fin (path2.n_hyNodes * (2 * 1)) → ℝ) × ℝ := (trace (2 / √13) (3 / √13), 9 / 4)

theorem sqrt13 : (0 : ℝ) < √13 := Real.sqrt_pos.mpr (by norm_num)

/-- It is simple. -/
theorem simple : SimplePair W (OnPrescribed clampedR path2 pathNodes) p where
  zero := by
    have h := flux (2 / √13) (3 / √13) (9 / 4) (4 / √13) (6 / √13) (by norm_num) (by ring) (by ring)
    refine Eq.mpr (congrArg (HasFlux W (trace (2 / √13) (3 / √13)) (9 / 4)) ?_) h
    rw [trace_eta (0 : Fin (path2.n_hyNodes * (2 * 1)) → ℝ) (fun _ _ _ => rfl)]
    show trace 0 0 = _
    congr 1 <;> ring
  norm := by
    rw [sum_path _ (fun k h2 h3 => by simp [p, trace, h2, h3])]
    simp only [p, trace]
    have := Real.sq_sqrt (show (0 : ℝ) ≤ 13 by norm_num)
    have h13 := sqrt13.ne'
    simp only [if_true]
    norm_num [div_pow]
  simple u hu h1 h2 := by
    have h3 := trace_eta u.1 (fun k k2 k3 => hu k (on_prescribed k k2 k3))
    rw [sum_path _ (fun k k2 k3 => by simp [p, trace, k2, k3])] at h2
    have h2' : 2 / √13 * u.1 ⟨2, by decide⟩ + 3 / √13 * u.1 ⟨3, by decide⟩ = 0 := by simpa [p, trace] using h2
    generalize u.1 ⟨2, by decide⟩ = s at h3 h2'
    generalize u.1 ⟨3, by decide⟩ = t at h3 h2'
    have h13 := sqrt13.ne'
    have h5 : 2 * s + 3 * t = 0 := by
      field_simp at h2'
      linarith
    have h4 := jacobian_path s t u.2 (2 / √13) (3 / √13) (9 / 4) (4 / √13) ((2 * s + t + u.2 * (4 / √13)) * (4 / 7)) ((2 * t + 9 / 4 * s + 2 * (u.2 * (4 / √13))) * (4 / 7)) (by norm_num) (by ring) (by ring) (by ring)
    rw [← h3] at h4
    obtain ⟨l1, k1⟩ := h1
    obtain ⟨l2, k2⟩ := h4
    have h6 := (joined_inj (Res.ok.inj (k1.symm.trans k2))).1
    have h7 := congrFun h6 ⟨2, by decide⟩
    have h8 := congrFun h6 ⟨3, by decide⟩
    simp [trace] at h7 h8
    generalize hc : u.2 * (4 / √13) = c at h7 h8
    have hs : s = 0 := by linarith
    have ht : t = 0 := by linarith
    have hc0 : c = 0 := by linarith
    rw [hc0] at hc
    have he : u.2 = 0 := (mul_eq_zero.mp hc).resolve_right (by positivity)
    refine Prod.ext ?_ he
    rw [h3, hs, ht]
    exact (trace_eta (0 : Fin (path2.n_hyNodes * (2 * 1)) → ℝ) (fun _ _ _ => rfl)).symm

/-- The hypotheses of `C91_bilaplacian_converges` can be met. -/
example {ε : ℝ} (hε : 0 < ε) (steps : Nat) := C91_bilaplacian_converges .debug (cramerSolve _ _ ℝ) (C44_example _ _ ℝ) 1 clampedR path2 pathNodes path2_wf (fun _ _ => 7) (fun _ _ => 8) (fun _ _ => 9)
  (fun _ => beam_fixed _) (fun _ => beam_orthonormal _ _) Example.best Example.never Example.best_krylov Example.never_krylov Example.best_accurate Example.never_accurate Example.best_zero p
  (fun _ => beam_solvable _ _ _ _ (by norm_num [p]) (by norm_num)) simple hε steps

/-- The eigenpair itself is returned. -/
theorem returns (steps : Nat) : newton W (bilaplacian_update Example.best Example.never) steps (joined p.1 p.2) = .ok (.ok (9 / 4, joined (trace (2 / √13) (3 / √13)) (9 / 4))) :=
  C91_fixed W rfl _ (zero_bilaplacian Example.best_zero) simple.norm simple.zero steps

/-- The two intervals; at the ends only the Laplacian is prescribed; its initial value is one. -/
noncomputable def supported (e : Nat) : BilaplacianEigs.Edge 1 1 ℝ where
  stat := { toEdge := (interval (fun _ => 1) []).toEdge, bdr_phifunc_laplace := fun _ _ _ => 0, bdrUni_psifunc_laplace := fun _ _ _ => 1, dirichlet_laplacian_nodes := if e = 0 then [0] else [1] }
  area := 1

/-- **C91** (start, bilaplacian).  Where only the Laplacian is prescribed `make_initial` does not set it to zero, and Newton's method does not change it: there are a problem and a prescribed unknown such that the
program starts, and whatever it returns, with whatever Krylov methods, is not zero there (and so no eigenpair). -/
theorem C91_start_prescribed (guess : ℝ) :
    ∃ (W : Wrapper) (_ : W = bilaplacianWrapper .debug (cramerSolve _ _ ℝ) 1 supported path2 (fun _ _ => 7) (fun _ _ => 8) (fun _ _ => 9)) (k : Fin (path2.n_hyNodes * (2 * 1))) (x0 : Fin (path2.n_hyNodes * (2 * 1)) → ℝ),
      OnPrescribed supported path2 pathNodes k ∧ start_default W guess = .ok (joined x0 guess) ∧
      ∀ bicgstab gmres : ℝ → LinearSolver ℝ, KrylovSolver bicgstab → KrylovSolver gmres → ∀ steps val sol, program_default W (bilaplacian_update bicgstab gmres) steps guess = .ok (.ok (val, sol)) →
        ∃ x : Fin (path2.n_hyNodes * (2 * 1)) → ℝ, sol = joined x val ∧ x k ≠ 0 := by
  obtain ⟨r, h1, h2⟩ := initial_of_local .debug path2 (fun eig => BilaplacianEigs.localOperator .debug (cramerSolve _ _ ℝ) 1 supported eig) (fun eig eig_val => BilaplacianEigs.localJacobian .debug (cramerSolve _ _ ℝ) 1 supported eig eig_val)
    (fun e l => BilaplacianEigs.make_initial l (supported e) 0) (fun _ _ => 7) (fun _ _ => 8) (fun _ _ => 9) pathNodes path2_wf (fun e => C65_make_initial (supported e) 0 (fun _ _ => 0))
  let k : Fin (path2.n_hyNodes * (2 * 1)) := ⟨1, by decide⟩
  have hrk : r k = 1 := by
    rcases h2 k with ⟨e, i, j, hk', hr, _⟩ | ⟨hn, _⟩
    · rw [hr]
      have h3 : (e.1 + i.1) * 2 + j.1 = 1 := by
        have := congrArg Fin.val hk'
        simpa [dof, pathNodes] using this
      have h4 : ¬ j.1 < 1 := by
        have := j.2
        omega
      refine (if_neg (by exact List.not_mem_nil)).trans ((if_neg h4).trans rfl)
    · exact absurd rfl (hn ⟨0, by decide⟩ 0 1)
  have hr0 : r ≠ 0 := fun h => by
    rw [h] at hrk
    exact zero_ne_one hrk
  have hst := (C91_start (n := path2.n_hyNodes * (2 * 1)) (bilaplacianWrapper .debug (cramerSolve _ _ ℝ) 1 supported path2 (fun _ _ => 7) (fun _ _ => 8) (fun _ _ => 9)) rfl r hr0 guess 0 h1).1
  have hk : OnPrescribed supported path2 pathNodes k := by
    intro e f j hj
    have h3 : (e.1 + f.1) * 2 + j.1 = 1 := by
      have := congrArg Fin.val hj
      simpa [dof, pathNodes] using this
    have h4 : ¬ j.1 < 1 := by
      have := j.2
      omega
    show if _ then _ else _
    rw [if_neg h4]
    show f.1 ∈ (if e.1 = 0 then [0] else [1])
    rw [if_pos (by omega), List.mem_singleton]
    omega
  refine ⟨_, rfl, k, _, hk, hst, fun bicgstab gmres hK hK' steps val sol h => ?_⟩
  unfold program_default at h
  rw [hst, Res.ok_bind] at h
  obtain ⟨x, y, rfl, _⟩ := C91_returned (n := path2.n_hyNodes * (2 * 1)) _ (bilaplacian_lengths .debug (cramerSolve _ _ ℝ) 1 supported path2 (fun _ _ => 7) (fun _ _ => 8) (fun _ _ => 9)) rfl _ steps _ guess val sol h
  refine ⟨x, rfl, ?_⟩
  rw [C91_dirichlet _ (bilaplacian_lengths .debug (cramerSolve _ _ ℝ) 1 supported path2 (fun _ _ => 7) (fun _ _ => 8) (fun _ _ => 9)) _ (krylov_bilaplacian hK hK') (OnPrescribed supported path2 pathNodes)
    (fun x eig y hy k hk => bilaplacian_flux_zero .debug _ (C44_example _ _ ℝ) 1 supported path2 pathNodes path2_wf (fun _ _ => 7) (fun _ _ => 8) (fun _ _ => 9) x eig y hy k hk)
    (fun a b x eig y hy k hk => bilaplacian_jacobian_zero .debug _ (C44_example _ _ ℝ) 1 supported path2 pathNodes path2_wf (fun _ _ => 7) (fun _ _ => 8) (fun _ _ => 9) a b x eig y hy k hk) steps _ guess val x h k hk, hrk]
  have : 0 < ∑ k, r k ^ 2 := Finset.sum_pos' (fun _ _ => sq_nonneg _) ⟨k, Finset.mem_univ _, by rw [hrk]; norm_num⟩
  exact div_ne_zero one_ne_zero (Real.sqrt_pos.mpr this).ne'

end HyperHDG.NewtonProgram.Beam

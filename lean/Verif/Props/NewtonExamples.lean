import Verif.Props.NewtonBilaplacian

/-!
# Property C91: concrete cases
-/

namespace HyperHDG.NewtonProgram

open Spec _root_.Topology Filter
open ParabolicProgram (LinearSolver)

/-- **C91** (the caller's list).  `eigenvalue_newt(.., initial, ..)` overwrites the last entry of the list: after the first call, which starts with the eigenvalue given, a second call with the same list starts with 0. -/
theorem C91_twice {n : Nat} (v : Fin n → ℝ) (hv : v ≠ 0) (value : ℝ) :
    ∃ l, start_initial (joined v value) = .ok (joined (fun k => v k / √(∑ k, v k ^ 2)) value, l) ∧ start_initial l = .ok (joined (fun k => v k / √(∑ k, v k ^ 2)) 0, l) := by
  let W : Wrapper := ⟨n, fun _ _ => .ub, fun _ _ _ _ => .ub, fun _ => .ok (joined v 0)⟩
  exact ⟨joined v 0, (C91_start W rfl v hv 0 value rfl).2.1, (C91_start W rfl v hv 0 0 rfl).2.1⟩

namespace Example

/-! ## A solver -/

open Classical in
/-- A solver which finds a vector in the Krylov spaces whenever there is one which is accurate enough. -/
noncomputable def best : ℝ → LinearSolver ℝ := fun tol A b =>
  if b = List.replicate b.length 0 then .ok (b, 0)
  else if h : ∃ x, Krylov A b x ∧ ∃ w, A x = .ok w ∧ norm (List.zipWith (fun a b => a - b) w b) ≤ tol * norm b then .ok (h.choose, 0)
  else .ok (b, 1)

theorem norm_replicate (k : Nat) : norm (List.replicate k 0) = 0 := by
  unfold norm
  rw [List.map_replicate]
  simp

theorem best_krylov : KrylovSolver best := by
  intro tol A b x h
  unfold best at h
  split at h
  · rw [← (Prod.mk.inj (Res.ok.inj h)).1]
    exact .rhs
  · split at h
    · rename_i h1
      rw [← (Prod.mk.inj (Res.ok.inj h)).1]
      exact h1.choose_spec.1
    · exact absurd (Prod.mk.inj (Res.ok.inj h)).2 (by decide)

theorem best_accurate : AccurateSolver best := by
  intro tol A b x hb _ h
  unfold best at h
  split at h
  · rename_i h1
    rw [h1, norm_replicate] at hb
    exact absurd hb (lt_irrefl _)
  · split at h
    · rename_i h1
      rw [← (Prod.mk.inj (Res.ok.inj h)).1]
      exact h1.choose_spec.2
    · exact absurd (Prod.mk.inj (Res.ok.inj h)).2 (by decide)

theorem best_zero : ZeroSolver best := by
  intro tol A k
  unfold best
  rw [if_pos (by rw [List.length_replicate])]

theorem best_success {tol : ℝ} {A : List ℝ → Res (List ℝ)} {b : List ℝ} (h : ∃ x, Krylov A b x ∧ ∃ w, A x = .ok w ∧ norm (List.zipWith (fun a b => a - b) w b) ≤ tol * norm b) :
    ∃ u, best tol A b = .ok (u, 0) := by
  unfold best
  split
  · exact ⟨_, rfl⟩
  · exact ⟨h.choose, rfl⟩

/-- A solver which is lawful and never succeeds but for the right-hand side zero. -/
noncomputable def never : ℝ → LinearSolver ℝ := fun _ _ b => open Classical in if b = List.replicate b.length 0 then .ok (b, 0) else .ok (b, 1)

/-! ## Diffusion on a path of two intervals, both ends of which are Dirichlet nodes -/

open DiffusionEigs DiffusionEigs.Example HyGraph.Example LDG Diffusion

/-- The intervals, with the initial value one. -/
noncomputable def clampedR (e : Nat) : DiffusionEigs.Edge 1 1 ℝ := { interval (fun _ => 1) (if e = 0 then [0] else [1]) with bdrUni_psifunc := fun _ _ _ => 1 }

/-- The wrapper. -/
noncomputable abbrev W : Wrapper := diffusionWrapper .debug (cramerSolve _ _ ℝ) 1 clampedR path (fun _ _ => 7) (fun _ _ => 8) (fun _ _ => 9)

/-- The trace with the given values. -/
def trace (a b c : ℝ) : Fin (path.n_hyNodes * 1) → ℝ := fun k => if k.1 = 0 then a else if k.1 = 1 then b else c

theorem trace_eta (x : Fin (path.n_hyNodes * 1) → ℝ) : x = trace (x ⟨0, by decide⟩) (x ⟨1, by decide⟩) (x ⟨2, by decide⟩) := by
  funext k
  match k with
  | ⟨0, _⟩ => rfl
  | ⟨1, _⟩ => rfl
  | ⟨2, _⟩ => rfl

theorem assemble_path (z : Fin path.n_hyEdges → LocDofs 1 1 ℝ) :
    assemble pathNodes z = trace (z ⟨0, by decide⟩ 0 0) (z ⟨0, by decide⟩ 1 0 + z ⟨1, by decide⟩ 0 0) (z ⟨1, by decide⟩ 1 0) := by
  funext k
  have h : assemble pathNodes z k = ∑ e : Fin 2, ∑ i : Fin 2, ∑ j : Fin 1, if dof (pathNodes e i) j = k then z e i j else 0 := rfl
  rw [h, Fin.sum_univ_two, Fin.sum_univ_two, Fin.sum_univ_two]
  simp only [Fin.sum_univ_one]
  match k with
  | ⟨0, _⟩ => simp [dof, pathNodes, trace, Fin.ext_iff]; rfl
  | ⟨1, _⟩ => simp [dof, pathNodes, trace, Fin.ext_iff]; rfl
  | ⟨2, _⟩ => simp [dof, pathNodes, trace, Fin.ext_iff]; rfl

theorem sum_path (f : Fin (path.n_hyNodes * 1) → ℝ) : ∑ k, f k = f ⟨0, by decide⟩ + f ⟨1, by decide⟩ + f ⟨2, by decide⟩ := Fin.sum_univ_three f

theorem face00 (a b c : ℝ) : faceValues pathNodes (trace a b c) ⟨0, by decide⟩ 0 0 = a := rfl
theorem face01 (a b c : ℝ) : faceValues pathNodes (trace a b c) ⟨0, by decide⟩ 1 0 = b := rfl
theorem face10 (a b c : ℝ) : faceValues pathNodes (trace a b c) ⟨1, by decide⟩ 0 0 = b := rfl
theorem face11 (a b c : ℝ) : faceValues pathNodes (trace a b c) ⟨1, by decide⟩ 1 0 = c := rfl

/-- The fluxes. -/
theorem flux (a b c eig : ℝ) (he : eig ≠ 2) : HasFlux W (trace a b c) eig (trace 0 (a - 4 * b + c + (a + 2 * b + c) / (2 - eig)) 0) := by
  have h := flux_of_local .debug path (fun eig => DiffusionEigs.localOperator .debug (cramerSolve _ _ ℝ) 1 clampedR eig)
    (fun eig eig_val => DiffusionEigs.localJacobian .debug (cramerSolve _ _ ℝ) 1 clampedR eig eig_val) (fun e l => DiffusionEigs.make_initial l (clampedR e) 0) (fun _ _ => 7) (fun _ _ => 8) (fun _ _ => 9)
    pathNodes path_wf (x := trace a b c) (eig := eig)
    (fun e => interval_trace_to_flux .debug (C44_example _ _ ℝ) (fun _ => 1) (if e.1 = 0 then [0] else [1]) 1 eig one_ne_zero (by norm_num; exact he) (faceValues pathNodes (trace a b c) e) (fun _ _ => 0))
  rw [assemble_path] at h
  refine Eq.mpr (congrArg (HasFlux W (trace a b c) eig) ?_) h
  simp only [face00, face01, face10, face11]
  have he' : (2 : ℝ) - eig ≠ 0 := sub_ne_zero.mpr he.symm
  congr 1
  simp
  field_simp
  ring

/-- What the Jacobian of an interval is. -/
theorem interval_jacobian (m : Mode) {gesv : Gesv ((1 + 1) * 1) 1 ℝ} (hg : GesvSpec gesv) (dir : List Nat) (tau eig ev : ℝ) (he : ev ≠ 2 * tau) (l lv out : LocDofs 1 1 ℝ) :
    DiffusionEigs.jacobian_of_trace_to_flux m gesv tau l out eig lv ev (interval (fun _ => 1) dir) = .ok (fun f _ => if f.1 ∈ dir then 0 else
      (if f.1 = 0 then -(l 0 0 - l 1 0) else l 0 0 - l 1 0) + tau * ((tau * (l 0 0 + l 1 0) + eig * (tau * (lv 0 0 + lv 1 0) / (2 * tau - ev))) / (2 * tau - ev)) - tau * l f 0) := by
  have he' : 2 * tau - ev ≠ 0 := sub_ne_zero.mpr he.symm
  obtain ⟨q, u, q', u', h1, h2, h3⟩ := (C57_computes m gesv hg tau (interval (fun _ => 1) dir) ev l out eig lv).1 (interval_solvable _ dir tau ev one_ne_zero he)
  have h1' := (interval_solution (fun _ => 1) dir tau ev lv 0 q u).mp h1
  have hsrc : (eig * (interval (fun _ : ℝ => (1 : ℝ)) dir).area) • u = fun _ => eig * u 0 := by
    funext i
    rw [Subsingleton.elim i 0]
    show (eig * 1) * u 0 = eig * u 0
    rw [mul_one]
  rw [hsrc] at h2
  have h2' := (interval_solution (fun _ => 1) dir tau ev l (eig * u 0) q' u').mp h2
  rw [one_mul] at h2'
  have hu : u 0 = tau * (lv 0 0 + lv 1 0) / (2 * tau - ev) := by
    rw [eq_div_iff he']
    linear_combination h1'.2
  have hu' : u' 0 = (tau * (l 0 0 + l 1 0) + eig * (tau * (lv 0 0 + lv 1 0) / (2 * tau - ev))) / (2 * tau - ev) := by
    rw [eq_div_iff he', ← hu]
    linear_combination h2'.2
  rw [h3]
  refine congrArg Res.ok ?_
  funext f j
  simp only [offDirichlet, interval_flux]
  rw [h2'.1, hu']
  by_cases hd : f.1 ∈ dir
  · rw [if_pos hd]
    exact if_pos hd
  · rw [if_neg hd]
    exact if_neg hd

/-- The Jacobian. -/
theorem jacobian_path (a b c eig a' b' c' ev : ℝ) (he : ev ≠ 2) :
    HasJacobian W (trace a' b' c') ev (trace a b c) eig (trace 0 (a - 4 * b + c + (a + 2 * b + c) / (2 - ev) + eig * (a' + 2 * b' + c') / (2 - ev) ^ 2) 0) := by
  have h := jacobian_of_local .debug path (fun eig => DiffusionEigs.localOperator .debug (cramerSolve _ _ ℝ) 1 clampedR eig)
    (fun eig eig_val => DiffusionEigs.localJacobian .debug (cramerSolve _ _ ℝ) 1 clampedR eig eig_val) (fun e l => DiffusionEigs.make_initial l (clampedR e) 0) (fun _ _ => 7) (fun _ _ => 8) (fun _ _ => 9)
    pathNodes path_wf (x := trace a b c) (eig := eig) (x_val := trace a' b' c') (eig_val := ev)
    (fun e => interval_jacobian .debug (C44_example _ _ ℝ) (if e.1 = 0 then [0] else [1]) 1 eig ev (by norm_num; exact he) (faceValues pathNodes (trace a b c) e) (faceValues pathNodes (trace a' b' c') e) (fun _ _ => 0))
  rw [assemble_path] at h
  refine Eq.mpr (congrArg (HasJacobian W (trace a' b' c') ev (trace a b c) eig) ?_) h
  simp only [face00, face01, face10, face11]
  have he' : (2 : ℝ) - ev ≠ 0 := sub_ne_zero.mpr he.symm
  congr 1
  simp
  field_simp
  ring

/-- The eigenpair: the hat function, for the eigenvalue 3/2. -/
noncomputable def p : (Fin (path.n_hyNodes * 1) → ℝ) × ℝ := (trace 0 1 0, 3 / 2)

theorem agree : Agree clampedR path pathNodes := by
  intro e e' f f' h hf
  have h1 : e.1 + f.1 = e'.1 + f'.1 := congrArg Fin.val h
  have h2 : f.1 ∈ (if e.1 = 0 then [0] else [1]) := hf
  show f'.1 ∈ (if e'.1 = 0 then [0] else [1])
  have he : e.1 < 2 := e.2
  have he' : e'.1 < 2 := e'.2
  have hf1 := f.2
  have hf2 := f'.2
  by_cases h0 : e.1 = 0
  · rw [if_pos h0, List.mem_singleton] at h2
    have : e'.1 = 0 := by omega
    rw [if_pos this, List.mem_singleton]
    omega
  · rw [if_neg h0, List.mem_singleton] at h2
    have : e'.1 ≠ 0 := by omega
    rw [if_neg this, List.mem_singleton]
    omega

theorem on_dirichlet (k : Fin (path.n_hyNodes * 1)) : OnDirichlet clampedR path pathNodes k ↔ k.1 ≠ 1 := by
  constructor
  · intro h hk
    have h1 : (1 : Nat) ∈ (if (0 : Nat) = 0 then [0] else [1]) := h ⟨0, by decide⟩ 1 0 (Fin.ext hk.symm)
    simp at h1
  · intro hk e f j hj
    have h1 : e.1 + f.1 = k.1 := by
      have := congrArg Fin.val hj
      simpa [dof, pathNodes] using this
    show f.1 ∈ (if e.1 = 0 then [0] else [1])
    have he : e.1 < 2 := e.2
    have hf := f.2
    split <;> rw [List.mem_singleton] <;> omega

/-- It is simple. -/
theorem simple : SimplePair W (OnDirichlet clampedR path pathNodes) p where
  zero := by
    have h := flux 0 1 0 (3 / 2) (by norm_num)
    refine Eq.mpr (congrArg (HasFlux W (trace 0 1 0) (3 / 2)) ?_) h
    rw [trace_eta (0 : Fin (path.n_hyNodes * 1) → ℝ)]
    show trace 0 0 0 = _
    congr 1
    norm_num
  norm := by
    rw [sum_path]
    simp [p, trace]
  simple u hu h1 h2 := by
    have h3 : u.1 = trace 0 (u.1 ⟨1, by decide⟩) 0 := by
      have e0 : u.1 ⟨0, by decide⟩ = 0 := hu _ ((on_dirichlet _).mpr (by decide))
      have e2 : u.1 ⟨2, by decide⟩ = 0 := hu _ ((on_dirichlet _).mpr (by decide))
      have h := trace_eta u.1
      rwa [e0, e2] at h
    rw [sum_path] at h2
    simp [p, trace] at h2
    rw [h2] at h3
    have h4 := jacobian_path 0 0 0 u.2 0 1 0 (3 / 2) (by norm_num)
    rw [← h3] at h4
    obtain ⟨l1, k1⟩ := h1
    obtain ⟨l2, k2⟩ := h4
    have h5 := congrFun (joined_inj (Res.ok.inj (k1.symm.trans k2))).1 ⟨1, by decide⟩
    have h6 : u.2 = 0 := by
      simp [trace] at h5
      norm_num at h5
      linarith
    refine Prod.ext ?_ h6
    rw [h3]
    exact (trace_eta (0 : Fin (path.n_hyNodes * 1) → ℝ)).symm

theorem solvable (e : Fin path.n_hyEdges) : Solvable (form (clampedR e).toEdge 1 p.2) 1 (-p.2) 1 :=
  interval_solvable (fun _ => 1) (if e.1 = 0 then [0] else [1]) 1 p.2 one_ne_zero (by norm_num [p])

theorem fixed (e : Nat) : FixedCoefficient (clampedR e) := fun _ _ _ _ => rfl

theorem orthonormal (e : Nat) : Orthonormal (clampedR e) := interval_orthonormal (fun _ => 1) (if e = 0 then [0] else [1])

/-- The operator of Newton's method on the traces which vanish on the Dirichlet nodes. -/
theorem operator (x e s t : ℝ) (he : e ≠ 2) :
    jacobian W (joined (trace 0 x 0) e) (joined (trace 0 s 0) t) = .ok (joined (trace 0 ((-4 + 2 / (2 - e)) * s + 2 * x / (2 - e) ^ 2 * t) 0) (2 * x * s)) := by
  have he' : (2 : ℝ) - e ≠ 0 := sub_ne_zero.mpr he.symm
  unfold jacobian
  rw [C91_jacobian W (jacobian_path 0 s 0 t 0 x 0 e he), Res.ok_bind, sum_path]
  refine congrArg Res.ok ?_
  show joined _ _ = joined _ _
  congr 1
  · congr 1
    field_simp
    ring
  · simp [trace]
    ring

/-- The combinations of such vectors. -/
theorem combination (c d s t s' t' : ℝ) :
    List.zipWith (fun x y => c * x + d * y) (joined (trace 0 s 0) t) (joined (trace 0 s' 0) t') = joined (trace 0 (c * s + d * s') 0) (c * t + d * t') := by
  show [c * 0 + d * 0, c * s + d * s', c * 0 + d * 0, c * t + d * t'] = [0, c * s + d * s', 0, c * t + d * t']
  rw [mul_zero, mul_zero, add_zero]

/-- The solution of the linear systems is in the Krylov spaces. -/
theorem succeeds (x e tol : ℝ) (hx : x ≠ 0) (he : e ≠ 2) (ht : 0 ≤ tol) (s t : ℝ) : ∃ u, best tol (jacobian W (joined (trace 0 x 0) e)) (joined (trace 0 s 0) t) = .ok (u, 0) := by
  have he' : (2 : ℝ) - e ≠ 0 := sub_ne_zero.mpr he.symm
  have h1 := operator x e s t he
  refine best_success ⟨_, .combination (-(-4 + 2 / (2 - e)) * (2 - e) ^ 2 / (4 * x ^ 2)) ((2 - e) ^ 2 / (4 * x ^ 2)) .rhs (.product .rhs h1), ?_⟩
  rw [combination, operator _ _ _ _ he]
  refine ⟨_, rfl, ?_⟩
  rw [sub_joined]
  have h2 : norm (joined (0 : Fin (path.n_hyNodes * 1) → ℝ) 0) ≤ tol * norm (joined (trace 0 s 0) t) := by
    rw [joined_zero, norm_replicate]
    exact mul_nonneg ht (norm_nonneg' _)
  refine Eq.mpr (congrArg (fun v => norm v ≤ _) ?_) h2
  have h3 (a b : ℝ) : trace 0 a 0 - trace 0 b 0 = trace 0 (a - b) 0 := by
    rw [trace_eta (trace 0 a 0 - trace 0 b 0)]
    simp [trace]
  rw [h3, trace_eta (0 : Fin (path.n_hyNodes * 1) → ℝ)]
  show joined (trace 0 _ 0) _ = joined (trace 0 0 0) 0
  congr 2
  · field_simp
    ring
  · field_simp
    ring

/-- Started near the eigenpair, and zero at the Dirichlet nodes, the program returns a pair near it. -/
theorem converges {ε : ℝ} (hε : 0 < ε) (steps : Nat) : ∀ᶠ q in 𝓝 p, q.1 ⟨0, by decide⟩ = 0 → q.1 ⟨2, by decide⟩ = 0 →
    ∃ q' : (Fin (path.n_hyNodes * 1) → ℝ) × ℝ, newton W (diffusion_update best) (steps + 1) (joined q.1 q.2) = .ok (.ok (q'.2, joined q'.1 q'.2)) ∧ dist q' p ≤ ε := by
  have h1 := C91_diffusion_converges .debug (cramerSolve _ _ ℝ) (C44_example _ _ ℝ) 1 clampedR path pathNodes path_wf (fun _ _ => 7) (fun _ _ => 8) (fun _ _ => 9) fixed orthonormal best best_krylov
    best_accurate best_zero p solvable simple hε steps
  have h2 : ∀ᶠ q : (Fin (path.n_hyNodes * 1) → ℝ) × ℝ in 𝓝 p, q.1 ⟨1, by decide⟩ ≠ 0 :=
    ((continuous_apply _).comp continuous_fst).continuousAt.eventually_ne (show (1 : ℝ) ≠ 0 from one_ne_zero)
  have h3 : ∀ᶠ q : (Fin (path.n_hyNodes * 1) → ℝ) × ℝ in 𝓝 p, q.2 ≠ 2 := continuous_snd.continuousAt.eventually_ne (show (3 / 2 : ℝ) ≠ 2 by norm_num)
  filter_upwards [h1, h2, h3] with q k1 k2 k3 e0 e2
  have hq := trace_eta q.1
  rw [e0, e2] at hq
  have hf := flux 0 (q.1 ⟨1, by decide⟩) 0 q.2 k3
  rw [← hq] at hf
  obtain ⟨u, hu⟩ := succeeds (q.1 ⟨1, by decide⟩) q.2 (1 / 100 * defect q.1 (trace 0 (0 - 4 * q.1 ⟨1, by decide⟩ + 0 + (0 + 2 * q.1 ⟨1, by decide⟩ + 0) / (2 - q.2)) 0)) k2 k3 (mul_nonneg (by norm_num) (Real.sqrt_nonneg _)) (0 - 4 * q.1 ⟨1, by decide⟩ + 0 + (0 + 2 * q.1 ⟨1, by decide⟩ + 0) / (2 - q.2)) ((∑ k, q.1 k ^ 2) - 1)
  rw [← hq] at hu
  exact k1 _ u hf hu

/-- The eigenpair itself is returned. -/
theorem returns (steps : Nat) : newton W (diffusion_update best) steps (joined p.1 p.2) = .ok (.ok (3 / 2, joined (trace 0 1 0) (3 / 2))) :=
  C91_fixed W rfl _ (zero_diffusion best_zero) simple.norm simple.zero steps

/-- What is returned is what `C91_diffusion` says. -/
example (steps : Nat) := C91_diffusion .debug (cramerSolve _ _ ℝ) (C44_example _ _ ℝ) 1 clampedR path pathNodes path_wf (fun _ _ => 7) (fun _ _ => 8) (fun _ _ => 9) agree best best_krylov steps (trace 0 1 0)
  (fun k hk => by simp [trace, (on_dirichlet k).mp hk]) (3 / 2) (3 / 2) _ (returns steps)

theorem never_krylov : KrylovSolver never := by
  intro tol A b x h
  unfold never at h
  split at h
  · rw [← (Prod.mk.inj (Res.ok.inj h)).1]
    exact .rhs
  · exact absurd (Prod.mk.inj (Res.ok.inj h)).2 (by decide)

theorem never_accurate : AccurateSolver never := by
  intro tol A b x hb _ h
  unfold never at h
  split at h
  · rename_i h1
    rw [h1, norm_replicate] at hb
    exact absurd hb (lt_irrefl _)
  · exact absurd (Prod.mk.inj (Res.ok.inj h)).2 (by decide)

theorem never_zero : ZeroSolver never := by
  intro tol A k
  unfold never
  rw [if_pos (by rw [List.length_replicate])]

/-- **C91** (the exception which is not caught).  There is a problem and a solver which satisfies what is assumed of `gmres` but does not succeed, such that the program for diffusion raises the exception
which is not a `RuntimeError`. -/
theorem C91_typo : ∃ gmres : ℝ → LinearSolver ℝ, KrylovSolver gmres ∧ AccurateSolver gmres ∧ ZeroSolver gmres ∧
    ∃ e, newton W (diffusion_update gmres) 1000 (joined (trace 0 1 0) 1) = .ok (.error e) ∧ e.isRuntimeError = false := by
  refine ⟨never, never_krylov, never_accurate, never_zero, _, C91_uncaught W (flux 0 1 0 1 (by norm_num)) never (u := joined (trace 0 (-2) 0) 0) (info := 1) (by decide) ?_ 999⟩
  have h1 : joined (trace 0 (0 - 4 * 1 + 0 + (0 + 2 * 1 + 0) / (2 - 1)) 0) ((∑ k, trace 0 1 0 k ^ 2) - 1) = joined (trace 0 (-2) 0) 0 := by
    rw [sum_path]
    congr 2
    · norm_num
    · simp [trace]
  rw [h1]
  unfold never
  rw [if_neg]
  intro h
  have h2 : [(0 : ℝ), -2, 0, 0] = [0, 0, 0, 0] := h
  norm_num at h2

end Example

end HyperHDG.NewtonProgram

import Verif.Props.EigenvalueDiffusion
import Verif.Props.Elliptic
import Verif.Proofs.ParabolicProgram

/-!
# Property C90: examples, and where the programs fail
-/

namespace HyperHDG.EigenvalueProgram

open Finset Spec Matrix HyGraph EllipticProgram
open ParabolicProgram (LinearSolver Exact Complete)

namespace Example

open HyGraph.Example DiffusionEigs.Example

/-- A path of two intervals; both ends are Dirichlet nodes. -/
noncomputable def edges (e : Nat) : Diffusion.Edge 1 1 ℝ := (interval (fun _ => 1) (if e = 0 then [0] else [1])).toEdge

open Diffusion in
/-- What `trace_to_mass_flux` returns for an interval. -/
theorem interval_mass (m : Mode) {gesv : Gesv ((1 + 1) * 1) 1 ℝ} (hg : GesvSpec gesv) (dir : List Nat) (lambda out : LocDofs 1 1 ℝ) :
    trace_to_mass_flux m gesv 1 lambda out (interval (fun _ => 1) dir).toEdge 0 = .ok (fun f _ => if f.1 ∈ dir then 0 else (lambda 0 0 + lambda 1 0) / 4) := by
  have hs : Solvable (form (interval (fun _ => (1 : ℝ)) dir).toEdge 1 0) 1 0 1 := by
    have := interval_solvable (fun _ => (1 : ℝ)) dir 1 0 one_ne_zero (by norm_num)
    rwa [neg_zero] at this
  obtain ⟨q, u, q', u', h1, h2, h3⟩ := C47_flux m gesv hg 1 (interval (fun _ => 1) dir).toEdge 0 hs lambda out
  have e1 := congrFun h1.primal 0
  have e2 := congrFun (h2.flux 0) 0
  have e3 := congrFun h2.primal 0
  simp [form, interval, moments, mulVec, dotProduct, Fin.sum_univ_two] at e1 e2 e3
  rw [h3]
  refine congrArg Res.ok (funext fun f => funext fun j => ?_)
  simp only [offDirichlet, interval_flux]
  by_cases hd : f.1 ∈ dir
  · rw [if_pos hd]
    exact if_pos hd
  · rw [if_neg hd]
    refine (if_neg hd).trans ?_
    rw [e2, neg_zero, ite_self]
    show 0 + 1 * u' 0 - 1 * (0 : ℝ) = _
    linear_combination e1 / 4 + e3 / 2

theorem edges_laws (e : Nat) : FormLaws (Diffusion.form (edges e) 1 0) := interval_laws _ _ _ one_pos

theorem edges_rigid (e : Nat) : Rigid (Diffusion.form (edges e) 1 0) := fun u f _ h => by
  funext i
  have := congrFun h 0
  rw [Subsingleton.elim i 0]
  simpa [Diffusion.form, edges, interval, mulVec, dotProduct] using this

/-- The ends of the path. -/
def ends (v : Fin path.n_hyNodes) : Prop := v = ⟨0, by decide⟩ ∨ v = ⟨2, by decide⟩

theorem edges_dirichlet (e : Fin path.n_hyEdges) (f : Fin (2 * 1)) : (edges e).node_descriptor f ∈ (edges e).dirichlet_nodes ↔ ends (pathNodes e f) := by
  show f.1 ∈ (if e.1 = 0 then [0] else [1]) ↔ _ ∨ _
  revert e f
  decide

theorem path_anchored : Anchored pathNodes ends := fun v => by
  have h1 : Adjacent pathNodes ⟨0, by decide⟩ ⟨1, by decide⟩ := ⟨⟨0, by decide⟩, 0, 1, rfl, rfl⟩
  match v with
  | ⟨0, _⟩ => exact ⟨⟨0, by decide⟩, .inl rfl, .refl⟩
  | ⟨1, _⟩ => exact ⟨⟨0, by decide⟩, .inl rfl, .single h1⟩
  | ⟨2, _⟩ => exact ⟨⟨2, by decide⟩, .inr rfl, .refl⟩

/-- The mass operator is not zero. -/
theorem edges_mass {gesv : Gesv ((1 + 1) * 1) 1 ℝ} (hg : GesvSpec gesv) : ∃ x b : Fin (path.n_hyNodes * 1) → ℝ, VanishesAt ends x ∧
    path.mat_vec_multiply .debug (localMass .debug gesv 1 edges 0) (fun _ _ => 7) (fun _ _ => 8) (List.ofFn x) = .ok (List.ofFn b) ∧ b ≠ 0 := by
  have h := fun x => HyGraph.mat_vec_eq .debug path pathNodes path_wf (localMass .debug gesv 1 edges 0) x _ (fun e => interval_mass .debug hg (if e.1 = 0 then [0] else [1]) _ _) (fun _ _ => 7) (fun _ _ => 8)
  refine ⟨fun k => if k.1 = 1 then 1 else 0, _, ?_, h _, fun h0 => ?_⟩
  · rintro v (rfl | rfl) j <;> rw [Subsingleton.elim j 0] <;> rfl
  · have h1 := pairing_assemble pathNodes (fun e => fun f _ => if f.1 ∈ (if e.1 = 0 then [0] else [1]) then (0 : ℝ) else
      (faceValues pathNodes (fun k : Fin (path.n_hyNodes * 1) => if k.1 = 1 then (1 : ℝ) else 0) e 0 0 + faceValues pathNodes (fun k : Fin (path.n_hyNodes * 1) => if k.1 = 1 then (1 : ℝ) else 0) e 1 0) / 4)
      (fun k : Fin (path.n_hyNodes * 1) => if k.1 = 1 then (1 : ℝ) else 0)
    rw [h0] at h1
    simp only [Pi.zero_apply, mul_zero, Finset.sum_const_zero] at h1
    refine absurd h1.symm (ne_of_gt ?_)
    show 0 < ∑ e : Fin 2, ∑ i : Fin 2, ∑ j : Fin 1, _
    simp [Fin.sum_univ_two, faceValues, dof, pathNodes]

/-- **C90** is not empty: with perfect solvers the program returns for the path, for every `sigma` which is not positive, and what it returns is an eigenpair with a positive eigenvalue next to `sigma`. -/
theorem path_program (sigma : ℝ) (hsigma : sigma ≤ 0) : ∃ (object : Eigen 1 1) (val : ℝ) (solution : List ℝ),
    MassApprox.program (massApproxWrapper .debug (cramerSolve _ _ ℝ) 1 edges path (fun _ _ => 7) (fun _ _ => 8) object.dirichlet_indices) sigma ParabolicProgram.perfect perfect = .ok (val, solution) ∧
      0 < val ∧ ∃ x, solution = List.ofFn x ∧ MassEigenpair .debug (cramerSolve _ _ ℝ) 1 path ends (fun _ _ => 7) (fun _ _ => 8) edges val x := by
  have htypes : ∀ e, ∃ t, Diffusion.node_types (edges e) = .ok t := fun e => let ⟨t, h, _⟩ := Diffusion.C21_node_types (edges e) 0; ⟨t, h⟩
  choose types htypes using htypes
  obtain ⟨object, hobj, _⟩ := eigen_call_eq .debug (Eigen.mk path types []) ⟨path_wf.fits, fun e he i => by
    rw [show e = (⟨e, he⟩ : Fin path.n_hyEdges).1 from rfl, path_wf.hyNodes_eq]
    exact (pathNodes _ i).2⟩
  have hg := C44_example ((1 + 1) * 1) 1 ℝ
  obtain ⟨val, solution, h⟩ := C90_diffusion_returns .debug (cramerSolve _ _ ℝ) hg 1 one_pos path pathNodes path_wf path_cov ends (fun _ _ => 7) (fun _ _ => 8) edges edges_laws edges_rigid edges_dirichlet
    path_anchored types htypes hobj sigma ParabolicProgram.perfect ParabolicProgram.perfect_laws.1 ParabolicProgram.perfect_laws.2.1 perfect perfect_laws.1 perfect_laws.2.2
    (fun x hx => absurd (massEigenpair_pos .debug _ hg 1 path pathNodes path_wf ends _ _ one_pos edges edges_laws edges_rigid edges_dirichlet path_anchored hx) (not_lt.mpr hsigma)) (edges_mass hg)
  obtain ⟨h1, h2, _⟩ := C90_diffusion_partial .debug (cramerSolve _ _ ℝ) hg 1 path pathNodes path_wf path_cov ends (fun _ _ => 7) (fun _ _ => 8) one_pos edges edges_laws edges_rigid edges_dirichlet
    path_anchored types htypes hobj sigma ParabolicProgram.perfect ParabolicProgram.perfect_laws.1 perfect perfect_laws.1 h
  exact ⟨object, val, solution, h, h2, h1⟩

/-- Two unknowns, of which the first belongs to a Dirichlet node. -/
def half : Wrapper ℝ where
  size_of_system := 2
  dirichlet_indices := [0]
  trace_to_flux x _ := match x with | [a, b] => .ok [-a, -b] | _ => .ub
  trace_to_mass_flux x _ := match x with | [a, b] => .ok [a, b] | _ => .ub

theorem half_flux (x : Fin 2 → ℝ) : half.trace_to_flux (List.ofFn x) 0 = .ok (List.ofFn (-x)) := by
  show half.trace_to_flux [x 0, x 1] 0 = .ok [-x 0, -x 1]
  rfl

theorem half_mass (x : Fin 2 → ℝ) : half.trace_to_mass_flux (List.ofFn x) 0 = .ok (List.ofFn x) := by
  show half.trace_to_mass_flux [x 0, x 1] 0 = .ok [x 0, x 1]
  rfl

theorem half_eigenvalue {val : ℝ} {x : Fin 2 → ℝ} (h : IsEigenvector [0] (fun x => -x) (fun x => x) val x) : val = 1 := by
  obtain ⟨h1, h2, h3⟩ := h
  have h4 : -x 1 + val * x 1 = 0 := h3 1 (by decide)
  have h5 : x 1 ≠ 0 := fun h => h1 (funext fun k => by
    match k with
    | 0 => exact h2 0 (by decide)
    | 1 => exact h)
  have : (val - 1) * x 1 = 0 := by linear_combination h4
  rcases mul_eq_zero.mp this with h | h
  · linarith
  · exact absurd h h5

theorem half_eigenvector : IsEigenvector [0] (fun x : Fin 2 → ℝ => -x) (fun x => x) 1 (fun k => if k.1 = 0 then 0 else 1) := by
  refine ⟨fun h => one_ne_zero (congrFun h 1), fun k hk => if_pos (List.mem_singleton.mp hk), fun k _ => ?_⟩
  show -(if k.1 = 0 then (0 : ℝ) else 1) + 1 * (if k.1 = 0 then (0 : ℝ) else 1) = 0
  ring

theorem half_returns : ∃ val solution, MassApprox.program half 0 ParabolicProgram.perfect perfect = .ok (val, solution) := by
  obtain ⟨r, hr⟩ := C90_mass_approx_returns half 0 (by decide) (by decide) ParabolicProgram.perfect ParabolicProgram.perfect_laws.1 perfect perfect_laws.1 (fun x : Fin 2 → ℝ => -x) (fun x => x)
    half_flux (fun x z _ _ => Finset.sum_congr rfl fun k _ => by show z k * -x k = x k * -z k; ring) ParabolicProgram.perfect_laws.2.1 perfect_laws.2.2 half_mass
    (fun x z _ _ => Finset.sum_congr rfl fun k _ => mul_comm _ _) (fun x _ => Finset.sum_nonneg fun k _ => mul_self_nonneg _)
    (fun r => ⟨fun k => if k.1 ∈ half.dirichlet_indices then 0 else r k, fun k hk => if_pos hk, fun k hk => by
      show - -(if k.1 ∈ half.dirichlet_indices then 0 else r k) - 0 * _ = r k
      rw [if_neg hk]
      ring⟩) half_eigenvector (fun val' x' h => by rw [half_eigenvalue h])
  exact ⟨r.1, r.2, hr⟩

/-- A solver which returns two eigenpairs of two unknowns if they are such. -/
noncomputable def pairOf : Eigsh ℝ := fun n A M _ _ => by
  classical
  exact if Eigenpair n A M 1 [1, 0] ∧ Eigenpair n A M 2 [0, 1] then .ok [(1, [1, 0]), (2, [0, 1])] else .throw .solve

theorem pairOf_exact : ExactEigsh pairOf := by
  intro n A M I sigma pairs _ h p hp
  unfold pairOf at h
  split at h
  · rename_i h'
    rw [← Res.ok.inj h] at hp
    rcases List.mem_cons.mp hp with rfl | hp
    · exact h'.1
    · rw [List.mem_singleton.mp hp]
      exact h'.2
  · exact (nomatch h)

/-- Two unknowns without Dirichlet nodes; the operator for `s` is `diag(s - 1, s - 2)`. -/
def two : Wrapper ℝ where
  size_of_system := 2
  dirichlet_indices := []
  trace_to_flux x s := match x with | [a, b] => .ok [(s - 1) * a, (s - 2) * b] | _ => .ub
  trace_to_mass_flux _ _ := .ub

end Example

/-- **C90** (fails for the plot of the bilaplacian programs).  They extend the vector a second time before it is plotted.  Here the program returns an eigenvector, and the vector plotted is zero. -/
theorem C90_plotted : ∃ (W : Wrapper ℝ) (cg : LinearSolver ℝ) (eigsh : Eigsh ℝ), Exact cg ∧ ExactEigsh eigsh ∧ NearestEigsh eigsh ∧
    (∀ x : Fin 2 → ℝ, W.trace_to_flux (List.ofFn x) 0 = .ok (List.ofFn (-x)) ∧ W.trace_to_mass_flux (List.ofFn x) 0 = .ok (List.ofFn x)) ∧
    ∃ (val : ℝ) (x : Fin 2 → ℝ), MassApprox.program W 0 cg eigsh = .ok (val, List.ofFn x) ∧ IsEigenvector W.dirichlet_indices (fun x => -x) (fun x => x) val x ∧
      MassApprox.plotted_bilaplacian W 0 cg eigsh = .ok [0, 0] := by
  obtain ⟨val, solution, h⟩ := Example.half_returns
  obtain ⟨x, e1, e2⟩ : ∃ x : Fin 2 → ℝ, solution = List.ofFn x ∧ IsEigenvector [0] (fun x : Fin 2 → ℝ => -x) (fun x => x) val x :=
    C90_mass_approx_partial Example.half 0 (by decide) (by decide) ParabolicProgram.perfect ParabolicProgram.perfect_laws.1 perfect perfect_laws.1 (fun x : Fin 2 → ℝ => -x) (fun x => x)
      Example.half_flux Example.half_mass h
  refine ⟨Example.half, ParabolicProgram.perfect, perfect, ParabolicProgram.perfect_laws.1, perfect_laws.1, perfect_laws.2.1, fun x => ⟨Example.half_flux x, Example.half_mass x⟩, val, x, by rw [h, e1], e2, ?_⟩
  have h0 : x 0 = 0 := e2.2.1 0 (by decide)
  have e3 : solution = [0, x 1] := by
    rw [e1]
    show [x 0, x 1] = _
    rw [h0]
  unfold MassApprox.plotted_bilaplacian
  rw [init_eq Example.half 0 (by decide) (by decide), Res.ok_bind, h, Res.ok_bind, e3]
  unfold Helper.long_vector
  have e4 : ((List.range Example.half.size_of_system).map fun k => if k ∈ Example.half.dirichlet_indices then (-1 : Int) else ((free Example.half.dirichlet_indices k).length : Int)) = [-1, 0] := by decide
  simp only [e4]
  simp [comprehension, pyGet]

/-- **C90** (fails for the program `diffusion_convergence_eigenvalue_shifted_inverse_cross.py`).  It returns the first eigenvalue with the vector of the second.  Here these are the eigenvalue 1 and an
eigenvector for 2. -/
theorem C90_cross : ∃ (W : Wrapper ℝ) (cg : LinearSolver ℝ) (eigsh : Eigsh ℝ) (A C : (Fin 2 → ℝ) → Fin 2 → ℝ), Exact cg ∧ ExactEigsh eigsh ∧
    (∀ x, W.trace_to_flux (List.ofFn x) 0 = .ok (List.ofFn (A x)) ∧ W.trace_to_flux (List.ofFn x) 3 = .ok (List.ofFn (C x))) ∧ ∃ x : Fin 2 → ℝ,
      ShiftedInverse.program_cross W 3 cg eigsh = .ok (1, List.ofFn x) ∧ ¬ IsEigenvector W.dirichlet_indices A (fun x k => (C x k - A x k) / 3) 1 x ∧
      IsEigenvector W.dirichlet_indices A (fun x k => (C x k - A x k) / 3) 2 x := by
  have hf : ∀ (s : ℝ) (x : Fin 2 → ℝ), Example.two.trace_to_flux (List.ofFn x) s = .ok (List.ofFn fun k => (s - 1 - k.1) * x k) := by
    intro s x
    show Res.ok [(s - 1) * x 0, (s - 2) * x 1] = .ok [(s - 1 - ((0 : Nat) : ℝ)) * x 0, (s - 1 - ((1 : Nat) : ℝ)) * x 1]
    rw [show s - 2 = s - 1 - ((1 : Nat) : ℝ) by push_cast; ring, show s - 1 = s - 1 - ((0 : Nat) : ℝ) by push_cast; ring]
    simp
  refine ⟨Example.two, ParabolicProgram.perfect, Example.pairOf, fun x k => (0 - 1 - k.1) * x k, fun x k => (3 - 1 - k.1) * x k, ParabolicProgram.perfect_laws.1, Example.pairOf_exact,
    fun x => ⟨hf 0 x, hf 3 x⟩, fun k => k.1, ?_, fun h => ?_, fun h => ?_, fun k hk => absurd hk List.not_mem_nil, fun k _ => ?_⟩
  · unfold ShiftedInverse.program_cross
    obtain ⟨hp, h1, _⟩ := C90_indices Example.two 3 (by decide) (by decide)
    obtain ⟨k1, k2, k3, k4⟩ := isHelper_of_init (W := Example.two) (by decide) (by decide) h1
    have a1 := si_stiff k1 k2 ⟨hf 0⟩
    have a2 := si_mass k1 k2 ⟨hf 0⟩ ⟨hf hp.sigma⟩
    have x1 : extend (K := ℝ) Example.two.dirichlet_indices Example.two.size_of_system [1, 0] = fun k => 1 - (k.1 : ℝ) := by
      funext (k : Fin 2)
      match k with
      | 0 => show (1 : ℝ) = 1 - ((0 : Nat) : ℝ); simp
      | 1 => show (0 : ℝ) = 1 - ((1 : Nat) : ℝ); simp
    have x2 : extend (K := ℝ) Example.two.dirichlet_indices Example.two.size_of_system [0, 1] = fun k => (k.1 : ℝ) := by
      funext (k : Fin 2)
      match k with
      | 0 => show (0 : ℝ) = ((0 : Nat) : ℝ); simp
      | 1 => show (1 : ℝ) = ((1 : Nat) : ℝ); simp
    have hk : ∀ k : Fin Example.two.size_of_system, (k.1 : ℝ) * (k.1 - 1) = 0 := by
      intro (k : Fin 2)
      match k with
      | 0 => simp
      | 1 => simp
    have p1 : Eigenpair (free Example.two.dirichlet_indices Example.two.size_of_system).length (ShiftedInverse.multiply_stiff hp) (ShiftedInverse.multiply_mass hp) 1 [1, 0] := by
      refine (eigenpair_iff a1 a2 1 rfl).mpr ⟨fun h => ?_, fun k _ => ?_⟩
      · rw [x1] at h
        have := congrFun h (⟨0, by decide⟩ : Fin 2)
        norm_num at this
        exact one_ne_zero this
      · rw [x1, k3]
        show -((0 - 1 - (k.1 : ℝ)) * (1 - k.1)) = 1 * (((3 - 1 - (k.1 : ℝ)) * (1 - k.1) - (0 - 1 - (k.1 : ℝ)) * (1 - k.1)) / 3)
        linear_combination -(hk k)
    have p2 : Eigenpair (free Example.two.dirichlet_indices Example.two.size_of_system).length (ShiftedInverse.multiply_stiff hp) (ShiftedInverse.multiply_mass hp) 2 [0, 1] := by
      refine (eigenpair_iff a1 a2 2 rfl).mpr ⟨fun h => ?_, fun k _ => ?_⟩
      · rw [x2] at h
        have := congrFun h (⟨1, by decide⟩ : Fin 2)
        norm_num at this
        exact one_ne_zero this
      · rw [x2, k3]
        show -((0 - 1 - (k.1 : ℝ)) * k.1) = 2 * (((3 - 1 - (k.1 : ℝ)) * k.1 - (0 - 1 - (k.1 : ℝ)) * k.1) / 3)
        linear_combination hk k
    rw [h1, Res.ok_bind, k4]
    have e : Example.pairOf (free Example.two.dirichlet_indices Example.two.size_of_system).length (ShiftedInverse.multiply_stiff hp) (ShiftedInverse.multiply_mass hp)
        (shifted_inverse ParabolicProgram.perfect (ShiftedInverse.shifted_mult hp)) 3 = .ok [(1, [1, 0]), (2, [0, 1])] := if_pos ⟨p1, p2⟩
    rw [e, Res.ok_bind, show pyGet [((1 : ℝ), [(1 : ℝ), 0]), (2, [0, 1])] 0 = .ok (1, [1, 0]) from rfl, Res.ok_bind,
      show pyGet [((1 : ℝ), [(1 : ℝ), 0]), (2, [0, 1])] 1 = .ok (2, [0, 1]) from rfl, Res.ok_bind, long_eq k1 rfl, x2]
    rfl
  · have := h.2.2 1 List.not_mem_nil
    norm_num at this
  · exact one_ne_zero ((Nat.cast_one (R := ℝ)).symm.trans (congrFun h 1))
  · show (0 - 1 - (k.1 : ℝ)) * k.1 + 2 * (((3 - 1 - k.1) * k.1 - (0 - 1 - k.1) * k.1) / 3) = 0
    have : (k.1 : ℝ) * (k.1 - 1) = 0 := by
      match k with
      | 0 => simp
      | 1 => simp
    linear_combination -this

/-- **C90** (the order of the list matters).  If the list is not increasing, then a Dirichlet index is among the unknowns, ... -/
theorem C90_unsorted (W : Wrapper ℝ) (sigma : ℝ) (h1 : W.size_of_system = 3) (h2 : W.dirichlet_indices = [1, 0]) : ∃ h, Helper.init W sigma = .ok h ∧ h.index_vector = [0] := by
  refine ⟨Helper.mk W sigma [1, 0] [0] [0, -1, -1], ?_, rfl⟩
  unfold Helper.init
  rw [h1, h2, show fill [1, 0] (List.replicate (3 - [1, 0].length) (-1)) (List.replicate 3 (-1)) = .ok (0, [0], [0, -1, -1]) by decide +kernel]
  rfl

/-- **C90** (... and so must the list belong to the system).  If the list is that of a finer mesh, then an index which is not in it is treated as one. -/
theorem C90_stale (W : Wrapper ℝ) (sigma : ℝ) (h1 : W.size_of_system = 2) (h2 : W.dirichlet_indices = [0, 4]) : ∃ h, Helper.init W sigma = .ok h ∧ h.index_vector = [] := by
  refine ⟨Helper.mk W sigma [0, 4] [] [-1, -1], ?_, rfl⟩
  unfold Helper.init
  rw [h1, h2, show fill [0, 4] (List.replicate (2 - [0, 4].length) (-1)) (List.replicate 2 (-1)) = .ok (0, [], [-1, -1]) by decide +kernel]
  rfl

end HyperHDG.EigenvalueProgram

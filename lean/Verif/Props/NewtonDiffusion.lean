import Verif.Proofs.NewtonLoops
import Verif.Proofs.EigenSmooth
import Verif.Props.NewtonLocal
import Verif.Props.DiffusionEigs

/-!
# Property C91: the Newton program for diffusion

The wrapper of `reproducibles_python/diffusion_*_eigenvalue_newt*.py` consists of the loops over the hyperedges and the local solver `DiffusionEigs`.
-/

namespace HyperHDG.NewtonProgram

open Spec _root_.Topology Filter
open ParabolicProgram (LinearSolver)

section Loops
variable {dim nB : Nat} (m : Mode) (G : HyGraph dim nB) (loc : ℝ → HyGraph.LocalFun dim nB ℝ)
  (jac : ℝ → ℝ → Nat → LocDofs dim nB ℝ → LocDofs dim nB ℝ → LocDofs dim nB ℝ → Res (LocDofs dim nB ℝ)) (init : Nat → LocDofs dim nB ℝ → Res (LocDofs dim nB ℝ)) (old0 vals0 new0 : LocDofs dim nB ℝ)
  (nodes : Fin G.n_hyEdges → Fin (2 * dim) → Fin G.n_hyNodes) (hwf : G.WF nodes)

/-- The dofs which are prescribed (`D e f j` says that the dof `j` of the face `f` of the hyperedge `e` is) for all the hyperedges they belong to. -/
def Prescribed (D : Fin G.n_hyEdges → Fin (2 * dim) → Fin nB → Prop) (k : Fin (G.n_hyNodes * nB)) : Prop := ∀ e i j, dof (nodes e i) j = k → D e i j

include hwf

theorem flux_prescribed (D : Fin G.n_hyEdges → Fin (2 * dim) → Fin nB → Prop)
    (h : ∀ (eig : ℝ) (e : Fin G.n_hyEdges) l y, loc eig e l (fun _ _ => 0) = .ok y → ∀ f j, D e f j → y f j = 0)
    {x y : Fin (G.n_hyNodes * nB) → ℝ} {eig : ℝ} (hy : HasFlux (ofLoops m G loc jac init old0 vals0 new0) x eig y) (k : Fin (G.n_hyNodes * nB)) (hk : Prescribed G nodes D k) : y k = 0 := by
  obtain ⟨z, h1, rfl⟩ := flux_local m G loc jac init old0 vals0 new0 nodes hwf hy
  exact assemble_zero G nodes z k fun e i j hj => h eig e _ _ (h1 e) i j (hk e i j hj)

theorem jacobian_prescribed (D : Fin G.n_hyEdges → Fin (2 * dim) → Fin nB → Prop)
    (h : ∀ (eig eig_val : ℝ) (e : Fin G.n_hyEdges) l l_val y, jac eig eig_val e l l_val (fun _ _ => 0) = .ok y → ∀ f j, D e f j → y f j = 0)
    {x x_val y : Fin (G.n_hyNodes * nB) → ℝ} {eig eig_val : ℝ} (hy : HasJacobian (ofLoops m G loc jac init old0 vals0 new0) x_val eig_val x eig y) (k : Fin (G.n_hyNodes * nB))
    (hk : Prescribed G nodes D k) : y k = 0 := by
  obtain ⟨z, h1, rfl⟩ := jacobian_to_local m G loc jac init old0 vals0 new0 nodes hwf hy
  exact assemble_zero G nodes z k fun e i j hj => h eig eig_val e _ _ _ (h1 e) i j (hk e i j hj)

end Loops

/-! ## The local solver -/

section
open DiffusionEigs LDG Diffusion

variable {dim nS nB : Nat}

theorem offDirichlet_smooth (E : Diffusion.Edge dim nS ℝ) {P : Type} [NormedAddCommGroup P] [NormedSpace ℝ P] {p : P} {l : P → LocDofs dim nB ℝ} (hl : ContDiffAt ℝ 1 l p) :
    ContDiffAt ℝ 1 (fun q => offDirichlet E (l q)) p := by
  rw [contDiffAt_pi]
  intro f
  rw [contDiffAt_pi]
  intro j
  by_cases h : IsDirichlet E f
  · simp only [offDirichlet, if_pos h]
    exact contDiffAt_const
  · simp only [offDirichlet, if_neg h]
    exact contDiffAt_pi.mp (contDiffAt_pi.mp hl f) j

/-- Near a trace and a number for which the local problem has one solution the local functions are smooth. -/
theorem diffusion_localSmooth (m : Mode) (gesv : Gesv ((dim + 1) * nS) 1 ℝ) (hg : GesvSpec gesv) (tau : ℝ) (E : DiffusionEigs.Edge dim nS ℝ) (hfix : FixedCoefficient E) (hO : Orthonormal E)
    (p : LocDofs dim nB ℝ × ℝ) (hs : Solvable (form E.toEdge nB p.2) tau (-p.2) 1) (out : LocDofs dim nB ℝ) :
    ∃ Φ, LocalSmoothAt (fun eig l => DiffusionEigs.trace_to_flux m gesv tau l out E eig) (fun eig eig_val l l_val => DiffusionEigs.jacobian_of_trace_to_flux m gesv tau l out eig l_val eig_val E) Φ p := by
  have hform : ∀ t, form E.toEdge nB t = form E.toEdge nB p.2 := by
    intro t
    simp only [form]
    congr 1
    ext i j
    exact hfix _ _ i j
  obtain ⟨S, hS, hev⟩ := solution_smooth (form E.toEdge nB p.2) tau p hs
  have hfst : ContDiffAt ℝ 1 (fun q : LocDofs dim nB ℝ × ℝ => q.1) p := contDiffAt_fst
  have hfl := offDirichlet_smooth E.toEdge (flux_smooth (form E.toEdge nB p.2) tau hfst hS)
  refine ⟨_, localSmooth_of hfl ?_ ?_⟩
  · refine hev.mono fun q hq => ?_
    have h1 : Solvable (form E.toEdge nB q.2) tau (-q.2) 1 := by rw [hform]; exact hq.1
    have h2 := DiffusionEigs.to_ok m gesv hg tau E q.2 h1 (lambda := q.1) (q := (S q).1) (u := (S q).2) (by rw [hform]; exact hq.2) out
    rw [hform] at h2
    exact h2
  · refine hev.mono fun q hq u => ?_
    have h1 : Solvable (form E.toEdge nB q.2) tau (-q.2) 1 := by rw [hform]; exact hq.1
    exact C57_derivative m gesv hg tau E hfix hO q.2 h1 u.1 out out u.2 q.1

end

/-! ## The program -/

section Diffusion
open DiffusionEigs LDG Diffusion

variable {dim nS nB : Nat}

/-- The wrapper of the program for diffusion. -/
def diffusionWrapper (m : Mode) (gesv : Gesv ((dim + 1) * nS) 1 ℝ) (tau : ℝ) (E : Nat → DiffusionEigs.Edge dim nS ℝ) (G : HyGraph dim nB) (old0 vals0 new0 : LocDofs dim nB ℝ) : Wrapper :=
  ofLoops m G (fun eig => DiffusionEigs.localOperator m gesv tau E eig) (fun eig eig_val => DiffusionEigs.localJacobian m gesv tau E eig eig_val) (fun e l => DiffusionEigs.make_initial l (E e) 0) old0 vals0 new0

variable (m : Mode) (gesv : Gesv ((dim + 1) * nS) 1 ℝ) (hg : GesvSpec gesv) (tau : ℝ) (E : Nat → DiffusionEigs.Edge dim nS ℝ) (G : HyGraph dim nB)
  (nodes : Fin G.n_hyEdges → Fin (2 * dim) → Fin G.n_hyNodes) (hwf : G.WF nodes) (old0 vals0 new0 : LocDofs dim nB ℝ)

/-- The dofs of Dirichlet hypernodes. -/
def OnDirichlet (k : Fin (G.n_hyNodes * nB)) : Prop := Prescribed G nodes (fun e f _ => (E e).node_descriptor f ∈ (E e).dirichlet_nodes) k

/-- Hyperedges agree on which hypernodes are of Dirichlet type. -/
def Agree : Prop := ∀ (e e' : Fin G.n_hyEdges) (f f' : Fin (2 * dim)), nodes e f = nodes e' f' → (E e).node_descriptor f ∈ (E e).dirichlet_nodes → (E e').node_descriptor f' ∈ (E e').dirichlet_nodes

theorem diffusion_lengths : Lengths (diffusionWrapper m gesv tau E G old0 vals0 new0) := lengths _ _ _ _ _ _ _ _

include hg hwf

theorem diffusion_flux_zero (x : Fin (G.n_hyNodes * nB) → ℝ) (eig : ℝ) (y : Fin (G.n_hyNodes * nB) → ℝ) (h : HasFlux (diffusionWrapper m gesv tau E G old0 vals0 new0) x eig y) (k : Fin (G.n_hyNodes * nB))
    (hk : OnDirichlet E G nodes k) : y k = 0 :=
  flux_prescribed m G _ _ _ old0 vals0 new0 nodes hwf _ (fun eig e l y h f j hf => C56_dirichlet_zero m gesv hg tau (E e) eig l _ y h f hf j) h k hk

theorem diffusion_jacobian_zero (x_val : Fin (G.n_hyNodes * nB) → ℝ) (eig_val : ℝ) (x : Fin (G.n_hyNodes * nB) → ℝ) (eig : ℝ) (y : Fin (G.n_hyNodes * nB) → ℝ)
    (h : HasJacobian (diffusionWrapper m gesv tau E G old0 vals0 new0) x_val eig_val x eig y) (k : Fin (G.n_hyNodes * nB)) (hk : OnDirichlet E G nodes k) : y k = 0 := by
  refine jacobian_prescribed m G _ _ _ old0 vals0 new0 nodes hwf _ (fun eig eig_val e l l_val y h f j hf => ?_) h k hk
  have h0 : DiffusionEigs.jacobian_of_trace_to_flux m gesv tau l (fun _ _ => 0) eig l_val eig_val (E e) = .ok y := h
  have h1 := C57_computes m gesv hg tau (E e) eig_val l (fun _ _ => 0) eig l_val
  by_cases hs : Solvable (form (E e).toEdge nB eig_val) tau (-eig_val) 1
  · obtain ⟨q, u, q', u', _, _, h2⟩ := h1.1 hs
    rw [h0] at h2
    rw [Res.ok.inj h2]
    simp only [offDirichlet]
    exact if_pos hf
  · have h2 := h1.2 hs
    rw [h0] at h2
    cases m <;> cases h2

/-- **C91** (diffusion, what is returned).  Started with a trace which vanishes at the Dirichlet hypernodes, the program with solvers which return vectors in the Krylov spaces returns a pair whose trace vanishes
there, whose norm is one up to 10^-9, and whose fluxes are zero up to 10^-9; if the fluxes are zero, it is an eigenpair. -/
theorem C91_diffusion (hD : Agree E G nodes) (gmres : ℝ → LinearSolver ℝ) (hK : KrylovSolver gmres) (steps : Nat) (x0 : Fin (G.n_hyNodes * nB) → ℝ)
    (hx0 : ∀ k, OnDirichlet E G nodes k → x0 k = 0) (eig0 val : ℝ) (sol : List ℝ)
    (h : newton (diffusionWrapper m gesv tau E G old0 vals0 new0) (diffusion_update gmres) steps (joined x0 eig0) = .ok (.ok (val, sol))) :
    ∃ x y : Fin (G.n_hyNodes * nB) → ℝ, sol = joined x val ∧ (∀ (e : Fin G.n_hyEdges) (f : Fin (2 * dim)), (E e).node_descriptor f ∈ (E e).dirichlet_nodes → ∀ j, faceValues nodes x e f j = 0) ∧
      G.mat_vec_multiply m (DiffusionEigs.localOperator m gesv tau E val) old0 new0 (List.ofFn x) = .ok (List.ofFn y) ∧
      (∀ k, |y k| < 1 / 1000000000) ∧ |(∑ k, x k ^ 2) - 1| < 1 / 1000000000 ∧ (y = 0 → DiffusionEigs.IsEigenpair m gesv tau E G nodes old0 new0 x val) := by
  obtain ⟨x, y, rfl, hy, hd, _⟩ := C91_returned (n := G.n_hyNodes * nB) (diffusionWrapper m gesv tau E G old0 vals0 new0) (diffusion_lengths m gesv tau E G old0 vals0 new0) rfl _ steps x0 eig0 val sol h
  have hz := C91_dirichlet (diffusionWrapper m gesv tau E G old0 vals0 new0) (diffusion_lengths m gesv tau E G old0 vals0 new0) _ (krylov_diffusion hK) (OnDirichlet E G nodes)
    (fun x eig y hy k hk => diffusion_flux_zero m gesv hg tau E G nodes hwf old0 vals0 new0 x eig y hy k hk)
    (fun x_val eig_val x eig y hy k hk => diffusion_jacobian_zero m gesv hg tau E G nodes hwf old0 vals0 new0 x_val eig_val x eig y hy k hk) steps x0 eig0 val x h
  have hvan : ∀ (e : Fin G.n_hyEdges) (f : Fin (2 * dim)), (E e).node_descriptor f ∈ (E e).dirichlet_nodes → ∀ j, faceValues nodes x e f j = 0 := by
    intro e f hf j
    have hon : OnDirichlet E G nodes (dof (nodes e f) j) := fun e' f' j' hj => hD e e' f f' (HyGraph.dof_inj hj).1.symm hf
    exact (hz _ hon).trans (hx0 _ hon)
  have hflux := (hasFlux_iff m G _ _ _ old0 vals0 new0 nodes hwf x y val).mp hy
  obtain ⟨s1, s2, s3⟩ := C91_small hd
  refine ⟨x, y, rfl, hvan, hflux, s1, s2, fun h0 => ⟨s3, hvan, ?_⟩⟩
  rw [h0] at hflux
  rw [hflux]
  exact congrArg Res.ok (List.ofFn_const _ (0 : ℝ))

omit hg in
/-- **C91** (diffusion, start).  The start of the program without an initial vector vanishes at the Dirichlet hypernodes and has norm one, if the initial values are not all zero on the other ones. -/
theorem C91_diffusion_start (guess : ℝ) :
    ∃ v : Fin (G.n_hyNodes * nB) → ℝ, (∀ k, OnDirichlet E G nodes k → v k = 0) ∧
      (∀ k, v k = 0 ∨ ∃ (e : Fin G.n_hyEdges) (f : Fin (2 * dim)) (j : Fin nB), dof (nodes e f) j = k ∧ v k = (E e).bdrUni_psifunc 0 j f) ∧
      (v ≠ 0 → start_default (diffusionWrapper m gesv tau E G old0 vals0 new0) guess = .ok (joined (fun k => v k / √(∑ k, v k ^ 2)) guess) ∧ ∑ k, (v k / √(∑ k, v k ^ 2)) ^ 2 = 1) := by
  obtain ⟨r, h1, h2⟩ := initial_of_local m G (fun eig => DiffusionEigs.localOperator m gesv tau E eig) (fun eig eig_val => DiffusionEigs.localJacobian m gesv tau E eig eig_val)
    (fun e l => DiffusionEigs.make_initial l (E e) 0) old0 vals0 new0 nodes hwf (fun e => C56_make_initial (E e) 0 (fun _ _ => 0))
  refine ⟨r, fun k hk => ?_, fun k => ?_, fun hr => ?_⟩
  · rcases h2 k with ⟨e, i, j, hk', hr, _⟩ | ⟨_, hr⟩
    · rw [hr]
      exact if_pos (hk e i j hk')
    · exact hr
  · rcases h2 k with ⟨e, i, j, hk', hr, _⟩ | ⟨_, hr⟩
    · by_cases hd : (E e).node_descriptor i ∈ (E e).dirichlet_nodes
      · exact .inl (hr.trans (if_pos hd))
      · exact .inr ⟨e, i, j, hk', hr.trans (if_neg hd)⟩
    · exact .inl hr
  · obtain ⟨a, _, b⟩ := C91_start (n := G.n_hyNodes * nB) (diffusionWrapper m gesv tau E G old0 vals0 new0) rfl r hr guess 0 h1
    exact ⟨a, b⟩

/-- **C91** (diffusion, smoothness).  If the local problems for `p.2` have one solution, then the fluxes are continuously differentiable near `p`, and the Jacobian the program uses is their derivative. -/
theorem C91_diffusion_smooth (hfix : ∀ e, FixedCoefficient (E e)) (hO : ∀ e, Orthonormal (E e)) (p : (Fin (G.n_hyNodes * nB) → ℝ) × ℝ)
    (hs : ∀ e : Fin G.n_hyEdges, Solvable (form (E e).toEdge nB p.2) tau (-p.2) 1) : ∃ R, SmoothAt (diffusionWrapper m gesv tau E G old0 vals0 new0) R p := by
  choose Φ hΦ using fun e : Fin G.n_hyEdges => diffusion_localSmooth m gesv hg tau (E e) (hfix e) (hO e) (faceValues nodes p.1 e, p.2) (hs e) (fun _ _ => 0)
  exact ⟨_, smooth_of_local m G _ _ _ old0 vals0 new0 nodes hwf hΦ⟩

/-- **C91** (diffusion, convergence).  Let `p` be an eigenpair of norm one which is simple among the traces which vanish at the Dirichlet hypernodes.  Started near `p`, the program returns a pair near `p`, if
`gmres`, of which it is assumed that the vectors it returns are in the Krylov spaces and as accurate as they are asked to be (zero for zero), reports success. -/
theorem C91_diffusion_converges (hfix : ∀ e, FixedCoefficient (E e)) (hO : ∀ e, Orthonormal (E e)) (gmres : ℝ → LinearSolver ℝ) (hK : KrylovSolver gmres) (hA : AccurateSolver gmres) (h0 : ZeroSolver gmres)
    (p : (Fin (G.n_hyNodes * nB) → ℝ) × ℝ) (hs : ∀ e : Fin G.n_hyEdges, Solvable (form (E e).toEdge nB p.2) tau (-p.2) 1)
    (hp : SimplePair (diffusionWrapper m gesv tau E G old0 vals0 new0) (OnDirichlet E G nodes) p) {ε : ℝ} (hε : 0 < ε) (steps : Nat) :
    ∀ᶠ q in 𝓝 p, ∀ y u, HasFlux (diffusionWrapper m gesv tau E G old0 vals0 new0) q.1 q.2 y →
      gmres (1 / 100 * defect q.1 y) (jacobian (diffusionWrapper m gesv tau E G old0 vals0 new0) (joined q.1 q.2)) (joined y ((∑ k, q.1 k ^ 2) - 1)) = .ok (u, 0) →
      ∃ q' : (Fin (G.n_hyNodes * nB) → ℝ) × ℝ, newton (diffusionWrapper m gesv tau E G old0 vals0 new0) (diffusion_update gmres) (steps + 1) (joined q.1 q.2) = .ok (.ok (q'.2, joined q'.1 q'.2)) ∧
        dist q' p ≤ ε := by
  obtain ⟨R, hR⟩ := C91_diffusion_smooth m gesv hg tau E G nodes hwf old0 vals0 new0 hfix hO p hs
  refine (C91_local_returns (n := G.n_hyNodes * nB) (diffusionWrapper m gesv tau E G old0 vals0 new0) (diffusion_lengths m gesv tau E G old0 vals0 new0) rfl _ (krylov_diffusion hK) (accurate_diffusion hA) (zero_diffusion h0) (OnDirichlet E G nodes)
    (fun x eig y hy k hk => diffusion_flux_zero m gesv hg tau E G nodes hwf old0 vals0 new0 x eig y hy k hk)
    (fun x_val eig_val x eig y hy k hk => diffusion_jacobian_zero m gesv hg tau E G nodes hwf old0 vals0 new0 x_val eig_val x eig y hy k hk) R p hR hp hε steps).mono fun q hq y u hy hu => ?_
  refine hq y u hy ?_
  unfold diffusion_update
  rw [show scaling_fac = 1 / 100 from rfl, hu]
  rfl

end Diffusion

end HyperHDG.NewtonProgram

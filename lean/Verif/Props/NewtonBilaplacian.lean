import Verif.Props.NewtonDiffusion
import Verif.Proofs.BilaplacianSmooth
import Verif.Props.BilaplacianEigs

/-!
# Property C91: the Newton program for the bilaplacian

The wrapper of `reproducibles_python/bilaplacian_*_eigenvalue_newt.py` consists of the loops over the hyperedges and the local solver `BilaplacianEigs`.
-/

namespace HyperHDG.NewtonProgram

open Spec _root_.Topology Filter
open ParabolicProgram (LinearSolver)

/-! ## The local solver -/

section
open BilaplacianEigs LDG Bilaplacian

variable {dim nS nB : Nat}

theorem offDirichlet_smooth2 (E : Bilaplacian.Edge dim nS ℝ) {P : Type} [NormedAddCommGroup P] [NormedSpace ℝ P] {p : P} {y z : P → LocDofs dim nB ℝ} (hy : ContDiffAt ℝ 1 y p) (hz : ContDiffAt ℝ 1 z p) :
    ContDiffAt ℝ 1 (fun q => offDirichlet E (y q) (z q)) p := by
  rw [contDiffAt_pi]
  intro f
  rw [contDiffAt_pi]
  intro j
  obtain ⟨k, rfl | rfl⟩ := Mixed.halves_cases j
  · simp only [offDirichlet_up]
    by_cases h : IsDirichlet E f
    · simp only [if_pos h]
      exact contDiffAt_const
    · simp only [if_neg h]
      exact contDiffAt_pi.mp (contDiffAt_pi.mp hy f) k
  · simp only [offDirichlet_lo]
    by_cases h : IsDirichletLaplacian E f
    · simp only [if_pos h]
      exact contDiffAt_const
    · simp only [if_neg h]
      exact contDiffAt_pi.mp (contDiffAt_pi.mp hz f) k

/-- Near a trace and a number for which the local problem has one solution the local functions are smooth. -/
theorem bilaplacian_localSmooth (m : Mode) (gesv : Gesv (n_loc_dofs dim nS) 1 ℝ) (hg : GesvSpec gesv) (tau : ℝ) (E : BilaplacianEigs.Edge dim nS ℝ) (hfix : FixedCoefficient E) (hO : Orthonormal E)
    (p : LocDofs dim (2 * nB) ℝ × ℝ) (hs : EigSolvable E nB tau p.2) (out : LocDofs dim (2 * nB) ℝ) :
    ∃ Φ, LocalSmoothAt (fun eig l => BilaplacianEigs.trace_to_flux m gesv tau l out E eig) (fun eig eig_val l l_val => BilaplacianEigs.jacobian_of_trace_to_flux m gesv tau l out eig l_val eig_val E) Φ p := by
  obtain ⟨S, hS, hev⟩ := eig_smooth E hfix tau p hs
  have hup : ContDiffAt ℝ 1 (fun q : LocDofs dim (2 * nB) ℝ × ℝ => upper q.1) p := ((contDiff_linear upperMap).comp contDiff_fst).contDiffAt
  have hlo : ContDiffAt ℝ 1 (fun q : LocDofs dim (2 * nB) ℝ × ℝ => lower q.1) p := ((contDiff_linear lowerMap).comp contDiff_fst).contDiffAt
  have hS1 : ContDiffAt ℝ 1 (fun q => (S q).1) p := hS.fst
  have hS2 : ContDiffAt ℝ 1 (fun q => (S q).2) p := hS.snd
  have hfl := offDirichlet_smooth2 E.stat (flux_smooth (form E.stat nB) tau hlo hS2) (flux_smooth (form E.stat nB) tau hup hS1)
  refine ⟨_, localSmooth_of hfl ?_ ?_⟩
  · exact hev.mono fun q hq => BilaplacianEigs.to_ok m gesv hg tau E q.2 hq.1 hq.2 out
  · exact hev.mono fun q hq u => C66_derivative m gesv hg tau E hfix hO q.2 hq.1 u.1 out out u.2 q.1

end

/-! ## The program -/

section Bilaplacian
open BilaplacianEigs LDG Bilaplacian

variable {dim nS nB : Nat}

/-- The wrapper of the program for the bilaplacian. -/
def bilaplacianWrapper (m : Mode) (gesv : Gesv (n_loc_dofs dim nS) 1 ℝ) (tau : ℝ) (E : Nat → BilaplacianEigs.Edge dim nS ℝ) (G : HyGraph dim (2 * nB)) (old0 vals0 new0 : LocDofs dim (2 * nB) ℝ) : Wrapper :=
  ofLoops m G (fun eig => BilaplacianEigs.localOperator m gesv tau E eig) (fun eig eig_val => BilaplacianEigs.localJacobian m gesv tau E eig eig_val) (fun e l => BilaplacianEigs.make_initial l (E e) 0) old0 vals0 new0

variable (m : Mode) (gesv : Gesv (n_loc_dofs dim nS) 1 ℝ) (hg : GesvSpec gesv) (tau : ℝ) (E : Nat → BilaplacianEigs.Edge dim nS ℝ) (G : HyGraph dim (2 * nB))
  (nodes : Fin G.n_hyEdges → Fin (2 * dim) → Fin G.n_hyNodes) (hwf : G.WF nodes) (old0 vals0 new0 : LocDofs dim (2 * nB) ℝ)

/-- The dof `j` of the face is prescribed: in the first half where `u` is, in the second half where the Laplacian is. -/
def IsPrescribed (E : BilaplacianEigs.Edge dim nS ℝ) (f : Fin (2 * dim)) (j : Fin (2 * nB)) : Prop := if j.1 < nB then IsDirichlet E.stat f else IsDirichletLaplacian E.stat f

/-- The dofs which are prescribed. -/
def OnPrescribed (k : Fin (G.n_hyNodes * (2 * nB))) : Prop := Prescribed G nodes (fun e f j => IsPrescribed (E e) f j) k

/-- Hyperedges agree on which dofs are prescribed. -/
def AgreePrescribed : Prop := ∀ (e e' : Fin G.n_hyEdges) (f f' : Fin (2 * dim)) (j : Fin (2 * nB)), nodes e f = nodes e' f' → IsPrescribed (E e) f j → IsPrescribed (E e') f' j

theorem vanishes_iff (E : BilaplacianEigs.Edge dim nS ℝ) (l : LocDofs dim (2 * nB) ℝ) : VanishesOnDirichlet E.stat l ↔ ∀ f j, IsPrescribed E f j → l f j = 0 := by
  constructor
  · intro h f j hj
    obtain ⟨k, rfl | rfl⟩ := Mixed.halves_cases j
    · exact (h f).1 ((if_pos k.2).mp hj) k
    · exact (h f).2 ((if_neg (by simp [Mixed.lo])).mp hj) k
  · intro h f
    exact ⟨fun hf j => h f _ ((if_pos j.2).mpr hf), fun hf j => h f _ ((if_neg (by simp)).mpr hf)⟩

theorem bilaplacian_lengths : Lengths (bilaplacianWrapper m gesv tau E G old0 vals0 new0) := lengths _ _ _ _ _ _ _ _

include hg hwf

theorem bilaplacian_flux_zero (x : Fin (G.n_hyNodes * (2 * nB)) → ℝ) (eig : ℝ) (y : Fin (G.n_hyNodes * (2 * nB)) → ℝ) (h : HasFlux (bilaplacianWrapper m gesv tau E G old0 vals0 new0) x eig y) (k : Fin (G.n_hyNodes * (2 * nB)))
    (hk : OnPrescribed E G nodes k) : y k = 0 :=
  flux_prescribed m G _ _ _ old0 vals0 new0 nodes hwf _ (fun eig e l y h f j hf => (vanishes_iff (E e) y).mp (C65_dirichlet_zero m gesv hg tau (E e) eig l _ y h) f j hf) h k hk

theorem bilaplacian_jacobian_zero (x_val : Fin (G.n_hyNodes * (2 * nB)) → ℝ) (eig_val : ℝ) (x : Fin (G.n_hyNodes * (2 * nB)) → ℝ) (eig : ℝ) (y : Fin (G.n_hyNodes * (2 * nB)) → ℝ)
    (h : HasJacobian (bilaplacianWrapper m gesv tau E G old0 vals0 new0) x_val eig_val x eig y) (k : Fin (G.n_hyNodes * (2 * nB))) (hk : OnPrescribed E G nodes k) : y k = 0 := by
  refine jacobian_prescribed m G _ _ _ old0 vals0 new0 nodes hwf _ (fun eig eig_val e l l_val y h f j hf => ?_) h k hk
  have h0 : BilaplacianEigs.jacobian_of_trace_to_flux m gesv tau l (fun _ _ => 0) eig l_val eig_val (E e) = .ok y := h
  have h1 := C66_computes m gesv hg tau (E e) eig_val l (fun _ _ => 0) eig l_val
  by_cases hs : EigSolvable (E e) nB tau eig_val
  · obtain ⟨q, u, p, w, q', u', p', w', _, _, h2⟩ := h1.1 hs
    rw [h0] at h2
    rw [Res.ok.inj h2]
    exact (vanishes_iff (E e) _).mp (fluxes_vanish (E e) tau l q' p' u' w') f j hf
  · have h2 := h1.2 hs
    rw [h0] at h2
    cases m <;> cases h2

/-- **C91** (bilaplacian, what is returned).  Started with a trace which vanishes where it is prescribed, the program with solvers which return vectors in the Krylov spaces returns a pair whose trace vanishes
there, whose norm is one up to 10^-9, and whose fluxes are zero up to 10^-9; if the fluxes are zero, it is an eigenpair. -/
theorem C91_bilaplacian (hD : AgreePrescribed E G nodes) (bicgstab gmres : ℝ → LinearSolver ℝ) (hK : KrylovSolver bicgstab) (hK' : KrylovSolver gmres) (steps : Nat) (x0 : Fin (G.n_hyNodes * (2 * nB)) → ℝ)
    (hx0 : ∀ k, OnPrescribed E G nodes k → x0 k = 0) (eig0 val : ℝ) (sol : List ℝ)
    (h : newton (bilaplacianWrapper m gesv tau E G old0 vals0 new0) (bilaplacian_update bicgstab gmres) steps (joined x0 eig0) = .ok (.ok (val, sol))) :
    ∃ x y : Fin (G.n_hyNodes * (2 * nB)) → ℝ, sol = joined x val ∧ (∀ e : Fin G.n_hyEdges, VanishesOnDirichlet (E e).stat (faceValues nodes x e)) ∧
      G.mat_vec_multiply m (BilaplacianEigs.localOperator m gesv tau E val) old0 new0 (List.ofFn x) = .ok (List.ofFn y) ∧
      (∀ k, |y k| < 1 / 1000000000) ∧ |(∑ k, x k ^ 2) - 1| < 1 / 1000000000 ∧ (y = 0 → BilaplacianEigs.IsEigenpair m gesv tau E G nodes old0 new0 x val) := by
  obtain ⟨x, y, rfl, hy, hd, _⟩ := C91_returned (n := G.n_hyNodes * (2 * nB)) (bilaplacianWrapper m gesv tau E G old0 vals0 new0) (bilaplacian_lengths m gesv tau E G old0 vals0 new0) rfl _ steps x0 eig0 val sol h
  have hz := C91_dirichlet (bilaplacianWrapper m gesv tau E G old0 vals0 new0) (bilaplacian_lengths m gesv tau E G old0 vals0 new0) _ (krylov_bilaplacian hK hK') (OnPrescribed E G nodes)
    (fun x eig y hy k hk => bilaplacian_flux_zero m gesv hg tau E G nodes hwf old0 vals0 new0 x eig y hy k hk)
    (fun x_val eig_val x eig y hy k hk => bilaplacian_jacobian_zero m gesv hg tau E G nodes hwf old0 vals0 new0 x_val eig_val x eig y hy k hk) steps x0 eig0 val x h
  have hvan : ∀ e : Fin G.n_hyEdges, VanishesOnDirichlet (E e).stat (faceValues nodes x e) := by
    intro e
    rw [vanishes_iff]
    intro f j hf
    have hon : OnPrescribed E G nodes (dof (nodes e f) j) := fun e' f' j' hj => by
      obtain ⟨h1, rfl⟩ := HyGraph.dof_inj hj
      exact hD e e' f f' j' h1.symm hf
    exact (hz _ hon).trans (hx0 _ hon)
  have hflux := (hasFlux_iff m G _ _ _ old0 vals0 new0 nodes hwf x y val).mp hy
  obtain ⟨s1, s2, s3⟩ := C91_small hd
  refine ⟨x, y, rfl, hvan, hflux, s1, s2, fun h0 => ⟨s3, hvan, ?_⟩⟩
  rw [h0] at hflux
  rw [hflux]
  exact congrArg Res.ok (List.ofFn_const _ (0 : ℝ))

omit hg in
/-- **C91** (bilaplacian, start).  Where the Laplacian is prescribed, let `u` be prescribed too (`make_initial` sets nothing to zero where only the Laplacian is, see C65).  Then the start of the program without an
initial vector vanishes where the trace is prescribed, and it has norm one if `make_initial` has not returned zero. -/
theorem C91_bilaplacian_start_partial (hD : ∀ (e : Fin G.n_hyEdges) (f : Fin (2 * dim)), IsDirichletLaplacian (E e).stat f → IsDirichlet (E e).stat f) (guess : ℝ) :
    ∃ v : Fin (G.n_hyNodes * (2 * nB)) → ℝ, (∀ k, OnPrescribed E G nodes k → v k = 0) ∧
      (∀ k, v k = 0 ∨ ∃ (e : Fin G.n_hyEdges) (f : Fin (2 * dim)) (j : Fin (2 * nB)), dof (nodes e f) j = k ∧ v k = if j.1 < nB then (E e).bdrUni_psifunc 0 j f else (E e).bdrUni_psifunc_laplace 0 j f) ∧
      (v ≠ 0 → start_default (bilaplacianWrapper m gesv tau E G old0 vals0 new0) guess = .ok (joined (fun k => v k / √(∑ k, v k ^ 2)) guess) ∧ ∑ k, (v k / √(∑ k, v k ^ 2)) ^ 2 = 1) := by
  obtain ⟨r, h1, h2⟩ := initial_of_local m G (fun eig => BilaplacianEigs.localOperator m gesv tau E eig) (fun eig eig_val => BilaplacianEigs.localJacobian m gesv tau E eig eig_val)
    (fun e l => BilaplacianEigs.make_initial l (E e) 0) old0 vals0 new0 nodes hwf (fun e => C65_make_initial (E e) 0 (fun _ _ => 0))
  refine ⟨r, fun k hk => ?_, fun k => ?_, fun hr => ?_⟩
  · rcases h2 k with ⟨e, i, j, hk', hr, _⟩ | ⟨_, hr⟩
    · rw [hr]
      have h3 : IsDirichlet (E e).stat i := by
        have h4 : IsPrescribed (E e) i j := hk e i j hk'
        unfold IsPrescribed at h4
        split at h4
        · exact h4
        · exact hD e i h4
      exact if_pos h3
    · exact hr
  · rcases h2 k with ⟨e, i, j, hk', hr, _⟩ | ⟨_, hr⟩
    · by_cases hd : (E e).node_descriptor i ∈ (E e).dirichlet_nodes
      · exact .inl (hr.trans (if_pos hd))
      · exact .inr ⟨e, i, j, hk', hr.trans (if_neg hd)⟩
    · exact .inl hr
  · obtain ⟨a, _, b⟩ := C91_start (n := G.n_hyNodes * (2 * nB)) (bilaplacianWrapper m gesv tau E G old0 vals0 new0) rfl r hr guess 0 h1
    exact ⟨a, b⟩

/-- **C91** (bilaplacian, smoothness).  If the local problems for `p.2` have one solution, then the fluxes are continuously differentiable near `p`, and the Jacobian the program uses is their derivative. -/
theorem C91_bilaplacian_smooth (hfix : ∀ e, FixedCoefficient (E e)) (hO : ∀ e, Orthonormal (E e)) (p : (Fin (G.n_hyNodes * (2 * nB)) → ℝ) × ℝ)
    (hs : ∀ e : Fin G.n_hyEdges, EigSolvable (E e) nB tau p.2) : ∃ R, SmoothAt (bilaplacianWrapper m gesv tau E G old0 vals0 new0) R p := by
  choose Φ hΦ using fun e : Fin G.n_hyEdges => bilaplacian_localSmooth m gesv hg tau (E e) (hfix e) (hO e) (faceValues nodes p.1 e, p.2) (hs e) (fun _ _ => 0)
  exact ⟨_, smooth_of_local m G _ _ _ old0 vals0 new0 nodes hwf hΦ⟩

/-- **C91** (bilaplacian, convergence).  Let `p` be an eigenpair of norm one which is simple among the traces which vanish where they are prescribed.  Started near `p`, the program returns a pair near
`p`, if `bicgstab` or else `gmres`, of which it is assumed that the vectors they return are in the Krylov spaces and as accurate as they are asked to be (zero for zero), reports success. -/
theorem C91_bilaplacian_converges (hfix : ∀ e, FixedCoefficient (E e)) (hO : ∀ e, Orthonormal (E e)) (bicgstab gmres : ℝ → LinearSolver ℝ) (hK : KrylovSolver bicgstab) (hK' : KrylovSolver gmres) (hA : AccurateSolver bicgstab) (hA' : AccurateSolver gmres) (h0 : ZeroSolver bicgstab)
    (p : (Fin (G.n_hyNodes * (2 * nB)) → ℝ) × ℝ) (hs : ∀ e : Fin G.n_hyEdges, EigSolvable (E e) nB tau p.2)
    (hp : SimplePair (bilaplacianWrapper m gesv tau E G old0 vals0 new0) (OnPrescribed E G nodes) p) {ε : ℝ} (hε : 0 < ε) (steps : Nat) :
    ∀ᶠ q in 𝓝 p, ∀ y u, HasFlux (bilaplacianWrapper m gesv tau E G old0 vals0 new0) q.1 q.2 y →
      (bicgstab (min (1 / 1000000000) (1 / 100 * defect q.1 y)) (jacobian (bilaplacianWrapper m gesv tau E G old0 vals0 new0) (joined q.1 q.2)) (joined y ((∑ k, q.1 k ^ 2) - 1)) = .ok (u, 0) ∨
        ∃ v info, info ≠ 0 ∧ bicgstab (min (1 / 1000000000) (1 / 100 * defect q.1 y)) (jacobian (bilaplacianWrapper m gesv tau E G old0 vals0 new0) (joined q.1 q.2)) (joined y ((∑ k, q.1 k ^ 2) - 1)) = .ok (v, info) ∧
          gmres (min (1 / 1000000000) (1 / 100 * defect q.1 y)) (jacobian (bilaplacianWrapper m gesv tau E G old0 vals0 new0) (joined q.1 q.2)) (joined y ((∑ k, q.1 k ^ 2) - 1)) = .ok (u, 0)) →
      ∃ q' : (Fin (G.n_hyNodes * (2 * nB)) → ℝ) × ℝ, newton (bilaplacianWrapper m gesv tau E G old0 vals0 new0) (bilaplacian_update bicgstab gmres) (steps + 1) (joined q.1 q.2) = .ok (.ok (q'.2, joined q'.1 q'.2)) ∧
        dist q' p ≤ ε := by
  obtain ⟨R, hR⟩ := C91_bilaplacian_smooth m gesv hg tau E G nodes hwf old0 vals0 new0 hfix hO p hs
  refine (C91_local_returns (n := G.n_hyNodes * (2 * nB)) (bilaplacianWrapper m gesv tau E G old0 vals0 new0) (bilaplacian_lengths m gesv tau E G old0 vals0 new0) rfl _ (krylov_bilaplacian hK hK') (accurate_bilaplacian hA hA') (zero_bilaplacian h0) (OnPrescribed E G nodes)
    (fun x eig y hy k hk => bilaplacian_flux_zero m gesv hg tau E G nodes hwf old0 vals0 new0 x eig y hy k hk)
    (fun x_val eig_val x eig y hy k hk => bilaplacian_jacobian_zero m gesv hg tau E G nodes hwf old0 vals0 new0 x_val eig_val x eig y hy k hk) R p hR hp hε steps).mono fun q hq y u hy hu => ?_
  refine hq y u hy ?_
  unfold bilaplacian_update
  rw [show scaling_fac = 1 / 100 from rfl]
  rcases hu with hu | ⟨v, info, hi, hb, hu⟩
  · rw [hu]
    rfl
  · rw [hb, Res.ok_bind, if_neg hi, hu]
    rfl

end Bilaplacian

end HyperHDG.NewtonProgram

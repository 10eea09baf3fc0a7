import Verif.Spec.Reciprocity
import Verif.Proofs.SteadyState
import Verif.Props.SteadyState
import Verif.Props.BeamFrame

/-!
# Property C103: superposition, reciprocity and work of the loads

For `Diffusion` on any hypergraph and for `TimoshenkoBeam` on any network of beams: combinations of discrete solutions solve the problem with the combined data; the load of one problem does the same
work along the solution of another as the other way round (the reciprocity of Maxwell and Betti); the work of a load along its own solution is not negative, and zero only for the zero solution.
-/

namespace HyperHDG.EllipticProgram

open Finset Spec Matrix Diffusion HyGraph

variable {dim nS nB : Nat} {K : Type} [Field K]

theorem off_same {E E' : Edge dim nS K} {time : K} (h : SameOperator E E' nB time) (y : LocDofs dim nB K) : Diffusion.offDirichlet E' y = Diffusion.offDirichlet E y := by
  funext f j
  classical exact if_congr (h.dirichlet f) rfl rfl

theorem off_comb (E : Edge dim nS K) (a b : K) (y z : LocDofs dim nB K) : Diffusion.offDirichlet E (a • y + b • z) = a • Diffusion.offDirichlet E y + b • Diffusion.offDirichlet E z := by
  funext f j
  simp only [Diffusion.offDirichlet, Pi.add_apply, Pi.smul_apply]
  split <;> simp

theorem assemble_comb {E N F n : Nat} (nodes : Fin E → Fin F → Fin N) (a b : K) (y z : Fin E → Fin F → Fin n → K) :
    assemble nodes (fun e => a • y e + b • z e) = a • assemble nodes y + b • assemble nodes z := by
  funext k
  have := assemble_add nodes (fun e i j => a * y e i j) (fun e i j => b * z e i j) k
  rw [assemble_smul, assemble_smul] at this
  exact this

theorem values_zero {E : Edge dim nS K} {time : K} (h : ZeroValues E time) : dirichletMoments E time = 0 := by
  funext f i
  simp only [dirichletMoments]
  split
  · exact h f i ‹_›
  · rfl

section
variable [LinearOrder K] [IsStrictOrderedRing K] (m : Mode) (gesv : Gesv ((dim + 1) * nS) 1 K) (hg : GesvSpec gesv) (tau : K) (ht : 0 < tau) (time : K)
  (G : HyGraph dim nB) (nodes : Fin G.n_hyEdges → Fin (2 * dim) → Fin G.n_hyNodes) (hwf : G.WF nodes) (D : Fin G.n_hyNodes → Prop) (old0 new0 : LocDofs dim nB K)

include hg ht hwf

/-- The residual is zero if and only if the fluxes balance. -/
theorem balance_iff (E : Nat → Edge dim nS K) (hE : ∀ e, FormLaws (form (E e) nB time)) {y : Fin (G.n_hyNodes * nB) → K} {q : Fin G.n_hyEdges → Fin dim → Fin nS → K} {u : Fin G.n_hyEdges → Fin nS → K}
    (hsol : ∀ e : Fin G.n_hyEdges, IsSolution (form (E e) nB time) tau 0 1 (moments (form (E e) nB time) (faceValues nodes y e) + dirichletMoments (E e) time) (source (E e) time) (q e) (u e)) :
    (Elliptic.mk' G).apply m (localResidual m gesv tau E time) old0 new0 (List.ofFn y) = .ok (List.replicate (G.n_hyNodes * nB) 0) ↔
      assemble nodes (fun e : Fin G.n_hyEdges => Diffusion.offDirichlet (E e) (faceFlux (form (E e) nB time) tau (faceValues nodes y e) (q e) (u e))) = 0 := by
  have hS := fun e => (C21_solvable m gesv hg tau (E e) time (hE e) ht (0 : LocDofs dim nB K) 0).1
  have hloc : ∀ e : Fin G.n_hyEdges, localResidual m gesv tau E time e (faceValues nodes y e) (fun _ _ => 0) =
      .ok (Diffusion.offDirichlet (E e) (faceFlux (form (E e) nB time) tau (faceValues nodes y e) (q e) (u e))) := fun e => by
    obtain ⟨q', u', h1, h2⟩ := (C21_residual m gesv hg tau (E e) time (faceValues nodes y e) (fun _ _ => 0)).1 (hS e)
    obtain ⟨e1, e2⟩ := solution_unique (hS e) h1 (hsol e)
    rw [e1, e2] at h2
    exact h2
  rw [C23_fresh, mat_vec_eq m G nodes hwf _ y _ hloc old0 new0, ← List.ofFn_const]
  constructor
  · intro h
    injection h with h
    exact List.ofFn_injective h
  · intro h
    rw [h]
    rfl

variable (E₁ E₂ : Nat → Edge dim nS K) (hE : ∀ e, FormLaws (form (E₁ e) nB time)) (h12 : ∀ e, SameOperator (E₁ e) (E₂ e) nB time)
  {y₁ y₂ : Fin (G.n_hyNodes * nB) → K} {u₁ u₂ : Fin G.n_hyEdges → Fin nS → K}
  (h1 : Solves m gesv tau time G nodes D old0 new0 E₁ y₁ u₁) (h2 : Solves m gesv tau time G nodes D old0 new0 E₂ y₂ u₂)

include hE

include h12 h1 h2 in
/-- **C103** (superposition).  If right-hand sides and prescribed values of a problem are `a` times those of one problem plus `b` times those of another, then `a` times a discrete solution of the one
plus `b` times a discrete solution of the other is a discrete solution of it. -/
theorem C103_superposition (E : Nat → Edge dim nS K) (hsame : ∀ e, SameOperator (E₁ e) (E e) nB time) (a b : K) (hsup : ∀ e, Superposed a b (E₁ e) (E₂ e) (E e) time) :
    Solves m gesv tau time G nodes D old0 new0 E (a • y₁ + b • y₂) (a • u₁ + b • u₂) := by
  choose q₁ hq₁ using h1.local_solution
  choose q₂ hq₂ using h2.local_solution
  have hsol : ∀ e : Fin G.n_hyEdges, IsSolution (form (E e) nB time) tau 0 1
      (moments (form (E e) nB time) (faceValues nodes (a • y₁ + b • y₂) e) + dirichletMoments (E e) time) (source (E e) time) ((a • q₁ + b • q₂) e) ((a • u₁ + b • u₂) e) := by
    intro e
    have k2 := hq₂ e
    rw [(h12 e).form] at k2
    have k := solution_lin a b (hq₁ e) k2
    have s1 : source (E e) time = a • source (E₁ e) time + b • source (E₂ e) time := funext (hsup e).source
    have s2 : dirichletMoments (E e) time = a • dirichletMoments (E₁ e) time + b • dirichletMoments (E₂ e) time := by
      funext f i
      show dirichletMoments (E e) time f i = a * dirichletMoments (E₁ e) time f i + b * dirichletMoments (E₂ e) time f i
      have hv := (hsup e).values f i
      have c1 := (h12 e).dirichlet f
      have c2 := (hsame e).dirichlet f
      by_cases hf : IsDirichlet (E₁ e) f
      · simp only [dirichletMoments, if_pos hf, if_pos (c1.mpr hf), if_pos (c2.mpr hf)]
        exact hv (c2.mpr hf)
      · simp only [dirichletMoments, if_neg hf, if_neg (mt c1.mp hf), if_neg (mt c2.mp hf), mul_zero, add_zero]
    have s3 : faceValues nodes (a • y₁ + b • y₂) e = a • faceValues nodes y₁ e + b • faceValues nodes y₂ e := rfl
    rw [(hsame e).form, s1, s2, s3, moments_lin]
    refine Eq.mp (congrArg (fun g => IsSolution _ tau 0 1 g _ _ _) ?_) k
    module
  refine ⟨fun v hv j => ?_, ?_, fun e => ⟨_, hsol e⟩⟩
  · show a * y₁ _ + b * y₂ _ = 0
    rw [h1.vanishes v hv j, h2.vanishes v hv j]
    ring
  · have hE' : ∀ e, FormLaws (form (E e) nB time) := fun e => by rw [(hsame e).form]; exact hE e
    have hE2 : ∀ e, FormLaws (form (E₂ e) nB time) := fun e => by rw [(h12 e).form]; exact hE e
    have b1 := (balance_iff m gesv hg tau ht time G nodes hwf old0 new0 E₁ hE hq₁).mp h1.residual
    have b2 := (balance_iff m gesv hg tau ht time G nodes hwf old0 new0 E₂ hE2 hq₂).mp h2.residual
    refine (balance_iff m gesv hg tau ht time G nodes hwf old0 new0 E hE' hsol).mpr ?_
    have e1 : (fun e : Fin G.n_hyEdges => Diffusion.offDirichlet (E e) (faceFlux (form (E e) nB time) tau (faceValues nodes (a • y₁ + b • y₂) e) ((a • q₁ + b • q₂) e) ((a • u₁ + b • u₂) e))) =
        fun e : Fin G.n_hyEdges => a • Diffusion.offDirichlet (E₁ e) (faceFlux (form (E₁ e) nB time) tau (faceValues nodes y₁ e) (q₁ e) (u₁ e)) +
          b • Diffusion.offDirichlet (E₂ e) (faceFlux (form (E₂ e) nB time) tau (faceValues nodes y₂ e) (q₂ e) (u₂ e)) := by
      funext e
      have s3 : faceValues nodes (a • y₁ + b • y₂) e = a • faceValues nodes y₁ e + b • faceValues nodes y₂ e := rfl
      have s4 : (a • q₁ + b • q₂) e = a • q₁ e + b • q₂ e := rfl
      have s5 : (a • u₁ + b • u₂) e = a • u₁ e + b • u₂ e := rfl
      rw [off_same (hsame e), off_same (h12 e), (hsame e).form, (h12 e).form, s3, s4, s5, flux_lin, off_comb]
    rw [e1, assemble_comb, b1, b2, smul_zero, smul_zero, add_zero]

variable (hD : ∀ (e : Fin G.n_hyEdges) (f : Fin (2 * dim)), (E₁ e).node_descriptor f ∈ (E₁ e).dirichlet_nodes ↔ D (nodes e f))

include hD

/-- **C103** (the discrete solution).  If each hypernode is connected to a Dirichlet node, there is exactly one discrete solution. -/
theorem C103_exists (hR : ∀ e, Rigid (form (E₁ e) nB time)) (hcon : Anchored nodes D) : ∃! yu : (Fin (G.n_hyNodes * nB) → K) × (Fin G.n_hyEdges → Fin nS → K),
    Solves m gesv tau time G nodes D old0 new0 E₁ yu.1 yu.2 := by
  obtain ⟨y, ⟨hy, hres⟩, huniq⟩ := C54_unique m gesv hg tau ht E₁ time hE hR G nodes hwf D hD hcon old0 new0
  have hS := fun e => (C21_solvable m gesv hg tau (E₁ e) time (hE e) ht (0 : LocDofs dim nB K) 0).1
  choose q u hsol _ using fun e : Fin G.n_hyEdges => (C21_residual m gesv hg tau (E₁ e) time (faceValues nodes y e) (fun _ _ => 0)).1 (hS e)
  refine ⟨(y, u), ⟨hy, hres, fun e => ⟨q e, hsol e⟩⟩, fun yu h => ?_⟩
  have e1 : yu.1 = y := huniq _ ⟨h.vanishes, h.residual⟩
  refine Prod.ext e1 (funext fun e => ?_)
  obtain ⟨q', hq'⟩ := h.local_solution e
  rw [e1] at hq'
  exact (solution_unique (hS e) hq' (hsol e)).2

/-- The work of the load of one problem along the solution of another is the energy of both. -/
theorem work_energy (hz₁ : ∀ e, ZeroValues (E₁ e) time) {w : Fin G.n_hyEdges → Fin nS → K} {z : Fin (G.n_hyNodes * nB) → K} (hz : VanishesAt D z)
    {q₁ q₂ : Fin G.n_hyEdges → Fin dim → Fin nS → K}
    (hq₁ : ∀ e : Fin G.n_hyEdges, IsSolution (form (E₁ e) nB time) tau 0 1 (moments (form (E₁ e) nB time) (faceValues nodes y₁ e) + dirichletMoments (E₁ e) time) (source (E₁ e) time) (q₁ e) (u₁ e))
    {s : Fin G.n_hyEdges → Fin nS → K} (hq₂ : ∀ e : Fin G.n_hyEdges, IsSolution (form (E₁ e) nB time) tau 0 1 (moments (form (E₁ e) nB time) (faceValues nodes z e)) (s e) (q₂ e) (w e))
    (hres : (Elliptic.mk' G).apply m (localResidual m gesv tau E₁ time) old0 new0 (List.ofFn y₁) = .ok (List.replicate (G.n_hyNodes * nB) 0)) :
    work E₁ time w = ∑ e : Fin G.n_hyEdges, bilin (form (E₁ e) nB time) tau (q₁ e) (u₁ e) (faceValues nodes y₁ e) (q₂ e) (w e) (faceValues nodes z e) := by
  have b1 := (balance_iff m gesv hg tau ht time G nodes hwf old0 new0 E₁ hE hq₁).mp hres
  have k := pairing_assemble nodes (fun e : Fin G.n_hyEdges => Diffusion.offDirichlet (E₁ e) (faceFlux (form (E₁ e) nB time) tau (faceValues nodes y₁ e) (q₁ e) (u₁ e))) z
  rw [b1] at k
  have k2 : ∀ e : Fin G.n_hyEdges, ∑ f, ∑ j, faceValues nodes z e f j * Diffusion.offDirichlet (E₁ e) (faceFlux (form (E₁ e) nB time) tau (faceValues nodes y₁ e) (q₁ e) (u₁ e)) f j =
      -bilin (form (E₁ e) nB time) tau (q₁ e) (u₁ e) (faceValues nodes y₁ e) (q₂ e) (w e) (faceValues nodes z e) + ∑ i, w e i * (E₁ e).vol_phifunc time i := by
    intro e
    have hv : VanishesOnDirichlet (E₁ e) (faceValues nodes z e) := fun f hf j => hz _ ((hD e f).mp hf) j
    have k3 := hq₁ e
    rw [values_zero (hz₁ e), add_zero] at k3
    rw [Diffusion.pair_off hv, flux_form (hE e) one_ne_zero k3 (hq₂ e), inv_one, one_mul, zero_mul, sub_zero]
    rfl
  simp only [k2, sum_add_distrib, sum_neg_distrib, Pi.zero_apply, mul_zero, sum_const_zero] at k
  unfold work
  linarith

include h12 h1 h2 in
/-- **C103** (reciprocity).  If nothing but zero is prescribed, then the load of the first problem does the same work along the solution of the second as the load of the second along the solution of the
first. -/
theorem C103_reciprocity (hz₁ : ∀ e, ZeroValues (E₁ e) time) (hz₂ : ∀ e, ZeroValues (E₂ e) time) : work E₁ time u₂ = work E₂ time u₁ := by
  choose q₁ hq₁ using h1.local_solution
  choose q₂ hq₂ using h2.local_solution
  have hE2 : ∀ e, FormLaws (form (E₂ e) nB time) := fun e => by rw [(h12 e).form]; exact hE e
  have hD2 : ∀ (e : Fin G.n_hyEdges) (f : Fin (2 * dim)), (E₂ e).node_descriptor f ∈ (E₂ e).dirichlet_nodes ↔ D (nodes e f) := fun e f => ((h12 e).dirichlet f).trans (hD e f)
  have a1 := work_energy m gesv hg tau ht time G nodes hwf D old0 new0 E₁ hE hD hz₁ (w := u₂) h2.vanishes hq₁ (s := fun e => source (E₂ e) time) (q₂ := q₂) (fun e => by
    have := hq₂ e
    rwa [values_zero (hz₂ e), add_zero, (h12 e).form] at this) h1.residual
  have a2 := work_energy m gesv hg tau ht time G nodes hwf D old0 new0 E₂ hE2 hD2 hz₂ (w := u₁) h1.vanishes hq₂ (s := fun e => source (E₁ e) time) (q₂ := q₁) (fun e => by
    have := hq₁ e
    rwa [values_zero (hz₁ e), add_zero, ← (h12 e).form] at this) h2.residual
  rw [a1, a2]
  refine sum_congr rfl fun e _ => ?_
  rw [(h12 e).form]
  exact bilin_symm (hE e)

include h1 in
/-- **C103** (work).  If nothing but zero is prescribed, then the work of the load along the solution is not negative; if each hypernode is connected to a Dirichlet node, then it is zero only if the
load is zero, and so is the solution. -/
theorem C103_work (hz₁ : ∀ e, ZeroValues (E₁ e) time) : 0 ≤ work E₁ time u₁ ∧
    ((∀ e, Rigid (form (E₁ e) nB time)) → Anchored nodes D → work E₁ time u₁ = 0 →
      (y₁ = 0 ∧ u₁ = 0) ∧ ∀ (e : Fin G.n_hyEdges) (i : Fin nS), (E₁ e).vol_phifunc time i = 0) := by
  choose q₁ hq₁ using h1.local_solution
  have hq : ∀ e : Fin G.n_hyEdges, IsSolution (form (E₁ e) nB time) tau 0 1 (moments (form (E₁ e) nB time) (faceValues nodes y₁ e)) (source (E₁ e) time) (q₁ e) (u₁ e) := fun e => by
    have := hq₁ e
    rwa [values_zero (hz₁ e), add_zero] at this
  have a1 := work_energy m gesv hg tau ht time G nodes hwf D old0 new0 E₁ hE hD hz₁ (w := u₁) h1.vanishes hq₁ hq h1.residual
  rw [a1]
  refine ⟨sum_nonneg fun e _ => bilin_nonneg (hE e) ht.le _ _ _, fun hR hcon h0 => ?_⟩
  have := DiffusionParab.energy_definite (fun e : Fin G.n_hyEdges => form (E₁ e) nB time) (fun e => hE e) (fun e => hR e) ht nodes D hcon (q₁, u₁, y₁) ⟨fun e d => (hq e).flux d, h1.vanishes⟩ h0
  have hq0 : q₁ = 0 := congrArg (fun v => v.1) this
  have hy0 : y₁ = 0 := congrArg (fun v => v.2.2) this
  have hu0 : u₁ = 0 := congrArg (fun v => v.2.1) this
  refine ⟨⟨hy0, hu0⟩, fun e i => ?_⟩
  have hp := (hq e).primal
  have hm : moments (form (E₁ e) nB time) (faceValues nodes y₁ e) = 0 := by
    funext f
    have : faceValues nodes y₁ e f = 0 := by rw [hy0]; rfl
    rw [moments, this, mulVec_zero]
    rfl
  rw [hm, hq0, hu0] at hp
  have hp' : source (E₁ e) time = 0 := by
    rw [← hp]
    simp
  exact congrFun hp' i

end

namespace Example

open Diffusion.Example DiffusionUniform.Example EllipticProgram.Example

/-- The two parallelograms of C52 with load `s e` and the Dirichlet value `g`. -/
noncomputable def loaded (s : Nat → ℚ) (g : ℚ) (e : Nat) : Edge 2 1 ℚ :=
  { (DiffusionParab.Example.SteadyEdges 0 e).toEdge with vol_phifunc := fun _ _ => s e, bdr_phifunc := fun _ _ _ => g }

theorem loaded_laws (s : Nat → ℚ) (g : ℚ) (e : Nat) : FormLaws (form (loaded s g e) 1 0) := DiffusionParab.Example.SteadyEdges_laws 0 e 0

theorem loaded_rigid (s : Nat → ℚ) (g : ℚ) (e : Nat) : Rigid (form (loaded s g e) 1 0) := DiffusionParab.Example.SteadyEdges_rigid 0 e 0

theorem loaded_same (s s' : Nat → ℚ) (g g' : ℚ) (e : Nat) : SameOperator (loaded s g e) (loaded s' g' e) 1 0 := ⟨rfl, fun _ => Iff.rfl⟩

/-- The hypotheses of C103 can be met: for all loads there are discrete solutions, which are superposed, satisfy the reciprocity, and the work of a load is positive. -/
theorem C103_example (s s' : Nat → ℚ) : ∃ y u y' u',
    Solves .debug (cramerSolve _ _ ℚ) 1 0 G2 G2nodes (· = ⟨0, by decide⟩) (fun _ _ => 3) (fun _ _ => 4) (loaded s 0) y u ∧
    Solves .debug (cramerSolve _ _ ℚ) 1 0 G2 G2nodes (· = ⟨0, by decide⟩) (fun _ _ => 3) (fun _ _ => 4) (loaded s' 0) y' u' ∧
    Solves .debug (cramerSolve _ _ ℚ) 1 0 G2 G2nodes (· = ⟨0, by decide⟩) (fun _ _ => 3) (fun _ _ => 4) (loaded (2 * s + 3 * s') 0) ((2 : ℚ) • y + (3 : ℚ) • y') ((2 : ℚ) • u + (3 : ℚ) • u') ∧
    work (loaded s 0) 0 u' = work (loaded s' 0) 0 u ∧ (s 0 ≠ 0 → 0 < work (loaded s 0) 0 u) := by
  have hD := DiffusionParab.Example.Edges_dirichlet 0
  have hex := fun s => C103_exists .debug (cramerSolve _ _ ℚ) (C44_example _ _ ℚ) 1 one_pos 0 G2 G2nodes G2_wf (· = ⟨0, by decide⟩) (fun _ _ => 3) (fun _ _ => 4) (loaded s 0)
    (loaded_laws s 0) hD (loaded_rigid s 0) G2_anchored
  obtain ⟨⟨y, u⟩, h1, _⟩ := hex s
  obtain ⟨⟨y', u'⟩, h2, _⟩ := hex s'
  refine ⟨y, u, y', u', h1, h2, ?_, ?_, fun hs => ?_⟩
  · exact C103_superposition .debug (cramerSolve _ _ ℚ) (C44_example _ _ ℚ) 1 one_pos 0 G2 G2nodes G2_wf _ _ _ (loaded s 0) (loaded s' 0) (loaded_laws s 0)
      (loaded_same _ _ _ _) h1 h2 _ (loaded_same _ _ _ _) 2 3 fun e => ⟨fun _ => rfl, fun _ _ _ => by simp [loaded]⟩
  · exact C103_reciprocity .debug (cramerSolve _ _ ℚ) (C44_example _ _ ℚ) 1 one_pos 0 G2 G2nodes G2_wf _ _ _ (loaded s 0) (loaded s' 0) (loaded_laws s 0)
      (loaded_same _ _ _ _) h1 h2 hD (fun _ _ _ _ => rfl) (fun _ _ _ _ => rfl)
  · have := C103_work .debug (cramerSolve _ _ ℚ) (C44_example _ _ ℚ) 1 one_pos 0 G2 G2nodes G2_wf _ _ _ (loaded s 0) (loaded_laws s 0) h1 hD (fun _ _ _ _ => rfl)
    refine lt_of_le_of_ne this.1 fun h0 => hs ?_
    exact (this.2 (loaded_rigid s 0) G2_anchored h0.symm).2 ⟨0, by decide⟩ 0

end Example

end HyperHDG.EllipticProgram

namespace HyperHDG.Timoshenko

open Finset Spec Matrix HyGraph
open EllipticProgram (assemble_comb)

variable {nS : Nat} {K : Type} [Field K] [LinearOrder K] [IsStrictOrderedRing K]

section
variable (m : Mode) (gesv : Gesv (n_loc_dofs nS) 1 K) (hg : GesvSpec gesv) (tau : K) (ht : 0 < tau) (time : K)
  (G : HyGraph 1 6) (nodes : Fin G.n_hyEdges → Fin (2 * 1) → Fin G.n_hyNodes) (hwf : G.WF nodes) (D : Fin G.n_hyNodes → Prop) (old0 new0 : LocDofs 1 6 K)

include hg ht hwf

/-- The residual is zero if and only if forces and moments are in equilibrium. -/
theorem balance_iff (E : Nat → Edge nS K) (hC : ∀ e, Complete (E e)) (hc : ∀ e d, coefficients (E e) d ≠ 0) (hE : ∀ e, FormLaws (form (E e))) {y : Fin (G.n_hyNodes * 6) → K}
    {q u : Fin G.n_hyEdges → Fin 6 → Fin nS → K}
    (hsol : ∀ e : Fin G.n_hyEdges, IsBeam (form (E e)) (coefficients (E e)) tau (beamMoments (form (E e)) (beamEnds (E e) (faceValues nodes y e)) + dirichletMoments (E e)) (source (E e)) (q e) (u e)) :
    G.mat_vec_multiply m (localResidual m gesv tau E time) old0 new0 (List.ofFn y) = .ok (List.replicate (G.n_hyNodes * 6) 0) ↔
      assemble nodes (fun e : Fin G.n_hyEdges => offDirichlet (E e) (spaceEnds (E e) (beamFlux (form (E e)) tau (beamEnds (E e) (faceValues nodes y e)) (q e) (u e)))) = 0 := by
  have hS := fun e => (C68_solvable m gesv hg tau (E e) time (hC e) (hc e) (hE e) ht 0 0).1
  have hloc : ∀ e : Fin G.n_hyEdges, localResidual m gesv tau E time e (faceValues nodes y e) (fun _ _ => 0) =
      .ok (offDirichlet (E e) (spaceEnds (E e) (beamFlux (form (E e)) tau (beamEnds (E e) (faceValues nodes y e)) (q e) (u e)))) := fun e => by
    obtain ⟨q', u', h1, h2⟩ := (C68_residual m gesv hg tau (E e) time (hC e) (hc e) (faceValues nodes y e) 0).1 (hS e)
    obtain ⟨e1, e2⟩ := beam_unique (hS e) h1 (hsol e)
    rw [e1, e2, zero_add] at h2
    exact h2
  rw [mat_vec_eq m G nodes hwf _ y _ hloc old0 new0, ← List.ofFn_const]
  constructor
  · intro h
    injection h with h
    exact List.ofFn_injective h
  · intro h
    rw [h]
    rfl

variable (E₁ E₂ : Nat → Edge nS K) (hC₁ : ∀ e, Complete (E₁ e)) (hC₂ : ∀ e, Complete (E₂ e)) (hc : ∀ e d, coefficients (E₁ e) d ≠ 0) (hE : ∀ e, FormLaws (form (E₁ e)))
  (h12 : ∀ e, SameOperator (E₁ e) (E₂ e)) {y₁ y₂ : Fin (G.n_hyNodes * 6) → K} {u₁ u₂ : Fin G.n_hyEdges → Fin 6 → Fin nS → K}
  (h1 : Solves m gesv tau time G nodes D old0 new0 E₁ y₁ u₁) (h2 : Solves m gesv tau time G nodes D old0 new0 E₂ y₂ u₂)

include hE hc hC₁

omit hg ht hwf hE hc hC₁ [IsStrictOrderedRing K] in
theorem ends_same {E E' : Edge nS K} (h : SameOperator E E') (y : LocDofs 1 6 K) : beamEnds E' y = beamEnds E y ∧ offDirichlet E' (spaceEnds E' y) = offDirichlet E (spaceEnds E y) := by
  constructor
  · unfold beamEnds
    rw [h.frame]
  · funext f
    simp only [offDirichlet, spaceEnds, h.frame]
    classical exact if_congr (h.dirichlet f) rfl rfl

include h12 h1 h2 hC₂ in
/-- **C103** (superposition of loads).  If loads and prescribed values of a network are `a` times those of one network plus `b` times those of another with the same beams, then `a` times the equilibrium
of the one plus `b` times the equilibrium of the other is the equilibrium of it. -/
theorem C103_beam_superposition (E : Nat → Edge nS K) (hC : ∀ e, Complete (E e)) (hsame : ∀ e, SameOperator (E₁ e) (E e)) (a b : K)
    (hsup : ∀ e, Superposed a b (E₁ e) (E₂ e) (E e)) : Solves m gesv tau time G nodes D old0 new0 E (a • y₁ + b • y₂) (a • u₁ + b • u₂) := by
  choose q₁ hq₁ using h1.local_solution
  choose q₂ hq₂ using h2.local_solution
  have s3 : ∀ e, faceValues nodes (a • y₁ + b • y₂) e = a • faceValues nodes y₁ e + b • faceValues nodes y₂ e := fun _ => rfl
  have hsol : ∀ e : Fin G.n_hyEdges, IsBeam (form (E e)) (coefficients (E e)) tau
      (beamMoments (form (E e)) (beamEnds (E e) (faceValues nodes (a • y₁ + b • y₂) e)) + dirichletMoments (E e)) (source (E e)) ((a • q₁ + b • q₂) e) ((a • u₁ + b • u₂) e) := by
    intro e
    have k2 := hq₂ e
    rw [(h12 e).form, (h12 e).coefficients, (ends_same (h12 e) _).1] at k2
    have k := beam_lin a b (hq₁ e) k2
    rw [(hsame e).form, (hsame e).coefficients, (ends_same (hsame e) _).1, (hsup e).source, (hsup e).values, s3, beamEnds_lin, beamMoments_lin]
    refine Eq.mp (congrArg (fun g => IsBeam _ _ tau g _ _ _) ?_) k
    module
  refine ⟨fun v hv j => ?_, ?_, fun e => ⟨_, hsol e⟩⟩
  · show a * y₁ _ + b * y₂ _ = 0
    rw [h1.vanishes v hv j, h2.vanishes v hv j]
    ring
  · have b1 := (balance_iff m gesv hg tau ht time G nodes hwf old0 new0 E₁ hC₁ hc hE hq₁).mp h1.residual
    have b2 := (balance_iff m gesv hg tau ht time G nodes hwf old0 new0 E₂ hC₂ (fun e => by rw [(h12 e).coefficients]; exact hc e) (fun e => by rw [(h12 e).form]; exact hE e) hq₂).mp h2.residual
    refine (balance_iff m gesv hg tau ht time G nodes hwf old0 new0 E hC (fun e => by rw [(hsame e).coefficients]; exact hc e) (fun e => by rw [(hsame e).form]; exact hE e) hsol).mpr ?_
    have e1 : (fun e : Fin G.n_hyEdges => offDirichlet (E e) (spaceEnds (E e) (beamFlux (form (E e)) tau (beamEnds (E e) (faceValues nodes (a • y₁ + b • y₂) e)) ((a • q₁ + b • q₂) e)
          ((a • u₁ + b • u₂) e)))) =
        fun e : Fin G.n_hyEdges => a • offDirichlet (E₁ e) (spaceEnds (E₁ e) (beamFlux (form (E₁ e)) tau (beamEnds (E₁ e) (faceValues nodes y₁ e)) (q₁ e) (u₁ e))) +
          b • offDirichlet (E₂ e) (spaceEnds (E₂ e) (beamFlux (form (E₂ e)) tau (beamEnds (E₂ e) (faceValues nodes y₂ e)) (q₂ e) (u₂ e))) := by
      funext e
      have s4 : (a • q₁ + b • q₂) e = a • q₁ e + b • q₂ e := rfl
      have s5 : (a • u₁ + b • u₂) e = a • u₁ e + b • u₂ e := rfl
      rw [(ends_same (hsame e) _).2, (ends_same (h12 e) _).2, (ends_same (hsame e) _).1, (ends_same (h12 e) _).1, (hsame e).form, (h12 e).form, s3, s4, s5, beamEnds_lin, beamFlux_lin,
        spaceEnds_lin, off_lin]
    rw [e1, assemble_comb, b1, b2, smul_zero, smul_zero, add_zero]

variable (hD : ∀ (e : Fin G.n_hyEdges) (f : Fin (2 * 1)), (E₁ e).node_descriptor f ∈ (E₁ e).dirichlet_nodes ↔ D (nodes e f))

include hD

/-- **C103** (the equilibrium).  If each hypernode is connected to one where displacement and rotation are prescribed, there is exactly one equilibrium. -/
theorem C103_beam_exists (hR : ∀ e, Rigid (form (E₁ e))) (hO : ∀ e, (frame (E₁ e))ᵀ * frame (E₁ e) = 1) (hcon : Anchored nodes D) :
    ∃! yu : (Fin (G.n_hyNodes * 6) → K) × (Fin G.n_hyEdges → Fin 6 → Fin nS → K), Solves m gesv tau time G nodes D old0 new0 E₁ yu.1 yu.2 := by
  obtain ⟨y, ⟨hy, hres⟩, huniq⟩ := C69_unique m gesv hg tau ht E₁ time hC₁ hc hE G nodes hwf old0 new0 hR hO D hD hcon
  have hS := fun e => (C68_solvable m gesv hg tau (E₁ e) time (hC₁ e) (hc e) (hE e) ht 0 0).1
  choose q u hsol _ using fun e : Fin G.n_hyEdges => (C68_residual m gesv hg tau (E₁ e) time (hC₁ e) (hc e) (faceValues nodes y e) 0).1 (hS e)
  refine ⟨(y, u), ⟨hy, hres, fun e => ⟨q e, hsol e⟩⟩, fun yu h => ?_⟩
  have e1 : yu.1 = y := huniq _ ⟨h.vanishes, h.residual⟩
  refine Prod.ext e1 (funext fun e => ?_)
  obtain ⟨q', hq'⟩ := h.local_solution e
  rw [e1] at hq'
  exact (beam_unique (hS e) hq' (hsol e)).2

theorem work_energy (hz₁ : ∀ e, dirichletMoments (E₁ e) = 0) {w : Fin G.n_hyEdges → Fin 6 → Fin nS → K} {z : Fin (G.n_hyNodes * 6) → K} (hz : VanishesAt D z)
    {q₁ q₂ : Fin G.n_hyEdges → Fin 6 → Fin nS → K}
    (hq₁ : ∀ e : Fin G.n_hyEdges, IsBeam (form (E₁ e)) (coefficients (E₁ e)) tau (beamMoments (form (E₁ e)) (beamEnds (E₁ e) (faceValues nodes y₁ e)) + dirichletMoments (E₁ e)) (source (E₁ e)) (q₁ e) (u₁ e))
    {s : Fin G.n_hyEdges → Fin 6 → Fin nS → K}
    (hq₂ : ∀ e : Fin G.n_hyEdges, IsBeam (form (E₁ e)) (coefficients (E₁ e)) tau (beamMoments (form (E₁ e)) (beamEnds (E₁ e) (faceValues nodes z e))) (s e) (q₂ e) (w e))
    (hres : G.mat_vec_multiply m (localResidual m gesv tau E₁ time) old0 new0 (List.ofFn y₁) = .ok (List.replicate (G.n_hyNodes * 6) 0)) :
    work E₁ w = ∑ e : Fin G.n_hyEdges, beamEnergy (form (E₁ e)) (coefficients (E₁ e)) tau (q₁ e) (u₁ e) (beamEnds (E₁ e) (faceValues nodes y₁ e)) (q₂ e) (w e)
      (beamEnds (E₁ e) (faceValues nodes z e)) := by
  have b1 := (balance_iff m gesv hg tau ht time G nodes hwf old0 new0 E₁ hC₁ hc hE hq₁).mp hres
  have k := pairing_assemble nodes (fun e : Fin G.n_hyEdges => offDirichlet (E₁ e) (spaceEnds (E₁ e) (beamFlux (form (E₁ e)) tau (beamEnds (E₁ e) (faceValues nodes y₁ e)) (q₁ e) (u₁ e)))) z
  rw [b1] at k
  have k2 : ∀ e : Fin G.n_hyEdges, ∑ f, ∑ j, faceValues nodes z e f j * offDirichlet (E₁ e) (spaceEnds (E₁ e) (beamFlux (form (E₁ e)) tau (beamEnds (E₁ e) (faceValues nodes y₁ e)) (q₁ e) (u₁ e))) f j =
      -beamEnergy (form (E₁ e)) (coefficients (E₁ e)) tau (q₁ e) (u₁ e) (beamEnds (E₁ e) (faceValues nodes y₁ e)) (q₂ e) (w e) (beamEnds (E₁ e) (faceValues nodes z e)) +
        ∑ d, w e d ⬝ᵥ source (E₁ e) d := by
    intro e
    have hv : VanishesOnDirichlet (E₁ e) (faceValues nodes z e) := fun f hf => funext fun j => hz _ ((hD e f).mp hf) j
    have k3 := hq₁ e
    rw [hz₁ e, add_zero] at k3
    rw [pair_off hv, beam_flux_form (hE e) k3 (hq₂ e)]
  simp only [k2, sum_add_distrib, sum_neg_distrib, Pi.zero_apply, mul_zero, sum_const_zero] at k
  unfold work
  linarith

include h12 h1 h2 hC₂ in
/-- **C103** (Betti).  If nothing but zero is prescribed, then the loads of the first problem do the same work along the displacements and rotations of the second as the loads of the second along those
of the first. -/
theorem C103_betti (hz₁ : ∀ e, dirichletMoments (E₁ e) = 0) (hz₂ : ∀ e, dirichletMoments (E₂ e) = 0) : work E₁ u₂ = work E₂ u₁ := by
  choose q₁ hq₁ using h1.local_solution
  choose q₂ hq₂ using h2.local_solution
  have hE2 : ∀ e, FormLaws (form (E₂ e)) := fun e => by rw [(h12 e).form]; exact hE e
  have hc2 : ∀ e d, coefficients (E₂ e) d ≠ 0 := fun e => by rw [(h12 e).coefficients]; exact hc e
  have hD2 : ∀ (e : Fin G.n_hyEdges) (f : Fin (2 * 1)), (E₂ e).node_descriptor f ∈ (E₂ e).dirichlet_nodes ↔ D (nodes e f) := fun e f => ((h12 e).dirichlet f).trans (hD e f)
  have a1 := work_energy m gesv hg tau ht time G nodes hwf D old0 new0 E₁ hC₁ hc hE hD hz₁ (w := u₂) h2.vanishes hq₁ (s := fun e => source (E₂ e)) (q₂ := q₂) (fun e => by
    have := hq₂ e
    rwa [hz₂ e, add_zero, (h12 e).form, (h12 e).coefficients, (ends_same (h12 e) _).1] at this) h1.residual
  have a2 := work_energy m gesv hg tau ht time G nodes hwf D old0 new0 E₂ hC₂ hc2 hE2 hD2 hz₂ (w := u₁) h1.vanishes hq₂ (s := fun e => source (E₁ e)) (q₂ := q₁) (fun e => by
    have := hq₁ e
    rwa [hz₁ e, add_zero, ← (h12 e).form, ← (h12 e).coefficients, ← (ends_same (h12 e) _).1] at this) h2.residual
  rw [a1, a2]
  refine sum_congr rfl fun e _ => ?_
  rw [(h12 e).form, (h12 e).coefficients, (ends_same (h12 e) _).1, (ends_same (h12 e) _).1]
  exact energy_symm (hE e) (coefficients_pos (E₁ e) (hc e))

include h1 in
/-- **C103** (work of the loads).  If nothing but zero is prescribed, then the work of the loads along displacements and rotations is not negative; if each hypernode is connected to one where
displacement and rotation are prescribed, then it is zero only if the loads are zero, and then nothing moves. -/
theorem C103_beam_work (hz₁ : ∀ e, dirichletMoments (E₁ e) = 0) : 0 ≤ work E₁ u₁ ∧
    ((∀ e, Rigid (form (E₁ e))) → (∀ e, (frame (E₁ e))ᵀ * frame (E₁ e) = 1) → Anchored nodes D → work E₁ u₁ = 0 →
      (y₁ = 0 ∧ u₁ = 0) ∧ ∀ e : Fin G.n_hyEdges, source (E₁ e) = 0) := by
  choose q₁ hq₁ using h1.local_solution
  have hq : ∀ e : Fin G.n_hyEdges, IsBeam (form (E₁ e)) (coefficients (E₁ e)) tau (beamMoments (form (E₁ e)) (beamEnds (E₁ e) (faceValues nodes y₁ e))) (source (E₁ e)) (q₁ e) (u₁ e) := fun e => by
    have := hq₁ e
    rwa [hz₁ e, add_zero] at this
  have a1 := work_energy m gesv hg tau ht time G nodes hwf D old0 new0 E₁ hC₁ hc hE hD hz₁ (w := u₁) h1.vanishes hq₁ hq h1.residual
  have hnn : ∀ e : Fin G.n_hyEdges, 0 ≤ beamEnergy (form (E₁ e)) (coefficients (E₁ e)) tau (q₁ e) (u₁ e) (beamEnds (E₁ e) (faceValues nodes y₁ e)) (q₁ e) (u₁ e)
      (beamEnds (E₁ e) (faceValues nodes y₁ e)) := fun e => energy_nonneg (hE e) (coefficients_pos (E₁ e) (hc e)) ht.le
  rw [a1]
  refine ⟨sum_nonneg fun e _ => hnn e, fun hR hO hcon h0 => ?_⟩
  have hzero := (sum_eq_zero_iff_of_nonneg fun e _ => hnn e).mp h0
  have hen := fun e : Fin G.n_hyEdges => energy_zero (hE e) (coefficients_pos (E₁ e) (hc e)) ht (hzero e (mem_univ e))
  have hbeam : ∀ e : Fin G.n_hyEdges, IsBeam (form (E₁ e)) (coefficients (E₁ e)) tau (beamMoments (form (E₁ e)) (beamEnds (E₁ e) (faceValues nodes y₁ e))) (source (E₁ e)) 0 (u₁ e) := fun e => by
    have := hq e
    rwa [(hen e).1] at this
  have hstep : ∀ (e : Fin G.n_hyEdges) (f g : Fin (2 * 1)), (fun j => y₁ (dof (nodes e f) j)) = 0 → (fun j => y₁ (dof (nodes e g) j)) = 0 := by
    intro e f g h
    have h5 : beamEnds (E₁ e) (faceValues nodes y₁ e) f = 0 := by
      show inFrame (frame (E₁ e)) (fun j => y₁ (dof (nodes e f) j)) = 0
      rw [h, inFrame_zero]
    have h6 := kernel_step (hE e) (hR e) (hbeam e) (hen e).2 h5 g
    have h7 := congrArg (inSpace (frame (E₁ e))) h6
    rw [inSpace_zero] at h7
    exact (space_frame _ (hO e) _).symm.trans h7
  have hall := hcon.all (fun v => (fun j => y₁ (dof v j)) = 0) (fun v hv => funext fun j => h1.vanishes v hv j) hstep
  have hy : y₁ = 0 := by
    funext k
    obtain ⟨v, j, rfl⟩ := HyGraph.dof_surj k
    exact congrFun (hall v) j
  have hu : ∀ e, u₁ e = 0 := fun e => ?_
  · refine ⟨⟨hy, funext hu⟩, fun e => funext fun d => ?_⟩
    have hp := (hbeam e).balance d
    have hl : beamEnds (E₁ e) (faceValues nodes y₁ e) = 0 := by
      have : faceValues nodes y₁ e = 0 := by rw [hy]; rfl
      rw [this, beamEnds_zero]
    have hlev : lever (0 : Fin 6 → Fin nS → K) d = 0 := by fin_cases d <;> simp [lever]
    rw [hl, beamMoments_zero, hu e, hlev, mulVec_zero, add_zero] at hp
    rw [← hp]
    simp
  have hl : beamEnds (E₁ e) (faceValues nodes y₁ e) = 0 := by
    have : faceValues nodes y₁ e = 0 := by rw [hy]; rfl
    rw [this, beamEnds_zero]
  have htr : ∀ f d, IsTrace (form (E₁ e)) (u₁ e d) f (fun _ => (0 : Fin (2 * 1) → Fin 6 → K) f d) := fun f d => by
    have := (hen e).2 f d
    rwa [hl] at this
  have hb := hbeam e
  rw [hl] at hb
  have hzz : ∀ d, Spec.IsConst (form (E₁ e)) (u₁ e d) → u₁ e d = 0 := fun d hd => (hE e).unisolvent (u₁ e d) hd fun f => by
    have := htr f d
    unfold IsTrace at this
    rw [← this]
    exact smul_zero _
  have hr : ∀ d : Fin 3, u₁ e (Fin.natAdd 3 d) = 0 := fun d => hzz _ (rotation_const (hE e) hb htr d)
  exact funext fun d => hzz d (displacement_const (hE e) hb htr hr d)

end

namespace Example

/-- The frame of C69 (a beam in direction of the first axis, another in direction of the second one), fixed at one end and without prescribed motion, with the forces `s e`. -/
def loaded (s : Nat → ℚ) (e : Nat) : Edge 2 ℚ :=
  { beams [0] e with vol_phi_n := fun _ _ _ => s e, vol_phi_m := fun _ _ _ => 0, bdr_phi_u := fun _ _ _ _ => 0, bdr_phi_phi := fun _ _ _ _ => 0 }

theorem loaded_dirichlet (s : Nat → ℚ) (e : Fin G.n_hyEdges) (f : Fin (2 * 1)) : (loaded s e).node_descriptor f ∈ (loaded s e).dirichlet_nodes ↔ (fun v : Fin G.n_hyNodes => v.1 = 0) (Gnodes e f) := by
  show (beams [0] e).node_descriptor f ∈ (beams [0] e).dirichlet_nodes ↔ _
  rw [beams_descriptor, beams_dirichlet, List.mem_singleton]
  rfl

theorem loaded_zero (s : Nat → ℚ) (e : Nat) : dirichletMoments (loaded s e) = 0 := by
  funext f d i
  simp only [dirichletMoments]
  split
  · fin_cases d <;> rfl
  · rfl

theorem loaded_same (s s' : Nat → ℚ) (e : Nat) : SameOperator (loaded s e) (loaded s' e) := ⟨rfl, rfl, rfl, fun _ => Iff.rfl⟩

/-- The hypotheses of C103 can be met: for all loads there are equilibria, which are superposed, satisfy the reciprocity, and the work of a load is positive. -/
theorem C103_beam_example (s s' : Nat → ℚ) : ∃ y u y' u',
    Solves .debug (cramerSolve _ _ ℚ) 1 0 G Gnodes (fun v => v.1 = 0) (fun _ _ => 3) (fun _ _ => 4) (loaded s) y u ∧
    Solves .debug (cramerSolve _ _ ℚ) 1 0 G Gnodes (fun v => v.1 = 0) (fun _ _ => 3) (fun _ _ => 4) (loaded s') y' u' ∧
    Solves .debug (cramerSolve _ _ ℚ) 1 0 G Gnodes (fun v => v.1 = 0) (fun _ _ => 3) (fun _ _ => 4) (loaded (2 * s + 3 * s')) ((2 : ℚ) • y + (3 : ℚ) • y') ((2 : ℚ) • u + (3 : ℚ) • u') ∧
    work (loaded s) u' = work (loaded s') u ∧ (s 0 ≠ 0 → 0 < work (loaded s) u) := by
  have hC : ∀ s e, Complete (loaded s e) := fun s e => beams_complete [0] e
  have hc : ∀ s e d, coefficients (loaded s e) d ≠ 0 := fun s e => beams_coefficients [0] e
  have hF : ∀ s e, FormLaws (form (loaded s e)) := fun s e => beams_laws [0] e
  have hR : ∀ s e, Rigid (form (loaded s e)) := fun s e => beams_rigid [0] e
  have hO : ∀ s e, (frame (loaded s e))ᵀ * frame (loaded s e) = 1 := fun s e => mul_eq_one_comm.mp (beams_frame [0] e)
  have hex := fun s => C103_beam_exists .debug (cramerSolve _ _ ℚ) (C44_example _ _ ℚ) 1 one_pos 0 G Gnodes G_wf (fun v => v.1 = 0) (fun _ _ => 3) (fun _ _ => 4) (loaded s)
    (hC s) (hc s) (hF s) (loaded_dirichlet s) (hR s) (hO s) G_anchored
  obtain ⟨⟨y, u⟩, h1, _⟩ := hex s
  obtain ⟨⟨y', u'⟩, h2, _⟩ := hex s'
  refine ⟨y, u, y', u', h1, h2, ?_, ?_, fun hs => ?_⟩
  · refine C103_beam_superposition .debug (cramerSolve _ _ ℚ) (C44_example _ _ ℚ) 1 one_pos 0 G Gnodes G_wf _ _ _ (loaded s) (loaded s') (hC s) (hC s') (hc s) (hF s)
      (loaded_same _ _) h1 h2 _ (hC _) (loaded_same _ _) 2 3 fun e => ⟨?_, ?_⟩
    · funext d i
      fin_cases d <;> simp [source, loaded]
    · rw [loaded_zero, loaded_zero, loaded_zero, smul_zero, smul_zero, add_zero]
  · exact C103_betti .debug (cramerSolve _ _ ℚ) (C44_example _ _ ℚ) 1 one_pos 0 G Gnodes G_wf _ _ _ (loaded s) (loaded s') (hC s) (hC s') (hc s) (hF s)
      (loaded_same _ _) h1 h2 (loaded_dirichlet s) (loaded_zero s) (loaded_zero s')
  · have := C103_beam_work .debug (cramerSolve _ _ ℚ) (C44_example _ _ ℚ) 1 one_pos 0 G Gnodes G_wf _ _ _ (loaded s) (hC s) (hc s) (hF s) h1 (loaded_dirichlet s) (loaded_zero s)
    refine lt_of_le_of_ne this.1 fun h0 => hs ?_
    exact congrFun (congrFun ((this.2 (hR s) (hO s) G_anchored h0.symm).2 ⟨0, by decide⟩) 0) 0

end Example

end HyperHDG.Timoshenko

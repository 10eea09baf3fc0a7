import Verif.Model.NewtonWrapper
import Verif.Spec.NewtonProgram
import Verif.Proofs.GlobalLength
import Verif.Props.NewtonProgram
import Verif.Props.GlobalClasses
import Mathlib.Analysis.Calculus.ContDiff.Operations
import Mathlib.Analysis.Calculus.Deriv.Add
import Mathlib.Analysis.Calculus.Deriv.Prod
import Mathlib.Analysis.Calculus.Deriv.Comp
import Mathlib.Analysis.Calculus.Deriv.Mul

/-!
# The Newton programs with the loops over the hyperedges
-/

namespace HyperHDG.NewtonProgram

open Spec _root_.Topology Filter

variable {dim nB : Nat} (m : Mode) (G : HyGraph dim nB) (loc : ℝ → HyGraph.LocalFun dim nB ℝ)
  (jac : ℝ → ℝ → Nat → LocDofs dim nB ℝ → LocDofs dim nB ℝ → LocDofs dim nB ℝ → Res (LocDofs dim nB ℝ)) (init : Nat → LocDofs dim nB ℝ → Res (LocDofs dim nB ℝ)) (old0 vals0 new0 : LocDofs dim nB ℝ)

theorem lengths : Lengths (ofLoops m G loc jac init old0 vals0 new0) where
  flux _ _ _ h := HyGraph.mat_vec_length h
  jacobian _ _ _ _ _ h := HyGraph.jacobian_length h
  initial _ _ h := HyGraph.make_initial_length h

variable (nodes : Fin G.n_hyEdges → Fin (2 * dim) → Fin G.n_hyNodes) (hwf : G.WF nodes)
include hwf

theorem hasFlux_iff (x y : Fin (G.n_hyNodes * nB) → ℝ) (eig : ℝ) :
    HasFlux (ofLoops m G loc jac init old0 vals0 new0) x eig y ↔ G.mat_vec_multiply m (loc eig) old0 new0 (List.ofFn x) = .ok (List.ofFn y) := by
  have h := (HyGraph.mat_vec_append m G nodes hwf (loc eig) old0 new0 (List.ofFn x) [eig] List.length_ofFn).1
  unfold HasFlux ofLoops joined
  simp only
  rw [h]
  constructor
  · rintro ⟨last, h⟩
    obtain ⟨z, h1, h2⟩ := Res.bind_eq_ok.mp h
    obtain ⟨h3, _⟩ := List.append_inj' (Res.ok.inj h2) rfl
    rw [h1, h3]
  · intro h
    exact ⟨0, by rw [h]; rfl⟩

theorem hasJacobian_iff (x x_val y : Fin (G.n_hyNodes * nB) → ℝ) (eig eig_val : ℝ) :
    HasJacobian (ofLoops m G loc jac init old0 vals0 new0) x_val eig_val x eig y ↔ G.jacobian m (jac eig eig_val) old0 vals0 new0 (List.ofFn x) (List.ofFn x_val) = .ok (List.ofFn y) := by
  have h := HyGraph.jacobian_append m G nodes hwf (jac eig eig_val) old0 vals0 new0 (List.ofFn x) (List.ofFn x_val) [eig] [eig_val] List.length_ofFn List.length_ofFn
  unfold HasJacobian ofLoops joined
  simp only
  rw [h]
  constructor
  · rintro ⟨last, h⟩
    obtain ⟨z, h1, h2⟩ := Res.bind_eq_ok.mp h
    obtain ⟨h3, _⟩ := List.append_inj' (Res.ok.inj h2) rfl
    rw [h1, h3]
  · intro h
    exact ⟨0, by rw [h]; rfl⟩

/-- If fluxes are returned, they are the sums of local ones. -/
theorem flux_local {x y : Fin (G.n_hyNodes * nB) → ℝ} {eig : ℝ} (h : HasFlux (ofLoops m G loc jac init old0 vals0 new0) x eig y) :
    ∃ z : Fin G.n_hyEdges → LocDofs dim nB ℝ, (∀ e : Fin G.n_hyEdges, loc eig e (faceValues nodes x e) (fun _ _ => 0) = .ok (z e)) ∧ y = assemble nodes z := by
  obtain ⟨z, h1, h2⟩ := HyGraph.mat_vec_ok m G nodes hwf _ x old0 new0 ((hasFlux_iff m G loc jac init old0 vals0 new0 nodes hwf x y eig).mp h)
  exact ⟨z, h1, List.ofFn_injective h2⟩

theorem flux_of_local {x : Fin (G.n_hyNodes * nB) → ℝ} {eig : ℝ} {z : Fin G.n_hyEdges → LocDofs dim nB ℝ}
    (h : ∀ e : Fin G.n_hyEdges, loc eig e (faceValues nodes x e) (fun _ _ => 0) = .ok (z e)) : HasFlux (ofLoops m G loc jac init old0 vals0 new0) x eig (assemble nodes z) :=
  (hasFlux_iff m G loc jac init old0 vals0 new0 nodes hwf x _ eig).mpr (HyGraph.mat_vec_eq m G nodes hwf (loc eig) x z h old0 new0)

theorem jacobian_of_local {x x_val : Fin (G.n_hyNodes * nB) → ℝ} {eig eig_val : ℝ} {z : Fin G.n_hyEdges → LocDofs dim nB ℝ}
    (h : ∀ e : Fin G.n_hyEdges, jac eig eig_val e (faceValues nodes x e) (faceValues nodes x_val e) (fun _ _ => 0) = .ok (z e)) :
    HasJacobian (ofLoops m G loc jac init old0 vals0 new0) x_val eig_val x eig (assemble nodes z) :=
  (hasJacobian_iff m G loc jac init old0 vals0 new0 nodes hwf x x_val _ eig eig_val).mpr (HyGraph.C42_jacobian m G nodes hwf (jac eig eig_val) old0 vals0 new0 x x_val z h)

theorem jacobian_to_local {x x_val y : Fin (G.n_hyNodes * nB) → ℝ} {eig eig_val : ℝ} (h : HasJacobian (ofLoops m G loc jac init old0 vals0 new0) x_val eig_val x eig y) :
    ∃ z : Fin G.n_hyEdges → LocDofs dim nB ℝ, (∀ e : Fin G.n_hyEdges, jac eig eig_val e (faceValues nodes x e) (faceValues nodes x_val e) (fun _ _ => 0) = .ok (z e)) ∧ y = assemble nodes z := by
  have h1 := (hasJacobian_iff m G loc jac init old0 vals0 new0 nodes hwf x x_val y eig eig_val).mp h
  choose z hz using HyGraph.jacobian_local m G nodes hwf (jac eig eig_val) old0 vals0 new0 x x_val h1
  refine ⟨z, hz, ?_⟩
  have h2 := HyGraph.C42_jacobian m G nodes hwf (jac eig eig_val) old0 vals0 new0 x x_val z hz
  rw [h1] at h2
  exact List.ofFn_injective (Res.ok.inj h2)

omit hwf in
/-- The sum is zero at the dofs to which all the hyperedges contribute zero. -/
theorem assemble_zero (z : Fin G.n_hyEdges → LocDofs dim nB ℝ) (k : Fin (G.n_hyNodes * nB)) (h : ∀ e i j, dof (nodes e i) j = k → z e i j = 0) : assemble nodes z k = 0 := by
  unfold assemble
  refine Finset.sum_eq_zero fun e _ => Finset.sum_eq_zero fun i _ => Finset.sum_eq_zero fun j _ => ?_
  split
  · exact h e i j (by assumption)
  · rfl

/-- The start from zeros: the vector of `make_initial` has zero as last entry. -/
theorem initial_of_local {y : Fin G.n_hyEdges → LocDofs dim nB ℝ} (h : ∀ e : Fin G.n_hyEdges, init e (fun _ _ => 0) = .ok (y e)) :
    ∃ r : Fin (G.n_hyNodes * nB) → ℝ, (ofLoops m G loc jac init old0 vals0 new0).make_initial (List.replicate (G.n_hyNodes * nB + 1) 0) = .ok (joined r 0) ∧ HyGraph.LastWriter nodes y r := by
  obtain ⟨r, h1, h2⟩ := HyGraph.C39_gathering_variant m G nodes hwf init old0 (fun _ => 0) y (fun e => h e)
  refine ⟨r, ?_, h2⟩
  have h3 := (HyGraph.make_initial_append m G nodes hwf init old0 (List.replicate (G.n_hyNodes * nB) 0) [0] List.length_replicate).1
  have e : List.replicate (G.n_hyNodes * nB + 1) (0 : ℝ) = List.replicate (G.n_hyNodes * nB) 0 ++ [0] := List.replicate_succ'
  show G.make_initial_gather m init old0 _ = _
  rw [e, h3]
  rw [List.ofFn_const] at h1
  rw [h1]
  rfl

/-! ### Smoothness -/

/-- The local functions near `p`, a local trace and a number, are the continuously differentiable function `Φ` and its derivative. -/
structure LocalSmoothAt (loc : ℝ → LocDofs dim nB ℝ → Res (LocDofs dim nB ℝ)) (jac : ℝ → ℝ → LocDofs dim nB ℝ → LocDofs dim nB ℝ → Res (LocDofs dim nB ℝ))
    (Φ : LocDofs dim nB ℝ × ℝ → LocDofs dim nB ℝ) (p : LocDofs dim nB ℝ × ℝ) : Prop where
  smooth : ContDiffAt ℝ 1 Φ p
  flux : ∀ᶠ q in 𝓝 p, loc q.2 q.1 = .ok (Φ q)
  jacobian : ∀ᶠ q in 𝓝 p, ∀ u : LocDofs dim nB ℝ × ℝ, jac u.2 q.2 u.1 q.1 = .ok (fderiv ℝ Φ q u)

omit hwf in
/-- From the directional derivatives. -/
theorem localSmooth_of {loc : ℝ → LocDofs dim nB ℝ → Res (LocDofs dim nB ℝ)} {jac : ℝ → ℝ → LocDofs dim nB ℝ → LocDofs dim nB ℝ → Res (LocDofs dim nB ℝ)}
    {Φ : LocDofs dim nB ℝ × ℝ → LocDofs dim nB ℝ} {p : LocDofs dim nB ℝ × ℝ} (hΦ : ContDiffAt ℝ 1 Φ p) (hf : ∀ᶠ q in 𝓝 p, loc q.2 q.1 = .ok (Φ q))
    (hJ : ∀ᶠ q in 𝓝 p, ∀ u : LocDofs dim nB ℝ × ℝ, ∃ J, jac u.2 q.2 u.1 q.1 = .ok J ∧
      ∃ Ψ : ℝ → LocDofs dim nB ℝ, (∀ᶠ t in 𝓝 (0 : ℝ), loc (q.2 + t * u.2) (q.1 + t • u.1) = .ok (Ψ t)) ∧ HasDerivAt Ψ J 0) : LocalSmoothAt loc jac Φ p := by
  refine ⟨hΦ, hf, ?_⟩
  have hdiff : ∀ᶠ q in 𝓝 p, DifferentiableAt ℝ Φ q := (hΦ.eventually (by norm_num)).mono fun q hq => hq.differentiableAt (by norm_num)
  filter_upwards [hf.eventually_nhds, hJ, hdiff] with q h1 h2 h3 u
  obtain ⟨J, hj, Ψ, hΨ, hd⟩ := h2 u
  have hline : HasDerivAt (fun t : ℝ => q + t • u) u 0 := by
    have := ((hasDerivAt_id (0 : ℝ)).smul_const u).const_add q
    simpa using this
  have h0 : q + (0 : ℝ) • u = q := by simp
  have hcomp : HasDerivAt (fun t : ℝ => Φ (q + t • u)) (fderiv ℝ Φ q u) 0 := by
    have h4 : HasFDerivAt Φ (fderiv ℝ Φ q) (q + (0 : ℝ) • u) := by
      rw [h0]
      exact h3.hasFDerivAt
    exact h4.comp_hasDerivAt (0 : ℝ) hline
  have hc : Tendsto (fun t : ℝ => q + t • u) (𝓝 0) (𝓝 q) := by
    have := hline.continuousAt.tendsto
    rwa [h0] at this
  have heq : Ψ =ᶠ[𝓝 0] fun t => Φ (q + t • u) := by
    filter_upwards [hΨ, hc.eventually h1] with t ht1 ht2
    have : loc (q.2 + t * u.2) (q.1 + t • u.1) = .ok (Φ (q + t • u)) := ht2
    rw [ht1] at this
    exact Res.ok.inj this
  have h5 := (hcomp.congr_of_eventuallyEq heq).unique hd
  rw [hj, h5]

/-- Then the global functions are. -/
theorem smooth_of_local {p : (Fin (G.n_hyNodes * nB) → ℝ) × ℝ} {Φ : Fin G.n_hyEdges → LocDofs dim nB ℝ × ℝ → LocDofs dim nB ℝ}
    (h : ∀ e : Fin G.n_hyEdges, LocalSmoothAt (fun eig l => loc eig e l (fun _ _ => 0)) (fun eig eig_val l l_val => jac eig eig_val e l l_val (fun _ _ => 0)) (Φ e) (faceValues nodes p.1 e, p.2)) :
    SmoothAt (ofLoops m G loc jac init old0 vals0 new0) (fun q => assemble nodes fun e => Φ e (faceValues nodes q.1 e, q.2)) p := by
  let L : Fin G.n_hyEdges → ((Fin (G.n_hyNodes * nB) → ℝ) × ℝ →L[ℝ] LocDofs dim nB ℝ × ℝ) := fun e =>
    (ContinuousLinearMap.pi fun i => ContinuousLinearMap.pi fun j => (ContinuousLinearMap.proj (dof (nodes e i) j)).comp (ContinuousLinearMap.fst ℝ (Fin (G.n_hyNodes * nB) → ℝ) ℝ)).prod
      (ContinuousLinearMap.snd ℝ (Fin (G.n_hyNodes * nB) → ℝ) ℝ)
  have hL : ∀ e q, L e q = (faceValues nodes q.1 e, q.2) := fun e q => rfl
  have hcont : ∀ e, Tendsto (L e) (𝓝 p) (𝓝 (faceValues nodes p.1 e, p.2)) := fun e => (L e).continuous.continuousAt
  have hloc : ∀ e, ContDiffAt ℝ 1 (fun q => Φ e (faceValues nodes q.1 e, q.2)) p := fun e =>
    ContDiffAt.comp p (show ContDiffAt ℝ 1 (Φ e) (L e p) from (h e).smooth) (L e).contDiff.contDiffAt
  have hentry : ∀ e i j, ContDiffAt ℝ 1 (fun q : (Fin (G.n_hyNodes * nB) → ℝ) × ℝ => Φ e (faceValues nodes q.1 e, q.2) i j) p := fun e i j =>
    contDiffAt_pi.mp (contDiffAt_pi.mp (hloc e) i) j
  refine ⟨?_, ?_, ?_⟩
  · rw [contDiffAt_pi]
    intro k
    unfold assemble
    refine ContDiffAt.sum fun e _ => ContDiffAt.sum fun i _ => ContDiffAt.sum fun j _ => ?_
    split
    · exact hentry e i j
    · exact contDiffAt_const
  · have h1 : ∀ᶠ q in 𝓝 p, ∀ e : Fin G.n_hyEdges, loc q.2 e (faceValues nodes q.1 e) (fun _ _ => 0) = .ok (Φ e (faceValues nodes q.1 e, q.2)) :=
      eventually_all.mpr fun e => (hcont e).eventually (h e).flux
    exact h1.mono fun q hq => flux_of_local m G loc jac init old0 vals0 new0 nodes hwf hq
  · have h1 : ∀ᶠ q in 𝓝 p, ∀ (e : Fin G.n_hyEdges) (u : LocDofs dim nB ℝ × ℝ),
        jac u.2 q.2 e u.1 (faceValues nodes q.1 e) (fun _ _ => 0) = .ok (fderiv ℝ (Φ e) (faceValues nodes q.1 e, q.2) u) :=
      eventually_all.mpr fun e => (hcont e).eventually (h e).jacobian
    have h2 : ∀ᶠ q in 𝓝 p, ∀ e : Fin G.n_hyEdges, DifferentiableAt ℝ (Φ e) (faceValues nodes q.1 e, q.2) :=
      eventually_all.mpr fun e => (hcont e).eventually (((h e).smooth.eventually (by norm_num)).mono fun q hq => hq.differentiableAt (by norm_num))
    filter_upwards [h1, h2] with q hq1 hq2 u
    have h3 := jacobian_of_local m G loc jac init old0 vals0 new0 nodes hwf (x := u.1) (x_val := q.1) (eig := u.2) (eig_val := q.2) (fun e => hq1 e (faceValues nodes u.1 e, u.2))
    have h4 : ∀ e, HasFDerivAt (fun q => Φ e (faceValues nodes q.1 e, q.2)) ((fderiv ℝ (Φ e) (faceValues nodes q.1 e, q.2)).comp (L e)) q := fun e =>
      HasFDerivAt.comp q (show HasFDerivAt (Φ e) _ (L e q) from (hq2 e).hasFDerivAt) (L e).hasFDerivAt
    have h5 : HasFDerivAt (fun q => assemble nodes fun e => Φ e (faceValues nodes q.1 e, q.2))
        (ContinuousLinearMap.pi fun k => ∑ e, ∑ i, ∑ j, if dof (nodes e i) j = k then
          (ContinuousLinearMap.proj (R := ℝ) (φ := fun _ : Fin nB => ℝ) j).comp ((ContinuousLinearMap.proj (R := ℝ) (φ := fun _ : Fin (2 * dim) => Fin nB → ℝ) i).comp
            ((fderiv ℝ (Φ e) (faceValues nodes q.1 e, q.2)).comp (L e))) else 0) q := by
      rw [hasFDerivAt_pi]
      intro k
      unfold assemble
      refine HasFDerivAt.fun_sum fun e _ => HasFDerivAt.fun_sum fun i _ => HasFDerivAt.fun_sum fun j _ => ?_
      split
      · exact hasFDerivAt_pi'.mp (hasFDerivAt_pi'.mp (h4 e) i) j
      · exact hasFDerivAt_const _ _
    rw [h5.fderiv]
    convert h3 using 1
    funext k
    simp only [ContinuousLinearMap.coe_pi', assemble, FunLike.coe_sum, Finset.sum_apply]
    refine Finset.sum_congr rfl fun e _ => Finset.sum_congr rfl fun i _ => Finset.sum_congr rfl fun j _ => ?_
    split <;> rfl

end HyperHDG.NewtonProgram

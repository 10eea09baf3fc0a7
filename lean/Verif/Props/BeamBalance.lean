import Verif.Props.BeamFrame
import Verif.Props.Bilaplacian
import Verif.Proofs.Neumann
import Verif.Spec.BeamBalance

/-!
# Property C110: balance of forces and moments in networks of beams
-/

namespace HyperHDG.Timoshenko

open Finset Spec Matrix HyGraph

variable {nS : Nat} {K : Type}

section
variable [Field K] [LinearOrder K] [IsStrictOrderedRing K]

omit [Field K] [LinearOrder K] [IsStrictOrderedRing K] in
theorem linPart_both (a b : Fin 3 → K) : linPart (both a b) = a := by funext i; fin_cases i <;> rfl
omit [Field K] [LinearOrder K] [IsStrictOrderedRing K] in
theorem angPart_both (a b : Fin 3 → K) : angPart (both a b) = b := by funext i; fin_cases i <;> rfl

omit [LinearOrder K] [IsStrictOrderedRing K] in
/-- The adjoint of `inFrame` is `inSpace`. -/
theorem inFrame_dot (R : Matrix (Fin 3) (Fin 3) K) (v w : Fin 6 → K) : v ⬝ᵥ inSpace R w = inFrame R v ⬝ᵥ w := by
  simp only [dotProduct, inSpace, inFrame, both, linPart, angPart, mulVec, Fin.sum_univ_six, Fin.sum_univ_three, transpose_apply]
  simp
  ring

variable {E : Edge nS K} {one lin : Fin nS → K} {x : Fin (2 * 1) → K}

omit [LinearOrder K] [IsStrictOrderedRing K] in
/-- The values of a rigid motion at the ends. -/
theorem rigid_trace (arc : IsArcLength (form E) one lin x) (sign : K) (a r p0 : Fin 3 → K) (d : Fin 6) (f : Fin (2 * 1)) :
    IsTrace (form E) (rigidField E one lin sign a r p0 d) f fun _ => inFrame (frame E) (rigidMotion sign a r (p0 + x f • E.inner_normal 0)) d := by
  have h1 : inFrame (frame E) (rigidMotion sign a r (p0 + x f • E.inner_normal 0)) d =
      inFrame (frame E) (rigidMotion sign a r p0) d + x f * inFrame (frame E) (both (sign • (E.inner_normal 0 ⨯₃ r)) 0) d := by
    fin_cases d <;> simp [inFrame, rigidMotion, both, linPart, angPart, mulVec, dotProduct, Fin.sum_univ_three, cross_apply] <;> ring
  unfold IsTrace rigidField
  show (1 : K) • _ = _
  rw [mulVec_add, mulVec_smul, mulVec_smul, arc.one_trace, arc.lin_trace, one_smul, h1]
  funext j
  simp [mul_comm]

/-- The work of the end forces in a rigid motion is the work of the loads. -/
theorem rigid_work (hF : FormLaws (form E)) (hO : frame E * (frame E)ᵀ = 1) (arc : IsArcLength (form E) one lin x) {c : Fin 6 → K} {tau : K} {g : Fin (2 * 1) → Fin 6 → Fin nS → K} {q u : Fin 6 → Fin nS → K}
    (h : IsBeam (form E) c tau g (source E) q u) {sign : K} {a r : Fin 3 → K} (hs : sign = (frame E).det ∨ r = 0) (p0 : Fin 3 → K) :
    ∑ f, endWork E tau g q u (rigidField E one lin sign a r p0) f = loadWork E (rigidField E one lin sign a r p0) := by
  set v := rigidField E one lin sign a r p0 with hv
  set rho := frame E *ᵥ r with hrho
  have hcross : sign • (frame E *ᵥ (E.inner_normal 0 ⨯₃ r)) = ![1, 0, 0] ⨯₃ rho := by
    rcases hs with hs | hs
    · rw [hrho, ← frame_direction E hO, cross_mulVec _ hO, hs]
    · rw [hrho, hs]
      simp
  have he : inFrame (frame E) (both (sign • (E.inner_normal 0 ⨯₃ r)) 0) = both (![1, 0, 0] ⨯₃ rho) 0 := by
    rw [inFrame, linPart_both, angPart_both, mulVec_smul, hcross, mulVec_zero]
  have hder : ∀ d, ((form E).grad 0)ᵀ *ᵥ v d = both (![1, 0, 0] ⨯₃ rho) 0 d • (form E).mass *ᵥ one := fun d => by
    show ((form E).grad 0)ᵀ *ᵥ (_ • one + inFrame (frame E) (both (sign • (E.inner_normal 0 ⨯₃ r)) 0) d • lin) = _
    rw [mulVec_add, mulVec_smul, mulVec_smul, arc.one_const, arc.lin_deriv, smul_zero, zero_add, he]
  have hang : ∀ k : Fin 3, v (k.natAdd 3) = rho k • one := fun k => by
    have h1 : inFrame (frame E) (both (sign • (E.inner_normal 0 ⨯₃ r)) 0) (k.natAdd 3) = 0 := by rw [he]; fin_cases k <;> rfl
    have h2 : inFrame (frame E) (rigidMotion sign a r p0) (k.natAdd 3) = rho k := by
      rw [inFrame, rigidMotion, linPart_both, angPart_both]
      fin_cases k <;> rfl
    show _ • one + _ • lin = _
    rw [h1, h2, zero_smul, add_zero]
  have hbal : ∀ d, v d ⬝ᵥ (-((form E).grad 0 *ᵥ q d) + ∑ f, ((form E).bdr f *ᵥ ((form E).normal f 0 • q d + tau • u d) - tau • g f d)) = v d ⬝ᵥ source E d + v d ⬝ᵥ (form E).mass *ᵥ lever q d := fun d => by
    rw [h.balance d, dotProduct_add]
  have hgrad : ∀ d, v d ⬝ᵥ (form E).grad 0 *ᵥ q d = both (![1, 0, 0] ⨯₃ rho) 0 d * (one ⬝ᵥ (form E).mass *ᵥ q d) := fun d => by
    rw [dotProduct_mulVec, ← mulVec_transpose, hder, smul_dotProduct, smul_eq_mul, dotProduct_mulVec, ← mulVec_transpose, hF.mass_symm]
  have hsum : ∑ d, v d ⬝ᵥ (form E).mass *ᵥ lever q d = -∑ d, v d ⬝ᵥ (form E).grad 0 *ᵥ q d := by
    simp only [hgrad]
    rw [Fin.sum_univ_six, Fin.sum_univ_six, show v 4 = rho 1 • one from hang 1, show v 5 = rho 2 • one from hang 2]
    simp [lever, both, cross_apply, mulVec_neg]
  have h3 : ∑ d, v d ⬝ᵥ (-((form E).grad 0 *ᵥ q d) + ∑ f, ((form E).bdr f *ᵥ ((form E).normal f 0 • q d + tau • u d) - tau • g f d)) = ∑ d, (v d ⬝ᵥ source E d + v d ⬝ᵥ (form E).mass *ᵥ lever q d) :=
    sum_congr rfl fun d _ => hbal d
  simp only [dotProduct_add, dotProduct_neg, sum_add_distrib, sum_neg_distrib, hsum] at h3
  have h4 : ∑ f, endWork E tau g q u v f = ∑ d, v d ⬝ᵥ ∑ f, ((form E).bdr f *ᵥ ((form E).normal f 0 • q d + tau • u d) - tau • g f d) := by
    unfold endWork
    rw [sum_comm]
    exact sum_congr rfl fun d _ => (dotProduct_sum _ _ _).symm
  rw [h4]
  unfold loadWork
  linarith

variable (m : Mode) (gesv : Gesv (n_loc_dofs nS) 1 K) (hg : GesvSpec gesv) (tau : K) (ht : 0 < tau)

include hg ht

open Classical in
/-- **C110** (a beam).  The ends of the beam are at `p0 + x f t`, `t` its direction.  For each displacement and rotation of the ends, what `residual_flux` returns are forces and moments which, together with those at the ends where displacement and
rotation are prescribed, do the same work in each rigid motion as the loads: in each translation (`r = 0`), and in each rotation which is described with the sign that fits to the orientation of the frame (see C71). -/
theorem C110_beam (E : Edge nS K) (time : K) (hE : Complete E) (hc : ∀ d, coefficients E d ≠ 0) (hF : FormLaws (form E)) (hO : frame E * (frame E)ᵀ = 1) (arc : IsArcLength (form E) one lin x) (lambda : LocDofs 1 6 K) :
    ∃ q u y, IsBeam (form E) (coefficients E) tau (beamMoments (form E) (beamEnds E lambda) + dirichletMoments E) (source E) q u ∧ residual_flux m gesv tau lambda 0 E time = .ok y ∧
      ∀ (sign : K) (a r p0 : Fin 3 → K), sign = (frame E).det ∨ r = 0 →
        ∑ f, (if IsDirichlet E f then endWork E tau (beamMoments (form E) (beamEnds E lambda) + dirichletMoments E) q u (rigidField E one lin sign a r p0) f
          else rigidMotion sign a r (p0 + x f • E.inner_normal 0) ⬝ᵥ y f) = loadWork E (rigidField E one lin sign a r p0) := by
  have hs := (C68_solvable m gesv hg tau E time hE hc hF ht lambda 0).1
  obtain ⟨q, u, h2, h3⟩ := (C68_residual m gesv hg tau E time hE hc lambda 0).1 hs
  rw [zero_add] at h3
  refine ⟨q, u, _, h2, h3, fun sign a r p0 hsign => (sum_congr rfl fun f _ => ?_).trans (rigid_work hF hO arc h2 hsign p0)⟩
  by_cases hf : IsDirichlet E f
  · rw [if_pos hf]
  · rw [if_neg hf]
    have h4 : offDirichlet E (spaceEnds E (beamFlux (form E) tau (beamEnds E lambda) q u)) f = inSpace (frame E) (beamFlux (form E) tau (beamEnds E lambda) q u f) := if_neg hf
    rw [h4, inFrame_dot]
    refine sum_congr rfl fun d _ => ?_
    have h5 : ∀ d, (beamMoments (form E) (beamEnds E lambda) + dirichletMoments E) f d = moments (form E) (fun f _ => beamEnds E lambda f d) f := fun d => by
      have h6 : dirichletMoments E f d = 0 := funext fun i => if_neg hf
      rw [Pi.add_apply, Pi.add_apply, h6, add_zero]
      rfl
    have h7 := flux_outflow (tau := tau) hF (rigid_trace arc sign a r p0 d f) (fun f _ => beamEnds E lambda f d) (g := fun f => (beamMoments (form E) (beamEnds E lambda) + dirichletMoments E) f d) (h5 d) (fun _ => q d) (u d)
    rw [outflow, Fin.sum_univ_one] at h7
    rw [← h7]
    simp [dotProduct, beamFlux]

variable (E : Nat → Edge nS K) (time : K) (hE : ∀ e, Complete (E e)) (hc : ∀ e d, coefficients (E e) d ≠ 0) (hF : ∀ e, FormLaws (form (E e))) (hO : ∀ e, frame (E e) * (frame (E e))ᵀ = 1)
  (one lin : Nat → Fin nS → K) (x : Nat → Fin (2 * 1) → K) (arc : ∀ e, IsArcLength (form (E e)) (one e) (lin e) (x e))
  (G : HyGraph 1 6) (nodes : Fin G.n_hyEdges → Fin (2 * 1) → Fin G.n_hyNodes) (hwf : G.WF nodes) (old0 new0 : LocDofs 1 6 K)

include hE hc hF hO arc hwf

open Classical in
theorem work_core (y : Fin (G.n_hyNodes * 6) → K) : ∃ (q u : Fin G.n_hyEdges → Fin 6 → Fin nS → K) (R : Fin (G.n_hyNodes * 6) → K),
    (∀ e : Fin G.n_hyEdges, IsBeam (form (E e)) (coefficients (E e)) tau (beamMoments (form (E e)) (beamEnds (E e) (faceValues nodes y e)) + dirichletMoments (E e)) (source (E e)) (q e) (u e)) ∧
    G.mat_vec_multiply m (localResidual m gesv tau E time) old0 new0 (List.ofFn y) = .ok (List.ofFn R) ∧
    ∀ (sign : K) (a r : Fin 3 → K) (p0 : Nat → Fin 3 → K) (pos : Fin G.n_hyNodes → Fin 3 → K), (∀ e : Fin G.n_hyEdges, sign = (frame (E e)).det) ∨ r = 0 →
      (∀ (e : Fin G.n_hyEdges) f, rigidMotion sign a r (pos (nodes e f)) = rigidMotion sign a r (p0 e + x e f • (E e).inner_normal 0)) →
      ∑ v, (rigidMotion sign a r (pos v) ⬝ᵥ fun j => R (dof v j)) + ∑ e : Fin G.n_hyEdges, ∑ f, (if IsDirichlet (E e) f then
        endWork (E e) tau (beamMoments (form (E e)) (beamEnds (E e) (faceValues nodes y e)) + dirichletMoments (E e)) (q e) (u e) (rigidField (E e) (one e) (lin e) sign a r (p0 e)) f else 0) =
      ∑ e : Fin G.n_hyEdges, loadWork (E e) (rigidField (E e) (one e) (lin e) sign a r (p0 e)) := by
  choose q u z h2 h3 h4 using fun e : Fin G.n_hyEdges => C110_beam m gesv hg tau ht (E e) time (hE e) (hc e) (hF e) (hO e) (arc e) (faceValues nodes y e)
  have hoff : ∀ (e : Fin G.n_hyEdges) (f : Fin (2 * 1)), IsDirichlet (E e) f → z e f = 0 := fun e f hf => C68_dirichlet_zero m gesv tau (E e) time _ _ _ (.inr (h3 e)) f hf
  refine ⟨q, u, assemble nodes z, h2, mat_vec_eq m G nodes hwf _ y z h3 old0 new0, fun sign a r p0 pos hsign hpos => ?_⟩
  have h5 : ∑ v, (rigidMotion sign a r (pos v) ⬝ᵥ fun j => assemble nodes z (dof v j)) = ∑ e, ∑ f, rigidMotion sign a r (pos (nodes e f)) ⬝ᵥ z e f := by
    have h6 := pairing_assemble nodes z (Bilaplacian.ofNodes fun v j => rigidMotion sign a r (pos v) j)
    rw [sum_dof] at h6
    simp only [Bilaplacian.ofNodes_dof, faceValues] at h6
    exact h6
  rw [h5, ← sum_add_distrib]
  refine sum_congr rfl fun e _ => ?_
  rw [← h4 e sign a r (p0 e) (hsign.imp (fun h => h e) id), ← sum_add_distrib]
  refine sum_congr rfl fun f _ => ?_
  by_cases hf : IsDirichlet (E e) f
  · rw [if_pos hf, if_pos hf, hoff e f hf, dotProduct_zero, zero_add]
  · rw [if_neg hf, if_neg hf, add_zero, hpos]

open Classical in
/-- **C110** (virtual work).  The joints of the network are at `pos`, the beams begin at `p0`.  For each vector, the work which the residual returned by the global `residual_flux` and the forces and moments at the prescribed ends do
in a rigid motion is the work of all loads: in each translation (`r = 0`), and in each rotation if the frames of all beams have the same orientation (which is the sign that describes the rotation, see C71). -/
theorem C110_work (p0 : Nat → Fin 3 → K) (pos : Fin G.n_hyNodes → Fin 3 → K) (hpos : ∀ (e : Fin G.n_hyEdges) f, pos (nodes e f) = p0 e + x e f • (E e).inner_normal 0) (y : Fin (G.n_hyNodes * 6) → K) :
    ∃ (q u : Fin G.n_hyEdges → Fin 6 → Fin nS → K) (R : Fin (G.n_hyNodes * 6) → K),
    (∀ e : Fin G.n_hyEdges, IsBeam (form (E e)) (coefficients (E e)) tau (beamMoments (form (E e)) (beamEnds (E e) (faceValues nodes y e)) + dirichletMoments (E e)) (source (E e)) (q e) (u e)) ∧
    G.mat_vec_multiply m (localResidual m gesv tau E time) old0 new0 (List.ofFn y) = .ok (List.ofFn R) ∧
    ∀ (sign : K) (a r : Fin 3 → K), (∀ e : Fin G.n_hyEdges, sign = (frame (E e)).det) ∨ r = 0 →
      ∑ v, (rigidMotion sign a r (pos v) ⬝ᵥ fun j => R (dof v j)) + ∑ e : Fin G.n_hyEdges, ∑ f, (if IsDirichlet (E e) f then
        endWork (E e) tau (beamMoments (form (E e)) (beamEnds (E e) (faceValues nodes y e)) + dirichletMoments (E e)) (q e) (u e) (rigidField (E e) (one e) (lin e) sign a r (p0 e)) f else 0) =
      ∑ e : Fin G.n_hyEdges, loadWork (E e) (rigidField (E e) (one e) (lin e) sign a r (p0 e)) := by
  obtain ⟨q, u, R, h1, h2, h3⟩ := work_core m gesv hg tau ht E time hE hc hF hO one lin x arc G nodes hwf old0 new0 y
  exact ⟨q, u, R, h1, h2, fun sign a r hs => h3 sign a r p0 pos hs fun e f => by rw [hpos]⟩

open Classical in
/-- **C110** (forces).  For each vector, the sum of the forces in the residual returned by the global `residual_flux` plus the sum of the forces at the ends where displacement and rotation are prescribed is the sum of all loads.
So for the equilibrium, whose residual is zero, the reactions at the prescribed ends carry the loads. -/
theorem C110_forces (y : Fin (G.n_hyNodes * 6) → K) : ∃ (q u : Fin G.n_hyEdges → Fin 6 → Fin nS → K) (R : Fin (G.n_hyNodes * 6) → K),
    (∀ e : Fin G.n_hyEdges, IsBeam (form (E e)) (coefficients (E e)) tau (beamMoments (form (E e)) (beamEnds (E e) (faceValues nodes y e)) + dirichletMoments (E e)) (source (E e)) (q e) (u e)) ∧
    G.mat_vec_multiply m (localResidual m gesv tau E time) old0 new0 (List.ofFn y) = .ok (List.ofFn R) ∧
    ∀ i : Fin 3, ∑ v : Fin G.n_hyNodes, R (dof v (i.castLE (by decide))) + ∑ e : Fin G.n_hyEdges, ∑ f, (if IsDirichlet (E e) f then
        endForce (E e) (one e) tau (beamMoments (form (E e)) (beamEnds (E e) (faceValues nodes y e)) + dirichletMoments (E e)) (q e) (u e) f i else 0) =
      ∑ e : Fin G.n_hyEdges, totalForce (E e) (one e) i := by
  obtain ⟨q, u, R, h1, h2, h3⟩ := work_core m gesv hg tau ht E time hE hc hF hO one lin x arc G nodes hwf old0 new0 y
  refine ⟨q, u, R, h1, h2, fun i => ?_⟩
  have h4 := h3 0 (Pi.single i 1) 0 (fun _ => 0) (fun _ => 0) (.inr rfl) fun e f => by simp [rigidMotion]
  have hm : ∀ p : Fin 3 → K, rigidMotion 0 (Pi.single i 1) 0 p = both (Pi.single i 1) 0 := fun p => by simp [rigidMotion]
  have hz : ∀ e d, inFrame (frame (E e)) (both ((0 : K) • ((E e).inner_normal 0 ⨯₃ (0 : Fin 3 → K))) 0) d = 0 := fun e d => by
    rw [zero_smul, inFrame, linPart_both, angPart_both, mulVec_zero]
    fin_cases d <;> rfl
  have hrig : ∀ e d, rigidField (E e) (one e) (lin e) 0 (Pi.single i 1) 0 0 d = inFrame (frame (E e)) (both (Pi.single i 1) 0) d • one e := fun e d => by
    unfold rigidField
    rw [hz, zero_smul, add_zero, hm]
  have hsingle : ∀ w : Fin 6 → K, both (Pi.single i 1) 0 ⬝ᵥ w = w (i.castLE (by decide)) := fun w => by
    rw [dotProduct, Fin.sum_univ_six]
    fin_cases i <;> simp [both]
  have hwork : ∀ (e : Nat) (X : Fin 6 → Fin nS → K), ∑ d, rigidField (E e) (one e) (lin e) 0 (Pi.single i 1) 0 0 d ⬝ᵥ X d = spatial (E e) ![one e ⬝ᵥ X 0, one e ⬝ᵥ X 1, one e ⬝ᵥ X 2] i := fun e X => by
    have h5 : ∑ d, rigidField (E e) (one e) (lin e) 0 (Pi.single i 1) 0 0 d ⬝ᵥ X d = inFrame (frame (E e)) (both (Pi.single i 1) 0) ⬝ᵥ fun d => one e ⬝ᵥ X d := sum_congr rfl fun d _ => by
      rw [hrig, smul_dotProduct, smul_eq_mul]
    rw [h5, ← inFrame_dot, hsingle]
    fin_cases i <;> rfl
  have h6 : ∀ (e : Fin G.n_hyEdges) f, endWork (E e) tau (beamMoments (form (E e)) (beamEnds (E e) (faceValues nodes y e)) + dirichletMoments (E e)) (q e) (u e) (rigidField (E e) (one e) (lin e) 0 (Pi.single i 1) 0 0) f =
      endForce (E e) (one e) tau (beamMoments (form (E e)) (beamEnds (E e) (faceValues nodes y e)) + dirichletMoments (E e)) (q e) (u e) f i := fun e f => by
    unfold endWork
    rw [hwork]
    unfold endForce
    congr 1
    funext d
    fin_cases d <;> rfl
  have h7 : ∀ e : Fin G.n_hyEdges, loadWork (E e) (rigidField (E e) (one e) (lin e) 0 (Pi.single i 1) 0 0) = totalForce (E e) (one e) i := fun e => hwork e _
  simp only [h6, h7, hm, hsingle] at h4
  exact h4

/-- **C110** (free networks).  If displacement and rotation are prescribed nowhere, there can only be an equilibrium if the sum of the loads is zero. -/
theorem C110_free (hD : ∀ (e : Fin G.n_hyEdges) (f : Fin (2 * 1)), ¬ IsDirichlet (E e) f) (y : Fin (G.n_hyNodes * 6) → K)
    (hy : G.mat_vec_multiply m (localResidual m gesv tau E time) old0 new0 (List.ofFn y) = .ok (List.replicate (G.n_hyNodes * 6) 0)) : ∑ e : Fin G.n_hyEdges, totalForce (E e) (one e) = 0 := by
  obtain ⟨q, u, R, _, h2, h3⟩ := C110_forces m gesv hg tau ht E time hE hc hF hO one lin x arc G nodes hwf old0 new0 y
  have hR : R = 0 := by
    refine List.ofFn_injective ((Res.ok.inj (h2.symm.trans hy)).trans ?_)
    exact (List.ofFn_const _ _).symm
  funext i
  have h4 := h3 i
  rw [sum_eq_zero (s := univ) (f := fun e : Fin G.n_hyEdges => _) fun e _ => sum_eq_zero fun f _ => if_neg (hD e f), add_zero, hR] at h4
  rw [Finset.sum_apply, ← h4]
  simp

end

namespace Example

theorem beams_force (dirichlet : List Nat) : ∑ e : Fin G.n_hyEdges, totalForce (beams dirichlet e) ![1, 0] = ![2, 2, 0] := by
  show ∑ e : Fin 2, totalForce (beams dirichlet e) ![1, 0] = _
  rw [Fin.sum_univ_two]
  funext i
  fin_cases i <;> simp [totalForce, spatial, frame, beams, beam, source, mulVec, dotProduct, Fin.sum_univ_two, Fin.sum_univ_three] <;> norm_num

/-- **C110** (example).  Two beams, clamped at one end: the force there is the sum of the loads. -/
theorem C110_example (tau : ℚ) (ht : 0 < tau) (old0 new0 : LocDofs 1 6 ℚ) (y : Fin (G.n_hyNodes * 6) → ℚ)
    (hy : G.mat_vec_multiply .debug (localResidual .debug (cramerSolve _ _ ℚ) tau (beams [0]) 0) old0 new0 (List.ofFn y) = .ok (List.replicate (G.n_hyNodes * 6) 0)) :
    ∃ q u : Fin 6 → Fin 2 → ℚ,
      IsBeam (form (beams [0] 0)) (coefficients (beams [0] 0)) tau (beamMoments (form (beams [0] 0)) (beamEnds (beams [0] 0) (faceValues Gnodes y ⟨0, by decide⟩)) + dirichletMoments (beams [0] 0)) (source (beams [0] 0)) q u ∧
      endForce (beams [0] 0) ![1, 0] tau (beamMoments (form (beams [0] 0)) (beamEnds (beams [0] 0) (faceValues Gnodes y ⟨0, by decide⟩)) + dirichletMoments (beams [0] 0)) q u 0 = ![2, 2, 0] := by
  classical
  obtain ⟨q, u, R, h1, h2, h3⟩ := C110_forces .debug (cramerSolve _ _ ℚ) (C44_example _ _ ℚ) tau ht (beams [0]) 0 (beams_complete [0]) (beams_coefficients [0]) (beams_laws [0]) (beams_frame [0]) (fun _ => ![1, 0]) (fun _ => ![0, 1])
    (fun _ => ![0, 1]) (beams_arc [0]) G Gnodes G_wf old0 new0 y
  have hR : R = 0 := List.ofFn_injective ((Res.ok.inj (h2.symm.trans hy)).trans (List.ofFn_const _ _).symm)
  refine ⟨q ⟨0, by decide⟩, u ⟨0, by decide⟩, h1 ⟨0, by decide⟩, funext fun i => ?_⟩
  have hd : ∀ e f, IsDirichlet (beams [0] e) f ↔ e + f.1 = 0 := fun e f => by
    unfold IsDirichlet
    rw [beams_descriptor, beams_dirichlet, List.mem_singleton]
  have h4 := h3 i
  rw [← Finset.sum_apply, beams_force, hR] at h4
  rw [← h4]
  simp only [hd, Pi.zero_apply, sum_const_zero, zero_add]
  rw [Fintype.sum_eq_single (⟨0, by decide⟩ : Fin G.n_hyEdges), Fin.sum_univ_two]
  · simp
  · intro e he
    refine sum_eq_zero fun f _ => if_neg fun h => he (Fin.ext ?_)
    show e.1 = 0
    omega

/-- **C110** (free example).  The same beams without clamped ends: there is no equilibrium. -/
theorem C110_free_example (tau : ℚ) (ht : 0 < tau) (old0 new0 : LocDofs 1 6 ℚ) (y : Fin (G.n_hyNodes * 6) → ℚ) :
    G.mat_vec_multiply .debug (localResidual .debug (cramerSolve _ _ ℚ) tau (beams []) 0) old0 new0 (List.ofFn y) ≠ .ok (List.replicate (G.n_hyNodes * 6) 0) := by
  intro hy
  have h := C110_free .debug (cramerSolve _ _ ℚ) (C44_example _ _ ℚ) tau ht (beams []) 0 (beams_complete []) (beams_coefficients []) (beams_laws []) (beams_frame []) (fun _ => ![1, 0]) (fun _ => ![0, 1])
    (fun _ => ![0, 1]) (beams_arc []) G Gnodes G_wf old0 new0 (fun e f hf => by
      unfold IsDirichlet at hf
      rw [beams_dirichlet] at hf
      exact List.not_mem_nil hf) y hy
  rw [beams_force] at h
  have := congrFun h 0
  norm_num at this

/-- The hypotheses of `C110_work` can be met, also with rotations: beams in direction of the second axis, one behind the other. -/
example (y : Fin (G.n_hyNodes * 6) → ℚ) := C110_work .debug (cramerSolve _ _ ℚ) (C44_example _ _ ℚ) 1 one_pos (fun e => beams [0] (e + 1)) 0 (fun _ => beams_complete [0] _) (fun _ => beams_coefficients [0] _)
  (fun _ => beams_laws [0] _) (fun _ => beams_frame [0] _) (fun _ => ![1, 0]) (fun _ => ![0, 1]) (fun _ => ![0, 1]) (fun _ => beams_arc [0] _) G Gnodes G_wf (fun _ _ => 7) (fun _ _ => 8)
  (fun e => ![0, e, 0]) (fun v => ![0, v.1, 0]) (fun e f => by
    funext i
    fin_cases f <;> fin_cases i <;> simp [Gnodes, beams, beam]) y

example (e : Nat) : (1 : ℚ) = (frame (beams [0] (e + 1))).det := by
  simp [beams, beam, frame, det_fin_three]

end Example

end HyperHDG.Timoshenko

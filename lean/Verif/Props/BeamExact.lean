import Verif.Proofs.BeamLoads
import Verif.Props.Reciprocity
import Verif.Proofs.Exact
import Verif.Props.Lapack

/-!
# Property C105: on networks of beams the computed displacements and rotations of the joints are exact
-/

namespace HyperHDG.Timoshenko

open Finset Spec Matrix HyGraph Polynomial

variable {p : Nat} {P : Fin (p + 1) → ℝ[X]}

theorem inSpace_smul (R : Matrix (Fin 3) (Fin 3) ℝ) (a : ℝ) (v : Fin 6 → ℝ) : inSpace R (a • v) = a • inSpace R v := by
  have := inSpace_lin R a 0 v 0
  simpa using this

section
variable (hP : OrthonormalPolys p P) (hp : 3 ≤ p) (m : Mode) (gesv : Gesv (n_loc_dofs (p + 1)) 1 ℝ) (hg : GesvSpec gesv) (tau : ℝ) (ht : 0 < tau) (time : ℝ)
    (B : Nat → Beam) (hB : ∀ e, (B e).Admissible) (E : Nat → Edge (p + 1) ℝ) (hE : ∀ e, BeamIntegrals P (B e) (E e))
    (G : HyGraph 1 6) (nodes : Fin G.n_hyEdges → Fin (2 * 1) → Fin G.n_hyNodes) (hwf : G.WF nodes) (D : Fin G.n_hyNodes → Prop)
    (hD : ∀ (e : Fin G.n_hyEdges) (f : Fin (2 * 1)), (E e).node_descriptor f ∈ (E e).dirichlet_nodes ↔ D (nodes e f))

include hP hp hg ht hB hE hwf hD

/-- A vector which vanishes at the fixed joints has residual zero if on each beam the forces and moments of the exact solution with these displacements and rotations of the joints are in equilibrium at the other joints. -/
theorem residual_exact {x : Fin (G.n_hyNodes * 6) → ℝ} (hx : VanishesAt D x) {Q U : Fin G.n_hyEdges → ℝ → Fin 6 → ℝ} (hs : ∀ e : Fin G.n_hyEdges, (B e).Solves (Q e) (U e))
    (hj : ∀ (e : Fin G.n_hyEdges) f, ¬ D (nodes e f) → inSpace (B e).frame (U e f.1) = fun j => x (dof (nodes e f) j)) (hf : ∀ (e : Fin G.n_hyEdges) f, D (nodes e f) → inSpace (B e).frame (U e f.1) = (B e).fixed f) :
    (∀ old0 new0, G.mat_vec_multiply m (localResidual m gesv tau E time) old0 new0 (List.ofFn x) = .ok (List.replicate (G.n_hyNodes * 6) 0) ↔
      ∀ v, ¬ D v → ∑ e : Fin G.n_hyEdges, ∑ f, (if nodes e f = v then endSign f • inSpace (B e).frame (Q e f.1) else 0) = 0) ∧
    ∀ (e : Fin G.n_hyEdges), residual_flux m gesv tau (faceValues nodes x e) 0 (E e) time = .ok (offDirichlet (E e) fun f => endSign f • inSpace (B e).frame (Q e f.1)) := by
  classical
  have hF := fun e => beam_laws hP (hE e) (hB e)
  have hc : ∀ e d, coefficients (E e) d ≠ 0 := fun e d => by rw [(hE e).stiffness]; exact ((hB e).stiffness_pos d).ne'
  have hS := fun e => (C68_solvable m gesv hg tau (E e) time (hE e).complete (hc e) (hF e) ht 0 0).1
  have hO : ∀ e, (B e).frame * ((B e).frame)ᵀ = 1 := fun e => mul_eq_one_comm.mp (hB e).frame_ortho
  choose q u hq hres using fun e : Fin G.n_hyEdges => (C68_residual m gesv hg tau (E e) time (hE e).complete (hc e) (faceValues nodes x e) 0).1 (hS e)
  -- the values at the ends
  have hmom : ∀ e : Fin G.n_hyEdges, beamMoments (form (E e)) (beamEnds (E e) (faceValues nodes x e)) + dirichletMoments (E e) = beamMoments (form (E e)) fun f d => U e f.1 d := fun e => by
    funext f d
    funext i
    have e1 : ∀ lambda : Fin (2 * 1) → Fin 6 → ℝ, beamMoments (form (E e)) lambda f d i = (P i).eval (f.1 : ℝ) * lambda f d := fun lambda => psi_mulVec (hE e) f (fun _ => lambda f d) i
    show beamMoments (form (E e)) (beamEnds (E e) (faceValues nodes x e)) f d i + dirichletMoments (E e) f d i = _
    rw [e1, e1]
    by_cases hfd : IsDirichlet (E e) f
    · have h1 : faceValues nodes x e f = 0 := funext fun j => hx _ ((hD e f).mp hfd) j
      have h2 : U e f.1 = inFrame (B e).frame ((B e).fixed f) := by rw [← hf e f ((hD e f).mp hfd), frame_space _ (hO e)]
      rw [(hE e).dirichlet f hfd, h2]
      simp only [beamEnds, h1, inFrame_zero, Pi.zero_apply, mul_zero, zero_add]
    · have h2 : U e f.1 = inFrame (B e).frame (faceValues nodes x e f) := by
        have h3 := hj e f fun h => hfd ((hD e f).mpr h)
        show U e f.1 = inFrame (B e).frame (fun j => x (dof (nodes e f) j))
        rw [← h3, frame_space _ (hO e)]
      have h3 : dirichletMoments (E e) f d i = 0 := if_neg hfd
      rw [h3, h2, add_zero]
      simp only [beamEnds, (hE e).frame]
  have hflux : ∀ e : Fin G.n_hyEdges, offDirichlet (E e) (spaceEnds (E e) (beamFlux (form (E e)) tau (beamEnds (E e) (faceValues nodes x e)) (q e) (u e))) =
      offDirichlet (E e) fun f => endSign f • inSpace (B e).frame (Q e f.1) := fun e => by
    funext f
    simp only [offDirichlet]
    by_cases hfd : IsDirichlet (E e) f
    · rw [if_pos hfd, if_pos hfd]
    · rw [if_neg hfd, if_neg hfd]
      have h1 := hq e
      rw [hmom e, (hE e).stiffness] at h1
      have h2 := flux_exact hP (hE e) (hB e) hp (hs e) h1 f
      have h3 : beamEnds (E e) (faceValues nodes x e) f = U e f.1 := by
        show inFrame (frame (E e)) (fun j => x (dof (nodes e f) j)) = _
        rw [← hj e f fun h => hfd ((hD e f).mpr h), (hE e).frame, frame_space _ (hO e)]
      have h4 : beamFlux (form (E e)) tau (beamEnds (E e) (faceValues nodes x e)) (q e) (u e) f = endSign f • Q e f.1 := funext fun d => by
        have h5 : beamFlux (form (E e)) tau (beamEnds (E e) (faceValues nodes x e)) (q e) (u e) f d = beamFlux (form (E e)) tau (fun f d => U e f.1 d) (q e) (u e) f d := by
          rw [flux_apply (hE e), flux_apply (hE e), h3]
        rw [h5, h2 d]
        rfl
      show inSpace (frame (E e)) _ = _
      rw [h4, (hE e).frame, inSpace_smul]
  refine ⟨fun old0 new0 => ?_, fun e => ?_⟩
  · rw [balance_iff m gesv hg tau ht time G nodes hwf old0 new0 E (fun e => (hE e).complete) hc hF hq]
    simp only [hflux]
    have hat : ∀ v, (∀ j, assemble nodes (fun e : Fin G.n_hyEdges => offDirichlet (E e) fun f => endSign f • inSpace (B e).frame (Q e f.1)) (dof v j) = 0) ↔
        (¬ D v → ∑ e : Fin G.n_hyEdges, ∑ f, (if nodes e f = v then endSign f • inSpace (B e).frame (Q e f.1) else 0) = 0) := fun v => by
      by_cases hv : D v
      · refine iff_of_true (fun j => ?_) fun h => absurd hv h
        rw [assemble_at]
        refine sum_eq_zero fun e _ => sum_eq_zero fun f _ => ?_
        split
        · rename_i h
          have : IsDirichlet (E e) f := (hD e f).mpr (h ▸ hv)
          simp only [offDirichlet]
          rw [if_pos this]
          rfl
        · rfl
      · rw [imp_iff_right hv, funext_iff]
        refine forall_congr' fun j => ?_
        rw [assemble_at, Finset.sum_apply]
        refine iff_of_eq (congrArg (· = _) (sum_congr rfl fun e _ => ?_))
        rw [Finset.sum_apply]
        refine sum_congr rfl fun f _ => ?_
        by_cases h : nodes e f = v
        · rw [if_pos h, if_pos h]
          have : ¬ IsDirichlet (E e) f := fun h' => hv (h ▸ (hD e f).mp h')
          simp only [offDirichlet]
          rw [if_neg this]
        · rw [if_neg h, if_neg h]
          rfl
    constructor
    · intro h v
      exact (hat v).mp fun j => by rw [h]; rfl
    · intro h
      funext k
      obtain ⟨v, j, rfl⟩ := dof_surj k
      exact (hat v).mpr (h v) j
  · rw [hres e, zero_add, hflux]

variable (hcon : Anchored nodes D)

include hcon

/-- **C105** (the values at the joints).  A network of beams with continuous loads, each joint connected to a fixed one; degree at least three, `tau > 0`.  There is exactly one vector which vanishes at the fixed joints and has residual
zero; if the network with displacements and rotations `w` of the joints is in equilibrium, its entries are those of `w`.  Applied to it, the local solver returns the exact forces and moments at the ends of each beam. -/
theorem C105_exact {Q U : Fin G.n_hyEdges → ℝ → Fin 6 → ℝ} {w : Fin G.n_hyNodes → Fin 6 → ℝ} (h : IsEquilibrium (fun e : Fin G.n_hyEdges => B e) nodes D Q U w) : ∃ x : Fin (G.n_hyNodes * 6) → ℝ,
    (∀ old0 new0 y, (VanishesAt D y ∧ G.mat_vec_multiply m (localResidual m gesv tau E time) old0 new0 (List.ofFn y) = .ok (List.replicate (G.n_hyNodes * 6) 0)) ↔ y = x) ∧
    (∀ v, ¬ D v → ∀ j, x (dof v j) = w v j) ∧
    ∀ e : Fin G.n_hyEdges, residual_flux m gesv tau (faceValues nodes x e) 0 (E e) time = .ok (offDirichlet (E e) fun f => endSign f • inSpace (B e).frame (Q e f.1)) := by
  classical
  have hF := fun e => beam_laws hP (hE e) (hB e)
  have hc : ∀ e d, coefficients (E e) d ≠ 0 := fun e d => by rw [(hE e).stiffness]; exact ((hB e).stiffness_pos d).ne'
  choose vOf jOf hvj using fun k : Fin (G.n_hyNodes * 6) => dof_surj k
  let x : Fin (G.n_hyNodes * 6) → ℝ := fun k => if D (vOf k) then 0 else w (vOf k) (jOf k)
  have hxv : ∀ v j, x (dof v j) = if D v then 0 else w v j := fun v j => by
    obtain ⟨h1, h2⟩ := dof_inj (hvj (dof v j))
    simp only [x]
    rw [h1, h2]
  have hx : VanishesAt D x := fun v hv j => by rw [hxv, if_pos hv]
  obtain ⟨h1, h2⟩ := residual_exact hP hp m gesv hg tau ht time B hB E hE G nodes hwf D hD hx (Q := Q) (U := U) (fun e => h.beams e) (fun e f hf => by
    rw [h.joints e f hf]
    funext j
    rw [hxv, if_neg hf]) fun e f hf => h.fixed e f hf
  refine ⟨x, fun old0 new0 y => ⟨fun hy => ?_, fun hy => ?_⟩, fun v hv j => by rw [hxv, if_neg hv], h2⟩
  · obtain ⟨_, _, huniq⟩ := C69_unique m gesv hg tau ht E time (fun e => (hE e).complete) hc hF G nodes hwf old0 new0 (fun e => beam_rigid hP (hE e)) (fun e => by rw [(hE e).frame]; exact (hB e).frame_ortho) D hD hcon
    rw [huniq y hy, huniq x ⟨hx, (h1 old0 new0).mpr h.balance⟩]
  · rw [hy]
    exact ⟨hx, (h1 old0 new0).mpr h.balance⟩

include m time in
/-- A discrete solution belongs to an equilibrium. -/
theorem discrete_equilibrium : ∃ Q U w, IsEquilibrium (fun e : Fin G.n_hyEdges => B e) nodes D Q U w := by
  classical
  have hF := fun e => beam_laws hP (hE e) (hB e)
  have hc : ∀ e d, coefficients (E e) d ≠ 0 := fun e d => by rw [(hE e).stiffness]; exact ((hB e).stiffness_pos d).ne'
  obtain ⟨x, ⟨hx, hres⟩, _⟩ := C69_unique m gesv hg tau ht E time (fun e => (hE e).complete) hc hF G nodes hwf 0 0 (fun e => beam_rigid hP (hE e)) (fun e => by rw [(hE e).frame]; exact (hB e).frame_ortho) D hD hcon
  choose Q U hs hU using fun e : Fin G.n_hyEdges => solves_exists (hB e) fun f => inFrame (B e).frame (if D (nodes e f) then (B e).fixed f else fun j => x (dof (nodes e f) j))
  have hj : ∀ (e : Fin G.n_hyEdges) f, ¬ D (nodes e f) → inSpace (B e).frame (U e f.1) = fun j => x (dof (nodes e f) j) := fun e f hf => by rw [hU, if_neg hf, space_frame _ (hB e).frame_ortho]
  have hf : ∀ (e : Fin G.n_hyEdges) f, D (nodes e f) → inSpace (B e).frame (U e f.1) = (B e).fixed f := fun e f hf => by rw [hU, if_pos hf, space_frame _ (hB e).frame_ortho]
  obtain ⟨h1, _⟩ := residual_exact hP hp m gesv hg tau ht time B hB E hE G nodes hwf D hD hx hs hj hf
  exact ⟨Q, U, fun v j => x (dof v j), hs, hj, hf, (h1 0 0).mp hres⟩

end

/-! ## The integrals of a beam -/

/-- The hyperedge whose integrals are those of a beam. -/
noncomputable def beamOf (P : Fin (p + 1) → ℝ[X]) (B : Beam) (types : Nat → Nat) (L : List Nat) : Edge (p + 1) ℝ :=
  let Pn : Nat → ℝ[X] := fun i => if h : i < p + 1 then P ⟨i, h⟩ else 0
  let src : Fin 6 → Nat → ℝ := fun d i => B.length * ∫ s in (0 : ℝ)..1, inFrame B.frame (B.load s) d * (Pn i).eval s
  let fix : Fin 6 → Nat → Nat → ℝ := fun d i f => (Pn i).eval (f : ℝ) * inFrame B.frame (if h : f < 2 then B.fixed ⟨f, h⟩ else 0) d
  { vol_phiphi := fun i j => B.length * ∫ s in (0 : ℝ)..1, (Pn i).eval s * (Pn j).eval s
    vol_nablaphiphi := fun i j _ => ∫ s in (0 : ℝ)..1, (Pn i).derivative.eval s * (Pn j).eval s
    bdr_phiphi := fun i j f => (Pn i).eval (f : ℝ) * (Pn j).eval (f : ℝ)
    bdr_phipsi := fun i _ f => (Pn i).eval (f : ℝ)
    vol_phi_n := fun i k _ => if k = 1 then src 0 i else if k = -1 then src 1 i else src 2 i
    vol_phi_m := fun i k _ => if k = 1 then src 3 i else if k = -1 then src 4 i else src 5 i
    bdr_phi_u := fun i f k _ => if k = 1 then fix 0 i f else if k = -1 then fix 1 i f else fix 2 i f
    bdr_phi_phi := fun i f k _ => if k = 1 then fix 3 i f else if k = -1 then fix 4 i f else fix 5 i f
    vol_diffsquare := fun _ _ _ => 0
    local_normal := fun f _ => if f = 0 then -1 else 1
    inner_normal := fun _ => B.frame 0
    outer_normal := fun k => if k = 0 then B.frame 1 else B.frame 2
    extra_data := some [B.stiffness 0 / 10 ^ 4, B.stiffness 1 / 10 ^ 4, B.stiffness 2 / 10 ^ 4, B.stiffness 3 / 10 ^ 12, B.stiffness 4 / 10 ^ 12, B.stiffness 5 / 10 ^ 12,
      B.frame 1 0, B.frame 1 1, B.frame 1 2, B.frame 2 0, B.frame 2 1, B.frame 2 2]
    node_descriptor := types
    dirichlet_nodes := L }

theorem beamOf_exact (P : Fin (p + 1) → ℝ[X]) {B : Beam} (hB : B.Admissible) (types : Nat → Nat) (L : List Nat) : BeamIntegrals P B (beamOf P B types L) := by
  have hO : B.frame * B.frameᵀ = 1 := mul_eq_one_comm.mp hB.frame_ortho
  have ho : ∀ a b, B.frame a ⬝ᵥ B.frame b = if a = b then 1 else 0 := fun a b => by
    have := congrFun (congrFun hO a) b
    rwa [Matrix.mul_apply, Matrix.one_apply] at this
  have hvec : ∀ a : Fin 3, (![B.frame a 0, B.frame a 1, B.frame a 2] : Fin 3 → ℝ) = B.frame a := fun a => by
    funext i
    fin_cases i <;> rfl
  refine ⟨fun i j => ?_, fun i j => ?_, fun i j f => ?_, fun i f => ?_, fun f => ?_, ?_, ?_, ?_, fun d i => ?_, fun f hf d i => ?_⟩
  · simp only [beamOf, Fin.is_lt, dif_pos, Fin.eta]
  · simp only [beamOf, Fin.is_lt, dif_pos, Fin.eta]
  · simp only [beamOf, Fin.is_lt, dif_pos, Fin.eta]
  · simp only [beamOf, Fin.is_lt, dif_pos, Fin.eta]
  · rfl
  · ext i j
    fin_cases i <;> rfl
  · intro e he
    cases he
    exact le_rfl
  · have h1 : coefficients (beamOf P B types L) = ![|B.stiffness 0 / 10 ^ 4 * 10 ^ 4|, |(B.stiffness 1 / 10 ^ 4 * (B.frame 1 ⬝ᵥ ![B.frame 1 0, B.frame 1 1, B.frame 1 2]) + B.stiffness 2 / 10 ^ 4 * (B.frame 1 ⬝ᵥ ![B.frame 2 0, B.frame 2 1, B.frame 2 2])) * 10 ^ 4|,
        |(B.stiffness 1 / 10 ^ 4 * (B.frame 2 ⬝ᵥ ![B.frame 1 0, B.frame 1 1, B.frame 1 2]) + B.stiffness 2 / 10 ^ 4 * (B.frame 2 ⬝ᵥ ![B.frame 2 0, B.frame 2 1, B.frame 2 2])) * 10 ^ 4|, |B.stiffness 3 / 10 ^ 12 * 10 ^ 12|,
        |(B.stiffness 4 / 10 ^ 12 * (B.frame 1 ⬝ᵥ ![B.frame 1 0, B.frame 1 1, B.frame 1 2]) + B.stiffness 5 / 10 ^ 12 * (B.frame 1 ⬝ᵥ ![B.frame 2 0, B.frame 2 1, B.frame 2 2])) * 10 ^ 12|,
        |(B.stiffness 4 / 10 ^ 12 * (B.frame 2 ⬝ᵥ ![B.frame 1 0, B.frame 1 1, B.frame 1 2]) + B.stiffness 5 / 10 ^ 12 * (B.frame 2 ⬝ᵥ ![B.frame 2 0, B.frame 2 1, B.frame 2 2])) * 10 ^ 12|] := rfl
    rw [h1]
    simp only [hvec, ho]
    have hpos := hB.stiffness_pos
    funext d
    fin_cases d <;> simp [abs_of_pos (hpos _)]
  · have hi : (if h : i.1 < p + 1 then P ⟨i.1, h⟩ else 0) = P i := dif_pos i.2
    simp only [source, beamOf, hi]
    fin_cases d <;> rfl
  · have hfix : (if h : f.1 < 2 then B.fixed ⟨f.1, h⟩ else 0) = B.fixed f := dif_pos f.2
    simp only [dirichletMoments]
    rw [if_pos hf]
    have hi : (if h : i.1 < p + 1 then P ⟨i.1, h⟩ else 0) = P i := dif_pos i.2
    simp only [beamOf, hi, hfix]
    fin_cases d <;> rfl

/-! ## Equilibria exist and are unique -/

/-- The ends of a beam determine its equilibrium. -/
theorem ends_unique {B : Beam} (hB : B.Admissible) {Q U Q' U' : ℝ → Fin 6 → ℝ} (h : B.Solves Q U) (h' : B.Solves Q' U') (h0 : U 0 = U' 0) (h1 : U 1 = U' 1) :
    ∀ s ∈ Set.Icc (0 : ℝ) 1, Q s = Q' s ∧ U s = U' s := by
  obtain ⟨P, hP⟩ := exists_orthonormal 3
  have hE := beamOf_exact P hB (fun _ => 0) []
  have hc : ∀ d, coefficients (beamOf P B (fun _ => 0) []) d ≠ 0 := fun d => by rw [hE.stiffness]; exact (hB.stiffness_pos d).ne'
  have hends : (fun (f : Fin (2 * 1)) d => U f.1 d) = fun (f : Fin (2 * 1)) d => U' f.1 d := funext fun f => by
    rcases (show f = 0 ∨ f = 1 by fin_cases f <;> simp) with rfl | rfl
    · simpa using h0
    · simpa using h1
  obtain ⟨q, u, hd⟩ : ∃ q u, IsBeam (form (beamOf P B (fun _ => 0) [])) B.stiffness 1 (beamMoments (form (beamOf P B (fun _ => 0) [])) fun f d => U f.1 d) (source (beamOf P B (fun _ => 0) [])) q u := by
    have hs := (C68_solvable .debug (cramerSolve _ _ ℝ) (C44_example _ _ ℝ) 1 (beamOf P B (fun _ => 0) []) 0 hE.complete hc (beam_laws hP hE hB) one_pos 0 0).1
    obtain ⟨q, u, hd, _⟩ := (C68_residual .debug (cramerSolve _ _ ℝ) (C44_example _ _ ℝ) 1 (beamOf P B (fun _ => 0) []) 0 hE.complete hc (fun f => inSpace B.frame (U f.1)) 0).1 hs
    have e1 : dirichletMoments (beamOf P B (fun _ => 0) []) = 0 := funext fun f => funext fun d => funext fun i => if_neg (by simp [IsDirichlet, beamOf])
    have e2 : beamEnds (beamOf P B (fun _ => 0) []) (fun f => inSpace B.frame (U f.1)) = fun f d => U f.1 d := funext fun f => by
      simp only [beamEnds, hE.frame]
      exact frame_space _ (mul_eq_one_comm.mp hB.frame_ortho) _
    rw [e1, e2, add_zero, hE.stiffness] at hd
    exact ⟨q, u, hd⟩
  have hQ : Q 0 = Q' 0 := funext fun d => by
    have e1 := flux_exact hP hE hB le_rfl h hd 0 d
    have e2 := flux_exact hP hE hB le_rfl h' (hends ▸ hd) 0 d
    rw [hends] at e1
    have e3 := e1.symm.trans e2
    simpa [endSign] using e3
  exact solves_unique h h' hQ h0

section
variable {nE nN : Nat} (B : Fin nE → Beam) (hB : ∀ e, (B e).Admissible) (nodes : Fin nE → Fin (2 * 1) → Fin nN) (D : Fin nN → Prop) (hcon : Anchored nodes D) (hfit : nN * 6 < U32)

/-- A beam to fill up a family. -/
noncomputable def unitBeam : Beam := ⟨1, 1, 1, 0, 0⟩

theorem unitBeam_admissible : unitBeam.Admissible where
  length_pos := one_pos
  frame_ortho := by simp [unitBeam]
  stiffness_pos := fun _ => one_pos
  load_cont := continuous_const

/-- The hypergraph of a network of beams. -/
def netGraph : HyGraph 1 6 := ⟨nE, nN, fun e f => if h : e < nE then nodes ⟨e, h⟩ f else 0⟩

noncomputable def netBeams (e : Nat) : Beam := if h : e < nE then B ⟨e, h⟩ else unitBeam

open Classical in
/-- Its hyperedges: 1 marks the fixed joints. -/
noncomputable def netEdges (P : Fin (p + 1) → ℝ[X]) (e : Nat) : Edge (p + 1) ℝ :=
  beamOf P (netBeams B e) (fun f => if h : e < nE ∧ f < 2 * 1 then (if D (nodes ⟨e, h.1⟩ ⟨f, h.2⟩) then 1 else 0) else 0) [1]

theorem netBeams_fin (e : Fin nE) : netBeams B e = B e := dif_pos e.2

include hB in
theorem netBeams_admissible (e : Nat) : (netBeams B e).Admissible := by
  unfold netBeams
  split
  · exact hB _
  · exact unitBeam_admissible

include hfit in
theorem netGraph_wf : (netGraph nodes).WF nodes := ⟨fun e _ => dif_pos e.2 |>.trans rfl, hfit⟩

theorem netEdges_dirichlet (P : Fin (p + 1) → ℝ[X]) (e : Fin nE) (f : Fin (2 * 1)) : (netEdges B nodes D P e).node_descriptor f ∈ (netEdges B nodes D P e).dirichlet_nodes ↔ D (nodes e f) := by
  simp only [netEdges, beamOf, List.mem_singleton]
  rw [dif_pos ⟨e.2, f.2⟩]
  split <;> simp_all

include hB hcon hfit

/-- **C105** (existence).  Each network of beams with continuous loads whose joints are connected to fixed ones has an equilibrium. -/
theorem C105_exists : ∃ Q U w, IsEquilibrium B nodes D Q U w := by
  obtain ⟨P, hP⟩ := exists_orthonormal 3
  obtain ⟨Q, U, w, h⟩ := discrete_equilibrium hP le_rfl .debug (cramerSolve _ _ ℝ) (C44_example _ _ ℝ) 1 one_pos 0 (netBeams B) (netBeams_admissible B hB) (netEdges B nodes D P)
    (fun e => beamOf_exact P (netBeams_admissible B hB e) _ _) (netGraph nodes) nodes (netGraph_wf nodes hfit) D (netEdges_dirichlet B nodes D P) hcon
  have hb : (fun e : Fin nE => netBeams B e) = B := funext (netBeams_fin B)
  exact ⟨Q, U, w, hb ▸ h⟩

/-- **C105** (uniqueness).  There is only one: displacements and rotations of the joints, and displacements, rotations, forces and moments on the beams. -/
theorem C105_unique {Q U Q' U' : Fin nE → ℝ → Fin 6 → ℝ} {w w' : Fin nN → Fin 6 → ℝ} (h : IsEquilibrium B nodes D Q U w) (h' : IsEquilibrium B nodes D Q' U' w') :
    (∀ v, ¬ D v → w v = w' v) ∧ ∀ e, ∀ s ∈ Set.Icc (0 : ℝ) 1, Q e s = Q' e s ∧ U e s = U' e s := by
  obtain ⟨P, hP⟩ := exists_orthonormal 3
  have hb : (fun e : Fin nE => netBeams B e) = B := funext (netBeams_fin B)
  have main := fun Q U w (h : IsEquilibrium (fun e : Fin nE => netBeams B e) nodes D Q U w) => C105_exact hP le_rfl .debug (cramerSolve _ _ ℝ) (C44_example _ _ ℝ) 1 one_pos 0 (netBeams B) (netBeams_admissible B hB) (netEdges B nodes D P)
    (fun e => beamOf_exact P (netBeams_admissible B hB e) _ _) (netGraph nodes) nodes (netGraph_wf nodes hfit) D (netEdges_dirichlet B nodes D P) hcon (Q := Q) (U := U) (w := w) h
  rw [hb] at main
  obtain ⟨x, h1, h2, _⟩ := main Q U w h
  obtain ⟨x', h1', h2', _⟩ := main Q' U' w' h'
  have hx : x = x' := (h1' 0 0 x).mp ((h1 0 0 x).mpr rfl)
  have hw : ∀ v, ¬ D v → w v = w' v := fun v hv => funext fun j => by rw [← h2 v hv j, hx, h2' v hv j]
  have hU : ∀ e (f : Fin (2 * 1)), U e f.1 = U' e f.1 := fun e f => by
    have h3 : inSpace (B e).frame (U e f.1) = inSpace (B e).frame (U' e f.1) := by
      by_cases hf : D (nodes e f)
      · rw [h.fixed e f hf, h'.fixed e f hf]
      · rw [h.joints e f hf, h'.joints e f hf, hw _ hf]
    have hO : (B e).frame * ((B e).frame)ᵀ = 1 := mul_eq_one_comm.mp (hB e).frame_ortho
    rw [← frame_space _ hO (U e f.1), h3, frame_space _ hO]
  refine ⟨hw, fun e s hs => ends_unique (hB e) (h.beams e) (h'.beams e) ?_ ?_ s hs⟩
  · simpa using hU e 0
  · simpa using hU e 1

end

/-- **C105** (independence of the parameters).  The vectors computed with different degrees (at least three), different `tau > 0`, different basis functions and different solvers of the local systems are equal. -/
theorem C105_independent {p p' : Nat} {P : Fin (p + 1) → ℝ[X]} {P' : Fin (p' + 1) → ℝ[X]} (hP : OrthonormalPolys p P) (hP' : OrthonormalPolys p' P') (hp : 3 ≤ p) (hp' : 3 ≤ p') (m m' : Mode)
    (gesv : Gesv (n_loc_dofs (p + 1)) 1 ℝ) (gesv' : Gesv (n_loc_dofs (p' + 1)) 1 ℝ) (hg : GesvSpec gesv) (hg' : GesvSpec gesv') (tau tau' : ℝ) (ht : 0 < tau) (ht' : 0 < tau') (time time' : ℝ)
    (B : Nat → Beam) (hB : ∀ e, (B e).Admissible) (E : Nat → Edge (p + 1) ℝ) (hE : ∀ e, BeamIntegrals P (B e) (E e)) (E' : Nat → Edge (p' + 1) ℝ) (hE' : ∀ e, BeamIntegrals P' (B e) (E' e))
    (G : HyGraph 1 6) (nodes : Fin G.n_hyEdges → Fin (2 * 1) → Fin G.n_hyNodes) (hwf : G.WF nodes) (D : Fin G.n_hyNodes → Prop)
    (hD : ∀ (e : Fin G.n_hyEdges) (f : Fin (2 * 1)), (E e).node_descriptor f ∈ (E e).dirichlet_nodes ↔ D (nodes e f))
    (hD' : ∀ (e : Fin G.n_hyEdges) (f : Fin (2 * 1)), (E' e).node_descriptor f ∈ (E' e).dirichlet_nodes ↔ D (nodes e f)) (hcon : Anchored nodes D)
    (old0 new0 old0' new0' : LocDofs 1 6 ℝ) {x x' : Fin (G.n_hyNodes * 6) → ℝ} (hx : VanishesAt D x) (hx' : VanishesAt D x')
    (hr : G.mat_vec_multiply m (localResidual m gesv tau E time) old0 new0 (List.ofFn x) = .ok (List.replicate (G.n_hyNodes * 6) 0))
    (hr' : G.mat_vec_multiply m' (localResidual m' gesv' tau' E' time') old0' new0' (List.ofFn x') = .ok (List.replicate (G.n_hyNodes * 6) 0)) : x = x' := by
  obtain ⟨Q, U, w, h⟩ := discrete_equilibrium hP hp m gesv hg tau ht time B hB E hE G nodes hwf D hD hcon
  obtain ⟨y, h1, h2, _⟩ := C105_exact hP hp m gesv hg tau ht time B hB E hE G nodes hwf D hD hcon h
  obtain ⟨y', h1', h2', _⟩ := C105_exact hP' hp' m' gesv' hg' tau' ht' time' B hB E' hE' G nodes hwf D hD' hcon h
  have e1 := (h1 _ _ x).mp ⟨hx, hr⟩
  have e2 := (h1' _ _ x').mp ⟨hx', hr'⟩
  funext k
  obtain ⟨v, j, rfl⟩ := dof_surj k
  by_cases hv : D v
  · rw [hx v hv, hx' v hv]
  · rw [e1, e2, h2 v hv, h2' v hv]

/-! ## A cantilever -/

namespace Example

/-- A beam of length `L` along the first axis, with constant load `g` in direction of the second, clamped at its end 0. -/
noncomputable def cantilever (L g : ℝ) (C : Fin 6 → ℝ) : Beam := ⟨L, 1, C, fun _ => g • Pi.single 1 1, 0⟩

theorem cantilever_admissible {L : ℝ} (hL : 0 < L) (g : ℝ) {C : Fin 6 → ℝ} (hC : ∀ d, 0 < C d) : (cantilever L g C).Admissible where
  length_pos := hL
  frame_ortho := by simp [cantilever]
  stiffness_pos := hC
  load_cont := continuous_const

def ends (_ : Fin 1) (f : Fin (2 * 1)) : Fin 2 := f

theorem ends_anchored : Anchored ends (· = 0) := fun v => ⟨0, rfl, .single ⟨0, 0, v, rfl, rfl⟩⟩

noncomputable def force (L g : ℝ) (s : ℝ) : Fin 6 → ℝ := ![0, L * g * (s - 1), 0, 0, 0, L ^ 2 * g * (s - 1) ^ 2 / 2]

noncomputable def displacement (L g : ℝ) (C : Fin 6 → ℝ) (s : ℝ) : Fin 6 → ℝ :=
  ![0, L ^ 4 * g * ((s - 1) ^ 4 + 4 * s - 1) / (24 * C 5) + L ^ 2 * g * (1 - (s - 1) ^ 2) / (2 * C 1), 0, 0, 0, - L ^ 3 * g * ((s - 1) ^ 3 + 1) / (6 * C 5)]

theorem inFrame_one (v : Fin 6 → ℝ) : inFrame 1 v = v := by
  funext d
  fin_cases d <;> simp [inFrame, both, linPart, angPart]

theorem inSpace_one (v : Fin 6 → ℝ) : inSpace 1 v = v := by
  funext d
  fin_cases d <;> simp [inSpace, both, linPart, angPart]

theorem cantilever_solves (L g : ℝ) {C : Fin 6 → ℝ} (hC : ∀ d, 0 < C d) : (cantilever L g C).Solves (force L g) (displacement L g C) := by
  have hd : ∀ (s : ℝ), HasDerivAt (fun s : ℝ => s - 1) 1 s := fun s => (hasDerivAt_id s).sub_const 1
  have h5 := (hC 5).ne'
  have h1 := (hC 1).ne'
  refine ⟨fun d => ?_, fun d => ?_, fun d s _ => ?_, fun d s _ => ?_⟩
  · fin_cases d <;> simp [force] <;> fun_prop
  · fin_cases d <;> simp [displacement] <;> fun_prop
  · fin_cases d
    · simpa [displacement, force, cantilever, both, angPart, cross_apply] using hasDerivAt_const s (0 : ℝ)
    · have := ((((((hd s).pow 4).add ((hasDerivAt_id s).const_mul 4)).sub_const 1).const_mul (L ^ 4 * g)).div_const (24 * C 5)).add (((((hd s).pow 2).const_sub 1).const_mul (L ^ 2 * g)).div_const (2 * C 1))
      refine this.congr_deriv ?_
      simp [displacement, force, cantilever, both, angPart, cross_apply]
      field_simp
      ring
    · simpa [displacement, force, cantilever, both, angPart, cross_apply] using hasDerivAt_const s (0 : ℝ)
    · simpa [displacement, force, cantilever, both, angPart, cross_apply] using hasDerivAt_const s (0 : ℝ)
    · simpa [displacement, force, cantilever, both, angPart, cross_apply] using hasDerivAt_const s (0 : ℝ)
    · have := ((((hd s).pow 3).add_const 1).const_mul (- L ^ 3 * g)).div_const (6 * C 5)
      refine this.congr_deriv ?_
      simp [displacement, force, cantilever, both, angPart, cross_apply]
      field_simp
      ring
  · have hf : inFrame (cantilever L g C).frame ((cantilever L g C).load s) = g • Pi.single 1 1 := inFrame_one _
    rw [hf]
    fin_cases d
    · simpa [force, cantilever, both, linPart, cross_apply] using hasDerivAt_const s (0 : ℝ)
    · refine ((hd s).const_mul (L * g)).congr_deriv ?_
      simp [force, cantilever, both, linPart, cross_apply]
    · simpa [force, cantilever, both, linPart, cross_apply] using hasDerivAt_const s (0 : ℝ)
    · simpa [force, cantilever, both, linPart, cross_apply] using hasDerivAt_const s (0 : ℝ)
    · simpa [force, cantilever, both, linPart, cross_apply] using hasDerivAt_const s (0 : ℝ)
    · refine ((((hd s).pow 2).const_mul (L ^ 2 * g)).div_const 2).congr_deriv ?_
      simp [force, cantilever, both, linPart, cross_apply]
      ring

theorem cantilever_equilibrium (L g : ℝ) {C : Fin 6 → ℝ} (hC : ∀ d, 0 < C d) :
    IsEquilibrium (fun _ : Fin 1 => cantilever L g C) ends (· = 0) (fun _ => force L g) (fun _ => displacement L g C) fun _ => displacement L g C 1 := by
  refine ⟨fun _ => cantilever_solves L g hC, fun e f hf => ?_, fun e f hf => ?_, fun v hv => ?_⟩
  · obtain rfl : f = 1 := by
      revert hf
      fin_cases f <;> simp [ends]
    show inSpace 1 _ = _
    rw [inSpace_one]
    simp
  · obtain rfl : f = 0 := hf
    show inSpace 1 _ = 0
    rw [inSpace_one]
    funext d
    fin_cases d <;> simp [displacement] <;> norm_num
  · obtain rfl : v = 1 := by
      revert hv
      fin_cases v <;> simp
    have : force L g 1 = 0 := by
      funext d
      fin_cases d <;> simp [force]
    rw [Fin.sum_univ_one, Fin.sum_univ_two]
    show (if (0 : Fin 2) = 1 then _ else 0) + (if (1 : Fin 2) = 1 then endSign 1 • inSpace 1 (force L g ((1 : Nat) : ℝ)) else 0) = 0
    rw [if_neg (by decide), if_pos rfl, inSpace_one, Nat.cast_one, this, smul_zero, add_zero]

/-- **C105** (example).  The cantilever: for every degree at least three and every `tau > 0`, the computed deflection of its free end is `g L^4 / (8 E I) + g L^2 / (2 k G A)`, and its rotation is `- g L^3 / (6 E I)`. -/
theorem C105_example {p : Nat} {P : Fin (p + 1) → ℝ[X]} (hP : OrthonormalPolys p P) (hp : 3 ≤ p) (m : Mode) (gesv : Gesv (n_loc_dofs (p + 1)) 1 ℝ) (hg : GesvSpec gesv) (tau : ℝ) (ht : 0 < tau) (time : ℝ)
    {L : ℝ} (hL : 0 < L) (g : ℝ) {C : Fin 6 → ℝ} (hC : ∀ d, 0 < C d) (old0 new0 : LocDofs 1 6 ℝ) : ∃ x : Fin (2 * 6) → ℝ,
    (netGraph ends).mat_vec_multiply m (localResidual m gesv tau (netEdges (fun _ => cantilever L g C) ends (· = 0) P) time) old0 new0 (List.ofFn x) = .ok (List.replicate (2 * 6) 0) ∧
    VanishesAt (· = 0) x ∧ x (dof 1 1) = g * L ^ 4 / (8 * C 5) + g * L ^ 2 / (2 * C 1) ∧ x (dof 1 5) = - (g * L ^ 3 / (6 * C 5)) := by
  have hB : ∀ e : Fin 1, ((fun _ => cantilever L g C) e).Admissible := fun _ => cantilever_admissible hL g hC
  have hb : (fun e : Fin 1 => netBeams (fun _ : Fin 1 => cantilever L g C) e) = fun _ => cantilever L g C := funext (netBeams_fin _)
  obtain ⟨x, h1, h2, _⟩ := C105_exact hP hp m gesv hg tau ht time (netBeams fun _ : Fin 1 => cantilever L g C) (netBeams_admissible _ hB) (netEdges (fun _ => cantilever L g C) ends (· = 0) P)
    (fun e => beamOf_exact P (netBeams_admissible _ hB e) _ _) (netGraph ends) ends (netGraph_wf ends (by decide)) (fun v : Fin 2 => v = 0) (netEdges_dirichlet _ _ _ P) ends_anchored (hb.symm ▸ cantilever_equilibrium L g hC)
  obtain ⟨h3, h4⟩ := (h1 old0 new0 x).mpr rfl
  refine ⟨x, h4, h3, (h2 (1 : Fin 2) (by decide) 1).trans ?_, (h2 (1 : Fin 2) (by decide) 5).trans ?_⟩
  · simp [displacement]
    ring
  · simp [displacement]
    ring

end Example

end HyperHDG.Timoshenko

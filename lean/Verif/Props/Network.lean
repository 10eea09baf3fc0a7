import Verif.Proofs.Network
import Verif.Proofs.Polynomials
import Verif.Props.Elliptic
import Verif.Props.DiffusionIP

/-!
# Property C97: networks of edges

For diffusion on networks (hypergraphs of edges, dimension one) the condensed operator is a weighted graph Laplacian with positive weights.  So the direction in which an edge is given does not matter,
and the discrete maximum principle holds for every polynomial degree: without sources the values at the nodes lie between the smallest and the largest Dirichlet value, and larger Dirichlet
values give larger solutions.
-/

namespace HyperHDG.EllipticProgram

open Finset Spec Matrix HyGraph

variable {nS : Nat} {K : Type} [Field K] [LinearOrder K] [IsStrictOrderedRing K]

/-! ## The local solver `Diffusion` -/

section Diffusion

open Diffusion

/-- The values at the ends of an edge: `g` at the ends of Dirichlet type, those of `lambda` at the others. -/
noncomputable def endValues (E : Edge 1 nS K) (g : Fin (2 * 1) → K) (lambda : LocDofs 1 1 K) : LocDofs 1 1 K := fun f j => by
  classical exact if IsDirichlet E f then g f else lambda f j

/-- The integrals of the Dirichlet data are those of functions with the values `g` at the ends of Dirichlet type. -/
def HasDirichletValues (E : Edge 1 nS K) (time : K) (g : Fin (2 * 1) → K) : Prop :=
  ∀ f : Fin (2 * 1), E.node_descriptor f ∈ E.dirichlet_nodes → ∀ i : Fin nS, E.bdr_phifunc time i f = g f * E.bdr_phipsi i 0 f

section
variable (m : Mode) (gesv : Gesv ((1 + 1) * nS) 1 K) (hg : GesvSpec gesv) (tau : K) (ht : 0 < tau) (E : Edge 1 nS K) (time : K)

omit [LinearOrder K] [IsStrictOrderedRing K] in
theorem moments_end {g : Fin (2 * 1) → K} (hdir : HasDirichletValues E time g) {lambda : LocDofs 1 1 K} (hl : VanishesOnDirichlet E lambda) :
    moments (form E 1 time) lambda + dirichletMoments E time = moments (form E 1 time) (endValues E g lambda) := by
  funext f i
  simp only [Pi.add_apply, moments, mulVec, dotProduct, Fin.sum_univ_one, dirichletMoments, endValues]
  by_cases hf : IsDirichlet E f
  · rw [if_pos hf, if_pos hf, hl f hf 0, hdir f hf i]
    simp only [form, of_apply, mul_zero, zero_add, Fin.val_zero]
    ring
  · rw [if_neg hf, if_neg hf, add_zero]

omit [LinearOrder K] [IsStrictOrderedRing K] in
theorem off_end (F : Form 1 nS 1 K) (g : Fin (2 * 1) → K) (lambda : LocDofs 1 1 K) (q : Fin 1 → Fin nS → K) (u : Fin nS → K) :
    offDirichlet E (faceFlux F tau lambda q u) = offDirichlet E (faceFlux F tau (endValues E g lambda) q u) := by
  funext f j
  simp only [offDirichlet]
  by_cases hf : IsDirichlet E f
  · rw [if_pos hf, if_pos hf]
  · rw [if_neg hf, if_neg hf]
    have : endValues E g lambda f = lambda f := funext fun j => by simp only [endValues]; rw [if_neg hf]
    simp only [faceFlux, this]

include hg ht

/-- **C97** (edges).  Let the integrals of an edge satisfy the assumptions of C21 and C54, and let constants belong to its shape functions.  For `tau > 0` there is a number `c > 0` such that the flux which
`trace_to_flux` returns at each end which is not of Dirichlet type is `c` times the value at the other end minus the value at this end. -/
theorem C97_edge (hE : FormLaws (form E 1 time)) (hR : Rigid (form E 1 time)) {one : Fin nS → K} (h1 : IsUnit1 (form E 1 time) one) :
    ∃ c, 0 < c ∧ ∀ lambda out : LocDofs 1 1 K, trace_to_flux m gesv tau lambda out E time = .ok (offDirichlet E fun f _ => c * (lambda f.rev 0 - lambda f 0)) := by
  have hs := (C21_solvable m gesv hg tau E time hE ht (0 : LocDofs 1 1 K) 0).1
  obtain ⟨c, hc, h⟩ := edge_flux hE hR h1 ht (fun lambda => let ⟨q, u, h2, _⟩ := (C21_flux m gesv hg tau E time lambda 0).1 hs; ⟨q, u, h2⟩) hs
  refine ⟨c, hc, fun lambda out => ?_⟩
  obtain ⟨q, u, h2, h3⟩ := (C21_flux m gesv hg tau E time lambda out).1 hs
  rw [h3, h lambda q u h2]

/-- **C97** (direction).  Exchanging the values at the ends of an edge exchanges the fluxes (if no end is of Dirichlet type): it does not matter in which direction an edge is given. -/
theorem C97_direction (hE : FormLaws (form E 1 time)) (hR : Rigid (form E 1 time)) {one : Fin nS → K} (h1 : IsUnit1 (form E 1 time) one)
    (hD : ∀ f : Fin (2 * 1), E.node_descriptor f ∉ E.dirichlet_nodes) (lambda out out' : LocDofs 1 1 K) :
    ∃ y, trace_to_flux m gesv tau lambda out E time = .ok y ∧ trace_to_flux m gesv tau (fun f => lambda f.rev) out' E time = .ok fun f => y f.rev := by
  obtain ⟨c, _, h⟩ := C97_edge m gesv hg tau ht E time hE hR h1
  have hoff : ∀ y : LocDofs 1 1 K, offDirichlet E y = y := fun y => by
    funext f j
    exact if_neg (hD f)
  refine ⟨_, h lambda out, (h _ out').trans ?_⟩
  rw [hoff, hoff]

/-- The residual of an edge in terms of the values at its ends: `c` does not depend on the data. -/
theorem edge_residual (F : Form 1 nS 1 K) (hF : FormLaws F) (hR : Rigid F) {one : Fin nS → K} (h1 : IsUnit1 F one) (hE : form E 1 time = F) :
    ∃ c, 0 < c ∧ ∀ E₁ : Edge 1 nS K, form E₁ 1 time = F → ∀ g₁ : Fin (2 * 1) → K, HasDirichletValues E₁ time g₁ → ∀ lambda₁ : LocDofs 1 1 K, VanishesOnDirichlet E₁ lambda₁ → ∃ r₁ : LocDofs 1 1 K,
      residual_flux m gesv tau lambda₁ (fun _ _ => 0) E₁ time = .ok r₁ ∧
      (source E₁ time = 0 → ∀ f : Fin (2 * 1), ¬ IsDirichlet E₁ f → r₁ f 0 = c * (endValues E₁ g₁ lambda₁ f.rev 0 - endValues E₁ g₁ lambda₁ f 0)) ∧
      ∀ E₂ : Edge 1 nS K, form E₂ 1 time = F → source E₂ time = source E₁ time → ∀ g₂ : Fin (2 * 1) → K, HasDirichletValues E₂ time g₂ → ∀ lambda₂ : LocDofs 1 1 K, VanishesOnDirichlet E₂ lambda₂ →
        ∀ r₂ : LocDofs 1 1 K, residual_flux m gesv tau lambda₂ (fun _ _ => 0) E₂ time = .ok r₂ → ∀ f : Fin (2 * 1), ¬ IsDirichlet E₁ f → ¬ IsDirichlet E₂ f →
          r₁ f 0 - r₂ f 0 = c * ((endValues E₁ g₁ lambda₁ f.rev 0 - endValues E₂ g₂ lambda₂ f.rev 0) - (endValues E₁ g₁ lambda₁ f 0 - endValues E₂ g₂ lambda₂ f 0)) := by
  subst hE
  have hs := (C21_solvable m gesv hg tau E time hF ht (0 : LocDofs 1 1 K) 0).1
  obtain ⟨c, hc, h⟩ := edge_flux hF hR h1 ht (fun lambda => let ⟨q, u, h2, _⟩ := (C21_flux m gesv hg tau E time lambda 0).1 hs; ⟨q, u, h2⟩) hs
  have key : ∀ E₁ : Edge 1 nS K, form E₁ 1 time = form E 1 time → ∀ g₁ : Fin (2 * 1) → K, HasDirichletValues E₁ time g₁ → ∀ lambda₁ : LocDofs 1 1 K, VanishesOnDirichlet E₁ lambda₁ →
      ∃ q u, IsSolution (form E 1 time) tau 0 1 (moments (form E 1 time) (endValues E₁ g₁ lambda₁)) (source E₁ time) q u ∧
        residual_flux m gesv tau lambda₁ (fun _ _ => 0) E₁ time = .ok (offDirichlet E₁ (faceFlux (form E 1 time) tau (endValues E₁ g₁ lambda₁) q u)) := by
    intro E₁ hE₁ g₁ hg₁ lambda₁ hl₁
    obtain ⟨q, u, h2, h3⟩ := (C21_residual m gesv hg tau E₁ time lambda₁ (fun _ _ => 0)).1 (by rw [hE₁]; exact hs)
    rw [moments_end E₁ time hg₁ hl₁, hE₁] at h2
    rw [off_end tau E₁ _ g₁, hE₁] at h3
    exact ⟨q, u, h2, h3⟩
  refine ⟨c, hc, fun E₁ hE₁ g₁ hg₁ lambda₁ hl₁ => ?_⟩
  obtain ⟨q, u, h2, h3⟩ := key E₁ hE₁ g₁ hg₁ lambda₁ hl₁
  refine ⟨_, h3, fun h0 f hf => ?_, fun E₂ hE₂ hsrc g₂ hg₂ lambda₂ hl₂ r₂ hr₂ f hf₁ hf₂ => ?_⟩
  · rw [h0] at h2
    rw [h _ q u h2]
    exact if_neg hf
  · obtain ⟨q', u', h2', h3'⟩ := key E₂ hE₂ g₂ hg₂ lambda₂ hl₂
    rw [h3'] at hr₂
    injection hr₂ with hr₂
    subst hr₂
    have h4 := solution_lin 1 (-1) h2 h2'
    rw [← moments_lin, hsrc, show (1 : K) • source E₁ time + (-1 : K) • source E₁ time = 0 by rw [one_smul, neg_smul, one_smul, add_neg_cancel]] at h4
    have h5 := h _ _ _ h4
    rw [flux_lin] at h5
    have h6 := congrFun (congrFun h5 f) 0
    simp only [Pi.add_apply, Pi.smul_apply, smul_eq_mul] at h6
    have h7 : offDirichlet E₁ (faceFlux (form E 1 time) tau (endValues E₁ g₁ lambda₁) q u) f 0 = faceFlux (form E 1 time) tau (endValues E₁ g₁ lambda₁) q u f 0 := if_neg hf₁
    have h8 : offDirichlet E₂ (faceFlux (form E 1 time) tau (endValues E₂ g₂ lambda₂) q' u') f 0 = faceFlux (form E 1 time) tau (endValues E₂ g₂ lambda₂) q' u' f 0 := if_neg hf₂
    rw [h7, h8]
    linear_combination h6

end

section
variable (m : Mode) (gesv : Gesv ((1 + 1) * nS) 1 K) (hg : GesvSpec gesv) (tau : K) (ht : 0 < tau)
  (E : Nat → Edge 1 nS K) (time : K) (hE : ∀ e, FormLaws (form (E e) 1 time)) (hR : ∀ e, Rigid (form (E e) 1 time)) (one : Nat → Fin nS → K) (h1 : ∀ e, IsUnit1 (form (E e) 1 time) (one e))
  (G : HyGraph 1 1) (nodes : Fin G.n_hyEdges → Fin (2 * 1) → Fin G.n_hyNodes) (hwf : G.WF nodes)
  (D : Fin G.n_hyNodes → Prop) (hD : ∀ (e : Fin G.n_hyEdges) (f : Fin (2 * 1)), (E e).node_descriptor f ∈ (E e).dirichlet_nodes ↔ D (nodes e f))
  (old0 new0 : LocDofs 1 1 K)

include hg ht hE hR h1 hwf hD

/-- **C97** (Laplacian).  On each network the global `trace_to_flux` is a weighted graph Laplacian with positive weights, and zero at the Dirichlet nodes. -/
theorem C97_laplacian : ∃ c : Fin G.n_hyEdges → K, (∀ e, 0 < c e) ∧ ∀ x : Fin (G.n_hyNodes * 1) → K, ∃ y : Fin (G.n_hyNodes * 1) → K,
    G.mat_vec_multiply m (localOperator m gesv tau E time) old0 new0 (List.ofFn x) = .ok (List.ofFn y) ∧
    (∀ v, D v → y (dof v 0) = 0) ∧ ∀ v, ¬ D v → y (dof v 0) = laplacian nodes c (fun w => x (dof w 0)) v := by
  have hc := fun e => C97_edge m gesv hg tau ht (E e) time (hE e) (hR e) (h1 e)
  choose c hc0 hc using hc
  refine ⟨fun e => c e, fun e => hc0 e, fun x => ⟨_, mat_vec_eq m G nodes hwf (localOperator m gesv tau E time) x _ (fun e => hc e _ _) old0 new0, fun v hv => ?_, fun v hv => ?_⟩⟩
  · rw [assemble_node]
    refine Finset.sum_eq_zero fun e _ => Finset.sum_eq_zero fun f _ => ?_
    split
    next h => exact if_pos ((hD e f).mpr (h ▸ hv))
    next => rfl
  · rw [assemble_node]
    refine Finset.sum_congr rfl fun e _ => Finset.sum_congr rfl fun f _ => ?_
    split
    next h =>
      subst h
      exact if_neg fun h' => hv ((hD e f).mp h')
    next => rfl

section
variable (hcon : Anchored nodes D)

include hcon

/-- **C97** (maximum principle).  Let there be no sources, let the Dirichlet data be values `g` at the ends of Dirichlet type, and let each node be connected to a Dirichlet node.  Then for `tau > 0`
the values of the discrete solution at the other nodes lie between each lower and each upper bound of the Dirichlet values. -/
theorem C97_maximum (g : Fin G.n_hyEdges → Fin (2 * 1) → K) (hdir : ∀ e : Fin G.n_hyEdges, HasDirichletValues (E e) time (g e))
    (hsrc : ∀ (e : Fin G.n_hyEdges) (i : Fin nS), (E e).vol_phifunc time i = 0) (y : Fin (G.n_hyNodes * 1) → K) (hy0 : VanishesAt D y)
    (hy : (Elliptic.mk' G).apply m (localResidual m gesv tau E time) old0 new0 (List.ofFn y) = .ok (List.replicate (G.n_hyNodes * 1) 0)) :
    (∀ M, (∀ e f, D (nodes e f) → g e f ≤ M) → ∀ v, ¬ D v → y (dof v 0) ≤ M) ∧ (∀ M, (∀ e f, D (nodes e f) → M ≤ g e f) → ∀ v, ¬ D v → M ≤ y (dof v 0)) := by
  classical
  have hc := fun e => edge_residual m gesv hg tau ht (E e) time (form (E e) 1 time) (hE e) (hR e) (h1 e) rfl
  choose c hc0 hc using hc
  have hv : ∀ e : Fin G.n_hyEdges, VanishesOnDirichlet (E e) (faceValues nodes y e) := fun e f hf j => hy0 _ ((hD e f).mp hf) j
  have hres := fun e : Fin G.n_hyEdges => hc e (E e) rfl (g e) (hdir e) (faceValues nodes y e) (hv e)
  choose r hr hr0 _ using hres
  have hr1 := fun e => hr0 e (funext fun i => hsrc e i)
  rw [C23_fresh, mat_vec_eq m G nodes hwf (localResidual m gesv tau E time) y r (fun e => hr e) old0 new0, ← List.ofFn_const] at hy
  have hzero : assemble nodes r = fun _ => 0 := List.ofFn_injective (Res.ok.inj hy)
  let w : Fin G.n_hyEdges → Fin (2 * 1) → K := fun e f => endValues (E e) (g e) (faceValues nodes y e) f 0
  have hwN : ∀ e f, ¬ D (nodes e f) → w e f = y (dof (nodes e f) 0) := fun e f hf => if_neg fun h => hf ((hD e f).mp h)
  have hwD : ∀ e f, D (nodes e f) → w e f = g e f := fun e f hf => if_pos ((hD e f).mpr hf)
  have hbal : ∀ v, ¬ D v → ∑ e, ∑ f, (if nodes e f = v then c e * (w e f.rev - y (dof v 0)) else 0) = 0 := fun v hv => by
    have h2 := congrFun hzero (dof v 0)
    rw [assemble_node] at h2
    refine Eq.trans ?_ h2
    refine Finset.sum_congr rfl fun e _ => Finset.sum_congr rfl fun f _ => ?_
    split
    next h =>
      subst h
      rw [hr1 e f fun h' => hv ((hD e f).mp h'), ← hwN e f hv]
    next => rfl
  refine ⟨fun M hM v hv => ?_, fun M hM v hv => ?_⟩
  · exact max_principle nodes D hcon (fun e => c e) (fun e => hc0 e) w (fun v => y (dof v 0)) hwN M (fun e f hf => by rw [hwD e f hf]; exact hM e f hf) (fun v hv => (hbal v hv).ge) v hv
  · have := max_principle nodes D hcon (fun e => c e) (fun e => hc0 e) (fun e f => -w e f) (fun v => -y (dof v 0)) (fun e f hf => by rw [hwN e f hf]) (-M)
      (fun e f hf => by rw [hwD e f hf]; exact neg_le_neg (hM e f hf)) (fun v hv => by
        have h2 : ∑ e, ∑ f, (if nodes e f = v then c e * (-w e f.rev - -y (dof v 0)) else 0) = -∑ e, ∑ f, (if nodes e f = v then c e * (w e f.rev - y (dof v 0)) else 0) := by
          rw [← Finset.sum_neg_distrib]
          refine Finset.sum_congr rfl fun e _ => ?_
          rw [← Finset.sum_neg_distrib]
          refine Finset.sum_congr rfl fun f _ => ?_
          split
          · ring
          · rw [neg_zero]
        rw [h2, hbal v hv, neg_zero]) v hv
    exact neg_le_neg_iff.mp this

/-- **C97** (comparison).  Let two problems on the same network differ only in the Dirichlet values, those of the first being at most those of the second (with any sources).  Then the values of the first
discrete solution are at most those of the second. -/
theorem C97_comparison (E' : Nat → Edge 1 nS K) (hE' : ∀ e : Fin G.n_hyEdges, form (E' e) 1 time = form (E e) 1 time) (hsrc : ∀ (e : Fin G.n_hyEdges) (i : Fin nS), (E' e).vol_phifunc time i = (E e).vol_phifunc time i)
    (hD' : ∀ (e : Fin G.n_hyEdges) (f : Fin (2 * 1)), (E' e).node_descriptor f ∈ (E' e).dirichlet_nodes ↔ D (nodes e f))
    (g g' : Fin G.n_hyEdges → Fin (2 * 1) → K) (hdir : ∀ e : Fin G.n_hyEdges, HasDirichletValues (E e) time (g e)) (hdir' : ∀ e : Fin G.n_hyEdges, HasDirichletValues (E' e) time (g' e))
    (hle : ∀ e f, D (nodes e f) → g e f ≤ g' e f)
    (y y' : Fin (G.n_hyNodes * 1) → K) (hy0 : VanishesAt D y) (hy0' : VanishesAt D y')
    (hy : (Elliptic.mk' G).apply m (localResidual m gesv tau E time) old0 new0 (List.ofFn y) = .ok (List.replicate (G.n_hyNodes * 1) 0))
    (hy' : (Elliptic.mk' G).apply m (localResidual m gesv tau E' time) old0 new0 (List.ofFn y') = .ok (List.replicate (G.n_hyNodes * 1) 0)) (v : Fin G.n_hyNodes) : y (dof v 0) ≤ y' (dof v 0) := by
  classical
  by_cases hvD : D v
  · rw [hy0 v hvD, hy0' v hvD]
  have hc := fun e => edge_residual m gesv hg tau ht (E e) time (form (E e) 1 time) (hE e) (hR e) (h1 e) rfl
  choose c hc0 hc using hc
  have hv : ∀ e : Fin G.n_hyEdges, VanishesOnDirichlet (E e) (faceValues nodes y e) := fun e f hf j => hy0 _ ((hD e f).mp hf) j
  have hv' : ∀ e : Fin G.n_hyEdges, VanishesOnDirichlet (E' e) (faceValues nodes y' e) := fun e f hf j => hy0' _ ((hD' e f).mp hf) j
  have hres := fun e : Fin G.n_hyEdges => hc e (E e) rfl (g e) (hdir e) (faceValues nodes y e) (hv e)
  have hres' := fun e : Fin G.n_hyEdges => hc e (E' e) (hE' e) (g' e) (hdir' e) (faceValues nodes y' e) (hv' e)
  choose r hr _ hdiff using hres
  choose r' hr' _ _ using hres'
  rw [C23_fresh, mat_vec_eq m G nodes hwf (localResidual m gesv tau E time) y r (fun e => hr e) old0 new0, ← List.ofFn_const] at hy
  rw [C23_fresh, mat_vec_eq m G nodes hwf (localResidual m gesv tau E' time) y' r' (fun e => hr' e) old0 new0, ← List.ofFn_const] at hy'
  have hzero : assemble nodes r = fun _ => 0 := List.ofFn_injective (Res.ok.inj hy)
  have hzero' : assemble nodes r' = fun _ => 0 := List.ofFn_injective (Res.ok.inj hy')
  let w : Fin G.n_hyEdges → Fin (2 * 1) → K := fun e f => endValues (E e) (g e) (faceValues nodes y e) f 0 - endValues (E' e) (g' e) (faceValues nodes y' e) f 0
  have hwN : ∀ e f, ¬ D (nodes e f) → w e f = y (dof (nodes e f) 0) - y' (dof (nodes e f) 0) := fun e f hf =>
    congrArg₂ (· - ·) (if_neg fun h => hf ((hD e f).mp h)) (if_neg fun h => hf ((hD' e f).mp h))
  have hwD : ∀ e f, D (nodes e f) → w e f = g e f - g' e f := fun e f hf => congrArg₂ (· - ·) (if_pos ((hD e f).mpr hf)) (if_pos ((hD' e f).mpr hf))
  have := max_principle nodes D hcon (fun e => c e) (fun e => hc0 e) w (fun v => y (dof v 0) - y' (dof v 0)) hwN 0 (fun e f hf => by rw [hwD e f hf]; exact sub_nonpos.mpr (hle e f hf))
    (fun v hv => by
      have h2 := congrFun hzero (dof v 0)
      have h2' := congrFun hzero' (dof v 0)
      rw [assemble_node] at h2 h2'
      refine ge_of_eq ((?_ : _ = (∑ e, ∑ f, if nodes e f = v then r e f 0 else 0) - ∑ e, ∑ f, if nodes e f = v then r' e f 0 else 0).trans (by rw [h2, h2', sub_zero]))
      rw [← Finset.sum_sub_distrib]
      refine Finset.sum_congr rfl fun e _ => ?_
      rw [← Finset.sum_sub_distrib]
      refine Finset.sum_congr rfl fun f _ => ?_
      split
      next h =>
        subst h
        rw [← hwN e f hv]
        exact (hdiff e (E' e) (hE' e) (funext fun i => hsrc e i) (g' e) (hdir' e) (faceValues nodes y' e) (hv' e) (r' e) (hr' e) f (fun h => hv ((hD e f).mp h)) fun h => hv ((hD' e f).mp h)).symm
      next => rw [sub_zero]) v hvD
  exact sub_nonpos.mp this

end

end

end Diffusion

/-! ## The local solver `DiffusionUniform` -/

section Uniform

open DiffusionUniform

variable (m : Mode) (I : Integrator K) (hI : Lawful I 1 nS 1) (hR : RigidIntegrator I 1 nS 1) (one : Fin nS → K) (h1 : Constant I 1 one) (h1' : traceOf I 1 one = fun (_ : Fin (2 * 1)) _ => 1)
  (gesv : Gesv ((1 + 1) * nS) 1 K) (hg : GesvSpec gesv) (tau : K) (ht : 0 < tau) (S : Solver 1 nS K) (hS : construct m I 1 nS tau = .ok S)

include hI hR h1 h1' hg ht hS

/-- **C97** (edges, uniform diffusion).  As `C97_edge`, for `DiffusionUniform`. -/
theorem C97_uniform_edge : ∃ c, 0 < c ∧ ∀ lambda out : LocDofs 1 1 K, trace_to_flux m I gesv S lambda out = .ok fun f _ => c * (lambda f.rev 0 - lambda f 0) := by
  have hret : ∀ lambda : LocDofs 1 1 K, ∃ y, ∀ out, trace_to_flux m I gesv S lambda out = .ok y := by
    intro lambda
    obtain ⟨q, u, h2, h3⟩ := solvable hI ht lambda
    exact ⟨_, fun out => to_ok m I gesv hg tau S hS (solvable hI ht) h2 out⟩
  choose Phi hPhi using hret
  have h2 := two_by_two Phi (fun x y => C19_symmetric m I hI gesv hg tau S hS (hPhi x 0) (hPhi y 0)) (by
    have := (C19_conservation m I hI gesv hg tau S hS h1 (hPhi 0 0) 0).1
    rw [h1', hPhi] at this
    exact Res.ok.inj this)
  let delta : LocDofs 1 1 K := fun f _ => if f = 0 then 1 else 0
  refine ⟨-(Phi delta 0 0), ?_, fun lambda out => by rw [hPhi]; exact congrArg Res.ok (h2 lambda)⟩
  have h3 : ∑ f, ∑ j, delta f j * Phi delta f j = Phi delta 0 0 := by
    rw [two_faces]
    simp [delta]
  have h4 := C19_semidefinite m I hI gesv hg tau S hS ht.le (hPhi delta 0)
  rw [h3] at h4
  refine neg_pos.mpr (lt_of_le_of_ne h4 fun h0 => ?_)
  obtain ⟨u, hu, htr⟩ := (C19_kernel m I hI gesv hg tau S hS ht (hPhi delta 0)).1.mp (h3.trans h0)
  have h5 := hR u 1 hu (by rw [← htr]; funext j; simp [delta])
  rw [h5] at htr
  have h6 := congrFun (congrFun htr 0) 0
  simp [delta, traceOf] at h6

variable (G : HyGraph 1 1) (nodes : Fin G.n_hyEdges → Fin (2 * 1) → Fin G.n_hyNodes) (hwf : G.WF nodes) (old0 new0 : LocDofs 1 1 K)

include hwf

/-- **C97** (Laplacian, uniform diffusion).  The global `trace_to_flux` is a multiple of the graph Laplacian. -/
theorem C97_uniform_laplacian : ∃ c : K, 0 < c ∧ ∀ x : Fin (G.n_hyNodes * 1) → K, ∃ y : Fin (G.n_hyNodes * 1) → K,
    G.mat_vec_multiply m (localOperator m I gesv S) old0 new0 (List.ofFn x) = .ok (List.ofFn y) ∧ ∀ v, y (dof v 0) = laplacian nodes (fun _ => c) (fun w => x (dof w 0)) v := by
  obtain ⟨c, hc0, hc⟩ := C97_uniform_edge m I hI hR one h1 h1' gesv hg tau ht S hS
  refine ⟨c, hc0, fun x => ⟨_, mat_vec_eq m G nodes hwf (localOperator m I gesv S) x _ (fun e => hc _ _) old0 new0, fun v => ?_⟩⟩
  rw [assemble_node]
  refine Finset.sum_congr rfl fun e _ => Finset.sum_congr rfl fun f _ => ?_
  split
  next h =>
    subst h
    rfl
  next => rfl

/-- **C97** (maximum principle, declared Dirichlet indices).  Let each node be connected to one with declared index.  If `trace_to_flux` returns zero after the indices have been declared, all values
lie between each lower and each upper bound of the values at the declared indices. -/
theorem C97_declared_maximum (indices : List Nat) (hind : ∀ d ∈ indices, d < G.n_hyNodes * 1) (hcon : Anchored nodes fun v => (dof v (0 : Fin 1)).1 ∈ indices)
    (E' : Elliptic 1 1) (hE' : (Elliptic.mk' G).read_dirichlet_indices m indices = .ok E') (y : Fin (G.n_hyNodes * 1) → K)
    (hy : E'.apply m (localOperator m I gesv S) old0 new0 (List.ofFn y) = .ok (List.replicate (G.n_hyNodes * 1) 0)) :
    (∀ M, (∀ k, k.1 ∈ indices → y k ≤ M) → ∀ k, y k ≤ M) ∧ ∀ M, (∀ k, k.1 ∈ indices → M ≤ y k) → ∀ k, M ≤ y k := by
  obtain ⟨c, hc0, hc⟩ := C97_uniform_laplacian m I hI hR one h1 h1' gesv hg tau ht S hS G nodes hwf old0 new0
  obtain ⟨a, ha1, ha2⟩ := hc y
  obtain ⟨E'', h2, h3, h4⟩ := C23_zero_at_declared (K := K) m (Elliptic.mk' G) hwf.fits indices (fun d hd => by
    show d < G.n_global_dofs
    rw [n_global_dofs_eq G hwf.fits]
    exact hind d hd)
  rw [hE'] at h2
  injection h2 with h2
  subst h2
  have h5 := h4 _ _ _ _ _ ha1
  rw [hy, ← List.ofFn_const] at h5
  have h6 : (fun _ => (0 : K)) = fun k : Fin (G.n_hyNodes * 1) => if k.1 ∈ indices then 0 else a k := List.ofFn_injective (Res.ok.inj h5)
  have hbal : ∀ v, ¬ (dof v (0 : Fin 1)).1 ∈ indices → laplacian nodes (fun _ => c) (fun w => y (dof w 0)) v = 0 := fun v hv => by
    have h7 := congrFun h6 (dof v 0)
    rw [if_neg hv] at h7
    rw [← ha2, ← h7]
  refine ⟨fun M hM k => ?_, fun M hM k => ?_⟩
  · obtain ⟨v, j, rfl⟩ := dof_surj k
    obtain rfl : j = 0 := Subsingleton.elim _ _
    by_cases hv : (dof v (0 : Fin 1)).1 ∈ indices
    · exact hM _ hv
    · exact max_principle nodes _ hcon (fun _ => c) (fun _ => hc0) (fun e f => y (dof (nodes e f) 0)) (fun v => y (dof v 0)) (fun _ _ _ => rfl) M (fun e f hf => hM _ hf)
        (fun v hv => (hbal v hv).ge) v hv
  · obtain ⟨v, j, rfl⟩ := dof_surj k
    obtain rfl : j = 0 := Subsingleton.elim _ _
    by_cases hv : (dof v (0 : Fin 1)).1 ∈ indices
    · exact hM _ hv
    · have := max_principle nodes _ hcon (fun _ => c) (fun _ => hc0) (fun e f => -y (dof (nodes e f) 0)) (fun v => -y (dof v 0)) (fun _ _ _ => rfl) (-M) (fun e f hf => neg_le_neg (hM _ hf))
        (fun v hv => by
          have h7 : ∑ e, ∑ f, (if nodes e f = v then c * (-y (dof (nodes e f.rev) 0) - -y (dof v 0)) else 0) = -laplacian nodes (fun _ => c) (fun w => y (dof w 0)) v := by
            unfold laplacian
            rw [← Finset.sum_neg_distrib]
            refine Finset.sum_congr rfl fun e _ => ?_
            rw [← Finset.sum_neg_distrib]
            refine Finset.sum_congr rfl fun f _ => ?_
            split
            · ring
            · rw [neg_zero]
          rw [h7, hbal v hv, neg_zero]) v hv
      exact neg_le_neg_iff.mp this

end Uniform

/-! ## Polynomials -/

/-- **C97** (polynomials).  For orthonormal polynomials of any degree the constant one belongs to the shape functions: the integrals over the reference interval, and those over an affine edge. -/
theorem C97_polynomials {p : Nat} (P : Fin (p + 1) → Polynomial ℝ) (hP : OrthonormalPolys p P) : ∃ one : Fin ((p + 1) ^ 1) → ℝ,
    Constant (tensorIntegrator (p + 1) 1 (exactBasis P)) 1 one ∧ traceOf (tensorIntegrator (p + 1) 1 (exactBasis P)) 1 one = (fun (_ : Fin (2 * 1)) _ => 1) ∧
    ∀ (A : Affine 1 ℝ) (mass : Matrix (Fin ((p + 1) ^ 1)) (Fin ((p + 1) ^ 1)) ℝ), IsUnit1 (affineForm (tensorIntegrator (p + 1) 1 (exactBasis P)) A mass) one := by
  obtain ⟨one, h1⟩ := poly_mem (d := 1) hP (f := fun _ => 1) ⟨1, fun k => by rw [← MvPolynomial.C_1, MvPolynomial.degreeOf_C]; exact Nat.zero_le _, fun x => by simp⟩
  have hconst : Constant (tensorIntegrator (p + 1) 1 (exactBasis P)) 1 one := fun a j => by
    have h2 := polyFun_partial (d := 0) hP one a
    have h3 : polyFun P one = fun _ : Fin 1 → ℝ => 1 := funext fun x => (h1 x).symm
    have h4 : IsPartial a (polyFun P one) (fun _ => 0) := fun x => by
      rw [h3]
      exact hasDerivAt_const _ _
    have h5 := partial_unique h2 h4
    have h6 := polyFun_inj hP (u := fun j : Fin ((p + 1) ^ (0 + 1)) => ∑ i : Fin ((p + 1) ^ (0 + 1)), (tensorIntegrator (p + 1) (0 + 1) (exactBasis P)).vol_Dphiphi i j a * one i) (v := 0)
      (fun x => by rw [h5]; simp [polyFun])
    exact congrFun h6 j
  have htr : traceOf (tensorIntegrator (p + 1) 1 (exactBasis P)) 1 one = (fun (_ : Fin (2 * 1)) _ => 1) := by
    funext f j
    have h2 := polyFun_face (d := 0) (P := P) one f (fun k => k.elim0)
    rw [← h1] at h2
    have h3 : ∀ (c : Fin ((p + 1) ^ 0) → ℝ) (y : Fin 0 → ℝ), polyFun P c y = c ⟨0, by simp⟩ := fun c y => by
      unfold polyFun shape
      rw [Finset.sum_eq_single ⟨0, by simp⟩]
      · simp
      · intro b _ hb
        have hb2 : b.1 < 1 := lt_of_lt_of_eq b.2 (pow_zero _)
        exact absurd (Fin.ext (Nat.lt_one_iff.mp hb2)) hb
      · exact fun h => absurd (Finset.mem_univ _) h
    rw [h3] at h2
    have hj : j = (⟨0, by simp⟩ : Fin 1) := Subsingleton.elim _ _
    rw [hj]
    exact h2.symm
  refine ⟨one, hconst, htr, fun A mass => ⟨fun d => ?_, fun f => ?_⟩⟩
  · funext j
    have h2 := hconst 0 j
    simp only [affineForm, mulVec, dotProduct, transpose_apply, of_apply, Fin.sum_univ_one, Pi.zero_apply]
    rw [← mul_zero (A.cof 0 d), ← h2, Finset.mul_sum]
    exact Finset.sum_congr rfl fun i _ => by rw [mul_assoc]
  · funext j
    have h2 := congrFun (congrFun htr f) j
    unfold traceOf at h2
    simp only [affineForm, mulVec, dotProduct, transpose_apply, of_apply, Pi.smul_apply, smul_eq_mul]
    rw [← h2, Finset.mul_sum]
    exact Finset.sum_congr rfl fun i _ => by rw [mul_assoc]

end HyperHDG.EllipticProgram

/-! ## The local solver `DiffusionIP` -/

namespace HyperHDG.DiffusionIP

open Finset Matrix HyGraph
open Spec hiding Form IsSolution faceFlux Solvable moments IsTrace Rigid traceOf
open Spec.IP

variable {nS : Nat} {K : Type} [Field K] [LinearOrder K] [IsStrictOrderedRing K]

/-- **C97** (edges, interior penalty).  As `C97_edge`, for `DiffusionIP`, if `4 tau` exceeds the constant of the trace inequality. -/
theorem C97_penalty_edge (m : Mode) (gesv : Gesv nS 1 K) (hg : GesvSpec gesv) (tau : K) (ht : 0 < tau) (E : Edge 1 nS K) (time C : K) (hE : Laws (form E 1 time) C) (hC : C < 4 * tau)
    (hR : Rigid (form E 1 time)) {one : Fin nS → K} (h1 : IsOne (form E 1 time) one fun _ _ => 1) :
    ∃ c, 0 < c ∧ ∀ lambda out : LocDofs 1 1 K, trace_to_flux m gesv tau lambda out E time = .ok (offDirichlet E fun f _ => c * (lambda f.rev 0 - lambda f 0)) := by
  have hs := solvable_of hE ht hC
  have h2 := two_by_two (fluxMap (form E 1 time) tau) (fun x y => symm_1d h1 (fun _ => one_ne_zero) hs y x) (by rw [← fluxMap_eq hs (const_solution h1 tau), const_flux h1])
  let delta : LocDofs 1 1 K := fun f _ => if f = 0 then 1 else 0
  refine ⟨-(fluxMap (form E 1 time) tau delta 0 0), ?_, fun lambda out => ?_⟩
  · obtain ⟨u, hu, _⟩ := (C79_flux m gesv hg tau E time delta 0).1 hs
    have h3 : ∑ f, delta f ⬝ᵥ faceFlux (form E 1 time) tau delta u f = fluxMap (form E 1 time) tau delta 0 0 := by
      rw [fluxMap_eq hs hu, two_faces]
      simp [delta, dotProduct]
    have h4 := form_nonpos hE ht.le hC.le hu
    rw [h3] at h4
    refine neg_pos.mpr (lt_of_le_of_ne h4 fun h0 => ?_)
    obtain ⟨h5, htr⟩ := form_zero hE ht hC hu (h3.trans h0)
    have h6 := hR u 1 h5 (by
      have := htr 1
      unfold IsTrace at this
      rw [← this]
      funext j
      simp [delta])
    have h7 := congrFun (htr 0) 0
    rw [h6] at h7
    simp [delta] at h7
    exact (hE.area_pos 0).ne' h7
  · obtain ⟨u, hu, h3⟩ := (C79_flux m gesv hg tau E time lambda out).1 hs
    rw [h3, fluxMap_eq hs hu, h2]

end HyperHDG.DiffusionIP

/-! ## Concrete cases -/

namespace HyperHDG.EllipticProgram.Example

open Finset Spec Matrix HyGraph Diffusion DiffusionUniform.Example

/-- An edge of length 2 with diffusion coefficient 1 and constants as shape functions; the Dirichlet value is 3 at the nodes of type 1 and 5 at those of type 2. -/
def netEdge (left right : Nat) : Edge 1 1 ℚ where
  vol_phiphi _ _ := 2
  vol_phiphifunc _ _ _ := 2
  vol_nablaphiphi _ _ _ := 0
  bdr_phiphi _ _ _ := 1
  bdr_phipsi _ _ _ := 1
  vol_phifunc _ _ := 0
  bdr_phifunc _ _ f := if (if f = 0 then left else right) = 1 then 3 else 5
  bdrUni_psifunc _ _ _ := 0
  vol_diffsquare _ _ := 0
  local_normal f _ := if f = 0 then -1 else 1
  face_area _ := 1
  node_descriptor f := if f = 0 then left else right
  dirichlet_nodes := [1, 2]

theorem netEdge_laws (left right : Nat) (time : ℚ) : FormLaws (form (netEdge left right) 1 time) where
  mass_symm := rfl
  mass_pos v hv := by
    have h : v 0 ≠ 0 := fun h => hv (funext fun i => by rw [Subsingleton.elim i 0]; exact h)
    have h2 := mul_self_pos.mpr h
    simp only [form, netEdge, dotProduct, mulVec, of_apply, Fin.sum_univ_one]
    linarith
  mass0_symm := rfl
  mass0_pos v hv := by
    have h : v 0 ≠ 0 := fun h => hv (funext fun i => by rw [Subsingleton.elim i 0]; exact h)
    have h2 := mul_self_pos.mpr h
    simp only [form, netEdge, dotProduct, mulVec, of_apply, Fin.sum_univ_one]
    linarith
  by_parts d := by
    rw [two_faces]
    ext i j
    simp [form, netEdge]
  area_pos _ := one_pos
  trace f := by
    ext i j
    simp [form, netEdge, mul_apply]
  unisolvent u _ h := by
    have h0 := congrFun (h 0) 0
    simp only [form, netEdge, mulVec, dotProduct, transpose_apply, of_apply, Fin.sum_univ_one, one_mul, Pi.zero_apply] at h0
    exact funext fun i => by rw [Subsingleton.elim i 0]; exact h0

theorem netEdge_rigid (left right : Nat) (time : ℚ) : Rigid (form (netEdge left right) 1 time) := by
  intro u f _ h
  have h0 := congrFun h 0
  simp only [form, netEdge, mulVec, dotProduct, transpose_apply, of_apply, Fin.sum_univ_one, one_mul, Pi.zero_apply] at h0
  exact funext fun i => by rw [Subsingleton.elim i 0]; exact h0

theorem netEdge_one (left right : Nat) (time : ℚ) : IsUnit1 (form (netEdge left right) 1 time) (fun _ => 1) where
  const d := by
    funext i
    simp [form, netEdge, mulVec, dotProduct]
  trace f := by
    funext i
    simp [form, netEdge, mulVec, dotProduct]

/-- The edges of the path `0 - 1 - 2`; node 0 has type 1, node 1 type 0 and node 2 type 2. -/
def netEdges (e : Nat) : Edge 1 1 ℚ := if e = 0 then netEdge 1 0 else netEdge 0 2

theorem netEdges_eq (e : Nat) : ∃ left right, netEdges e = netEdge left right := by
  unfold netEdges
  split <;> exact ⟨_, _, rfl⟩

/-- The types of the faces agree with the Dirichlet nodes 0 and 2. -/
theorem netEdges_types : ∀ (e : Fin Example.path.n_hyEdges) (f : Fin (2 * 1)), (netEdges e).node_descriptor f ∈ (netEdges e).dirichlet_nodes ↔ (Example.pathNodes e f).1 ≠ 1 := by
  show ∀ (e : Fin 2) (f : Fin 2), _
  decide

theorem path_anchored' : Anchored Example.pathNodes fun v => v.1 ≠ 1 := by
  have h1 : Adjacent Example.pathNodes ⟨0, by decide⟩ ⟨1, by decide⟩ := ⟨⟨0, by decide⟩, 0, 1, rfl, rfl⟩
  have h2 : Adjacent Example.pathNodes ⟨1, by decide⟩ ⟨2, by decide⟩ := ⟨⟨1, by decide⟩, 0, 1, rfl, rfl⟩
  intro v
  refine ⟨⟨0, by decide⟩, by decide, ?_⟩
  match v with
  | ⟨0, _⟩ => exact .refl
  | ⟨1, _⟩ => exact .single h1
  | ⟨2, _⟩ => exact .tail (.single h1) h2

/-- The hypotheses of `C97_laplacian` and `C97_maximum` can be met: the path with Dirichlet values 3 and 5 at its ends.  So the value in the middle lies between 3 and 5. -/
example : ∃ y : Fin 3 → ℚ, (Elliptic.mk' Example.path).apply .debug (localResidual .debug (cramerSolve _ _ ℚ) 1 netEdges 0) (fun _ _ => 7) (fun _ _ => 8) (List.ofFn y) = .ok [0, 0, 0] ∧
    3 ≤ y 1 ∧ y 1 ≤ 5 := by
  have hE : ∀ e, FormLaws (form (netEdges e) 1 0) := fun e => by obtain ⟨l, r, h⟩ := netEdges_eq e; rw [h]; exact netEdge_laws l r 0
  have hR : ∀ e, Rigid (form (netEdges e) 1 0) := fun e => by obtain ⟨l, r, h⟩ := netEdges_eq e; rw [h]; exact netEdge_rigid l r 0
  have h1 : ∀ e, IsUnit1 (form (netEdges e) 1 0) (fun _ => 1) := fun e => by obtain ⟨l, r, h⟩ := netEdges_eq e; rw [h]; exact netEdge_one l r 0
  obtain ⟨y, ⟨hy0, hy⟩, _⟩ := C54_unique .debug (cramerSolve _ _ ℚ) (C44_example _ _ ℚ) 1 one_pos netEdges 0 hE hR Example.path Example.pathNodes Example.path_wf (fun v => v.1 ≠ 1) netEdges_types
    path_anchored' (fun _ _ => 7) (fun _ _ => 8)
  have h2 := C97_maximum .debug (cramerSolve _ _ ℚ) (C44_example _ _ ℚ) 1 one_pos netEdges 0 hE hR (fun _ _ => 1) h1 Example.path Example.pathNodes Example.path_wf (fun v => v.1 ≠ 1) netEdges_types
    (fun _ _ => 7) (fun _ _ => 8) path_anchored' (fun e f => if e.1 = 0 then 3 else 5) (by
      show ∀ e : Fin 2, _
      intro e f hf i
      fin_cases e <;> fin_cases f <;> first | (exfalso; revert hf; decide) | norm_num [netEdges, netEdge]) (fun e i => by obtain ⟨l, r, h⟩ := netEdges_eq e; rw [h]; rfl) y hy0 hy
  refine ⟨y, hy, h2.2 3 (fun e f _ => by split <;> norm_num) ⟨1, by decide⟩ (by decide), h2.1 5 (fun e f _ => by split <;> norm_num) ⟨1, by decide⟩ (by decide)⟩

/-- The hypotheses of `C97_direction` can be met. -/
example (lambda : LocDofs 1 1 ℚ) := C97_direction .debug (cramerSolve _ _ ℚ) (C44_example _ _ ℚ) 1 one_pos (netEdge 0 3) 0 (netEdge_laws _ _ _) (netEdge_rigid _ _ _) (netEdge_one _ _ _) (by
  show ∀ f : Fin 2, _
  decide) lambda

/-- The hypotheses of `C97_uniform_edge` can be met by polynomials of any degree. -/
example (p : Nat) : ∃ P : Fin (p + 1) → Polynomial ℝ, OrthonormalPolys p P ∧ ∃ S, DiffusionUniform.construct .debug (tensorIntegrator (p + 1) 1 (exactBasis P)) 1 ((p + 1) ^ 1) 2 = .ok S ∧
    ∃ c : ℝ, 0 < c ∧ ∀ lambda out : LocDofs 1 1 ℝ, DiffusionUniform.trace_to_flux .debug (tensorIntegrator (p + 1) 1 (exactBasis P)) (cramerSolve _ _ ℝ) S lambda out = .ok fun f _ => c * (lambda f.rev 0 - lambda f 0) := by
  obtain ⟨P, hP⟩ := exists_orthonormal p
  obtain ⟨S, hS⟩ := DiffusionUniform.C20_constructor (dim := 1) (nS := (p + 1) ^ 1) .debug (tensorIntegrator (p + 1) 1 (exactBasis P)) 2
  obtain ⟨one, h1, h2, _⟩ := C97_polynomials P hP
  exact ⟨P, hP, S, hS, C97_uniform_edge .debug _ (tensor_lawful (d := 0) _ (exact_lawful hP)) (tensor_rigid (d := 0) _ (exact_lawful hP)) one h1 h2 _ (C44_example _ _ ℝ) 2 two_pos S hS⟩

end HyperHDG.EllipticProgram.Example

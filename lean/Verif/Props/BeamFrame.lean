import Verif.Model.Mapping
import Verif.Props.Lapack
import Verif.Props.DenseLA
import Verif.Props.Timoshenko

/-!
# Property C71, continued: the frames of beams

The mapping of a beam (`Verif/Model/Mapping.lean`, hyperedges of dimension one in space of dimension three) computes the frame of the beam by the QR decomposition of its only column, the vector from one
end of the beam to the other.
-/

namespace HyperHDG.Timoshenko

open Finset Spec Matrix

variable {K : Type} [Field K] [LinearOrder K] [IsStrictOrderedRing K]

/-- The frame of a beam with the given direction and normals. -/
def frameOf (t o1 o2 : Fin 3 → K) : Matrix (Fin 3) (Fin 3) K := .of ![t, o1, o2]

/-- **C71** (orientation of the frames).  `a` is the vector from one end of the beam to the other.  The frame computed by the mapping is orthonormal and its first vector has the direction of the beam.  If
the beam does not have the direction of the first axis, the frame is right-handed.  If LAPACK uses no reflection (which it documents for beams in the direction of the first axis), the frame is
left-handed. -/
theorem C71_frame (m : Mode) (geqr2 : Geqr2All K) (translation : SmallVec 3 K) (A F : SmallMat 3 1 K) (tau : Fin (min 3 1) → K) (a f : Matrix (Fin 3) (Fin 1) K) (hA : Represents A a)
    (hF : Represents F f) (hg : geqr2 3 1 A = .ok (F, tau)) (hqr : IsHouseholderQR a f tau) :
    ∃ (L : Mapping.Linear 0 3 K) (t o1 o2 : Fin 3 → K), Mapping.Linear.make m geqr2 translation A = .ok L ∧ L.inner_normal m 0 = .ok t ∧ L.outer_normal m 0 = .ok o1 ∧ L.outer_normal m 1 = .ok o2 ∧
      frameOf t o1 o2 * (frameOf t o1 o2)ᵀ = 1 ∧ (∃ x, ∀ i, a i 0 = x * t i) ∧
      (a 1 0 ≠ 0 ∨ a 2 0 ≠ 0 → (frameOf t o1 o2).det = 1) ∧ ((∀ i, tau i = 0) → (frameOf t o1 o2).det = -1) := by
  obtain ⟨res, q, R, h1, h2, h3, h4, h5, h6, h7, h8⟩ := C13_qr_decomp_partial m (geqr2 3 1) A (SmallMat.fill 1 1 0) F tau a f hA hF hg hqr (by norm_num) (by norm_num) (by omega) (.inl rfl)
  obtain ⟨res', q', h1', h2', hdet, _⟩ := C13_det_q m (geqr2 3 1) A (SmallMat.fill 1 1 0) F tau a f hA hF hg hqr (by norm_num) (by norm_num) (by omega) (.inl rfl)
  rw [h1] at h1'
  injection h1' with h1'
  subst h1'
  have hq : q' = q := by
    rw [represents_iff] at h2 h2'
    rw [← h2, ← h2']
  subst hq
  obtain ⟨t, t1, t2⟩ := C06_get_column m res.mat_q q' h2 (0 : Fin 3)
  obtain ⟨o1, u1, u2⟩ := C06_get_column m res.mat_q q' h2 (1 : Fin 3)
  obtain ⟨o2, v1, v2⟩ := C06_get_column m res.mat_q q' h2 (2 : Fin 3)
  have entry : ∀ {v : SmallVec 3 K} {w : Fin 3 → K}, Represents v (Matrix.of fun i (_ : Fin 1) => w i) → ∀ i : Fin 3, v i = w i := by
    intro v w h i
    have := congrFun (congrFun (represents_iff.mp h) i) 0
    rw [Matrix.of_apply] at this
    rw [← this]
    fin_cases i <;> rfl
  have et := entry t2
  have e1 := entry u2
  have e2 := entry v2
  have hR : frameOf t o1 o2 = q'ᵀ := by
    ext i j
    fin_cases i
    · exact et j
    · exact e1 j
    · exact e2 j
  have hone : ∀ i j : Fin (min 3 1), i = j := fun i j => Fin.ext (by have h1 : i.1 < 1 := i.2; have h2 : j.1 < 1 := j.2; omega)
  have hn0 : (∀ i, tau i = 0) → nReflections tau = 0 := fun h => nReflections_card tau ∅ fun i => by simp [h i]
  have hn1 : ¬ (∀ i, tau i = 0) → nReflections tau = 1 := by
    intro h
    obtain ⟨k, hk⟩ := not_forall.mp h
    rw [nReflections_card tau {k} fun i => by simp [hone i k, hk]]
    simp
  refine ⟨⟨translation, A, res.mat_q, res.mat_r⟩, t, o1, o2, ?_, ?_, ?_, ?_, ?_, ⟨R 0 0, fun i => ?_⟩, fun h => ?_, fun h => ?_⟩
  · unfold Mapping.Linear.make
    have : qr_decomp m (geqr2 3 (0 + 1)) A (SmallMat.fill (0 + 1) (0 + 1) 0) = .ok res := h1
    rw [this]
    rfl
  · show (hyAssert m (0 < 1) >>= fun _ => res.mat_q.get_column m 0) = _
    rw [hyAssert_of (by norm_num)]
    exact t1
  · show (hyAssert m (0 < 2) >>= fun _ => res.mat_q.get_column m 1) = _
    rw [hyAssert_of (by norm_num)]
    exact u1
  · show (hyAssert m (1 < 2) >>= fun _ => res.mat_q.get_column m 2) = _
    rw [hyAssert_of (by norm_num)]
    exact v1
  · rw [hR, Matrix.transpose_transpose]
    exact h5
  · have := congrFun (congrFun h6 i) 0
    rw [← this, et i, Matrix.mul_apply, Fin.sum_univ_three]
    simp [padRows, mul_comm]
  · rw [hR, Matrix.det_transpose, hdet, hn1]
    · norm_num
    · intro h0
      have hQ : hhQ f tau = 1 := by
        unfold hhQ
        have : ∀ i, hhReflector f tau i = 1 := by
          intro i
          rw [hhReflector, h0 i, zero_smul, sub_zero]
        have : List.ofFn (hhReflector f tau) = [1] := by
          rw [show hhReflector f tau = fun _ => 1 from funext this]
          rfl
        rw [this]
        simp
      have hp := hqr.product
      rw [hQ, Matrix.one_mul] at hp
      rw [← hp] at h
      simp [hhR] at h
  · rw [hR, Matrix.det_transpose, hdet, hn0 h]
    norm_num

/-- **C71** (networks with frames of both orientations).  Let a network contain two beams in different directions, the frame of one right-handed and that of the other left-handed.  Whatever
the sign, there is a rotation for which one of the beams transmits forces or moments. -/
theorem C71_mixed {nS : Nat} (m : Mode) (gesv : Gesv (n_loc_dofs nS) 1 K) (hg : GesvSpec gesv) (tau : K) (ht : 0 < tau) (E : Fin 2 → Edge nS K) (time : K) (hE : ∀ e, Complete (E e))
    (hc : ∀ e d, coefficients (E e) d ≠ 0) (hF : ∀ e, FormLaws (form (E e))) (hO : ∀ e, frame (E e) * (frame (E e))ᵀ = 1) (hR : ∀ e, Rigid (form (E e))) (hD : ∀ e f, ¬ IsDirichlet (E e) f)
    {one lin : Fin nS → K} {x : Fin 2 → Fin (2 * 1) → K} (arc : ∀ e, IsArcLength (form (E e)) one lin (x e)) (hx : ∀ e, x e 0 ≠ x e 1)
    (h0 : (frame (E 0)).det = 1) (h1 : (frame (E 1)).det = -1) (p0 : Fin 2 → Fin 3 → K) (sign : K) :
    ∃ e r, trace_to_flux m gesv tau (fun f => rigidMotion sign 0 r (p0 e + x e f • (E e).inner_normal 0)) 0 (E e) time ≠ .ok 0 := by
  have key : ∀ e, sign ≠ (frame (E e)).det → ∃ r, trace_to_flux m gesv tau (fun f => rigidMotion sign 0 r (p0 e + x e f • (E e).inner_normal 0)) 0 (E e) time ≠ .ok 0 := by
    intro e he
    by_contra hall
    have hall : ∀ r, trace_to_flux m gesv tau (fun f => rigidMotion sign 0 r (p0 e + x e f • (E e).inner_normal 0)) 0 (E e) time = .ok 0 := fun r => by
      by_contra h
      exact hall ⟨r, h⟩
    have hz : ∀ r, (E e).inner_normal 0 ⨯₃ r = 0 := fun r =>
      (C71_wrong_sign m gesv hg tau ht (E e) time (hE e) (hc e) (hF e) (hO e) (arc e) (hR e) (hD e) (hx e) sign 0 r (p0 e) (hall r)).resolve_left he
    have hd : (E e).inner_normal 0 ⬝ᵥ (E e).inner_normal 0 = 1 := congrFun (congrFun (hO e) 0) 0
    have a1 := hz ![0, 1, 0]
    have a2 := hz ![1, 0, 0]
    rw [cross_apply] at a1 a2
    have b1 := congrFun a1 0
    have b2 := congrFun a1 2
    have b3 := congrFun a2 2
    simp at b1 b2 b3
    rw [dotProduct, Fin.sum_univ_three, b1, b2, b3] at hd
    simp at hd
  by_cases hs : sign = 1
  · obtain ⟨r, hr⟩ := key 1 (by rw [hs, h1]; norm_num)
    exact ⟨1, r, hr⟩
  · obtain ⟨r, hr⟩ := key 0 (by rw [h0]; exact hs)
    exact ⟨0, r, hr⟩

namespace Example

/-- A beam of length one with linear shape functions 1 and x; the stiffnesses are one. -/
def beam (t o1 o2 : Fin 3 → ℚ) (descriptor : Nat → Nat) (dirichlet : List Nat) : Edge 2 ℚ where
  vol_phiphi i j := if i = 0 then (if j = 0 then 1 else 1/2) else (if j = 0 then 1/2 else 1/3)
  vol_nablaphiphi i j _ := if i = 0 then 0 else (if j = 0 then 1 else 1/2)
  bdr_phiphi i j f := if f = 0 then (if i = 0 then (if j = 0 then 1 else 0) else 0) else 1
  bdr_phipsi i _ f := if f = 0 then (if i = 0 then 1 else 0) else 1
  vol_phi_n _ _ _ := 1
  vol_phi_m _ _ _ := 2
  bdr_phi_u _ _ _ _ := 3
  bdr_phi_phi _ _ _ _ := 4
  vol_diffsquare c _ _ := c 0 * c 0
  local_normal f _ := if f = 0 then -1 else 1
  inner_normal _ := t
  outer_normal i := if i = 0 then o1 else o2
  extra_data := none
  node_descriptor := descriptor
  dirichlet_nodes := dirichlet

variable (t o1 o2 : Fin 3 → ℚ) (descriptor : Nat → Nat) (dirichlet : List Nat)

theorem beam_complete : Complete (beam t o1 o2 descriptor dirichlet) := fun e h => by cases h

theorem beam_coefficients (d : Fin 6) : coefficients (beam t o1 o2 descriptor dirichlet) d ≠ 0 := one_ne_zero

theorem beam_laws : FormLaws (form (beam t o1 o2 descriptor dirichlet)) := by
  have hpos : ∀ v : Fin 2 → ℚ, v ≠ 0 → 0 < v ⬝ᵥ (form (beam t o1 o2 descriptor dirichlet)).mass *ᵥ v := by
    intro v hv
    have h1 : v ⬝ᵥ (form (beam t o1 o2 descriptor dirichlet)).mass *ᵥ v = (v 0 + v 1 / 2) ^ 2 + v 1 ^ 2 / 12 := by
      simp [form, beam, dotProduct, mulVec, Fin.sum_univ_two]
      ring
    rw [h1]
    by_cases h : v 1 = 0
    · have h0 : v 0 ≠ 0 := fun h0 => hv (by funext i; fin_cases i <;> assumption)
      rw [h]
      have : 0 < v 0 ^ 2 := by positivity
      linarith
    · have : 0 < v 1 ^ 2 := by positivity
      have := sq_nonneg (v 0 + v 1 / 2)
      linarith
  refine ⟨?_, hpos, ?_, hpos, ?_, fun f => one_pos, ?_, ?_⟩
  · ext i j; fin_cases i <;> fin_cases j <;> rfl
  · ext i j; fin_cases i <;> fin_cases j <;> rfl
  · intro d
    rw [Fin.sum_univ_two]
    ext i j; fin_cases i <;> fin_cases j <;> simp [form, beam] <;> norm_num
  · intro f
    ext i j
    fin_cases f <;> fin_cases i <;> fin_cases j <;> simp [form, beam, Matrix.mul_apply]
  · intro u h0 hf
    have h1 := congrFun (hf 0) 0
    have h2 := congrFun (hf 1) 0
    simp [form, beam, mulVec, dotProduct, Fin.sum_univ_two] at h1 h2
    funext i
    fin_cases i
    · exact h1
    · show u 1 = 0
      linarith

theorem beam_rigid : Rigid (form (beam t o1 o2 descriptor dirichlet)) := by
  intro u f h0 hf
  have h1 := congrFun (h0 0) 0
  have h2 := congrFun hf 0
  simp [form, beam, mulVec, dotProduct, Fin.sum_univ_two] at h1 h2
  have h3 : u 0 = 0 := by
    fin_cases f
    · simpa using h2
    · simpa [h1] using h2
  funext i
  fin_cases i
  · exact h3
  · exact h1

theorem beam_arc : IsArcLength (form (beam t o1 o2 descriptor dirichlet)) ![1, 0] ![0, 1] ![0, 1] := by
  constructor
  · funext j; fin_cases j <;> simp [form, beam, mulVec, dotProduct, Fin.sum_univ_two]
  · intro f; funext j; fin_cases f <;> simp [form, beam, mulVec, dotProduct, Fin.sum_univ_two]
  · funext j; fin_cases j <;> simp [form, beam, mulVec, dotProduct, Fin.sum_univ_two]
  · intro f; funext j; fin_cases f <;> simp [form, beam, mulVec, dotProduct, Fin.sum_univ_two]

/-- The beams of a network: the first in direction of the first axis, with a left-handed frame, the others in direction of the second axis, with a right-handed frame. -/
def beams (dirichlet : List Nat) (e : Nat) : Edge 2 ℚ :=
  if e = 0 then beam ![1, 0, 0] ![0, 1, 0] ![0, 0, -1] (fun f => f) dirichlet else beam ![0, 1, 0] ![0, 0, 1] ![1, 0, 0] (fun f => e + f) dirichlet

theorem beams_is (e : Nat) : ∃ t o1 o2 d, beams dirichlet e = beam t o1 o2 d dirichlet := by
  unfold beams
  split <;> exact ⟨_, _, _, _, rfl⟩

theorem beams_complete (e : Nat) : Complete (beams dirichlet e) := by
  obtain ⟨t, o1, o2, d, h⟩ := beams_is dirichlet e
  exact h ▸ beam_complete t o1 o2 d dirichlet

theorem beams_coefficients (e : Nat) : ∀ d, coefficients (beams dirichlet e) d ≠ 0 := by
  obtain ⟨t, o1, o2, d, h⟩ := beams_is dirichlet e
  exact h ▸ beam_coefficients t o1 o2 d dirichlet

theorem beams_laws (e : Nat) : FormLaws (form (beams dirichlet e)) := by
  obtain ⟨t, o1, o2, d, h⟩ := beams_is dirichlet e
  exact h ▸ beam_laws t o1 o2 d dirichlet

theorem beams_rigid (e : Nat) : Rigid (form (beams dirichlet e)) := by
  obtain ⟨t, o1, o2, d, h⟩ := beams_is dirichlet e
  exact h ▸ beam_rigid t o1 o2 d dirichlet

theorem beams_arc (e : Nat) : IsArcLength (form (beams dirichlet e)) ![1, 0] ![0, 1] ![0, 1] := by
  obtain ⟨t, o1, o2, d, h⟩ := beams_is dirichlet e
  exact h ▸ beam_arc t o1 o2 d dirichlet

theorem beams_dirichlet (e : Nat) : (beams dirichlet e).dirichlet_nodes = dirichlet := by
  obtain ⟨t, o1, o2, d, h⟩ := beams_is dirichlet e
  rw [h]
  rfl

theorem beams_frame (e : Nat) : frame (beams dirichlet e) * (frame (beams dirichlet e))ᵀ = 1 := by
  unfold beams
  split <;> (ext i j; fin_cases i <;> fin_cases j <;> simp [frame, beam, Matrix.mul_apply, Fin.sum_univ_three])

theorem beams_descriptor (e f : Nat) : (beams dirichlet e).node_descriptor f = e + f := by
  unfold beams
  split
  · rename_i h
    rw [h]
    exact (Nat.zero_add _).symm
  · rfl

/-- Three hypernodes, two beams. -/
def G : HyGraph 1 6 := ⟨2, 3, fun e i => e + i⟩

def Gnodes : Fin G.n_hyEdges → Fin (2 * 1) → Fin G.n_hyNodes := fun e i =>
  ⟨e + i, by have h1 : e.1 < 2 := e.2; have h2 := i.2; show e.1 + i.1 < 3; omega⟩

theorem G_wf : G.WF Gnodes := ⟨fun _ _ => rfl, by decide⟩

theorem G_anchored : Anchored Gnodes (fun v => v.1 = 0) := by
  have step : ∀ e : Nat, (h : e < 2) → Adjacent Gnodes (⟨e, by show e < 3; omega⟩ : Fin G.n_hyNodes) ⟨e + 1, by show e + 1 < 3; omega⟩ := fun e h => ⟨⟨e, h⟩, 0, 1, rfl, rfl⟩
  intro v
  refine ⟨⟨0, by decide⟩, rfl, ?_⟩
  have h3 : v.1 < 3 := v.2
  have h : v.1 = 0 ∨ v.1 = 1 ∨ v.1 = 2 := by omega
  rcases h with h | h | h
  · rw [show v = ⟨0, by decide⟩ from Fin.ext h]
  · rw [show v = ⟨1, by decide⟩ from Fin.ext h]
    exact .single (step 0 (by norm_num))
  · rw [show v = ⟨2, by decide⟩ from Fin.ext h]
    exact .tail (.single (step 0 (by norm_num))) (step 1 (by norm_num))

/-- The hypotheses of C68 and C69 can be met. -/
example := C68_flux .debug (cramerSolve _ _ ℚ) (C44_example _ _ ℚ) 1 (beam t o1 o2 descriptor dirichlet) 0 (beam_complete _ _ _ _ _) (beam_coefficients _ _ _ _ _) (fun f j => f.1 + j.1) (fun _ _ => 7)

example := C68_solvable .release (cramerSolve _ _ ℚ) (C44_example _ _ ℚ) 1 (beam t o1 o2 descriptor dirichlet) 0 (beam_complete _ _ _ _ _) (beam_coefficients _ _ _ _ _) (beam_laws _ _ _ _ _) one_pos
  (fun f j => f.1 + j.1) (fun _ _ => 7)

example := C69_unique .debug (cramerSolve _ _ ℚ) (C44_example _ _ ℚ) 1 one_pos (beams [0]) 0 (beams_complete [0]) (beams_coefficients [0]) (beams_laws [0]) G Gnodes G_wf (fun _ _ => 7)
  (fun _ _ => 8) (beams_rigid [0]) (fun e => mul_eq_one_comm.mp (beams_frame [0] e)) (fun v => v.1 = 0) (fun e f => by
    rw [beams_descriptor, beams_dirichlet, List.mem_singleton]
    rfl) G_anchored

/-- Frames as in C70. -/
example :=
  C70_aligned_partial (sample (some [1, 4, 3, 1, 6, 5, 0, 1, 0, 0, 0, 1]) ![1, 0, 0] ![0, 0, -1] ![0, 1, 0]) ![![0, 1, 0], ![0, 0, 1]] ![4, 3] ![6, 5] 1 1 rfl (by norm_num) (by norm_num)
    (fun i => by fin_cases i <;> norm_num) (fun i => by fin_cases i <;> norm_num) (fun i j => by fin_cases i <;> fin_cases j <;> simp [dotProduct, Fin.sum_univ_three]) ![1, 0]
    (fun i => by
      fin_cases i
      · right
        funext j
        fin_cases j <;> simp [sample]
      · left
        funext j
        fin_cases j <;> simp [sample])

/-- The two beams of the network, without prescribed displacements. -/
def two (e : Fin 2) : Edge 2 ℚ := beams [] (1 - e.1)

/-- The network of C69, without prescribed displacements, has frames of both orientations: no sign describes all rigid motions. -/
theorem C71_mixed_example (tau : ℚ) (ht : 0 < tau) (p0 : Fin 2 → Fin 3 → ℚ) (sign : ℚ) :
    ∃ (e : Fin 2) (r : Fin 3 → ℚ), trace_to_flux .debug (cramerSolve _ _ ℚ) tau (fun f => rigidMotion sign 0 r (p0 e + (![0, 1] : Fin (2 * 1) → ℚ) f • (two e).inner_normal 0)) 0 (two e) 0 ≠ .ok 0 := by
  refine C71_mixed .debug (cramerSolve _ _ ℚ) (C44_example _ _ ℚ) tau ht two 0 (fun e => beams_complete [] _) (fun e => beams_coefficients [] _) (fun e => beams_laws [] _)
    (fun e => beams_frame [] _) (fun e => beams_rigid [] _) (fun e f h => ?_) (one := ![1, 0]) (lin := ![0, 1]) (x := fun _ => ![0, 1]) (fun e => beams_arc [] _) (fun e => by norm_num) ?_ ?_ p0 sign
  · unfold IsDirichlet two at h
    rw [beams_dirichlet] at h
    exact List.not_mem_nil h
  · simp [two, beams, beam, frame, det_fin_three]
  · simp [two, beams, beam, frame, det_fin_three]

end Example

end HyperHDG.Timoshenko

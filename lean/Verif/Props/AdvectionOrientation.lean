import Verif.Props.AdvectionParab
import Verif.Props.UnitNormals
import Verif.Props.FileGeometry

/-!
# Property C76: inflow and outflow parts of the boundary

`AdvectionParab` decides by the sign of the scalar product of `inner_normal` and the velocity whether a face of boundary type is an inflow face (Dirichlet) or an outflow face.
-/

namespace HyperHDG.AdvectionParab

open Finset Spec Matrix

variable {dim nS : Nat} {K : Type}

/-- The face is of boundary type, but neither declared to be of Dirichlet nor of outflow type. -/
structure ByVelocity (E : Edge dim nS K) (f : Nat) : Prop where
  boundary : E.node_descriptor f ∈ E.boundary_nodes
  dirichlet : E.node_descriptor f ∉ E.dirichlet_nodes
  outflow : E.node_descriptor f ∉ E.outflow_nodes

section
variable [CommRing K] [LinearOrder K]

/-- **C76** (exactly one type).  A face whose type is decided by the velocity is either of Dirichlet or of outflow type, the first one if and only if the scalar product of `inner_normal` and the
velocity is not positive. -/
theorem C76_types (E : Edge dim nS K) (f : Nat) (h : ByVelocity E f) (time : K) : (is_dirichlet E f time = true ↔ E.wind time f ≤ 0) ∧ (is_outflow E f time = true ↔ 0 < E.wind time f) := by
  unfold is_dirichlet is_outflow
  simp only [List.contains_eq_mem, h.boundary, h.dirichlet, h.outflow, decide_true, decide_false, Bool.false_eq_true, not_true_eq_false, if_false, decide_eq_true_eq, gt_iff_lt, and_self]
end

section
variable {d s : Nat} [Field K] [LinearOrder K] [IsStrictOrderedRing K]

open Geometry.File (HyEdge)

/-- The vectors `n f` returned by `inner_normal` and the velocity give the numbers on which the decision is based. -/
def WindOf (E : Edge dim nS K) (n : Nat → Fin s → K) (velocity : K → Nat → Fin s → K) : Prop := ∀ time f, E.wind time f = ∑ i, n f i * velocity time f i

/-- **C76** (hyperedges of dimension one in files).  If the velocity is the same at both ends and not orthogonal to the hyperedge, one end is of Dirichlet type and the other one of outflow type.
Missing: that the Dirichlet end is the one where the velocity enters; see `C76_orientation_witness`. -/
theorem C76_file_partial (m : Mode) (e : HyEdge 0 s K) (E : Edge 1 nS K) (n : Nat → Fin s → K) (v : Fin s → K)
    (h0 : Returns (e.inner_normal m 0) (.of fun i _ => n 0 i)) (h1 : Returns (e.inner_normal m 1) (.of fun i _ => n 1 i))
    (hw : WindOf E n (fun _ _ => v)) (time : K) (hv : E.wind time 0 ≠ 0) (b0 : ByVelocity E 0) (b1 : ByVelocity E 1) :
    (is_dirichlet E 0 time = true ∧ is_outflow E 1 time = true ∧ is_outflow E 0 time = false ∧ is_dirichlet E 1 time = false) ∨
    (is_dirichlet E 1 time = true ∧ is_outflow E 0 time = true ∧ is_outflow E 1 time = false ∧ is_dirichlet E 0 time = false) := by
  obtain ⟨N, e0, r0⟩ := h0
  obtain ⟨N', e1, r1⟩ := h1
  have hopp : ∀ i, n 1 i = -n 0 i := by
    intro i
    unfold HyEdge.inner_normal at e0 e1
    rw [hyAssert_of (by omega), Res.ok_bind] at e0 e1
    have e0 : (e.mapping.inner_normal m 0 >>= fun x => .ok x) = .ok N := e0
    have e1 : (e.mapping.inner_normal m 0 >>= fun x => SmallMat.mul_scalar x (-1)) = .ok N' := e1
    cases hN : e.mapping.inner_normal m 0 with
    | ok M =>
      rw [hN, Res.ok_bind] at e0 e1
      have e0 := Res.ok.inj e0
      subst e0
      obtain ⟨M', m1, m2⟩ := (C07_entrywise m M M M _ _ _ (-1) (represents_iff.mpr rfl) (represents_iff.mpr rfl) (represents_iff.mpr rfl)).2.2.2.1
      rw [m1] at e1
      have e1 := Res.ok.inj e1
      subst e1
      rw [represents_iff] at r0 r1 m2
      have h1 := congrFun (congrFun r1 i) 0
      have h0 := congrFun (congrFun r0 i) 0
      have h2 := congrFun (congrFun m2 i) 0
      rw [h1] at h2
      simp only [Matrix.of_apply] at h2 h0
      rw [h2, h0, mul_neg_one]
    | abort => rw [hN] at e0; cases e0
    | throw x => rw [hN] at e0; cases e0
    | ub => rw [hN] at e0; cases e0
  have hw1 : E.wind time 1 = -E.wind time 0 := by
    rw [hw, hw, ← Finset.sum_neg_distrib]
    exact Finset.sum_congr rfl fun i _ => by rw [hopp]; ring
  have c0 := C76_types E 0 b0 time
  have c1 := C76_types E 1 b1 time
  rw [hw1] at c1
  rcases lt_or_gt_of_ne hv with h | h
  · left
    refine ⟨c0.1.mpr h.le, c1.2.mpr (by linarith), ?_, ?_⟩
    · rw [Bool.eq_false_iff, ne_eq, c0.2]; linarith
    · rw [Bool.eq_false_iff, ne_eq, c1.1]; linarith
  · right
    refine ⟨c1.1.mpr (by linarith), c0.2.mpr h, ?_, ?_⟩
    · rw [Bool.eq_false_iff, ne_eq, c1.2]; linarith
    · rw [Bool.eq_false_iff, ne_eq, c0.1]; linarith

/-- The matrix of a hyperedge of dimension one in the plane which runs in direction of the first axis. -/
def axisEdge (x : K) : Matrix (Fin 2) (Fin 1) K := .of ![![x], ![0]]

/-- The mapping of such a hyperedge, if LAPACK uses no reflection (which it documents for this case: "If the elements of x are all zero, then tau = 0 and H is taken to be the unit matrix"). -/
theorem axis_mapping (m : Mode) (geqr2 : Geqr2All K) (translation : SmallVec 2 K) (A : SmallMat 2 1 K) (hg : geqr2 2 1 A = .ok (A, fun _ => 0)) :
    ∃ L : Mapping.Linear 0 2 K, Mapping.Linear.make m geqr2 translation A = .ok L ∧ toMat L.matrix_q = 1 := by
  obtain ⟨Q, q1, q2⟩ := get_q_spec m A (fun _ => 0)
  obtain ⟨R, r1, _⟩ := get_r_reduced_spec A (SmallMat.fill 1 1 0) (by norm_num) (by omega) (.inr (.inr (by norm_num)))
  obtain ⟨M, m1, _⟩ := get_r_spec A
  have hf : qrFactors m 2 1 R = .ok (SmallMat.fill 2 1 1) := rfl
  have hnot : ¬ (1 : K) < 0 := not_lt.mpr zero_le_one
  have hfill : ∀ k, k < 2 → (SmallMat.fill 2 1 (1 : K) : SmallVec 2 K).get m k = .ok 1 := fun k hk => vec_get_lt m _ hk
  have hloop : ∀ {X : Type} (x : X) (f : Nat → K → X → Res X) (n : Nat), n ≤ 2 →
      forUp n (fun i x => (SmallMat.fill 2 1 (1 : K) : SmallVec 2 K).get m i >>= fun y => if y < 0 then f i y x else .ok x) x = .ok x := by
    intro X x f n hn
    obtain ⟨t, h1, h2⟩ := forUp_inv n (fun i x => (SmallMat.fill 2 1 (1 : K) : SmallVec 2 K).get m i >>= fun y => if y < 0 then f i y x else .ok x) x (fun _ y => y = x) rfl
      (fun i hi y hy => ⟨x, by rw [hfill i (by omega), Res.ok_bind, if_neg hnot, hy], rfl⟩)
    rw [h1, h2]
  refine ⟨⟨translation, A, Q, R⟩, ?_, ?_⟩
  · unfold Mapping.Linear.make qr_decomp
    have hg' : geqr2 2 (0 + 1) A = .ok (A, fun _ => 0) := hg
    have q1' : get_q (c := 0 + 1) m A (fun _ => 0) = .ok Q := q1
    have r1' : get_r_reduced (c := 0 + 1) A (SmallMat.fill (0 + 1) (0 + 1) 0) = .ok R := r1
    have m1' : get_r (c := 0 + 1) A = .ok M := m1
    have hf' : qrFactors m 2 (0 + 1) R = .ok (SmallMat.fill 2 1 1) := hf
    simp only [hg', Res.ok_bind, q1', r1', m1', hf']
    refine Eq.trans (congrArg (· >>= _) (congrArg (· >>= _) (hloop Q _ 2 le_rfl))) ?_
    rw [Res.ok_bind]
    refine Eq.trans (congrArg (· >>= _) (congrArg (· >>= _) (hloop R _ 1 (by norm_num)))) ?_
    rfl
  · show toMat Q = 1
    rw [q2]
    unfold hhQ
    have : ∀ i, hhReflector (toMat A) (fun _ => 0) i = (1 : Matrix (Fin 2) (Fin 2) K) := by
      intro i
      rw [hhReflector, zero_smul, sub_zero]
    have : List.ofFn (hhReflector (toMat A) fun _ => (0 : K)) = [1] := by
      rw [show hhReflector (toMat A) (fun _ => (0 : K)) = fun _ => 1 from funext this]
      rfl
    rw [this]
    simp

/-- **C76** (the type does not depend on the direction of the hyperedge).  A hyperedge of a file in direction of the first axis, whose ends differ by `x` (face 1 minus face 0), of any sign, and a
velocity with positive first component: face 0 is always of outflow type and face 1 of Dirichlet type.  So for `x > 0` the types are the wrong way around: the velocity enters at face 0. -/
theorem C76_orientation_witness (m : Mode) (geqr2 : Geqr2All K) (translation : SmallVec 2 K) (x : K) (A : SmallMat 2 1 K) (_hA : Represents A (axisEdge x))
    (hg : geqr2 2 1 A = .ok (A, fun _ => 0)) (v : Fin 2 → K) (hv : 0 < v 0) :
    ∃ (L : Mapping.Linear 0 2 K) (n : Nat → Fin 2 → K), Mapping.Linear.make m geqr2 translation A = .ok L ∧
      (∀ f : Fin (2 * 1), Returns (HyEdge.inner_normal m ⟨L⟩ f) (.of fun i _ => n f i)) ∧
      ∀ E : Edge 1 nS K, WindOf E n (fun _ _ => v) → ByVelocity E 0 → ByVelocity E 1 → ∀ time, is_outflow E 0 time = true ∧ is_dirichlet E 1 time = true := by
  obtain ⟨L, h1, h2⟩ := axis_mapping m geqr2 translation A hg
  obtain ⟨N, n1, n2⟩ := C06_get_column m L.matrix_q 1 (represents_iff.mpr h2) (0 : Fin 2)
  obtain ⟨N', m1, m2⟩ := (C07_entrywise m N N N _ _ _ (-1) n2 n2 n2).2.2.2.1
  refine ⟨L, fun f => if f = 0 then ![1, 0] else ![-1, 0], h1, fun f => ?_, fun E hw b0 b1 time => ?_⟩
  · have n1' : L.matrix_q.get_column m 0 = .ok N := n1
    fin_cases f
    · refine ⟨N, ?_, ?_⟩
      · unfold HyEdge.inner_normal Mapping.Linear.inner_normal
        rw [hyAssert_of (by norm_num), Res.ok_bind, hyAssert_of (by norm_num), Res.ok_bind]
        rw [show (((⟨0, by norm_num⟩ : Fin (2 * 1)) : Nat) / 2) = 0 from rfl, n1', Res.ok_bind]
        rfl
      · rw [represents_iff] at n2 ⊢
        rw [n2]
        ext i j
        fin_cases i <;> simp
    · refine ⟨N', ?_, ?_⟩
      · unfold HyEdge.inner_normal Mapping.Linear.inner_normal
        rw [hyAssert_of (by norm_num), Res.ok_bind, hyAssert_of (by norm_num), Res.ok_bind]
        rw [show (((⟨1, by norm_num⟩ : Fin (2 * 1)) : Nat) / 2) = 0 from rfl, n1', Res.ok_bind]
        exact m1
      · rw [represents_iff] at m2 ⊢
        rw [m2]
        ext i j
        fin_cases i <;> simp
  · rw [(C76_types E 0 b0 time).2, (C76_types E 1 b1 time).1, hw, hw, Fin.sum_univ_two, Fin.sum_univ_two]
    simp
    exact ⟨hv, hv.le⟩

open Geometry.UnitCube in
/-- **C76** (unit cubes).  For hyperedges of `UnitCube`, the decision is right: there is a unit vector which is orthogonal to the face and points out of the hyperedge; the face is of Dirichlet type if the
velocity has no positive component in direction of this vector, and of outflow type otherwise. -/
theorem C76_unit_cube {T : Tpcc} {n : Nat} (hT : T.Lawful) (h : d + 1 ≤ s) (N : Fin s → Nat) (hN : ∀ i, 0 < N i) (hn : 0 < n)
    (hU : n ^ (d + 1) < U32) (m : Mode) (index : Nat) (hidx : index < T.size (⟨.both, N, h⟩ : Complex s (d + 1)) * n ^ (d + 1))
    (e : Geometry.UnitCube.HyEdge d s K) (he : HyEdge.make m T ((Geometry.UnitCube.mk' h N).set_refinement n) index = .ok e) (f : Fin (2 * (d + 1)))
    (E : Edge (d + 1) nS K) (normal : Nat → Fin s → K) (hnormal : ∀ f : Fin (2 * (d + 1)), HyEdge.inner_normal m e f = .ok (normal f)) (velocity : K → Nat → Fin s → K)
    (hw : WindOf E normal velocity) (hf : ByVelocity E f) (time : K) :
    ∃ v : Fin s → K, (∑ i, v i * v i) = 1 ∧
      (∀ x x' y y', onFace f x → Geometry.UnitCube.HyEdge.inReference x' → HyEdge.mapPoint m e x = .ok y → HyEdge.mapPoint m e x' = .ok y' → (∑ i, v i * (y' i - y i)) ≤ 0) ∧
      (∀ x x' y y', onFace f x → onFace f x' → HyEdge.mapPoint m e x = .ok y → HyEdge.mapPoint m e x' = .ok y' → (∑ i, v i * (y' i - y i)) = 0) ∧
      (is_dirichlet E f time = true ↔ ∑ i, v i * velocity time f i ≤ 0) ∧ (is_outflow E f time = true ↔ 0 < ∑ i, v i * velocity time f i) := by
  obtain ⟨v, h1, h2, h3, h4, _⟩ := C34_inner hT h N hN hn hU m index hidx e he f
  rw [hnormal] at h1
  have h1 := Res.ok.inj h1
  refine ⟨v, h2, h3, h4, ?_⟩
  rw [(C76_types E f hf time).1, (C76_types E f hf time).2, hw, h1]
  exact ⟨Iff.rfl, Iff.rfl⟩

omit [LinearOrder K] [IsStrictOrderedRing K] in
/-- The result without reflection is a correct QR decomposition of such a hyperedge. -/
theorem axis_householder (x : K) : IsHouseholderQR (axisEdge x) (axisEdge x) (fun _ => 0) where
  reflection _ := .inl rfl
  product := by
    have : List.ofFn (hhReflector (axisEdge x) fun _ => (0 : K)) = [1] := by
      rw [show hhReflector (axisEdge x) (fun _ => (0 : K)) = fun _ => 1 from funext fun i => by rw [hhReflector, zero_smul, sub_zero]]
      rfl
    rw [hhQ, this]
    ext i j
    fin_cases i <;> fin_cases j <;> simp [hhR, axisEdge]

/-- The hypotheses can be met: two hyperedges in opposite directions, and the velocity `(1, 0)`.  In both cases face 0 is of outflow type. -/
example (x : ℚ) (_hx : x = 1 ∨ x = -1) := C76_orientation_witness (nS := 1) .debug (fun _ _ A => .ok (A, fun _ => 0)) (SmallMat.fill 2 1 0) x (fun k => if k.1 = 0 then x else 0)
  (represents_iff.mpr (by ext i j; fin_cases i <;> fin_cases j <;> simp [toMat, pos, axisEdge])) rfl ![1, 0] (by norm_num)

/-- Hyperedges whose types are decided by the velocity. -/
example : ByVelocity (⟨fun f => f + 1, [], [1, 2], [], fun _ _ => 0, 1, 0, 0, 0, 0, 0, 0, 0, 0, 0, 0, 0, 0, 0, 0, 0⟩ : Edge 1 1 ℚ) 0 where
  boundary := by simp
  dirichlet := by simp
  outflow := by simp
end

end HyperHDG.AdvectionParab

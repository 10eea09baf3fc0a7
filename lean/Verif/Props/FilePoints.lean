import Verif.Proofs.Digits
import Verif.Props.FileGeometry
import Mathlib.Tactic.Linarith

/-!
# Points of geometries read from files at which functions are evaluated (C77)

As `C45` for `UnitCube`: the points of a hyperedge at which functions are evaluated for plots.
-/

namespace HyperHDG

open Geometry Geometry.File Geometry.File.HyEdge Spec

variable {T : Tpcc} {d s n : Nat} {K : Type} [Field K]

/-- The entries of a vector. -/
theorem filePoint_spec {k q : Nat} (hq : 0 < q) (m : Mode) (index : Nat) (pts : SmallVec q K) :
    ∃ x : SmallVec k K, File.HyEdge.lexPoint m index pts = .ok x ∧ ∀ j, toMat x j 0 = toMat pts ⟨index / q ^ (j : Nat) % q, Nat.mod_lt _ hq⟩ 0 := by
  obtain ⟨st, h1, h2, h3⟩ := forUp_inv k (fun dim (st : SmallVec k K × Nat) => do
      let j ← umod st.2 q
      let x ← pts.get m j
      let pt ← SmallMat.set m dim x st.1
      return (pt, st.2 / q)) (SmallMat.fill k 1 0, index)
    (fun i st => st.2 = index / q ^ i ∧ ∀ j : Fin k, j.1 < i → toMat st.1 j 0 = toMat pts ⟨index / q ^ (j : Nat) % q, Nat.mod_lt _ hq⟩ 0)
    ⟨by simp, fun j hj => absurd hj (Nat.not_lt_zero _)⟩ (fun i hi st ⟨i1, i2⟩ => by
      refine ⟨(arrSet st.1 (pos ⟨i, hi⟩ 0) (toMat pts ⟨index / q ^ i % q, Nat.mod_lt _ hq⟩ 0), st.2 / q), ?_, ?_, fun j hj => ?_⟩
      · rw [show umod st.2 q = .ok (st.2 % q) by unfold umod; rw [if_neg (by omega)], Res.ok_bind, i1,
          vec_get_lt m _ (Nat.mod_lt _ hq), Res.ok_bind, vec_set_lt m _ hi, Res.ok_bind]
        rfl
      · simp only
        rw [i1, Nat.div_div_eq_div_mul, Nat.pow_succ]
      · simp only
        rw [toMat_arrSet]
        by_cases hji : j = ⟨i, hi⟩
        · subst hji; rw [if_pos ⟨rfl, rfl⟩]
        · rw [if_neg (fun h => hji h.1)]
          exact i2 j (by have : j.1 ≠ i := fun h => hji (Fin.ext h); omega))
  refine ⟨st.1, ?_, fun j => h3 j j.2⟩
  unfold File.HyEdge.lexPoint
  rw [h1]
  rfl

theorem fileBoundary_spec (m : Mode) (f : Fin (2 * (d + 1))) (scale : K) (sub : SmallVec d K) :
    ∃ x, File.HyEdge.insertBoundary m f scale sub = .ok x ∧ toMat x ⟨f / 2, by omega⟩ 0 = scale * (((f % 2 : Nat) : K) - 1 / 2) + 1 / 2 ∧
      ∀ j, toMat x ((⟨f / 2, by omega⟩ : Fin (d + 1)).succAbove j) 0 = toMat sub j 0 := by
  have hlt : f.1 / 2 < d + 1 := by omega
  obtain ⟨st, h1, h2, h3⟩ := forUp_inv (d + 1) (fun dim (st : SmallVec (d + 1) K × Nat) =>
    if f.1 / 2 = dim then do
      let pt ← SmallMat.set m dim (scale * (((f.1 % 2 : Nat) : K) - 1 / 2) + 1 / 2) st.1
      return (pt, st.2)
    else do
      let x ← sub.get m st.2
      let pt ← SmallMat.set m dim x st.1
      return (pt, st.2 + 1)) (SmallMat.fill (d + 1) 1 0, 0)
    (fun i st => st.2 = (if f.1 / 2 < i then i - 1 else i) ∧
      (f.1 / 2 < i → toMat st.1 ⟨f / 2, hlt⟩ 0 = scale * (((f % 2 : Nat) : K) - 1 / 2) + 1 / 2) ∧
      ∀ j : Fin d, ((⟨f / 2, hlt⟩ : Fin (d + 1)).succAbove j).1 < i → toMat st.1 ((⟨f / 2, hlt⟩ : Fin (d + 1)).succAbove j) 0 = toMat sub j 0)
    ⟨by simp, fun h => absurd h (Nat.not_lt_zero _), fun j hj => absurd hj (Nat.not_lt_zero _)⟩ (fun i hid st ⟨i1, i2, i3⟩ => by
      by_cases hi : f.1 / 2 = i
      · subst hi
        refine ⟨(arrSet st.1 (pos ⟨f.1 / 2, hid⟩ 0) (scale * (((f.1 % 2 : Nat) : K) - 1 / 2) + 1 / 2), st.2), ?_, ?_, fun _ => ?_, fun j hj => ?_⟩
        · rw [if_pos rfl, vec_set_lt m _ hid, Res.ok_bind]; rfl
        · simp only
          rw [i1, if_neg (by omega), if_pos (by omega)]
          omega
        · simp only
          rw [toMat_arrSet, if_pos ⟨rfl, rfl⟩]
        · have hne := Fin.succAbove_ne (⟨f / 2, hlt⟩ : Fin (d + 1)) j
          simp only
          rw [toMat_arrSet, if_neg (fun h => hne h.1)]
          apply i3
          have : ((⟨f / 2, hlt⟩ : Fin (d + 1)).succAbove j).1 ≠ f.1 / 2 := fun h => hne (Fin.ext h)
          omega
      · have hpos : st.2 < d := by rw [i1]; split <;> omega
        refine ⟨(arrSet st.1 (pos ⟨i, hid⟩ 0) (toMat sub ⟨st.2, hpos⟩ 0), st.2 + 1), ?_, ?_, fun h => ?_, fun j hj => ?_⟩
        · rw [if_neg hi, vec_get_lt m _ hpos, Res.ok_bind, vec_set_lt m _ hid, Res.ok_bind]
          rfl
        · simp only
          rw [i1]
          split <;> split <;> omega
        · simp only
          rw [toMat_arrSet, if_neg (fun h' => hi (congrArg Fin.val h'.1)), i2 (by omega)]
        · simp only
          rw [toMat_arrSet]
          by_cases hji : (⟨f / 2, hlt⟩ : Fin (d + 1)).succAbove j = ⟨i, hid⟩
          · rw [if_pos ⟨hji, rfl⟩]
            congr 1
            apply Fin.ext
            show st.2 = j.1
            rw [i1]
            have hv := congrArg Fin.val hji
            by_cases hlt' : j.1 < f / 2
            · rw [Fin.succAbove_of_castSucc_lt _ _ (by rw [Fin.lt_def]; exact hlt')] at hv
              simp only [Fin.val_castSucc] at hv
              rw [if_neg (by omega), hv]
            · rw [Fin.succAbove_of_le_castSucc _ _ (by rw [Fin.le_def]; simp only [Fin.val_castSucc]; omega)] at hv
              simp only [Fin.val_succ] at hv
              rw [if_pos (by omega)]
              omega
          · rw [if_neg (fun h => hji h.1)]
            apply i3
            have : ((⟨f / 2, hlt⟩ : Fin (d + 1)).succAbove j).1 ≠ i := fun h => hji (Fin.ext h)
            omega)
  refine ⟨st.1, ?_, h3.1 hlt, fun j => h3.2 j (Fin.is_lt _)⟩
  unfold File.HyEdge.insertBoundary
  rw [h1]
  rfl

section Edge

variable [LinearOrder K] [IsStrictOrderedRing K]
variable (hT : T.Lawful) (m : Mode) (geqr2 : Geqr2All K) (hg : Geqr2Spec geqr2) (hs : d + 1 ≤ s) (hb : QrInBounds d s)
  (D : DomainGeo d s K) (r : Nat) (hn : 0 < n) (hU : D.n_hyEdges * n ^ (d + 1) < U32) (index : Nat) (hidx : index < D.n_hyEdges * n ^ (d + 1))
  (P : Fin (2 ^ (d + 1)) → Fin s → K) (hP : ∀ k, D.HasVertex (index / n ^ (d + 1)) k (P k))
  (e : File.HyEdge d s K) (he : get_hyEdge m T geqr2 ((File.mk' D r).set_refinement n) index = .ok e)

include hT hg hs hb hn hU hidx hP he

/-- The mapping of the hyperedge, applied to one point (which need not be in the reference cube). -/
theorem mapping_point (X : SmallVec (d + 1) K) (x : Fin (d + 1) → K) (hX : ∀ a, toMat X a 0 = x a) :
    Returns (e.mapping.map_reference_to_physical m X) (.of fun i _ => spanned P (fun a => (refPos T d n index a + x a) / n) i) := by
  have hd := edge_data hT m geqr2 hg hs hb D r hn hU index hidx P hP e he
  obtain ⟨Y, y1, y2⟩ := Mapping.Linear.map_spec m e.mapping X
  refine ⟨Y, y1, represents_iff.mpr ?_⟩
  rw [y2]
  ext i j
  have hj : j = 0 := Subsingleton.elim _ _
  subst hj
  simp only [Matrix.of_apply, Matrix.mul_apply, hd.matrix, hd.translation, spanned, hX]
  rw [add_comm, add_assoc, ← Finset.sum_add_distrib]
  congr 1
  refine Finset.sum_congr rfl (fun a _ => ?_)
  ring

/-- **C77** (lexicographic points).  `lexicographic(number, points)` is the point of the hyperedge whose coordinates in the sub-element are the `points` numbered by the digits of
`number`, the first coordinate having the lowest digit. -/
theorem C77_lexicographic {q : Nat} (pts : SmallVec q K) (digits : Fin (d + 1) → Fin q) (number : Nat)
    (hnumber : number = Spec.fromDigits q (List.ofFn fun j => (digits j : Nat))) :
    Returns (e.lexicographic m number pts) (.of fun i _ => spanned P (fun a => (refPos T d n index a + toMat pts (digits a) 0) / n) i) := by
  have hq : 0 < q := Nat.lt_of_le_of_lt (Nat.zero_le _) (digits 0).2
  obtain ⟨h1, h2⟩ := fromDigits_digit (q := q) (d + 1) (fun j => digits j) (fun j => (digits j).2)
  obtain ⟨x, x1, x2⟩ := filePoint_spec (k := d + 1) hq m number pts
  unfold File.HyEdge.lexicographic
  rw [hyAssert_of (by rw [hnumber]; exact h1), Res.ok_bind, x1, Res.ok_bind]
  refine mapping_point hT m geqr2 hg hs hb D r hn hU index hidx P hP e he x _ fun a => ?_
  rw [x2]
  congr 1
  apply Fin.ext
  show number / q ^ (a : Nat) % q = digits a
  rw [hnumber]
  exact h2 a

/-- **C77** (points on faces).  `boundary_lexicographic` with the number `q^d * f + t` of a point on face `f`: the coordinate across the face is that of the face, moved towards the centre by the scale,
and the others are numbered by the digits of `t`.  Missing: numbers which do not belong to face `f`, see `C77_boundary_negative`. -/
theorem C77_boundary_partial {q : Nat} (hq : 0 < q) (f : Fin (2 * (d + 1))) (t : Nat) (ht : t < q ^ d) (scale : K) (pts : SmallVec q K) :
    ∃ x : Fin (d + 1) → K, Returns (e.boundary_lexicographic m (q ^ d * f + t) f scale pts) (.of fun i _ => spanned P (fun a => (refPos T d n index a + x a) / n) i) ∧
      x ⟨f / 2, by omega⟩ = scale * (((f % 2 : Nat) : K) - 1 / 2) + 1 / 2 ∧
      ∀ j, x ((⟨f / 2, by omega⟩ : Fin (d + 1)).succAbove j) = toMat pts ⟨t / q ^ (j : Nat) % q, Nat.mod_lt _ hq⟩ 0 := by
  obtain ⟨u, u1, u2⟩ := filePoint_spec (k := d) hq m t pts
  obtain ⟨x, h1, h2, h3⟩ := fileBoundary_spec m f scale u
  refine ⟨fun a => toMat x a 0, ?_, h2, fun j => (h3 j).trans (u2 j)⟩
  have hA : q ^ d * f.1 + t < q ^ d * (d + 1) * 2 := by
    calc q ^ d * f.1 + t < q ^ d * f.1 + q ^ d := by omega
      _ = q ^ d * (f.1 + 1) := by ring
      _ ≤ q ^ d * (2 * (d + 1)) := Nat.mul_le_mul_left _ f.2
      _ = _ := by ring
  unfold File.HyEdge.boundary_lexicographic
  rw [hyAssert_of hA, Res.ok_bind, if_neg (by omega), Nat.add_sub_cancel_left, u1, Res.ok_bind, h1, Res.ok_bind]
  exact mapping_point hT m geqr2 hg hs hb D r hn hU index hidx P hP e he x _ fun _ => rfl

end Edge

section
variable [LinearOrder K] [IsStrictOrderedRing K]

/-- **C77** (in place).  If hyperedges have the dimension of the space, the version of `map_ref_to_phys` which overwrites its argument gives the points of C15, too. -/
theorem C77_in_place {n_vec : Nat} (hT : T.Lawful) (m : Mode) (geqr2 : Geqr2All K) (hg : Geqr2Spec geqr2) (hb : QrInBounds d (d + 1))
    (D : DomainGeo d (d + 1) K) (r : Nat) (hn : 0 < n) (hU : D.n_hyEdges * n ^ (d + 1) < U32) (index : Nat) (hidx : index < D.n_hyEdges * n ^ (d + 1))
    (P : Fin (2 ^ (d + 1)) → Fin (d + 1) → K) (hP : ∀ k, D.HasVertex (index / n ^ (d + 1)) k (P k))
    (e : File.HyEdge d (d + 1) K) (he : get_hyEdge m T geqr2 ((File.mk' D r).set_refinement n) index = .ok e)
    (X : SmallMat (d + 1) n_vec K) (x : Matrix (Fin (d + 1)) (Fin n_vec) K) (hX : Represents X x) (hx : ∀ a j, 0 ≤ x a j ∧ x a j ≤ 1) :
    Returns (e.map_ref_to_phys_in_place m X) (.of fun i j => spanned P (fun a => (refPos T d n index a + x a j) / n) i) :=
  C15_map hT m geqr2 hg le_rfl hb D r hn hU index hidx P hP e he X x hX hx

omit [LinearOrder K] [IsStrictOrderedRing K] in
/-- **C77** (faces which do not fit).  If the number belongs to a lower face than `f`, the difference computed as a floating point number is negative, and its conversion to `unsigned int`
undefined. -/
theorem C77_boundary_negative {q : Nat} (m : Mode) (e : File.HyEdge d s K) (number f : Nat) (scale : K) (pts : SmallVec q K)
    (hnumber : number < q ^ d * (d + 1) * 2) (hneg : number < q ^ d * f) : e.boundary_lexicographic m number f scale pts = Res.ub := by
  unfold File.HyEdge.boundary_lexicographic
  rw [hyAssert_of hnumber, Res.ok_bind, if_pos hneg]
end

end HyperHDG

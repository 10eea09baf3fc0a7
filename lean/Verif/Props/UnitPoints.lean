import Mathlib.Algebra.BigOperators.Ring.Finset
import Verif.Proofs.Digits
import Verif.Props.UnitNormals

/-!
# Points of the geometry `UnitCube` at which functions are evaluated (C45)
-/

set_option linter.unusedSectionVars false

namespace HyperHDG

open Geometry Geometry.UnitCube Geometry.UnitCube.HyEdge

variable {T : Tpcc} {d s n : Nat} {K : Type} [Field K] [LinearOrder K] [IsStrictOrderedRing K]

theorem lexPoint_spec {k q : Nat} (hq : 0 < q) (m : Mode) (index : Nat) (pts : Fin q → K) :
    lexPoint (k := k) m index pts = .ok (fun j => pts ⟨index / q ^ (j : Nat) % q, Nat.mod_lt _ hq⟩) := by
  obtain ⟨st, h1, h2, h3⟩ := forFin_inv k (fun dim (st : (Fin k → K) × Nat) => do
      let j ← umod st.2 q
      let x ← vecGet m pts j
      return (arrSet st.1 dim x, st.2 / q)) (fun _ => 0, index)
    (fun i st => st.2 = index / q ^ i ∧ ∀ j : Fin k, j.1 < i → st.1 j = pts ⟨index / q ^ (j : Nat) % q, Nat.mod_lt _ hq⟩)
    ⟨by simp, fun j hj => absurd hj (Nat.not_lt_zero _)⟩ (fun i st ⟨i1, i2⟩ => by
      refine ⟨(arrSet st.1 i (pts ⟨index / q ^ (i : Nat) % q, Nat.mod_lt _ hq⟩), st.2 / q), ?_, ?_, fun j hj => ?_⟩
      · rw [show umod st.2 q = .ok (st.2 % q) by unfold umod; rw [if_neg (by omega)], Res.ok_bind, i1,
          vecGet_lt m _ (Nat.mod_lt _ hq), Res.ok_bind]
        rfl
      · simp only
        rw [i1, Nat.div_div_eq_div_mul, Nat.pow_succ]
      · simp only [arrSet]
        by_cases hji : j = i
        · subst hji; rw [if_pos rfl]
        · rw [if_neg hji]
          exact i2 j (by have : j.1 ≠ i.1 := fun h => hji (Fin.ext h); omega))
  unfold lexPoint
  rw [h1, Res.ok_bind]
  exact congrArg Res.ok (funext fun j => h3 j j.2)

/-- `lexicographic(index, points)` is the physical point of the reference point whose coordinates are the `points` numbered by the digits of
`index`, the first coordinate having the lowest digit. -/
theorem C45_lexicographic {q : Nat} (m : Mode) (e : HyEdge d s K) (index : Nat) (pts : Fin q → K) (digits : Fin (d + 1) → Fin q)
    (hindex : index = Spec.fromDigits q (List.ofFn fun j => (digits j : Nat))) :
    lexicographic m e index pts = mapPoint m e (fun j => pts (digits j)) := by
  have hq : 0 < q := Nat.lt_of_le_of_lt (Nat.zero_le _) (digits 0).2
  obtain ⟨h1, h2⟩ := fromDigits_digit (q := q) (d + 1) (fun j => digits j) (fun j => (digits j).2)
  unfold lexicographic
  rw [hyAssert_of (by rw [hindex]; exact h1), Res.ok_bind, lexPoint_spec hq, Res.ok_bind]
  congr 1
  funext j
  congr 1
  apply Fin.ext
  show index / q ^ (j : Nat) % q = digits j
  rw [hindex]
  exact h2 j

theorem insertBoundary_spec (m : Mode) (f : Fin (2 * (d + 1))) (scale : K) (sub : Fin d → K) :
    ∃ x, insertBoundary m f scale sub = .ok x ∧ x ⟨f / 2, by omega⟩ = scale * (((f % 2 : Nat) : K) - 1 / 2) + 1 / 2 ∧
      ∀ j, x ((⟨f / 2, by omega⟩ : Fin (d + 1)).succAbove j) = sub j := by
  have hlt : f.1 / 2 < d + 1 := by omega
  obtain ⟨st, h1, h2, h3⟩ := forFin_inv (d + 1) (fun dim (st : (Fin (d + 1) → K) × Nat) =>
      if f.1 / 2 = (dim : Nat) then
        Res.ok (arrSet st.1 dim (scale * (((f.1 % 2 : Nat) : K) - 1 / 2) + 1 / 2), st.2)
      else do
        let x ← vecGet m sub st.2
        return (arrSet st.1 dim x, st.2 + 1)) (fun _ => 0, 0)
    (fun i st => st.2 = (if f.1 / 2 < i then i - 1 else i) ∧
      (f.1 / 2 < i → st.1 ⟨f / 2, hlt⟩ = scale * (((f % 2 : Nat) : K) - 1 / 2) + 1 / 2) ∧
      ∀ j : Fin d, ((⟨f / 2, hlt⟩ : Fin (d + 1)).succAbove j).1 < i → st.1 ((⟨f / 2, hlt⟩ : Fin (d + 1)).succAbove j) = sub j)
    ⟨by simp, fun h => absurd h (Nat.not_lt_zero _), fun j hj => absurd hj (Nat.not_lt_zero _)⟩ (fun i st ⟨i1, i2, i3⟩ => by
      by_cases hi : f.1 / 2 = i.1
      · have hi' : i = ⟨f / 2, hlt⟩ := Fin.ext hi.symm
        refine ⟨_, if_pos hi, ?_, fun _ => ?_, fun j hj => ?_⟩
        · simp only
          rw [i1, if_neg (by omega), if_pos (by omega)]
          omega
        · simp only [arrSet]
          rw [if_pos hi'.symm]
        · have hne := Fin.succAbove_ne (⟨f / 2, hlt⟩ : Fin (d + 1)) j
          simp only [arrSet]
          rw [if_neg (by rw [hi']; exact hne)]
          apply i3
          have : ((⟨f / 2, hlt⟩ : Fin (d + 1)).succAbove j).1 ≠ i.1 := fun h => hne (Fin.ext (by rw [h, hi']))
          omega
      · have hpos : st.2 < d := by rw [i1]; split <;> omega
        refine ⟨(arrSet st.1 i (sub ⟨st.2, hpos⟩), st.2 + 1), ?_, ?_, fun h => ?_, fun j hj => ?_⟩
        · rw [if_neg hi, vecGet_lt m _ hpos, Res.ok_bind]
          rfl
        · simp only
          rw [i1]
          split <;> split <;> omega
        · simp only [arrSet]
          rw [if_neg (fun h' => hi (by rw [← h'])), i2 (by omega)]
        · simp only [arrSet]
          by_cases hji : (⟨f / 2, hlt⟩ : Fin (d + 1)).succAbove j = i
          · rw [if_pos hji]
            congr 1
            apply Fin.ext
            show st.2 = j.1
            rw [i1]
            have hv := congrArg Fin.val hji
            by_cases hlt' : j.1 < f / 2
            · rw [Fin.succAbove_of_castSucc_lt _ _ (by rw [Fin.lt_def]; exact hlt')] at hv
              simp only [Fin.val_castSucc] at hv
              rw [if_neg (by omega), hv]
            · rw [Fin.succAbove_of_le_castSucc _ _ (by rw [Fin.le_def]; simp only [Fin.val_castSucc]; omega)] at hv
              simp only [Fin.val_succ] at hv
              rw [if_pos (by omega)]
              omega
          · rw [if_neg hji]
            apply i3
            have : ((⟨f / 2, hlt⟩ : Fin (d + 1)).succAbove j).1 ≠ i.1 := fun h => hji (Fin.ext h)
            omega)
  refine ⟨st.1, ?_, h3.1 hlt, fun j => h3.2 j (Fin.is_lt _)⟩
  unfold insertBoundary
  rw [h1]
  rfl

/-- `boundary_lexicographic` with the number `q^d * f + r` of a point on face `f`: the coordinate across the face is that of the face, moved towards
the centre by the scale, and the others are numbered by the digits of `r`.  (Missing: what happens for a `boundary_number` that does not
fit the index; see `C45_boundary_negative`.) -/
theorem C45_boundary_partial {q : Nat} (m : Mode) (e : HyEdge d s K) (f : Fin (2 * (d + 1))) (r : Nat) (scale : K)
    (pts : Fin q → K) (hr : r < q ^ d) (hq : 0 < q) :
    ∃ x : Fin (d + 1) → K, boundary_lexicographic m e (q ^ d * f + r) f scale pts = mapPoint m e x ∧
      x ⟨f / 2, by omega⟩ = scale * (((f % 2 : Nat) : K) - 1 / 2) + 1 / 2 ∧
      ∀ j, x ((⟨f / 2, by omega⟩ : Fin (d + 1)).succAbove j) = pts ⟨r / q ^ (j : Nat) % q, Nat.mod_lt _ hq⟩ := by
  obtain ⟨x, h1, h2, h3⟩ := insertBoundary_spec m f scale (fun j : Fin d => pts ⟨r / q ^ (j : Nat) % q, Nat.mod_lt _ hq⟩)
  refine ⟨x, ?_, h2, h3⟩
  have hA : q ^ d * f.1 + r < q ^ d * (d + 1) * 2 := by
    calc q ^ d * f.1 + r < q ^ d * f.1 + q ^ d := by omega
      _ = q ^ d * (f.1 + 1) := by ring
      _ ≤ q ^ d * (2 * (d + 1)) := Nat.mul_le_mul_left _ f.2
      _ = _ := by ring
  unfold boundary_lexicographic
  rw [hyAssert_of hA, Res.ok_bind, if_neg (by omega), Nat.add_sub_cancel_left, lexPoint_spec hq, Res.ok_bind, h1, Res.ok_bind]

/-- With scale 1 the point lies on face `f` of the reference cube. -/
theorem C45_boundary_on_face_partial {q : Nat} (m : Mode) (e : HyEdge d s K) (f : Fin (2 * (d + 1))) (r : Nat)
    (pts : Fin q → K) (hpts : ∀ i, 0 ≤ pts i ∧ pts i ≤ 1) (hr : r < q ^ d) (hq : 0 < q) :
    ∃ x : Fin (d + 1) → K, boundary_lexicographic m e (q ^ d * f + r) f 1 pts = mapPoint m e x ∧ onFace f x := by
  have hlt : f.1 / 2 < d + 1 := by omega
  obtain ⟨x, h1, h2, h3⟩ := C45_boundary_partial m e f r 1 pts hr hq
  have h2' : x ⟨f / 2, hlt⟩ = ((f % 2 : Nat) : K) := by rw [h2]; ring
  refine ⟨x, h1, fun j => ?_, h2'⟩
  by_cases hj : j = ⟨f / 2, hlt⟩
  · rw [hj, h2']
    rcases Nat.mod_two_eq_zero_or_one f.1 with h0 | h0 <;> rw [h0] <;> simp
  · obtain ⟨l, rfl⟩ := Fin.exists_succAbove_eq hj
    rw [h3]
    exact hpts _

/-- If the index belongs to a lower face than the `boundary_number`, the difference computed as a floating point number is negative, and its conversion
to `unsigned int` undefined. -/
theorem C45_boundary_negative {q : Nat} (e : HyEdge d s K) (index f : Nat) (scale : K) (pts : Fin q → K) (m : Mode)
    (hindex : index < q ^ d * (d + 1) * 2) (hneg : index < q ^ d * f) :
    boundary_lexicographic m e index f scale pts = Res.ub := by
  unfold boundary_lexicographic
  rw [hyAssert_of hindex, Res.ok_bind, if_pos hneg]

/-- `face_barycenter` is the point in the middle between any point of the face and its opposite point in the face. -/
theorem C45_barycenter (hT : T.Lawful) (h : d + 1 ≤ s) (N : Fin s → Nat) (hN : ∀ i, 0 < N i) (hn : 0 < n)
    (hU : n ^ (d + 1) < U32) (m : Mode) (index : Nat)
    (hidx : index < T.size (⟨.both, N, h⟩ : Complex s (d + 1)) * n ^ (d + 1))
    (e : HyEdge d s K) (he : make m T ((UnitCube.mk' h N).set_refinement n) index = .ok e) (f : Fin (2 * (d + 1)))
    (x x' : Fin (d + 1) → K) (hx : onFace f x) (hx' : onFace f x') (hopp : ∀ j, j ≠ ⟨f / 2, by omega⟩ → x' j = 1 - x j) :
    ∃ y y' b, mapPoint m e x = .ok y ∧ mapPoint m e x' = .ok y' ∧ face_barycenter m e f = .ok b ∧ ∀ i, b i = (y i + y' i) / 2 := by
  obtain ⟨a, ha, h3, -⟩ := dims_spec hT h N hn hU m index hidx e he hN
  have hlt : f.1 / 2 < d + 1 := by omega
  let c : Fin (d + 1) → K := arrSet (fun _ => 1 / 2) ⟨f / 2, hlt⟩ (if f.1 % 2 ≠ 0 then 1 else 0)
  have hc : ∀ j, c j = (x j + x' j) / 2 := by
    intro j
    simp only [c, arrSet]
    by_cases hj : j = ⟨f / 2, hlt⟩
    · rw [if_pos hj, hj, hx.2, hx'.2]
      rcases Nat.mod_two_eq_zero_or_one f.1 with h0 | h0 <;> simp [h0]
    · rw [if_neg hj, hopp j hj]
      ring
  have hcr : inReference c := by
    intro j
    rw [hc j]
    have h1 := hx.1 j
    have h2 := hx'.1 j
    constructor
    · linarith
    · linarith
  refine ⟨_, _, fun i => e.translation i + ∑ j, if a j = i then c j * e.char_length j else 0, mapPoint_spec m e a h3 x (Or.inr hx.1),
    mapPoint_spec m e a h3 x' (Or.inr hx'.1), ?_, ?_⟩
  · unfold face_barycenter
    rw [hyAssert_of f.2, Res.ok_bind, vecSet_lt m _ hlt, Res.ok_bind]
    exact mapPoint_spec m e a h3 c (Or.inr hcr)
  · intro i
    have : (∑ j, if a j = i then c j * e.char_length j else 0) =
        ((∑ j, if a j = i then x j * e.char_length j else 0) + (∑ j, if a j = i then x' j * e.char_length j else 0)) / 2 := by
      rw [← Finset.sum_add_distrib, div_eq_mul_inv, Finset.sum_mul]
      apply Finset.sum_congr rfl
      intro j _
      split
      · rw [hc j]; ring
      · ring
    simp only [this]
    ring

/-- The version of `map_ref_to_phys` which overwrites its argument agrees with the other one if the directions of the hyperedge are numbered in
ascending order.  (Missing: it ignores the directions of the hyperedge, see `C45_in_place_differs`.) -/
theorem C45_in_place_partial {n_vec : Nat} (m : Mode) (e : HyEdge d (d + 1) K) (hdim : ∀ j, e.dim_indices j = j)
    (points : Fin n_vec → Fin (d + 1) → K) (hp : ∀ j, inReference (points j)) :
    map_ref_to_phys_in_place m e points = map_ref_to_phys m e points := by
  rw [map_ref_to_phys_spec m e id hdim points (Or.inr hp)]
  unfold map_ref_to_phys_in_place
  rw [hyAssert_of rfl, Res.ok_bind, hyAssert_of hp, Res.ok_bind]
  apply arrLoop'
  intro j pts hj
  have : forFin (d + 1) (fun i (x : Fin (d + 1) → K) => do
      let c ← vecGet m e.char_length i
      return arrSet x i (x i * c + e.translation i)) (pts j) =
        .ok (fun i => e.translation i + ∑ l, if id l = i then points j l * e.char_length l else 0) := by
    apply arrLoop'
    intro i x hx
    rw [vecGet_fin, Res.ok_bind, hx, hj]
    have : (∑ l, if id l = i then points j l * e.char_length l else 0) = points j i * e.char_length i := by
      simp only [id, Finset.sum_ite_eq', Finset.mem_univ, if_true]
    rw [this, add_comm (e.translation i)]
    rfl
  rw [this, Res.ok_bind]
  rfl

/-- The two versions of `map_ref_to_phys` differ if `tpcc` does not list directions in ascending order. -/
theorem C45_in_place_differs : revTpcc.Lawful ∧ ∃ e : HyEdge 1 2 ℚ, make .debug revTpcc (UnitCube.mk' (Nat.le_refl 2) ![1, 2]) 0 = .ok e ∧
    (do let y ← map_ref_to_phys .debug e (fun _ : Fin 1 => ![1, 0]); return (y 0 0, y 0 1) : Res _) = .ok (0, 1 / 2) ∧
    (do let y ← map_ref_to_phys_in_place .debug e (fun _ : Fin 1 => ![1, 0]); return (y 0 0, y 0 1) : Res _) = .ok (1 / 2, 0) := by
  refine ⟨revTpcc_lawful, ⟨fun _ => 0, ![1, 0], ![1 / 2, 1]⟩, ?_, ?_, ?_⟩
  · have := make_spec (K := ℚ) (n := 1) revTpcc_lawful .debug (Nat.le_refl 2) (N := ![1, 2]) (by decide) (by decide) (by decide) (index := 0)
      (by decide +kernel)
    refine Eq.trans this ?_
    have h1 : (revTpcc.elem (coarseElems (Nat.le_refl 2) ![1, 2]) 0) = ⟨![1, 0], ![0, 0]⟩ := by decide +kernel
    have h2 : refPos revTpcc 1 1 0 = ![0, 0] := by decide +kernel
    unfold edgeData
    simp only [Nat.zero_div, h1, h2]
    congr 2
    · funext i; fin_cases i <;> simp
    · funext i; fin_cases i <;> simp
    · funext i; fin_cases i <;> simp
  · decide +kernel
  · decide +kernel

/-! Concrete cases which meet the hypotheses of C33, C34 and C45: an edge in a grid of edges in three-dimensional space, refined into two parts. -/

/-- Grid of edges in space with 2 x 1 x 2 cells. -/
example : (∀ i, 0 < (![2, 1, 2] : Fin 3 → Nat) i) ∧ 2 ^ 1 < U32 ∧
    33 < lexTpcc.size (⟨.both, ![2, 1, 2], by omega⟩ : Complex 3 1) * 2 ^ 1 ∧
    lexTpcc.size (⟨.both, ![2, 1, 2], by omega⟩ : Complex 3 0) * 2 ^ 0
      + lexTpcc.size (⟨.both, ![2, 1, 2], by omega⟩ : Complex 3 1) * nInterior 0 2 < U32 := by decide +kernel

example : (do
    let e : HyEdge 0 3 ℚ ← make .debug lexTpcc ((UnitCube.mk' (by omega) ![2, 1, 2]).set_refinement 2) 33
    let y ← mapPoint .debug e (fun _ => 1)
    let o ← outer_normal .debug e 1
    let f ← inner_normal .debug e 0
    let a ← area e
    return (List.ofFn y, List.ofFn o, List.ofFn f, a) : Res _) =
  .ok ([1 / 2, 1, 1 / 2], [0, 0, 1], [0, -1, 0], 1 / 2) := by decide +kernel

end HyperHDG

import Mathlib.LinearAlgebra.Matrix.Orthogonal
import Mathlib.Data.Fintype.BigOperators
import Verif.Proofs.UnitTiling
import Verif.Props.Topology

/-!
# Properties of the geometry `UnitCube` (C33, C34)

`T` stands for the external library `tpcc`.  The geometry is given `N i` subdivisions in direction `i` of space, and a level `n` of refinement.
`inReference x` says that `x` is a point of the reference cube `[0,1]^(d+1)`; `mapPoint` is `map_ref_to_phys`.
-/

namespace HyperHDG

open Geometry Geometry.UnitCube Geometry.UnitCube.HyEdge

variable {T : Tpcc} {d s n : Nat} {K : Type} [Field K] [LinearOrder K] [IsStrictOrderedRing K]

variable (hT : T.Lawful) (h : d + 1 ≤ s) (N : Fin s → Nat) (hN : ∀ i, 0 < N i) (hn : 0 < n)
  (hU : n ^ (d + 1) < U32) (m : Mode) (index : Nat)
  (hidx : index < T.size (⟨.both, N, h⟩ : Complex s (d + 1)) * n ^ (d + 1))

include hT hN hn hU hidx in
/-- Each hyperedge of the geometry can be constructed: no assertion fails, no index is out of range, no division is by zero. -/
theorem C33_constructed : ∃ e : HyEdge d s K, make m T ((UnitCube.mk' h N).set_refinement n) index = .ok e :=
  ⟨_, make_spec hT m h hN hn hU hidx⟩

section Field

variable (e : HyEdge d s K) (he : make m T ((UnitCube.mk' h N).set_refinement n) index = .ok e)

include hT hN hn hU hidx he in
/-- Points of the reference cube are mapped to points of the unit cube of the surrounding space. -/
theorem C33_in_unit_cube (x : Fin (d + 1) → K) (hx : inReference x) :
    ∃ y, mapPoint m e x = .ok y ∧ ∀ i, 0 ≤ y i ∧ y i ≤ 1 := by
  rw [make_spec hT m h hN hn hU hidx] at he
  injection he with he
  subst he
  have hb := hT.elem_belongs (coarseElems h N) _ ((index_lt_iff (d := d) hn).1 hidx)
  have hinj := along_inj hb.canon
  obtain ⟨y, hy, hL⟩ := edge_map m h hN hn index x (Or.inr hx) rfl hinj
  refine ⟨y, hy, fun i => ?_⟩
  have hn' : (0 : K) < n := by exact_mod_cast hn
  have hN' : (0 : K) < N i := by exact_mod_cast hN i
  have hlo : (0 : K) ≤ (n : K) * (N i : K) ∧ (0 : K) < n * N i := ⟨(mul_pos hn' hN').le, mul_pos hn' hN'⟩
  have key : 0 ≤ (n : K) * (N i * y i) ∧ (n : K) * (N i * y i) ≤ n * N i := by
    by_cases hi : ∃ j, (T.elem (coarseElems h N) (index / n ^ (d + 1))).along j = i
    · obtain ⟨j, rfl⟩ := hi
      rw [hL.1 j]
      have h1 := hb.inside j
      have h2 := refPos_lt (d := d) hT hn index j
      have h3 : n * (T.elem (coarseElems h N) (index / n ^ (d + 1))).coord ((T.elem (coarseElems h N) (index / n ^ (d + 1))).along j)
          + refPos T d n index j + 1 ≤ n * N ((T.elem (coarseElems h N) (index / n ^ (d + 1))).along j) := by
        calc _ ≤ n * (T.elem (coarseElems h N) (index / n ^ (d + 1))).coord ((T.elem (coarseElems h N) (index / n ^ (d + 1))).along j) + n := by omega
          _ = n * ((T.elem (coarseElems h N) (index / n ^ (d + 1))).coord ((T.elem (coarseElems h N) (index / n ^ (d + 1))).along j) + 1) := by ring
          _ ≤ _ := Nat.mul_le_mul_left _ h1
      have h4 : ((n * (T.elem (coarseElems h N) (index / n ^ (d + 1))).coord ((T.elem (coarseElems h N) (index / n ^ (d + 1))).along j)
          + refPos T d n index j : ℕ) : K) + 1 ≤ (n : K) * N ((T.elem (coarseElems h N) (index / n ^ (d + 1))).along j) := by
        exact_mod_cast h3
      exact ⟨add_nonneg (Nat.cast_nonneg _) (hx j).1, by linarith [(hx j).2]⟩
    · rw [hL.2 i (fun j hj => hi ⟨j, hj⟩)]
      have h1 : (T.elem (coarseElems h N) (index / n ^ (d + 1))).coord i ≤ N i := hb.flat i (fun j hj => hi ⟨j, hj⟩)
      exact ⟨Nat.cast_nonneg _, by exact_mod_cast Nat.mul_le_mul_left n h1⟩
  have e1 : (n : K) * (N i * y i) = (n * N i) * y i := by ring
  rw [e1] at key
  exact ⟨nonneg_of_mul_nonneg_right key.1 hlo.2, by
    by_contra hcon
    have := mul_lt_mul_of_pos_left (lt_of_not_ge hcon) hlo.2
    linarith [key.2]⟩

include hT hN hn hU hidx he in
/-- Moving from face `2j` to the opposite face moves the physical point by `char_length j > 0` in the coordinate direction `a j`; these directions
are different; the `area` is the product of these lengths, and a `face_area` the product of the lengths in the other directions. -/
theorem C33_area : ∃ (a : Fin (d + 1) → Fin s) (l : Fin (d + 1) → K), Function.Injective a ∧ (∀ j, 0 < l j) ∧
    (∀ (x : Fin (d + 1) → K) (y y' : Fin s → K) (j : Fin (d + 1)), inReference x → mapPoint m e (Function.update x j 0) = .ok y → mapPoint m e (Function.update x j 1) = .ok y' →
      ∀ i, y' i - y i = if i = a j then l j else 0) ∧
    area e = .ok (∏ j, l j) ∧
    ∀ f : Fin (2 * (d + 1)), face_area m e f = .ok (∏ j : Fin (d + 1), if (j : Nat) = f / 2 then 1 else l j) := by
  rw [make_spec hT m h hN hn hU hidx] at he
  injection he with he
  subst he
  have hb := hT.elem_belongs (coarseElems h N) _ ((index_lt_iff (d := d) hn).1 hidx)
  have hinj := along_inj hb.canon
  refine ⟨(T.elem (coarseElems h N) (index / n ^ (d + 1))).along, (edgeData (K := K) T h N n index).char_length, hinj, fun j => ?_, ?_, ?_, fun f => ?_⟩
  · have hn' : (0 : K) < n := by exact_mod_cast hn
    have hN' : (0 : K) < N ((T.elem (coarseElems h N) (index / n ^ (d + 1))).along j) := by exact_mod_cast hN _
    exact div_pos (one_div_pos.2 hN') hn'
  · intro x y y' j hx hy hy' i
    have hx0 : inReference (Function.update x j 0) := by
      intro l
      by_cases hl : l = j
      · subst hl; simp
      · rw [Function.update_of_ne hl]; exact hx l
    have hx1 : inReference (Function.update x j 1) := by
      intro l
      by_cases hl : l = j
      · subst hl; simp
      · rw [Function.update_of_ne hl]; exact hx l
    rw [mapPoint_spec m _ _ (fun j => rfl) _ (Or.inr hx0)] at hy
    rw [mapPoint_spec m _ _ (fun j => rfl) _ (Or.inr hx1)] at hy'
    injection hy with hy
    injection hy' with hy'
    subst hy hy'
    simp only [add_sub_add_left_eq_sub, ← Finset.sum_sub_distrib]
    rw [Finset.sum_eq_single j]
    · by_cases hi : i = (T.elem (coarseElems h N) (index / n ^ (d + 1))).along j
      · rw [if_pos hi.symm, if_pos hi.symm, if_pos hi]; simp
      · rw [if_neg (fun h => hi h.symm), if_neg (fun h => hi h.symm), if_neg hi]; simp
    · intro l _ hl
      rw [Function.update_of_ne hl, Function.update_of_ne hl, sub_self]
    · intro hj; exact absurd (Finset.mem_univ _) hj
  · exact prodLoop' _
  · unfold face_area
    rw [hyAssert_of f.2, Res.ok_bind, prodLoop_if (fun dim => (edgeData (K := K) T h N n index).char_length dim) (fun dim => (dim : Nat) ≠ f / 2)]
    congr 1
    apply Finset.prod_congr rfl
    intro j _
    by_cases hj : (j : Nat) = f / 2
    · rw [if_neg (not_not.2 hj), if_pos hj]
    · rw [if_pos hj, if_neg hj]

include hT hn hU in
/-- If the hyperedges have the dimension of space, their areas are those of a partition of the unit cube: they add up to 1. -/
theorem C33_total_area (N : Fin (d + 1) → Nat) (hN : ∀ i, 0 < N i) :
    ∃ a : Fin (T.size (⟨.both, N, Nat.le_refl _⟩ : Complex (d + 1) (d + 1)) * n ^ (d + 1)) → K,
      (∀ index : Fin _, ∃ e : HyEdge d (d + 1) K, make m T ((UnitCube.mk' (Nat.le_refl _) N).set_refinement n) index = .ok e ∧
        area e = .ok (a index)) ∧ ∑ index, a index = 1 := by
  refine ⟨fun _ => 1 / ((∏ i, (N i : K)) * n ^ (d + 1)), fun index => ⟨_, make_spec hT m (Nat.le_refl _) hN hn hU index.2, ?_⟩, ?_⟩
  · have hb := hT.elem_belongs (coarseElems (Nat.le_refl _) N) _ ((index_lt_iff (d := d) hn).1 index.2)
    have hinj := along_inj hb.canon
    refine (prodLoop' _).trans (congrArg Res.ok ?_)
    show (∏ j, 1 / (N ((T.elem (coarseElems (Nat.le_refl _) N) (index / n ^ (d + 1))).along j) : K) / n) = _
    have hbij : Function.Bijective (T.elem (coarseElems (Nat.le_refl _) N) (index / n ^ (d + 1))).along := ⟨hinj, along_surj hinj⟩
    rw [hbij.prod_comp (fun i => 1 / (N i : K) / n), Finset.prod_div_distrib, Finset.prod_div_distrib]
    simp only [Finset.prod_const_one, Finset.prod_const, Finset.card_univ, Fintype.card_fin, div_div]
  · have hn' : (n : K) ≠ 0 := natCast_ne hn
    have hN' : ∏ i, (N i : K) ≠ 0 := Finset.prod_ne_zero_iff.2 (fun i _ => natCast_ne (hN i))
    rw [Finset.sum_const, Finset.card_univ, Fintype.card_fin, size_full hT, nsmul_eq_mul]
    push_cast
    field_simp

include hT hn hU in
/-- If the hyperedges have the dimension of space, every point of the unit cube is in some hyperedge. -/
theorem C33_covers (N : Fin (d + 1) → Nat) (hN : ∀ i, 0 < N i) (y : Fin (d + 1) → K) (hy : ∀ i, 0 ≤ y i ∧ y i ≤ 1) :
    ∃ index < T.size (⟨.both, N, Nat.le_refl _⟩ : Complex (d + 1) (d + 1)) * n ^ (d + 1), ∃ (e : HyEdge d (d + 1) K) (x : Fin (d + 1) → K),
      make m T ((UnitCube.mk' (Nat.le_refl _) N).set_refinement n) index = .ok e ∧ inReference x ∧ mapPoint m e x = .ok y := by
  have hn' : (0 : K) < n := by exact_mod_cast hn
  have hN' : ∀ i, (0 : K) < N i := fun i => by exact_mod_cast hN i
  have h1 : ∀ i, ∃ c : Nat, c < N i ∧ (c : K) ≤ N i * y i ∧ N i * y i ≤ c + 1 := fun i =>
    exists_step (N i) (hN i) _ (mul_nonneg (hN' i).le (hy i).1) (by
      have := mul_le_mul_of_nonneg_left (hy i).2 (hN' i).le
      linarith)
  choose c hc1 hc2 hc3 using h1
  obtain ⟨r0, hr0, hr0'⟩ := exists_full' hT (coarseElems (Nat.le_refl (d + 1)) N) c hc1
  have hinj := along_inj hr0.canon
  have h2 : ∀ j, ∃ p : Nat, p < n ∧ (p : K) ≤ n * (N (r0.along j) * y (r0.along j) - c (r0.along j)) ∧
      n * (N (r0.along j) * y (r0.along j) - c (r0.along j)) ≤ p + 1 := fun j =>
    exists_step n hn _ (mul_nonneg hn'.le (by linarith [hc2 (r0.along j)])) (by
      have := mul_le_mul_of_nonneg_left (show (N (r0.along j) : K) * y (r0.along j) - c (r0.along j) ≤ 1 by linarith [hc3 (r0.along j)]) hn'.le
      linarith)
  choose p hp1 hp2 hp3 using h2
  obtain ⟨r, hr, hr'⟩ := exists_sub hT p hp1
  obtain ⟨index, hi1, hi2⟩ := exists_index (d := d) hT hn (E := T.index _ r0) hr
  have hidx : index < T.size (coarseElems (Nat.le_refl (d + 1)) N) * n ^ (d + 1) :=
    (index_lt_iff hn).2 (by rw [hi1]; exact hT.index_lt _ _ hr0)
  have helem : T.elem (coarseElems (Nat.le_refl (d + 1)) N) (index / n ^ (d + 1)) = r0 := by
    rw [hi1]; exact hT.elem_index _ _ hr0
  have hpos : refPos T d n index = p := by rw [refPos_eq, hi2, hr']
  let x : Fin (d + 1) → K := fun j => n * (N (r0.along j) * y (r0.along j) - c (r0.along j)) - p j
  have hx : inReference x := fun j => ⟨by simp only [x]; linarith [hp2 j], by simp only [x]; linarith [hp3 j]⟩
  refine ⟨index, hidx, _, x, make_spec hT m (Nat.le_refl _) hN hn hU hidx, hx, ?_⟩
  rw [mapPoint_spec m _ _ (fun j => rfl) x (Or.inr hx)]
  congr 1
  have hL := edge_lattice (T := T) (n := n) (Nat.le_refl (d + 1)) hN hn index x (by rw [helem]; exact hinj) _ rfl
  funext i
  obtain ⟨j, rfl⟩ := along_surj hinj i
  have h3 := hL.1 j
  simp only [helem, hpos, hr0'] at h3
  simp only [helem]
  have h4 : (n : K) * (N (r0.along j) * y (r0.along j)) = ((n * c (r0.along j) + p j : ℕ) : K) + x j := by
    simp only [x]
    push_cast
    ring
  rw [← h4] at h3
  exact mul_left_cancel₀ (hN' (r0.along j)).ne' (mul_left_cancel₀ hn'.ne' h3)

include hT hN hn hU hidx he in
/-- Hyperedges do not overlap: no point strictly inside one hyperedge is strictly inside another one. -/
theorem C33_disjoint (index' : Nat) (hidx' : index' < T.size (⟨.both, N, h⟩ : Complex s (d + 1)) * n ^ (d + 1)) (e' : HyEdge d s K)
    (he' : make m T ((UnitCube.mk' h N).set_refinement n) index' = .ok e') (x x' : Fin (d + 1) → K)
    (hx : ∀ j, 0 < x j ∧ x j < 1) (hx' : ∀ j, 0 < x' j ∧ x' j < 1) (y : Fin s → K) (hy : mapPoint m e x = .ok y)
    (hy' : mapPoint m e' x' = .ok y) : index = index' := by
  rw [make_spec hT m h hN hn hU hidx] at he
  rw [make_spec hT m h hN hn hU hidx'] at he'
  injection he with he
  injection he' with he'
  subst he he'
  have hE := (index_lt_iff (d := d) hn).1 hidx
  have hE' := (index_lt_iff (d := d) hn).1 hidx'
  have hb := hT.elem_belongs (coarseElems h N) _ hE
  have hb' := hT.elem_belongs (coarseElems h N) _ hE'
  have hj := along_inj hb.canon
  have hj' := along_inj hb'.canon
  rw [mapPoint_spec m _ _ (fun j => rfl) x (Or.inr (fun j => ⟨(hx j).1.le, (hx j).2.le⟩))] at hy
  rw [mapPoint_spec m _ _ (fun j => rfl) x' (Or.inr (fun j => ⟨(hx' j).1.le, (hx' j).2.le⟩))] at hy'
  injection hy with hy
  injection hy' with hy'
  have hL := edge_lattice (T := T) h hN hn index x hj y hy.symm
  have hL' := edge_lattice (T := T) h hN hn index' x' hj' y hy'.symm
  generalize hr : T.elem (coarseElems h N) (index / n ^ (d + 1)) = r at hb hj hL
  generalize hr' : T.elem (coarseElems h N) (index' / n ^ (d + 1)) = r' at hb' hj' hL'
  have hal := canon_unique hT hb.canon hb'.canon (Set.Subset.antisymm (by
    rintro _ ⟨j, rfl⟩
    by_contra hcon
    have a := hL.1 j
    rw [hL'.2 _ (fun l hl => hcon ⟨l, hl⟩)] at a
    exact lattice_ne (hx j).1 (hx j).2 a.symm) (by
    rintro _ ⟨j, rfl⟩
    by_contra hcon
    have a := hL'.1 j
    rw [hL.2 _ (fun l hl => hcon ⟨l, hl⟩)] at a
    exact lattice_ne (hx' j).1 (hx' j).2 a.symm))
  have hp : ∀ j, r.coord (r'.along j) = r'.coord (r'.along j) ∧ refPos T d n index j = refPos T d n index' j := by
    intro j
    have a := hL.1 j
    have b := hL'.1 j
    rw [congrFun hal j] at a
    rw [a] at b
    exact mul_add_cancel (refPos_lt hT hn _ _) (refPos_lt hT hn _ _) (lattice_eq (hx j).1 (hx j).2 (hx' j).1 (hx' j).2 b)
  refine index_unique hT hn ?_ (funext fun j => (hp j).2)
  have hre : r = r' := by
    refine elem_ext hal (funext fun i => ?_)
    by_cases hi : ∃ j, r'.along j = i
    · obtain ⟨j, rfl⟩ := hi
      exact (hp j).1
    · have a := hL.2 i (fun j hj => hi ⟨j, by rw [← hal]; exact hj⟩)
      rw [hL'.2 i (fun j hj => hi ⟨j, hj⟩)] at a
      exact (Nat.eq_of_mul_eq_mul_left hn (by exact_mod_cast a)).symm
  rw [← hT.index_elem _ _ hE, ← hT.index_elem _ _ hE', hr, hr', hre]

end Field

/-! The hyperedges of the geometry are those of the topology. -/

theorem cell_image (hT : T.Lawful) (h : d + 1 ≤ s) (N : Fin s → Nat) (hN : ∀ i, 0 < N i) (hn : 0 < n) (m : Mode) (index : Nat)
    (hidx : index < T.size (coarseElems h N) * n ^ (d + 1)) (S : Set (Fin (d + 1) → ℚ)) (hS : ∀ x ∈ S, inReference x) :
    {y | ∃ x ∈ S, mapPoint m (edgeData (K := ℚ) T h N n index) x = .ok y} =
      {y | (fun i => (N i : ℚ) * y i) ∈ (T.elem (coarseElems h N) (index / n ^ (d + 1))).place ''
        {z | (fun j => n * z j - refPos T d n index j) ∈ S}} := by
  have hn' : (n : ℚ) ≠ 0 := natCast_ne hn
  have hb := hT.elem_belongs (coarseElems h N) _ ((index_lt_iff (d := d) hn).1 hidx)
  have hinj := along_inj hb.canon
  have key : ∀ x ∈ S, ∀ y, mapPoint m (edgeData (K := ℚ) T h N n index) x = .ok y →
      (T.elem (coarseElems h N) (index / n ^ (d + 1))).place (fun j => ((refPos T d n index j : ℚ) + x j) / n) = fun i => N i * y i := by
    intro x hx y hy
    obtain ⟨y', hy', hL⟩ := edge_map m h hN hn index x (Or.inr (hS x hx)) rfl hinj
    rw [hy] at hy'
    injection hy' with hy'
    subst hy'
    funext i
    apply mul_left_cancel₀ hn'
    by_cases hi : ∃ j, (T.elem (coarseElems h N) (index / n ^ (d + 1))).along j = i
    · obtain ⟨j, rfl⟩ := hi
      rw [hL.1 j, place_along hinj]
      push_cast
      field_simp
      ring
    · rw [hL.2 i (fun j hj => hi ⟨j, hj⟩), place_out _ i (fun j hj => hi ⟨j, hj⟩)]
      push_cast
      ring
  ext y
  constructor
  · rintro ⟨x, hx, hy⟩
    refine ⟨_, ?_, key x hx y hy⟩
    have : (fun j => (n : ℚ) * (((refPos T d n index j : ℚ) + x j) / n) - refPos T d n index j) = x := by
      funext j
      field_simp
      ring_nf
    show _ ∈ S
    rw [this]
    exact hx
  · rintro ⟨z, hz, hzy⟩
    refine ⟨_, hz, ?_⟩
    obtain ⟨y', hy', -⟩ := edge_map m h hN hn index _ (Or.inr (hS _ hz)) rfl hinj
    have := key _ hz y' hy'
    have hz' : (fun j => ((refPos T d n index j : ℚ) + ((n : ℚ) * z j - refPos T d n index j)) / n) = z := by
      funext j
      field_simp
      ring_nf
    rw [hz', hzy] at this
    rw [hy']
    congr 1
    funext i
    exact (mul_left_cancel₀ (natCast_ne (hN i)) (congrFun this i)).symm

section Rational

variable (e : HyEdge d s ℚ) (he : make m T ((UnitCube.mk' h N).set_refinement n) index = .ok e)

theorem sub_iff (hn : 0 < n) (p : Nat) (z : ℚ) : ((p : ℚ) / n ≤ z ∧ z ≤ (p + 1) / n) ↔ 0 ≤ n * z - p ∧ n * z - p ≤ 1 := by
  have hn' : (0 : ℚ) < n := by exact_mod_cast hn
  rw [div_le_iff₀ hn', le_div_iff₀ hn']
  constructor
  · rintro ⟨a, b⟩; constructor <;> linarith
  · rintro ⟨a, b⟩; constructor <;> linarith

include hT hN hn hU hidx he in
/-- The points of hyperedge `index` of the geometry are those of the cell with this number in the grid which the topology describes (there,
coarse cells have size 1, here they have size `1 / N i` in direction `i`). -/
theorem C33_cell : {y | ∃ x, inReference x ∧ mapPoint m e x = .ok y} = {y | (fun i => (N i : ℚ) * y i) ∈ cubicCell T h N n index} := by
  rw [make_spec hT m h hN hn hU hidx] at he
  injection he with he
  subst he
  have := cell_image hT h N hN hn m index hidx {x | inReference x} (fun x hx => hx)
  refine this.trans ?_
  unfold cubicCell subCube
  simp only [sub_iff hn]
  rfl

include hT hN hn hU hidx he in
/-- The same for the faces. -/
theorem C33_face (f : Fin (2 * (d + 1))) :
    {y | ∃ x, (inReference x ∧ x ⟨f / 2, by omega⟩ = ((f % 2 : Nat) : ℚ)) ∧ mapPoint m e x = .ok y} =
      {y | (fun i => (N i : ℚ) * y i) ∈ cubicFace T h N n index f} := by
  rw [make_spec hT m h hN hn hU hidx] at he
  injection he with he
  subst he
  have := cell_image hT h N hN hn m index hidx {x | inReference x ∧ x ⟨f / 2, by omega⟩ = ((f % 2 : Nat) : ℚ)} (fun x hx => hx.1)
  refine this.trans ?_
  unfold cubicFace subFace subCube
  have hn' : (n : ℚ) ≠ 0 := natCast_ne hn
  have h1 : ∀ (p q : Nat) (z : ℚ), z = ((p + q : Nat) : ℚ) / n ↔ n * z - p = q := by
    intro p q z
    rw [eq_div_iff hn']
    push_cast
    constructor
    · intro h; linarith
    · intro h; linarith
  simp only [Set.mem_ofPred_eq, sub_iff hn, h1]
  rfl

include hT hN hn hU hidx he in
/-- Two faces of hyperedges are the same set of points in physical space exactly if the topology gives them the same hypernode. -/
theorem C33_hypernodes (hE : T.size (⟨.both, N, h⟩ : Complex s (d + 1)) * n ^ (d + 1) < U32)
    (hNo : T.size (⟨.both, N, Nat.le_of_succ_le h⟩ : Complex s d) * n ^ d
      + T.size (⟨.both, N, h⟩ : Complex s (d + 1)) * nInterior d n < U32)
    (index' : Nat) (hidx' : index' < T.size (⟨.both, N, h⟩ : Complex s (d + 1)) * n ^ (d + 1)) (e' : HyEdge d s ℚ)
    (he' : make m T ((UnitCube.mk' h N).set_refinement n) index' = .ok e') (nodes nodes' : FaceArr d)
    (hnodes : ((Topology.Cubic.mk' T h N).set_refinement T n).get_hyNode_indices m T index = .ok nodes)
    (hnodes' : ((Topology.Cubic.mk' T h N).set_refinement T n).get_hyNode_indices m T index' = .ok nodes')
    (f f' : Fin (2 * (d + 1))) :
    nodes f = nodes' f' ↔
      {y | ∃ x, (inReference x ∧ x ⟨f / 2, by omega⟩ = ((f % 2 : Nat) : ℚ)) ∧ mapPoint m e x = .ok y} =
      {y | ∃ x, (inReference x ∧ x ⟨f' / 2, by omega⟩ = ((f' % 2 : Nat) : ℚ)) ∧ mapPoint m e' x = .ok y} := by
  have hc := C24_cubic_counts hT h N hn hE hNo
  rw [C25_cubic_conforming hT h N hn hE hNo m index index' (by rw [hc.1]; exact hidx) (by rw [hc.1]; exact hidx') nodes nodes' hnodes hnodes' f f',
    C33_face hT h N hN hn hU m index hidx e he f, C33_face hT h N hN hn hU m index' hidx' e' he' f']
  constructor
  · intro heq; rw [heq]
  · intro heq
    ext w
    have := Set.ext_iff.1 heq (fun i => w i / N i)
    simp only [Set.mem_ofPred_eq] at this
    have hw : (fun i => (N i : ℚ) * (w i / N i)) = w := funext fun i => mul_div_cancel₀ _ (natCast_ne (hN i))
    rwa [hw] at this

end Rational

end HyperHDG

import Mathlib.Algebra.BigOperators.Ring.Finset
import Mathlib.Algebra.BigOperators.Fin
import Verif.Proofs.UnitCube

/-! Helper lemmas: functions of `Geometry::UnitCube::hyEdge`. -/

set_option linter.unusedSectionVars false

namespace HyperHDG

open Geometry Geometry.UnitCube Geometry.UnitCube.HyEdge

variable {T : Tpcc} {d s n k : Nat} {K : Type} {α : Type} [Field K] [LinearOrder K] [IsStrictOrderedRing K]

theorem sum_if_succ {D : Nat} (a : Fin D → Fin s) (f : Fin D → K) (i : Fin s) (k : Fin D) :
    (∑ j, if j.1 < k.1 + 1 ∧ a j = i then f j else 0) = (∑ j, if j.1 < k.1 ∧ a j = i then f j else 0) + if a k = i then f k else 0 := by
  have : (if a k = i then f k else 0) = ∑ j, if j = k then (if a j = i then f j else 0) else 0 := by
    rw [Finset.sum_ite_eq' Finset.univ k]; simp
  rw [this, ← Finset.sum_add_distrib]
  apply Finset.sum_congr rfl
  intro j _
  by_cases hj : j = k
  · subst hj
    simp only [Nat.lt_succ_self, true_and, Nat.lt_irrefl, false_and, if_true, if_false, zero_add]
  · have h1 : j.1 ≠ k.1 := fun h => hj (Fin.ext h)
    have h2 : j.1 < k.1 + 1 ↔ j.1 < k.1 := by omega
    simp only [hj, if_false, add_zero, h2]

theorem accLoop {D : Nat} (m : Mode) (a : Fin D → Fin s) (di : Fin D → Nat) (hdi : ∀ j, di j = a j) (f : Fin D → K) (y0 : Fin s → K) :
    forFin D (fun i (y : Fin s → K) => do
      let t ← vecGet m y (di i)
      vecSet m y (di i) (t + f i)) y0 = .ok (fun i => y0 i + ∑ j, if a j = i then f j else 0) := by
  obtain ⟨y, h1, h2⟩ := forFin_inv D (fun i (y : Fin s → K) => do
      let t ← vecGet m y (di i)
      vecSet m y (di i) (t + f i)) y0
    (fun k y => ∀ i, y i = y0 i + ∑ j, if j.1 < k ∧ a j = i then f j else 0)
    (fun i => by simp) (fun k t ht => by
      refine ⟨arrSet t (a k) (t (a k) + f k), by rw [hdi, vecGet_fin, Res.ok_bind, vecSet_fin], fun i => ?_⟩
      rw [sum_if_succ, ← add_assoc, ← ht i]
      by_cases hi : i = a k
      · subst hi; simp only [arrSet, if_pos]
      · simp only [arrSet, if_neg hi, if_neg (fun h => hi (Eq.symm h)), add_zero])
  rw [h1]
  congr 1
  funext i
  rw [h2 i]
  congr 1
  apply Finset.sum_congr rfl
  intro j _
  simp only [j.2, true_and]

/-- Data of a refined hyperedge. -/
def edgeData (T : Tpcc) (h : d + 1 ≤ s) (N : Fin s → Nat) (n index : Nat) : HyEdge d s K :=
  let e := T.elem (coarseElems h N) (index / n ^ (d + 1))
  ⟨fun i => (e.coord i : K) / N i + ∑ j, if e.along j = i then (refPos T d n index j : K) * (1 / (N (e.along j) : K) / n) else 0,
   fun j => e.along j, fun j => 1 / (N (e.along j) : K) / n⟩

theorem adapt_data_spec (m : Mode) (hn : 0 < n) (r : Elem (d + 1) (d + 1)) (t0 : Fin s → K) (a : Fin (d + 1) → Fin s) (l0 : Fin (d + 1) → K) :
    adapt_data m n r ⟨t0, fun j => a j, l0⟩ =
      .ok ⟨fun i => t0 i + ∑ j, if a j = i then (r.coord (r.along j) : K) * (l0 j / n) else 0, fun j => a j, fun j => l0 j / n⟩ := by
  obtain ⟨e, h1, h2, h3, h4⟩ := forFin_inv (d + 1) (fun dim (e : HyEdge d s K) => do
      let c ← fdiv (e.char_length dim) (n : K)
      let x ← Wrapper.interior_coordinate m r dim
      let t ← vecGet m e.translation (e.dim_indices dim)
      let tr ← vecSet m e.translation (e.dim_indices dim) (t + (x : K) * c)
      return { e with
        char_length := arrSet e.char_length dim c
        translation := tr }) ⟨t0, fun j => a j, l0⟩
    (fun k e => (∀ i, e.translation i = t0 i + ∑ j : Fin (d + 1), if j.1 < k ∧ a j = i then (r.coord (r.along j) : K) * (l0 j / n) else 0) ∧
      e.dim_indices = (fun j => (a j : Nat)) ∧ ∀ j : Fin (d + 1), e.char_length j = if j.1 < k then l0 j / n else l0 j)
    ⟨fun i => by simp, rfl, fun j => by simp⟩
    (fun k t ⟨i1, i2, i3⟩ => by
      have hx : Wrapper.interior_coordinate m r k = .ok (r.coord (r.along k)) := by
        unfold Wrapper.interior_coordinate
        rw [hyAssert_of k.2, Res.ok_bind, dif_pos k.2]; rfl
      have hl : t.char_length k = l0 k := by rw [i3]; simp
      refine ⟨⟨arrSet t.translation (a k) (t.translation (a k) + (r.coord (r.along k) : K) * (l0 k / n)), t.dim_indices,
        arrSet t.char_length k (l0 k / n)⟩, ?_, fun i => ?_, i2, fun j => ?_⟩
      · rw [fdiv_of_ne (natCast_ne hn), Res.ok_bind, hx, Res.ok_bind, i2, vecGet_fin, Res.ok_bind, vecSet_fin, hl, Res.ok_bind]
        rw [← i2]
        rfl
      · rw [sum_if_succ, ← add_assoc, ← i1 i]
        by_cases hi : i = a k
        · subst hi; simp only [arrSet, if_pos]
        · simp only [arrSet, if_neg hi, if_neg (fun h => hi (Eq.symm h)), add_zero]
      · by_cases hj : j = k
        · subst hj; simp [arrSet]
        · have h1 : j.1 ≠ k.1 := fun h => hj (Fin.ext h)
          have h2 : j.1 < k.1 + 1 ↔ j.1 < k.1 := by omega
          simp only [arrSet, if_neg hj, i3, h2])
  unfold adapt_data
  rw [h1]
  obtain ⟨tr, di, cl⟩ := e
  simp only at h2 h3 h4
  congr 2
  · funext i
    rw [h2 i]
    congr 1
    exact Finset.sum_congr rfl (fun j _ => by simp only [j.2, true_and])
  · funext j
    rw [h4 j, if_pos j.2]

theorem make_spec (hT : T.Lawful) (m : Mode) (h : d + 1 ≤ s) {N : Fin s → Nat} (hN : ∀ i, 0 < N i) (hn : 0 < n)
    (hU : n ^ (d + 1) < U32) {index : Nat} (hidx : index < T.size (coarseElems h N) * n ^ (d + 1)) :
    make (K := K) m T ((UnitCube.mk' h N).set_refinement n) index = .ok (edgeData T h N n index) := by
  have hEd := (index_lt_iff (d := d) hn).1 hidx
  have hpow : ((UnitCube.mk' h N).set_refinement n).n_loc_ref_elem = n ^ (d + 1) := by
    show Hypercube.pow (d + 1) n = _
    rw [Hypercube.pow_eq, Nat.mod_eq_of_lt hU]
  have hpos := Nat.pow_pos (n := d + 1) hn
  unfold make
  rw [hpow, udiv, if_neg hpos.ne', Res.ok_bind]
  have he : Wrapper.get_element m T ((UnitCube.mk' h N).set_refinement n).tpcc_elements (index / n ^ (d + 1)) =
      .ok (T.elem (coarseElems h N) (index / n ^ (d + 1))) := get_element_lt m (coarseElems h N) hEd
  have hr : Wrapper.get_element m T ((UnitCube.mk' h N).set_refinement n).tpcc_ref_elem (index % n ^ (d + 1)) =
      .ok (subElem T d n index) := get_element_lt m (refElem d n) (by rw [size_refElem hT]; exact Nat.mod_lt _ hpos)
  rw [he, Res.ok_bind, umod, if_neg hpos.ne', Res.ok_bind, hr, Res.ok_bind]
  have hf := fill_data_spec (K := K) hT m hN (hT.elem_belongs (coarseElems h N) _ hEd)
  have hf' : fill_data (K := K) m T ((UnitCube.mk' (d := d) h N).set_refinement n).n_elements (d + 1) 0
      (T.elem (coarseElems h N) (index / n ^ (d + 1))) init = _ := hf
  rw [hf', Res.ok_bind]
  exact adapt_data_spec m hn _ _ _ _

theorem mapColumn_spec (m : Mode) (e : HyEdge d s K) (a : Fin (d + 1) → Fin s) (ha : ∀ j, e.dim_indices j = a j) (x : Fin (d + 1) → K) :
    mapColumn m e x = .ok (fun i => e.translation i + ∑ j, if a j = i then x j * e.char_length j else 0) :=
  accLoop m a e.dim_indices ha (fun i => x i * e.char_length i) e.translation

theorem map_ref_to_phys_spec {n_vec : Nat} (m : Mode) (e : HyEdge d s K) (a : Fin (d + 1) → Fin s) (ha : ∀ j, e.dim_indices j = a j)
    (points : Fin n_vec → Fin (d + 1) → K) (hp : m = .release ∨ ∀ j, inReference (points j)) :
    map_ref_to_phys m e points = .ok (fun l i => e.translation i + ∑ j, if a j = i then points l j * e.char_length j else 0) := by
  unfold map_ref_to_phys
  have hA : hyAssert m (∀ j, inReference (points j)) = .ok () := by
    rcases hp with rfl | hp
    · rfl
    · exact hyAssert_of hp
  rw [hA, Res.ok_bind]
  apply arrLoop'
  intro l y _
  rw [mapColumn_spec m e a ha]
  rfl

theorem mapPoint_spec (m : Mode) (e : HyEdge d s K) (a : Fin (d + 1) → Fin s) (ha : ∀ j, e.dim_indices j = a j) (x : Fin (d + 1) → K)
    (hp : m = .release ∨ inReference x) :
    mapPoint m e x = .ok (fun i => e.translation i + ∑ j, if a j = i then x j * e.char_length j else 0) := by
  unfold mapPoint
  rw [map_ref_to_phys_spec m e a ha _ (hp.imp id (fun h _ => h))]
  rfl

/-- Physical points of a refined hyperedge, in units of the coarse grid. -/
theorem edge_phys (h : d + 1 ≤ s) {N : Fin s → Nat} (hN : ∀ i, 0 < N i) (hn : 0 < n) (index : Nat) (x : Fin (d + 1) → K) (i : Fin s) :
    (N i : K) * ((edgeData (K := K) T h N n index).translation i + ∑ j, if (T.elem (coarseElems h N) (index / n ^ (d + 1))).along j = i
        then x j * (edgeData (K := K) T h N n index).char_length j else 0) =
      ((T.elem (coarseElems h N) (index / n ^ (d + 1))).coord i : K)
        + ∑ j, if (T.elem (coarseElems h N) (index / n ^ (d + 1))).along j = i then ((refPos T d n index j : K) + x j) / n else 0 := by
  have hNi : (N i : K) ≠ 0 := natCast_ne (hN i)
  have hn' : (n : K) ≠ 0 := natCast_ne hn
  unfold edgeData
  simp only
  rw [add_assoc, mul_add, mul_div_cancel₀ _ hNi, ← Finset.sum_add_distrib, Finset.mul_sum]
  congr 1
  apply Finset.sum_congr rfl
  intro j _
  by_cases hj : (T.elem (coarseElems h N) (index / n ^ (d + 1))).along j = i
  · simp only [hj, if_true]
    field_simp
  · simp only [hj, if_false, add_zero, mul_zero]

theorem prodLoop' {D : Nat} (f : Fin D → K) : forFin D (fun dim (a : K) => .ok (a * f dim)) 1 = .ok (∏ j, f j) := by
  induction D with
  | zero => simp [forFin]
  | succ D ih =>
    rw [forFin, ih (fun j => f j.castSucc), Res.ok_bind, Fin.prod_univ_castSucc]

theorem prodLoop_if {D : Nat} (f : Fin D → K) (p : Fin D → Prop) [DecidablePred p] :
    forFin D (fun dim (a : K) => if p dim then .ok (a * f dim) else .ok a) 1 = .ok (∏ j, if p j then f j else 1) := by
  induction D with
  | zero => simp [forFin]
  | succ D ih =>
    rw [forFin, ih (fun j => f j.castSucc) (fun j => p j.castSucc), Res.ok_bind, Fin.prod_univ_castSucc]
    split <;> simp

/-- Number of cells of full dimension. -/
theorem size_full (hT : T.Lawful) (h : s ≤ s) (N : Fin s → Nat) :
    T.size (⟨.both, N, h⟩ : Complex s s) = ∏ i, N i := by
  have hb := fun i (hi : i < T.size (⟨.both, N, h⟩ : Complex s s)) => hT.elem_belongs (⟨.both, N, h⟩ : Complex s s) i hi
  have hlt : ∀ i (hi : i < T.size (⟨.both, N, h⟩ : Complex s s)) l, (T.elem (⟨.both, N, h⟩ : Complex s s) i).coord l < N l := by
    intro i hi l
    obtain ⟨j, rfl⟩ := along_surj (along_inj (hb i hi).canon) l
    exact (hb i hi).inside j
  have hbij : Function.Bijective (fun (i : Fin (T.size (⟨.both, N, h⟩ : Complex s s))) (l : Fin s) =>
      (⟨_, hlt i i.2 l⟩ : Fin (N l))) := by
    constructor
    · intro i i' heq
      have hc : (T.elem (⟨.both, N, h⟩ : Complex s s) i).coord = (T.elem (⟨.both, N, h⟩ : Complex s s) i').coord := by
        funext l; exact Fin.mk.inj_iff.1 (congrFun heq l)
      have ha := canon_unique hT (hb i i.2).canon (hb i' i'.2).canon
        (by rw [(along_surj (along_inj (hb i i.2).canon)).range_eq, (along_surj (along_inj (hb i' i'.2).canon)).range_eq])
      apply Fin.ext
      rw [← hT.index_elem _ i i.2, elem_ext ha hc, hT.index_elem _ i' i'.2]
    · intro p
      obtain ⟨a, ha⟩ := exists_full_canon hT s
      have hinj : Function.Injective a := fun i j hij => ha.injective (by simp only [hij])
      have he : Belongs T (⟨.both, N, h⟩ : Complex s s) ⟨a, fun l => (p l).1⟩ := by
        refine ⟨ha, fun j => (p _).2, fun i hi => ?_⟩
        obtain ⟨j, hj⟩ := Finite.surjective_of_injective hinj i
        exact absurd hj (hi j)
      refine ⟨⟨_, hT.index_lt _ _ he⟩, ?_⟩
      funext l
      apply Fin.ext
      simp only [hT.elem_index _ _ he]
  have := Fintype.card_congr (Equiv.ofBijective _ hbij)
  simpa using this

end HyperHDG

import Mathlib.Data.List.Nodup
import Mathlib.Data.List.GetD
import Mathlib.Data.List.ProdSigma
import Mathlib.Data.List.FinRange
import Mathlib.Data.Fin.Tuple.Basic
import Mathlib.Algebra.BigOperators.Fin
import Verif.Proofs.Tpcc

/-! A numbering of lattice elements which satisfies everything assumed about the external library `tpcc`: the elements are
listed lexicographically. -/

namespace HyperHDG

/-- All tuples with entries from given lists. -/
def tuples {α : Type} : (n : Nat) → (Fin n → List α) → List (Fin n → α)
  | 0, _ => [Fin.elim0]
  | n + 1, L => (L 0).flatMap fun x => (tuples n (fun i => L i.succ)).map fun t => Fin.cons x t

theorem mem_tuples {α : Type} : ∀ (n : Nat) (L : Fin n → List α) (f : Fin n → α), f ∈ tuples n L ↔ ∀ i, f i ∈ L i
  | 0, L, f => by
    simp only [tuples, List.mem_singleton]
    exact ⟨fun _ i => i.elim0, fun _ => funext fun i => i.elim0⟩
  | n + 1, L, f => by
    simp only [tuples, List.mem_flatMap, List.mem_map, mem_tuples n]
    constructor
    · rintro ⟨x, hx, t, ht, rfl⟩ i
      refine Fin.cases ?_ (fun j => ?_) i
      · simpa using hx
      · simpa using ht j
    · intro h
      exact ⟨f 0, h 0, fun i => f i.succ, fun i => h i.succ, Fin.cons_self_tail f⟩

theorem nodup_tuples {α : Type} : ∀ (n : Nat) (L : Fin n → List α), (∀ i, (L i).Nodup) → (tuples n L).Nodup
  | 0, L, _ => by simp [tuples]
  | n + 1, L, h => by
    simp only [tuples]
    rw [List.nodup_flatMap]
    refine ⟨fun x _ => (nodup_tuples n _ (fun i => h i.succ)).map (fun a b hab => ?_), ?_⟩
    · exact Fin.cons_right_injective (α := fun _ => α) x hab
    · refine (h 0).imp ?_
      intro x y hxy
      simp only [Function.onFun, List.disjoint_left, List.mem_map]
      rintro f ⟨t, _, rfl⟩ ⟨t', _, h'⟩
      have := congrFun h' 0
      simp at this
      exact hxy this.symm

theorem length_tuples {α : Type} : ∀ (n : Nat) (L : Fin n → List α), (tuples n L).length = ∏ i, (L i).length
  | 0, L => by simp [tuples]
  | n + 1, L => by
    simp only [tuples, List.length_flatMap, List.length_map, length_tuples n, Fin.prod_univ_succ]
    rw [List.map_const', List.sum_replicate]
    rfl

/-- Membership in the grid, as a computation. -/
def belongsB (dirs : (n : Nat) → List (Fin n)) {n k : Nat} (c : Complex n k) (e : Elem n k) : Bool :=
  decide (∀ i j : Fin k, i < j → (dirs n).idxOf (e.along i) < (dirs n).idxOf (e.along j)) &&
  decide (∀ j, e.coord (e.along j) < c.dims (e.along j)) &&
  decide (∀ i, (∀ j, e.along j ≠ i) →
    (c.bnd = .both → e.coord i ≤ c.dims i) ∧ (c.bnd = .none → 0 < e.coord i ∧ e.coord i < c.dims i))

/-- All elements of the grid. -/
def elems (dirs : (n : Nat) → List (Fin n)) {n k : Nat} (c : Complex n k) : List (Elem n k) :=
  ((tuples k (fun _ => List.finRange n)).flatMap fun a =>
    (tuples n (fun i => List.range (c.dims i + 1))).map fun x => (⟨a, x⟩ : Elem n k)).filter (belongsB dirs c)

/-- Lexicographic numbering, with a given order of the directions. -/
def listTpcc (dirs : (n : Nat) → List (Fin n)) : Tpcc where
  dirs := dirs
  size := fun c => (elems dirs c).length
  elem := fun c i => (elems dirs c).getD i ⟨Fin.castLE c.le, fun _ => 0⟩
  index := fun c e => (elems dirs c).idxOf e
  index_in_slice := fun {_ k} c e =>
    (tuples k (fun j => List.range (c.dims (e.along j)))).idxOf (fun j => e.coord (e.along j))

theorem belongsB_iff (dirs : (n : Nat) → List (Fin n)) {n k : Nat} (c : Complex n k) (e : Elem n k) : belongsB dirs c e = true ↔ Belongs (listTpcc dirs) c e := by
  unfold belongsB
  rw [Bool.and_eq_true, Bool.and_eq_true, decide_eq_true_iff, decide_eq_true_iff, decide_eq_true_iff]
  constructor
  · rintro ⟨⟨h1, h2⟩, h3⟩
    refine ⟨fun i j hij => ?_, h2, fun i hi => ?_⟩
    · exact h1 i j hij
    · have := h3 i hi
      split
      · rename_i hb; exact this.1 hb
      · rename_i hb; exact this.2 hb
  · rintro ⟨h1, h2, h3⟩
    refine ⟨⟨fun i j hij => ?_, h2⟩, fun i hi => ⟨fun hb => ?_, fun hb => ?_⟩⟩
    · exact h1 hij
    · have := h3 i hi
      rw [hb] at this
      exact this
    · have := h3 i hi
      rw [hb] at this
      exact this

theorem mem_elems (dirs : (n : Nat) → List (Fin n)) {n k : Nat} (c : Complex n k) (e : Elem n k) : e ∈ elems dirs c ↔ Belongs (listTpcc dirs) c e := by
  rw [elems, List.mem_filter, belongsB_iff]
  simp only [List.mem_flatMap, List.mem_map, mem_tuples, List.mem_finRange, implies_true, true_and, List.mem_range]
  constructor
  · exact fun h => h.2
  · intro h
    refine ⟨⟨e.along, e.coord, fun i => ?_, rfl⟩, h⟩
    by_cases hi : ∃ j, e.along j = i
    · obtain ⟨j, rfl⟩ := hi
      exact Nat.lt_succ_of_lt (h.inside j)
    · have := h.flat i (fun j hj => hi ⟨j, hj⟩)
      split at this <;> omega

theorem nodup_elems (dirs : (n : Nat) → List (Fin n)) {n k : Nat} (c : Complex n k) : (elems dirs c).Nodup := by
  unfold elems
  apply List.Nodup.filter
  rw [List.nodup_flatMap]
  refine ⟨fun a _ => (nodup_tuples _ _ (fun i => List.nodup_range)).map (fun x y hxy => ?_), ?_⟩
  · exact (Elem.mk.injEq _ _ _ _).mp hxy |>.2
  · refine (nodup_tuples _ _ (fun i => List.nodup_finRange n)).imp ?_
    intro a b hab
    simp only [Function.onFun, List.disjoint_left, List.mem_map]
    rintro f ⟨t, _, rfl⟩ ⟨t', _, h'⟩
    exact hab ((Elem.mk.injEq _ _ _ _).mp h' |>.1).symm

/-- The assumptions about `tpcc` can be satisfied. -/
theorem listTpcc_lawful (dirs : (n : Nat) → List (Fin n)) (hd : ∀ n, (dirs n).Nodup) (hm : ∀ n i, i ∈ dirs n) :
    (listTpcc dirs).Lawful where
  dirs_nodup := hd
  dirs_mem := hm
  elem_belongs := by
    intro n k c i hi
    rw [← mem_elems dirs]
    show (elems dirs c).getD i _ ∈ elems dirs c
    rw [List.getD_eq_getElem _ _ hi]
    exact List.getElem_mem _
  index_elem := by
    intro n k c i hi
    show (elems dirs c).idxOf ((elems dirs c).getD i _) = i
    rw [List.getD_eq_getElem _ _ hi]
    exact (nodup_elems dirs c).idxOf_getElem _ _
  index_lt := by
    intro n k c e he
    exact List.idxOf_lt_length_of_mem ((mem_elems dirs c e).2 he)
  elem_index := by
    intro n k c e he
    have h := List.idxOf_lt_length_of_mem ((mem_elems dirs c e).2 he)
    show (elems dirs c).getD ((elems dirs c).idxOf e) _ = e
    rw [List.getD_eq_getElem _ _ h]
    exact List.getElem_idxOf h
  slice_lt := by
    intro n k c N e hN he
    have h : (fun j => e.coord (e.along j)) ∈ tuples k (fun j => List.range (c.dims (e.along j))) := by
      rw [mem_tuples]
      intro j
      rw [List.mem_range, hN]
      exact he j
    have := List.idxOf_lt_length_of_mem h
    rw [length_tuples] at this
    simpa [hN, listTpcc] using this
  slice_inj := by
    intro n k c N e e' hN he he' h j
    have h1 : (fun j => e.coord (e.along j)) ∈ tuples k (fun _ => List.range N) := by
      rw [mem_tuples]
      intro j
      rw [List.mem_range]
      exact he j
    have h2 : (tuples k (fun _ => List.range N)).idxOf (fun j => e.coord (e.along j)) =
        (tuples k (fun _ => List.range N)).idxOf (fun j => e'.coord (e'.along j)) := by
      simpa only [listTpcc, hN] using h
    exact congrFun ((List.idxOf_inj h1).1 h2) j
  slice_congr := by
    intro n k c N e e' hN h
    simp only [listTpcc, hN, h]

/-- Directions in ascending order. -/
def lexTpcc : Tpcc := listTpcc fun n => List.finRange n

theorem lexTpcc_lawful : lexTpcc.Lawful := listTpcc_lawful _ (fun n => List.nodup_finRange n) (fun _ i => List.mem_finRange i)

/-- Directions in descending order. -/
def revTpcc : Tpcc := listTpcc fun n => (List.finRange n).reverse

theorem revTpcc_lawful : revTpcc.Lawful :=
  listTpcc_lawful _ (fun n => List.nodup_reverse.2 (List.nodup_finRange n)) (fun _ i => List.mem_reverse.2 (List.mem_finRange i))

end HyperHDG

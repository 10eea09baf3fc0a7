import Verif.Proofs.UnitNormals

/-! Helper lemmas: the hyperedges of `Geometry::UnitCube` as sets of points. -/

set_option linter.unusedSectionVars false

namespace HyperHDG

open Geometry Geometry.UnitCube Geometry.UnitCube.HyEdge

variable {T : Tpcc} {d s n k : Nat} {K : Type} {α : Type} [Field K] [LinearOrder K] [IsStrictOrderedRing K]

theorem edge_along (h : d + 1 ≤ s) {N : Fin s → Nat} (index : Nat) (f : Fin (d + 1) → K)
    (hinj : Function.Injective (T.elem (coarseElems h N) (index / n ^ (d + 1))).along) (j : Fin (d + 1)) :
    (∑ l, if (T.elem (coarseElems h N) (index / n ^ (d + 1))).along l
        = (T.elem (coarseElems h N) (index / n ^ (d + 1))).along j then f l else 0) = f j := by
  rw [Finset.sum_eq_single j]
  · rw [if_pos rfl]
  · intro l _ hl
    rw [if_neg (fun he => hl (hinj he))]
  · intro hj; exact absurd (Finset.mem_univ _) hj

theorem edge_out (h : d + 1 ≤ s) {N : Fin s → Nat} (index : Nat) (f : Fin (d + 1) → K) (i : Fin s)
    (hi : ∀ j, (T.elem (coarseElems h N) (index / n ^ (d + 1))).along j ≠ i) :
    (∑ l, if (T.elem (coarseElems h N) (index / n ^ (d + 1))).along l = i then f l else 0) = 0 :=
  Finset.sum_eq_zero (fun j _ => if_neg (hi j))

theorem exists_step (M : Nat) (hM : 0 < M) (z : K) (h0 : 0 ≤ z) (h1 : z ≤ M) : ∃ p : Nat, p < M ∧ (p : K) ≤ z ∧ z ≤ p + 1 := by
  induction M with
  | zero => omega
  | succ M ih =>
    by_cases hz : (M : K) ≤ z
    · exact ⟨M, Nat.lt_succ_self _, hz, by push_cast at h1; exact h1⟩
    · have hM0 : 0 < M := by
        rcases Nat.eq_zero_or_pos M with rfl | h
        · exact absurd (by push_cast; exact h0) hz
        · exact h
      obtain ⟨p, a, b, c⟩ := ih hM0 (le_of_not_ge hz)
      exact ⟨p, by omega, b, c⟩

theorem exists_full' (hT : T.Lawful) (c : Complex n n) (q : Fin n → Nat) (hq : ∀ i, q i < c.dims i) :
    ∃ e, Belongs T c e ∧ e.coord = q := by
  obtain ⟨a, ha⟩ := exists_full_canon hT n
  have hinj : Function.Injective a := fun i j hij => ha.injective (by simp only [hij])
  have hsurj : Function.Surjective a := Finite.surjective_of_injective hinj
  refine ⟨⟨a, q⟩, ⟨ha, fun j => hq _, fun i hi => ?_⟩, rfl⟩
  obtain ⟨j, hj⟩ := hsurj i
  exact absurd hj (hi j)

/-- Two points strictly inside cells of a lattice. -/
theorem lattice_eq {a b : Nat} {x y : K} (hx0 : 0 < x) (hx1 : x < 1) (hy0 : 0 < y) (hy1 : y < 1) (h : (a : K) + x = b + y) : a = b := by
  have h1 : (a : K) < ((b + 1 : ℕ) : K) := by push_cast; linarith
  have h2 : (b : K) < ((a + 1 : ℕ) : K) := by push_cast; linarith
  rw [Nat.cast_lt] at h1 h2
  omega

theorem lattice_ne {a b : Nat} {x : K} (hx0 : 0 < x) (hx1 : x < 1) (h : (a : K) + x = b) : False := by
  have h1 : (a : K) < (b : K) := by linarith
  have h2 : (b : K) < ((a + 1 : ℕ) : K) := by push_cast; linarith
  rw [Nat.cast_lt] at h1 h2
  omega

/-- Physical points, scaled to the refined lattice. -/
theorem edge_lattice (h : d + 1 ≤ s) {N : Fin s → Nat} (hN : ∀ i, 0 < N i) (hn : 0 < n) (index : Nat) (x : Fin (d + 1) → K)
    (hinj : Function.Injective (T.elem (coarseElems h N) (index / n ^ (d + 1))).along) (y : Fin s → K)
    (hy : y = fun i => (edgeData (K := K) T h N n index).translation i + ∑ j, if (T.elem (coarseElems h N) (index / n ^ (d + 1))).along j = i
        then x j * (edgeData (K := K) T h N n index).char_length j else 0) :
    (∀ j, (n : K) * (N ((T.elem (coarseElems h N) (index / n ^ (d + 1))).along j) * y ((T.elem (coarseElems h N) (index / n ^ (d + 1))).along j))
        = ((n * (T.elem (coarseElems h N) (index / n ^ (d + 1))).coord ((T.elem (coarseElems h N) (index / n ^ (d + 1))).along j)
          + refPos T d n index j : ℕ) : K) + x j) ∧
    (∀ i, (∀ j, (T.elem (coarseElems h N) (index / n ^ (d + 1))).along j ≠ i) →
      (n : K) * (N i * y i) = ((n * (T.elem (coarseElems h N) (index / n ^ (d + 1))).coord i : ℕ) : K)) := by
  have hn' : (n : K) ≠ 0 := natCast_ne hn
  subst hy
  constructor
  · intro j
    have := edge_phys (T := T) h hN hn index x ((T.elem (coarseElems h N) (index / n ^ (d + 1))).along j)
    simp only
    rw [this, edge_along h index _ hinj]
    push_cast
    field_simp
    ring
  · intro i hi
    have := edge_phys (T := T) h hN hn index x i
    simp only
    rw [this, edge_out h index _ i hi]
    push_cast
    ring

theorem edge_map (m : Mode) (h : d + 1 ≤ s) {N : Fin s → Nat} (hN : ∀ i, 0 < N i) (hn : 0 < n) (index : Nat) (x : Fin (d + 1) → K)
    (hp : m = .release ∨ inReference x) {r : Elem s (d + 1)} (hr : T.elem (coarseElems h N) (index / n ^ (d + 1)) = r)
    (hinj : Function.Injective r.along) :
    ∃ y, mapPoint m (edgeData (K := K) T h N n index) x = .ok y ∧
      (∀ j, (n : K) * (N (r.along j) * y (r.along j)) = ((n * r.coord (r.along j) + refPos T d n index j : ℕ) : K) + x j) ∧
      (∀ i, (∀ j, r.along j ≠ i) → (n : K) * (N i * y i) = ((n * r.coord i : ℕ) : K)) := by
  subst hr
  refine ⟨_, mapPoint_spec m _ _ (fun j => rfl) x hp, ?_⟩
  exact edge_lattice (T := T) h hN hn index x hinj _ rfl

end HyperHDG

import Verif.Proofs.HyperNodeFactory

/-!
# Properties C01, C02, C03: degrees of freedom of hypernodes

The statements only use the functions of the public interface of `HyperNodeFactory` and list
operations (slices of the global vector).
-/

namespace HyperHDG.HyperNodeFactory

variable {α : Type}

/-! ## C01 -/

/-- **C01** (partition).  If `idx v` is what `get_dof_indices` returns for each hypernode `v`, then listing
the hypernodes in order lists every number below `n_global_dofs()` exactly once (even in increasing
order).  Valid in both build modes, as long as the number of dofs is representable. -/
theorem C01_partition (m : Mode) (F : HyperNodeFactory) (hov : F.n_hyNodes * F.n < U32)
    (buf : List Nat) (hb : buf.length = F.n) :
    ∃ idx : Nat → List Nat,
      (∀ v, v < F.n_hyNodes → F.get_dof_indices m v buf = .ok (idx v)) ∧
      (List.range F.n_hyNodes).flatMap idx = List.range F.n_global_dofs := by
  refine ⟨fun v => (List.range F.n).map (fun i => v * F.n + i), fun v hv => ?_, ?_⟩
  · have := node_bound hv
    exact get_dof_indices_eq m F v buf hb (by omega)
  · rw [n_global_dofs, u32_of_lt hov]
    generalize F.n_hyNodes = N
    induction N with
    | zero => simp
    | succ N ih =>
      rw [List.range_succ, List.flatMap_append, ih, Nat.succ_mul, List.range_add]
      simp

/-- **C01** (distinct hypernodes have disjoint dofs, each hypernode has exactly `n` distinct ones). -/
theorem C01_disjoint (m : Mode) (F : HyperNodeFactory) (hov : F.n_hyNodes * F.n < U32)
    (buf buf' iv iw : List Nat) (hb : buf.length = F.n) (hb' : buf'.length = F.n) (v w : Nat)
    (hv : v < F.n_hyNodes) (hw : w < F.n_hyNodes) (hne : v ≠ w)
    (h1 : F.get_dof_indices m v buf = .ok iv) (h2 : F.get_dof_indices m w buf' = .ok iw) :
    iv.length = F.n ∧ iv.Nodup ∧ ∀ d, d ∈ iv → d ∉ iw := by
  have b1 := node_bound hv
  have b2 := node_bound hw
  rw [get_dof_indices_eq m F v buf hb (by omega)] at h1
  rw [get_dof_indices_eq m F w buf' hb' (by omega)] at h2
  cases h1; cases h2
  refine ⟨by simp, ?_, ?_⟩
  · refine List.Pairwise.map _ (fun a b (h : a ≠ b) => ?_) List.nodup_range
    show v * F.n + a ≠ v * F.n + b
    omega
  · intro d hd hd'
    simp only [List.mem_map, List.mem_range] at hd hd'
    obtain ⟨i, hi, rfl⟩ := hd
    obtain ⟨j, hj, h⟩ := hd'
    apply hne
    have e1 : (v * F.n + i) / F.n = v := by
      rw [Nat.mul_comm, Nat.mul_add_div (by omega), Nat.div_eq_of_lt hi]; rfl
    have e2 : (w * F.n + j) / F.n = w := by
      rw [Nat.mul_comm, Nat.mul_add_div (by omega), Nat.div_eq_of_lt hj]; rfl
    rw [← e1, ← e2, h]

/-- **C01** (inverse).  `get_hyNode_from_dof_index(d)` returns `v` for every valid dof index `d` exactly if `d` is
among the dof indices of the hypernode `v`. -/
theorem C01_inverse (m : Mode) (F : HyperNodeFactory) (hov : F.n_hyNodes * F.n < U32)
    (buf iv : List Nat) (hb : buf.length = F.n) (v d : Nat) (hv : v < F.n_hyNodes)
    (hd : d < F.n_global_dofs) (h : F.get_dof_indices m v buf = .ok iv) :
    F.get_hyNode_from_dof_index m d = .ok v ↔ d ∈ iv := by
  have b1 := node_bound hv
  rw [get_dof_indices_eq m F v buf hb (by omega)] at h
  cases h
  have hn : F.n ≠ 0 := by
    intro h0; simp [n_global_dofs, h0, u32] at hd
  unfold get_hyNode_from_dof_index
  rw [hyAssert_of hd]
  simp only [Res.ok_bind, hn, if_false, Res.pure_eq, Res.ok.injEq, List.mem_map, List.mem_range]
  constructor
  · rintro rfl
    exact ⟨d % F.n, Nat.mod_lt _ (by omega), by rw [Nat.mul_comm]; exact Nat.div_add_mod d F.n⟩
  · rintro ⟨i, hi, rfl⟩
    rw [Nat.mul_comm, Nat.mul_add_div (by omega), Nat.div_eq_of_lt hi]; rfl

/-- **C01**: invalid dof indices are rejected by a build with assertions. -/
theorem C01_inverse_rejects (F : HyperNodeFactory) (d : Nat) (hd : F.n_global_dofs ≤ d) :
    F.get_hyNode_from_dof_index .debug d = .abort := by
  unfold get_hyNode_from_dof_index
  rw [hyAssert_debug_not (by omega)]; rfl

/-- Non-vacuity of C01: five hypernodes with three dofs each. -/
example : (⟨3, 5⟩ : HyperNodeFactory).get_dof_indices .debug 4 [0, 0, 0] = .ok [12, 13, 14] ∧
    5 * 3 < U32 := by decide

/-- The hypothesis of C01 is needed: with `2^31 + 1` hypernodes of two dofs each, the hypernodes `0` and `2^31`
get the same dofs, in builds with and without assertions. -/
theorem C01_overflow_witness (m : Mode) :
    (⟨2, 2147483649⟩ : HyperNodeFactory).get_dof_indices m 2147483648 [0, 0] = .ok [0, 1] ∧
    (⟨2, 2147483649⟩ : HyperNodeFactory).get_dof_indices m 0 [0, 0] = .ok [0, 1] := by
  cases m <;> decide

/-! ## C02 and C03 -/

/-- A global vector belonging to the factory: it has `n_global_dofs()` entries and this number is representable. -/
def ValidVec (F : HyperNodeFactory) (g : List α) : Prop :=
  F.n_hyNodes * F.n < U32 ∧ g.length = F.n_global_dofs

theorem ValidVec.bounds {F : HyperNodeFactory} {g : List α} (h : F.ValidVec g) {v : Nat}
    (hv : v < F.n_hyNodes) : v * F.n + F.n < U32 + 1 ∧ v * F.n + F.n ≤ g.length := by
  obtain ⟨h1, h2⟩ := h
  rw [n_global_dofs, u32_of_lt h1] at h2
  have := node_bound hv
  omega

/-- **C02/C03** (reading): `get_dof_values` returns the slice of the global vector belonging to the hypernode; no assertion
fires, no access is out of bounds, in both build modes. -/
theorem C02_get (m : Mode) (F : HyperNodeFactory) (g loc : List α) (hg : F.ValidVec g)
    (hl : loc.length = F.n) (v : Nat) (hv : v < F.n_hyNodes) :
    F.get_dof_values m v g loc = .ok ((g.drop (v * F.n)).take F.n) :=
  get_dof_values_eq m F v g loc hl (hg.bounds hv).1 (hg.bounds hv).2

/-- **C02/C03** (setting): `set_dof_values` replaces the slice of the hypernode by the local values and keeps the rest. -/
theorem C02_set (m : Mode) (F : HyperNodeFactory) (g loc : List α) (hg : F.ValidVec g)
    (hl : loc.length = F.n) (v : Nat) (hv : v < F.n_hyNodes) :
    F.set_dof_values m v g loc = .ok (g.take (v * F.n) ++ loc ++ g.drop (v * F.n + F.n)) :=
  set_dof_values_eq m F v g loc hl (hg.bounds hv).1 (hg.bounds hv).2

/-- **C02/C03** (setting to one value). -/
theorem C02_set_const (m : Mode) (F : HyperNodeFactory) (g : List α) (a : α) (hg : F.ValidVec g)
    (v : Nat) (hv : v < F.n_hyNodes) :
    F.set_dof_values_const m v g a =
      .ok (g.take (v * F.n) ++ List.replicate F.n a ++ g.drop (v * F.n + F.n)) :=
  set_dof_values_const_eq m F v g a (hg.bounds hv).1 (hg.bounds hv).2

/-- **C02/C03** (adding): `add_to_dof_values` adds the local values once to the slice of the hypernode and keeps the rest. -/
theorem C02_add [Add α] (m : Mode) (F : HyperNodeFactory) (g loc : List α) (hg : F.ValidVec g)
    (hl : loc.length = F.n) (v : Nat) (hv : v < F.n_hyNodes) :
    F.add_to_dof_values m v g loc =
      .ok (g.take (v * F.n) ++ List.zipWith (· + ·) ((g.drop (v * F.n)).take F.n) loc
        ++ g.drop (v * F.n + F.n)) :=
  add_to_dof_values_eq m F v g loc hl (hg.bounds hv).1 (hg.bounds hv).2

/-- **C02** (read after write).  After `set_dof_values` on `v`, reading `v` returns what was set, and reading any
other hypernode returns what it returned before. -/
theorem C02_get_after_set (m : Mode) (F : HyperNodeFactory) (g loc buf g' : List α)
    (hg : F.ValidVec g) (hl : loc.length = F.n) (hbuf : buf.length = F.n) (v w : Nat)
    (hv : v < F.n_hyNodes) (hw : w < F.n_hyNodes) (h : F.set_dof_values m v g loc = .ok g') :
    F.ValidVec g' ∧
    F.get_dof_values m w g' buf = if w = v then .ok loc else F.get_dof_values m w g buf := by
  have b := hg.bounds hv
  have bw := hg.bounds hw
  rw [C02_set m F g loc hg hl v hv] at h
  cases h
  have hg' : F.ValidVec (g.take (v * F.n) ++ loc ++ g.drop (v * F.n + F.n)) := by
    refine ⟨hg.1, ?_⟩
    rw [← hg.2]; simp; omega
  refine ⟨hg', ?_⟩
  rw [C02_get m F _ buf hg' hbuf w hw]
  split
  next h =>
    subst h
    congr 1
    apply List.ext_getElem?
    intro k
    by_cases hk : k < F.n
    · rw [List.getElem?_take_of_lt hk, List.getElem?_drop, List.append_assoc, List.getElem?_append,
        if_neg (by simp; omega), List.getElem?_append, if_pos (by simp; omega)]
      congr 1; simp; omega
    · rw [List.getElem?_eq_none (by simp; omega), List.getElem?_eq_none (by omega)]
  next h =>
    rw [C02_get m F g buf hg hbuf w hw]
    congr 1
    have hlt : w * F.n + F.n ≤ v * F.n ∨ v * F.n + F.n ≤ w * F.n := by
      rcases Nat.lt_or_gt_of_ne h with h | h
      · left; have := Nat.mul_le_mul_right F.n (show w + 1 ≤ v from h); rw [Nat.add_mul] at this; omega
      · right; have := Nat.mul_le_mul_right F.n (show v + 1 ≤ w from h); rw [Nat.add_mul] at this; omega
    apply List.ext_getElem?
    intro k
    by_cases hk : k < F.n
    · rw [List.getElem?_take_of_lt hk, List.getElem?_drop, List.getElem?_take_of_lt hk,
        List.getElem?_drop, List.append_assoc, List.getElem?_append]
      simp only [List.length_take, Nat.min_eq_left (show v * F.n ≤ g.length by omega)]
      rcases hlt with hlt | hlt
      · rw [if_pos (by omega), List.getElem?_take_of_lt (by omega)]
      · rw [if_neg (by omega), List.getElem?_append, if_neg (by omega), List.getElem?_drop]
        congr 1; omega
    · rw [List.getElem?_eq_none (by simp; omega), List.getElem?_eq_none (by simp; omega)]

/-- **C02** (each entry, each operation): entry `k` of the result of `add_to_dof_values` is the old entry plus the local value
if `k` is a dof of `v`, and the old entry otherwise; the length is unchanged. -/
theorem C02_add_entry [Add α] (m : Mode) (F : HyperNodeFactory) (g loc g' : List α) (hg : F.ValidVec g)
    (hl : loc.length = F.n) (v : Nat) (hv : v < F.n_hyNodes)
    (h : F.add_to_dof_values m v g loc = .ok g') (iv buf : List Nat) (hb : buf.length = F.n)
    (hi : F.get_dof_indices m v buf = .ok iv) :
    g'.length = g.length ∧
    (∀ k, k ∉ iv → g'[k]? = g[k]?) ∧
    (∀ (i d : Nat) (x y : α), iv[i]? = some d → loc[i]? = some x → g[d]? = some y → g'[d]? = some (y + x)) := by
  have b := hg.bounds hv
  rw [get_dof_indices_eq m F v buf hb b.1] at hi
  rw [C02_add m F g loc hg hl v hv] at h
  cases h; cases hi
  refine ⟨by simp; omega, fun k hk => ?_, fun i d x y h1 h2 h3 => ?_⟩
  · have hk' : k < v * F.n ∨ v * F.n + F.n ≤ k := by
      rcases Nat.lt_or_ge k (v * F.n) with h | h
      · exact .inl h
      · rcases Nat.lt_or_ge k (v * F.n + F.n) with h' | h'
        · exact absurd (List.mem_map.mpr ⟨k - v * F.n, by simp; omega, by omega⟩) hk
        · exact .inr h'
    rw [List.append_assoc, List.getElem?_append]
    simp only [List.length_take, Nat.min_eq_left (show v * F.n ≤ g.length by omega)]
    rcases hk' with hk' | hk'
    · rw [if_pos hk', List.getElem?_take_of_lt hk']
    · rw [if_neg (by omega), List.getElem?_append, if_neg (by simp; omega), List.getElem?_drop]
      congr 1; simp; omega
  · have hi : i < F.n := by
      rcases Nat.lt_or_ge i F.n with h | h
      · exact h
      · rw [List.getElem?_eq_none (by simpa using h)] at h1; simp at h1
    rw [List.getElem?_map, List.getElem?_range hi] at h1
    simp at h1; subst h1
    rw [List.append_assoc, List.getElem?_append]
    simp only [List.length_take, Nat.min_eq_left (show v * F.n ≤ g.length by omega)]
    rw [if_neg (by omega), List.getElem?_append, if_pos (by simp; omega)]
    rw [List.getElem?_zipWith, show v * F.n + i - v * F.n = i by omega,
      List.getElem?_take_of_lt hi, List.getElem?_drop, h3, h2]

/-- Non-vacuity of C02: adding to the second of three hypernodes. -/
example : (⟨2, 3⟩ : HyperNodeFactory).ValidVec [1, 2, 3, 4, 5, (6 : Nat)] ∧
    (⟨2, 3⟩ : HyperNodeFactory).add_to_dof_values .debug 1 [1, 2, 3, 4, 5, 6] [10, 20]
      = .ok [1, 2, 13, 24, 5, (6 : Nat)] := by
  unfold ValidVec; decide

/-- **C03**: if the hypernode does not fit into the vector or the local vector has a wrong length, a build with assertions aborts
- it neither returns nor accesses memory out of bounds. -/
theorem C03_debug_aborts [Add α] (F : HyperNodeFactory) (v : Nat) (g loc : List α) (a : α)
    (hov : v * F.n + F.n < U32) (h : g.length < v * F.n + F.n ∨ loc.length ≠ F.n) :
    F.get_dof_values .debug v g loc = .abort ∧ F.set_dof_values .debug v g loc = .abort ∧
    F.add_to_dof_values .debug v g loc = .abort ∧
    (g.length < v * F.n + F.n → F.set_dof_values_const .debug v g a = .abort) := by
  unfold get_dof_values set_dof_values add_to_dof_values set_dof_values_const
  by_cases hl : loc.length = F.n
  · have hg : g.length < v * F.n + F.n := by
      rcases h with h | h
      · exact h
      · exact absurd hl h
    have := hyAssert_debug_not (fits_false F v hg hov)
    rw [hyAssert_of hl, this]
    simp
  · rw [hyAssert_debug_not hl]
    simp only [Res.abort_bind, true_and]
    intro hg
    rw [hyAssert_debug_not (fits_false F v hg hov)]; rfl

/-- **C03**: in a build with assertions none of the functions ever has undefined behaviour if the index of the last
dof of the hypernode is representable - whatever the lengths of the vectors are. -/
theorem C03_debug_no_ub [Add α] (F : HyperNodeFactory) (v : Nat) (g loc : List α) (a : α)
    (hov : v * F.n + F.n < U32) :
    F.get_dof_values .debug v g loc ≠ .ub ∧ F.set_dof_values .debug v g loc ≠ .ub ∧
    F.add_to_dof_values .debug v g loc ≠ .ub ∧ F.set_dof_values_const .debug v g a ≠ .ub := by
  by_cases h : g.length < v * F.n + F.n
  · obtain ⟨h1, h2, h3, h4⟩ := C03_debug_aborts F v g loc a hov (.inl h)
    rw [h1, h2, h3, h4 h]; simp
  · have hg : v * F.n + F.n ≤ g.length := by omega
    rw [set_dof_values_const_eq .debug F v g a (by omega) hg]
    by_cases hl : loc.length = F.n
    · rw [get_dof_values_eq .debug F v g loc hl (by omega) hg,
        set_dof_values_eq .debug F v g loc hl (by omega) hg,
        add_to_dof_values_eq .debug F v g loc hl (by omega) hg]
      simp
    · obtain ⟨h1, h2, h3, _⟩ := C03_debug_aborts F v g loc a hov (.inr hl)
      rw [h1, h2, h3]; simp

/-- Without assertions a vector that is too short is accessed out of bounds. -/
theorem C03_release_ub (F : HyperNodeFactory) (v : Nat) (g loc : List α)
    (hn : 0 < F.n) (hov : v * F.n + F.n < U32) (h : g.length ≤ v * F.n) :
    F.get_dof_values .release v g loc = .ub := by
  unfold get_dof_values
  simp only [hyAssert_release, Res.ok_bind]
  have hi : F.initial v = v * F.n := initial_eq (by omega)
  have : ∀ k, forUp (k + 1) (fun i l => do
      let x ← vget g (u32 (F.initial v + i))
      vset l i x) loc = Res.ub := by
    intro k
    induction k with
    | zero =>
      rw [forUp_succ, forUp_zero]
      simp only [Res.ok_bind, hi, Nat.add_zero]
      rw [u32_of_lt (by omega), vget_ub h]; rfl
    | succ k ih => rw [forUp_succ, ih]; rfl
  obtain ⟨k, hk⟩ := Nat.exists_eq_succ_of_ne_zero (show F.n ≠ 0 by omega)
  have h2 := this k
  rw [hk]; exact h2

/-- The no-overflow hypothesis of C03 is needed: the sum in the assertion may wrap around, so that the assertion holds
although the access is out of bounds (three dofs per node, hypernode `(2^32-1)/3`, vector with two entries). -/
theorem C03_overflow_witness :
    (⟨3, 5⟩ : HyperNodeFactory).get_dof_values .debug 1431655765 [7, 8] [0, 0, (0 : Nat)] = .ub := by
  decide

end HyperHDG.HyperNodeFactory

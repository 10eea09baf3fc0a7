import Mathlib.Data.List.Nodup
import Mathlib.Data.Fintype.Prod
import Mathlib.Data.Fintype.BigOperators
import Verif.Proofs.Hypercube

/-!
# Properties C04, C05: tensorial numbering
-/

namespace HyperHDG.Hypercube
open HyperHDG.Spec

/-- **C04** (counts).  `n_faces` is the number of faces of the cube (two for each axis), `n_vertices` that of its vertices (a choice of one of two
ends for each axis). -/
theorem C04_faces_vertices (dim : Nat) : n_faces dim = Fintype.card (Fin dim × Fin 2) ∧ n_vertices dim = Fintype.card (Fin dim → Fin 2) := by
  constructor
  · simp [n_faces, Nat.mul_comm]
  · simp [n_vertices, Nat.shiftLeft_eq]

example : n_faces 3 = 6 ∧ n_vertices 3 = 8 := by decide

/-- **C04** (build with assertions).  `index_decompose` returns `ds` if and only if `range > 0`, `ds` has `max(dim, 1)` components,
all below `range`, and `index` is the base-`range` number with digits `ds`.  In particular it is injective, every tuple is hit,
and (`C04_outcome`) it returns exactly for `index < range ^ max(dim, 1)`. -/
theorem C04_decompose_iff (dim index range : Nat) (ds : List Nat) :
    index_decompose .debug dim index range = .ok ds ↔
      0 < range ∧ ds.length = max dim 1 ∧ (∀ d ∈ ds, d < range) ∧ fromDigits range ds = index := by
  rcases Nat.eq_zero_or_pos range with hr | hr
  · subst hr; rw [decompose_range_zero]; simp
  obtain ⟨ds', rest, h1, h2, h3, h4⟩ := decompose_loop (max dim 1) index range hr
  have hlt := fromDigits_lt range ds' h3
  rw [h2] at hlt
  unfold index_decompose
  rw [h1]
  simp only [Res.ok_bind]
  constructor
  · intro h
    obtain ⟨_, ha, hb⟩ := Res.bind_eq_ok.mp h
    rw [hyAssert_debug_ok] at ha
    cases hb
    refine ⟨hr, h2, h3, ?_⟩
    rw [ha] at h4; simpa using h4
  · rintro ⟨_, hl, hd, he⟩
    have hidx : index < range ^ max dim 1 := by
      rw [← he, ← hl]; exact fromDigits_lt range ds hd
    have hrest := (rest_zero_iff hlt h4).mpr hidx
    rw [hyAssert_of hrest]
    simp only [Res.ok_bind, Res.pure_eq, Res.ok.injEq]
    refine fromDigits_inj range ds' ds (by omega) h3 hd ?_
    rw [he, ← h4, hrest]; simp

/-- **C04** (outcomes).  With assertions: it returns exactly for indices below `range ^ max(dim,1)`, otherwise it aborts; `range = 0` is undefined
behaviour in both modes; without assertions it returns the decomposition of the index modulo `range ^ max(dim,1)`. -/
theorem C04_outcome (dim index range : Nat) :
    (0 < range → index < range ^ max dim 1 → ∀ m, ∃ ds, index_decompose m dim index range = .ok ds) ∧
    (0 < range → range ^ max dim 1 ≤ index → index_decompose .debug dim index range = .abort) ∧
    (range = 0 → ∀ m, index_decompose m dim index range = .ub) ∧
    (0 < range → index_decompose .release dim index range =
      index_decompose .debug dim (index % range ^ max dim 1) range) := by
  refine ⟨fun hr hi m => ?_, fun hr hi => ?_, fun hr m => ?_, fun hr => ?_⟩
  · obtain ⟨ds', rest, h1, h2, h3, h4⟩ := decompose_loop (max dim 1) index range hr
    have hlt := fromDigits_lt range ds' h3
    rw [h2] at hlt
    refine ⟨ds', ?_⟩
    unfold index_decompose
    rw [h1, Res.ok_bind, hyAssert_of ((rest_zero_iff hlt h4).mpr hi)]
    rfl
  · obtain ⟨ds', rest, h1, h2, h3, h4⟩ := decompose_loop (max dim 1) index range hr
    have hlt := fromDigits_lt range ds' h3
    rw [h2] at hlt
    unfold index_decompose
    rw [h1, Res.ok_bind, hyAssert_debug_not]; · rfl
    rw [rest_zero_iff hlt h4]; omega
  · subst hr; exact decompose_range_zero m dim index
  · obtain ⟨ds', rest, h1, h2, h3, h4⟩ := decompose_loop (max dim 1) index range hr
    have hlt := fromDigits_lt range ds' h3
    rw [h2] at hlt
    have : index_decompose .release dim index range = .ok ds' := by
      unfold index_decompose; rw [h1]; rfl
    rw [this]
    symm
    rw [C04_decompose_iff]
    refine ⟨hr, h2, h3, ?_⟩
    rw [← h4, Nat.add_mul_mod_self_left, Nat.mod_eq_of_lt hlt]

/-- **C04** (bijection).  For `range > 0` every tuple of `max(dim,1)` components below `range` is the decomposition of exactly one index below
`range ^ max(dim,1)`, in both build modes. -/
theorem C04_bijection (m : Mode) (dim range : Nat) (ds : List Nat) (hl : ds.length = max dim 1)
    (hd : ∀ d ∈ ds, d < range) :
    ∃ index, index < range ^ max dim 1 ∧ index_decompose m dim index range = .ok ds ∧
      ∀ index', index' < range ^ max dim 1 → index_decompose m dim index' range = .ok ds →
        index' = index := by
  have hr : 0 < range := by
    rcases Nat.eq_zero_or_pos range with h | h
    · have : ds ≠ [] := by rintro rfl; simp at hl; omega
      obtain ⟨d, hd'⟩ := List.exists_mem_of_ne_nil ds this
      have := hd d hd'; omega
    · exact h
  have key : ∀ index, index < range ^ max dim 1 →
      index_decompose m dim index range = index_decompose .debug dim index range := by
    intro index hi
    cases m
    · rfl
    · rw [(C04_outcome dim index range).2.2.2 hr, Nat.mod_eq_of_lt hi]
  have hlt : fromDigits range ds < range ^ max dim 1 := hl ▸ fromDigits_lt range ds hd
  refine ⟨fromDigits range ds, hlt, ?_, fun i hi h => ?_⟩
  · rw [key _ hlt]; exact (C04_decompose_iff dim _ range ds).mpr ⟨hr, hl, hd, rfl⟩
  · rw [key _ hi] at h
    exact ((C04_decompose_iff dim i range ds).mp h).2.2.2.symm

/-- **C04**: `Hypercube<dim>::pow(base)` is `base ^ dim`, as long as this is representable; in any case modulo `2^32`. -/
theorem C04_pow (dim base : Nat) :
    pow dim base = base ^ dim % U32 ∧ (base ^ dim < U32 → pow dim base = base ^ dim) := by
  refine ⟨pow_eq dim base, fun h => ?_⟩
  rw [pow_eq, Nat.mod_eq_of_lt h]

/-- Non-vacuity of C04: `123 = 3 + 2*10 + 1*100`, and an index that is too large. -/
example : index_decompose .debug 3 123 10 = .ok [3, 2, 1] ∧
    index_decompose .debug 2 123 10 = .abort ∧ index_decompose .release 2 123 10 = .ok [3, 2] := by
  decide

/-- **C05**.  Every tensor-grid point `p` (a tuple of `dim` of the given coordinates) is `tensorial_pt(index)` for exactly one
`index < n ^ dim`, if the `n` one-dimensional coordinates are distinct; that index has the positions of the coordinates as base-`n` digits, first
coordinate fastest. -/
theorem C05_tensor_grid {α : Type} [DecidableEq α] (m : Mode) (dim : Nat) (pts : List α) (hpts : pts.Nodup) (p : List α)
    (hp : p.length = dim) (hmem : ∀ x ∈ p, x ∈ pts) :
    let index := fromDigits pts.length (p.map (fun x => pts.idxOf x))
    index < pts.length ^ dim ∧ tensorial_pt m dim index pts = .ok p ∧
      ∀ index', index' < pts.length ^ dim → tensorial_pt m dim index' pts = .ok p → index' = index := by
  intro index
  have hds : ∀ d ∈ p.map (fun x => pts.idxOf x), d < pts.length := by
    intro d hd
    obtain ⟨x, hx, rfl⟩ := List.mem_map.mp hd
    exact List.idxOf_lt_length_of_mem (hmem x hx)
  have hlt : index < pts.length ^ dim := by
    have := fromDigits_lt pts.length _ hds
    simpa [hp] using this
  rcases Nat.eq_zero_or_pos dim with h0 | h0
  · subst h0
    have : p = [] := List.length_eq_zero_iff.mp hp
    subst this
    refine ⟨hlt, rfl, fun i hi _ => ?_⟩
    simp at hi hlt; omega
  have hmax : max dim 1 = dim := by omega
  have hn : 0 < pts.length := by
    have : p ≠ [] := by rintro rfl; simp at hp; omega
    obtain ⟨x, hx⟩ := List.exists_mem_of_ne_nil p this
    exact List.length_pos_of_mem (hmem x hx)
  have key : ∀ i, i < pts.length ^ dim → ∀ q, tensorial_pt m dim i pts = .ok q ↔
      ∃ ds, ds.length = dim ∧ (∀ d ∈ ds, d < pts.length) ∧ fromDigits pts.length ds = i ∧
        q.map some = ds.map (fun k => pts[k]?) := by
    intro i hi q
    have hdec : ∃ ds, index_decompose m dim i pts.length = .ok ds ∧
        ds.length = dim ∧ (∀ d ∈ ds, d < pts.length) ∧ fromDigits pts.length ds = i := by
      obtain ⟨ds, h⟩ := (C04_outcome dim i pts.length).1 hn (by rwa [hmax]) .debug
      have h' := (C04_decompose_iff dim i _ ds).mp h
      refine ⟨ds, ?_, by omega, h'.2.2.1, h'.2.2.2⟩
      cases m
      · exact h
      · rw [(C04_outcome dim i pts.length).2.2.2 hn, hmax, Nat.mod_eq_of_lt hi]; exact h
    obtain ⟨ds, h1, h2, h3, h4⟩ := hdec
    obtain ⟨q', hq1, hq2, hq3⟩ := tensorial_loop dim ds pts (by omega) h3
    unfold tensorial_pt
    rw [if_neg (by omega), h1]
    simp only [Res.ok_bind]
    rw [hq1, Res.ok.injEq]
    rw [List.take_of_length_le (by omega)] at hq3
    constructor
    · rintro rfl
      exact ⟨ds, h2, h3, h4, hq3⟩
    · rintro ⟨ds', g2, g3, g4, g5⟩
      have : ds' = ds := fromDigits_inj pts.length ds' ds (by omega) g3 h3 (by omega)
      subst this
      exact List.map_injective_iff.mpr (fun a b h => Option.some.inj h) (hq3.trans g5.symm)
  refine ⟨hlt, ?_, fun i hi h => ?_⟩
  · rw [key _ hlt]
    refine ⟨_, by simpa using hp, hds, rfl, ?_⟩
    rw [List.map_map]
    apply List.map_congr_left
    intro x hx
    simp [List.getElem?_idxOf (hmem x hx)]
  · obtain ⟨ds, g2, g3, g4, g5⟩ := (key i hi p).mp h
    rw [← g4]
    show fromDigits _ ds = fromDigits _ _
    congr 1
    apply List.ext_getElem
    · simp [g2, hp]
    · intro k hk1 hk2
      have hk3 : k < p.length := by simpa using hk2
      have := congrArg (fun l => l[k]?) g5
      simp only [List.getElem?_map, List.getElem?_eq_getElem hk1, List.getElem?_eq_getElem hk3,
        Option.map_some, Option.some.injEq] at this
      have hb := g3 _ (List.getElem_mem hk1)
      rw [List.getElem?_eq_getElem hb, Option.some.injEq] at this
      rw [List.getElem_map, this]
      exact (hpts.idxOf_getElem _ hb).symm

/-- **C05**: every index below `n ^ dim` yields a point of the grid. -/
theorem C05_in_grid {α : Type} (m : Mode) (dim index : Nat) (pts : List α)
    (hi : index < pts.length ^ dim) :
    ∃ p, tensorial_pt m dim index pts = .ok p ∧ p.length = dim ∧ ∀ x ∈ p, x ∈ pts := by
  unfold tensorial_pt
  split
  next h => exact ⟨[], rfl, by simp [h], by simp⟩
  next h =>
    have hmax : max dim 1 = dim := by omega
    have hn : 0 < pts.length := by
      rcases Nat.eq_zero_or_pos pts.length with h' | h'
      · rw [h', Nat.zero_pow (by omega)] at hi; omega
      · exact h'
    obtain ⟨ds, h1⟩ := (C04_outcome dim index pts.length).1 hn (by rwa [hmax]) m
    have h2 : ds.length = max dim 1 ∧ ∀ d ∈ ds, d < pts.length := by
      cases m
      · have := (C04_decompose_iff dim index _ ds).mp h1; exact ⟨this.2.1, this.2.2.1⟩
      · rw [(C04_outcome dim index pts.length).2.2.2 hn] at h1
        have := (C04_decompose_iff dim _ _ ds).mp h1; exact ⟨this.2.1, this.2.2.1⟩
    obtain ⟨q, hq1, hq2, hq3⟩ := tensorial_loop dim ds pts (by omega) h2.2
    refine ⟨q, by rw [h1, Res.ok_bind, hq1], hq2, fun x hx => ?_⟩
    have : some x ∈ q.map some := List.mem_map_of_mem hx
    rw [hq3] at this
    obtain ⟨k, _, hk⟩ := List.mem_map.mp this
    exact List.mem_of_getElem? hk

/-- Non-vacuity of C05: point number 5 of the grid `{10,20,30}^2` is `(30, 20)`. -/
example : tensorial_pt .debug 2 5 [10, 20, 30] = .ok [30, 20] := by decide

end HyperHDG.Hypercube

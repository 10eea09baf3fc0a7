import Verif.Spec.Connected
import Verif.Proofs.CubicFile

/-! Helper lemmas: refinement keeps hypergraphs connected; lattices are connected. -/

namespace HyperHDG

open Spec Relation

theorem Linked.symm {F : Type} {E : Nat} {node : Nat → F → Nat} {v w : Nat} (h : Linked E node v w) : Linked E node w v := by
  obtain ⟨e, he, f, g, h1, h2⟩ := h
  exact ⟨e, he, g, f, h2, h1⟩

theorem chain_symm {F : Type} {E : Nat} {node : Nat → F → Nat} {v w : Nat} (h : ReflTransGen (Linked E node) v w) :
    ReflTransGen (Linked E node) w v := by
  induction h with
  | refl => exact .refl
  | tail _ h2 ih => exact .head (Linked.symm h2) ih

variable {T : Tpcc} {d s n : Nat}

section Refine

variable (hT : T.Lawful) (hn : 0 < n) {ce cf : Nat} {coarse : Nat → Fin (2 * (d + 1)) → Nat}
  (hlt : ∀ E, E < ce → ∀ i, coarse E i < cf)

/-- The refined hypernodes. -/
def refNode (T : Tpcc) (d n cf : Nat) (coarse : Nat → Fin (2 * (d + 1)) → Nat) (index : Nat) (i : Fin (2 * (d + 1))) : Nat :=
  nodeVal T d n cf (index / n ^ (d + 1)) (subElem T d n index) i (coarse (index / n ^ (d + 1)) i)

include hT hn hlt

/-- Sub-cubes of the same coarse hyperedge are connected. -/
theorem sub_connected {E : Nat} (hE : E < ce) (k : Nat) : ∀ index, index / n ^ (d + 1) = E → ∑ j, refPos T d n index j = k →
    ∀ index0, index0 / n ^ (d + 1) = E → (∀ j, refPos T d n index0 j = 0) → ∀ i i',
      ReflTransGen (Linked (ce * n ^ (d + 1)) (refNode T d n cf coarse)) (refNode T d n cf coarse index i) (refNode T d n cf coarse index0 i') := by
  induction k with
  | zero =>
    intro index h1 h2 index0 h3 h4 i i'
    have h5 : index = index0 := by
      apply index_unique hT hn (h1.trans h3.symm)
      funext j
      rw [h4 j]
      exact (Finset.sum_eq_zero_iff.1 h2) j (Finset.mem_univ _)
    subst h5
    exact .single ⟨index, (index_lt_iff hn).2 (h1 ▸ hE), i, i', rfl, rfl⟩
  | succ k ih =>
    intro index h1 h2 index0 h3 h4 i i'
    obtain ⟨j, hj⟩ : ∃ j, 0 < refPos T d n index j := by
      by_contra hcon
      push Not at hcon
      have : ∑ j, refPos T d n index j = 0 := Finset.sum_eq_zero fun j _ => Nat.le_zero.1 (hcon j)
      omega
    let p : Fin (d + 1) → Nat := Function.update (refPos T d n index) j (refPos T d n index j - 1)
    have hp : ∀ l, p l < n := fun l => by
      have := refPos_lt (d := d) hT hn index l
      by_cases hl : l = j
      · subst hl; simp only [p, Function.update_self]; omega
      · simp only [p, Function.update_of_ne hl]; exact this
    obtain ⟨r, hr, hrp⟩ := exists_sub hT p hp
    obtain ⟨index', h5, h6⟩ := exists_index hT hn (E := E) hr
    have hp' : refPos T d n index' = p := by rw [refPos_eq, h6, hrp]
    have hsum : ∑ l, refPos T d n index' l = k := by
      rw [hp', Finset.sum_update_of_mem (Finset.mem_univ _)]
      have := Finset.add_sum_erase Finset.univ (refPos T d n index) (Finset.mem_univ j)
      rw [h2, Finset.erase_eq] at this
      omega
    have hface : refNode T d n cf coarse index (facetNo j 0) = refNode T d n cf coarse index' (facetNo j 1) := by
      have hpj := refPos_lt (d := d) hT hn index j
      have e1 : subPos (subElem T d n index) = refPos T d n index := (refPos_eq d n index).symm
      have e2 : subPos (subElem T d n index') = p := by rw [h6, hrp]
      unfold refNode
      rw [nodeVal_eq_iff hT (subElem_belongs hT hn index) (subElem_belongs hT hn index') (hlt _ (h1 ▸ hE) _) (hlt _ (h5 ▸ hE) _)]
      right
      rw [faceCoord_eq, faceCoord_eq, facetDir_facetNo, facetDir_facetNo, facetNo_mod, facetNo_mod, e1, e2]
      simp only [p, Function.update_self, SameFace, facetDir_facetNo, facetNo_mod, h1, h5]
      refine ⟨?_, ?_, trivial, trivial, ?_, ?_⟩
      · show ¬ (_ + 0 = 0 ∨ _ + 0 = n); omega
      · show ¬ (_ + 1 = 0 ∨ _ + 1 = n); omega
      · intro l hl; rw [Function.update_of_ne hl]
      · show _ + 0 = _ + 1; omega
    refine .head ⟨index, (index_lt_iff hn).2 (h1 ▸ hE), i, facetNo j 0, rfl, rfl⟩ ?_
    rw [hface]
    exact ih index' h5 hsum index0 h3 h4 _ _

/-- All refined hypernodes of a coarse hyperedge are connected. -/
theorem edge_connected {E : Nat} (hE : E < ce) {index index' : Nat} (h1 : index / n ^ (d + 1) = E) (h2 : index' / n ^ (d + 1) = E)
    (i i' : Fin (2 * (d + 1))) :
    ReflTransGen (Linked (ce * n ^ (d + 1)) (refNode T d n cf coarse)) (refNode T d n cf coarse index i) (refNode T d n cf coarse index' i') := by
  obtain ⟨r, hr, hrp⟩ := exists_sub hT (d := d) (n := n) (fun _ => 0) (fun _ => hn)
  obtain ⟨index0, h5, h6⟩ := exists_index hT hn (E := E) hr
  have hp' : ∀ j, refPos T d n index0 j = 0 := fun j => by rw [refPos_eq, h6, hrp]
  exact (sub_connected hT hn hlt hE _ index h1 rfl index0 h5 hp' i 0).trans (chain_symm (sub_connected hT hn hlt hE _ index' h2 rfl index0 h5 hp' i' 0))

omit hlt in
/-- A refined hypernode on a coarse face. -/
theorem rep_exists (E : Nat) (i : Fin (2 * (d + 1))) :
    ∃ index, index / n ^ (d + 1) = E ∧ refNode T d n cf coarse index i = n ^ d * coarse E i := by
  obtain ⟨r, hr, hside, hsl⟩ := slice_onto hT i (if i.1 % 2 = 0 then 0 else n - 1) (by split <;> omega) (Nat.pow_pos (n := d) hn)
  obtain ⟨index, h1, h2⟩ := exists_index hT hn (E := E) hr
  refine ⟨index, h1, ?_⟩
  unfold refNode nodeVal
  rw [h1, h2, if_pos, hsl, Nat.add_zero]
  rw [faceCoord_eq, hside]
  rcases Nat.mod_two_eq_zero_or_one i with h | h <;> simp only [h] <;> simp; omega

/-- Refinement keeps a hypergraph connected. -/
theorem refine_connected (honto : ∀ c, c < cf → ∃ E, E < ce ∧ ∃ i, coarse E i = c) (hcon : ConnectedNodes ce cf coarse) :
    ConnectedNodes (ce * n ^ (d + 1)) (cf * n ^ d + ce * T.size (refFaces d n)) (refNode T d n cf coarse) := by
  have hstep : ∀ c c', ReflTransGen (Linked ce coarse) c c' →
      ReflTransGen (Linked (ce * n ^ (d + 1)) (refNode T d n cf coarse)) (n ^ d * c) (n ^ d * c') := by
    intro c c' h
    induction h with
    | refl => exact .refl
    | tail _ h2 ih =>
      obtain ⟨E, hE, f, g, hf, hg⟩ := h2
      obtain ⟨i1, a1, b1⟩ := rep_exists hT hn (cf := cf) (coarse := coarse) E f
      obtain ⟨i2, a2, b2⟩ := rep_exists hT hn (cf := cf) (coarse := coarse) E g
      refine ih.trans ?_
      rw [← hf, ← hg, ← b1, ← b2]
      exact edge_connected hT hn hlt hE a1 a2 f g
  have hto : ∀ v, v < cf * n ^ d + ce * T.size (refFaces d n) → ∃ c, c < cf ∧
      ReflTransGen (Linked (ce * n ^ (d + 1)) (refNode T d n cf coarse)) v (n ^ d * c) := by
    intro v hv
    obtain ⟨index, hidx, i, hi⟩ := nodeVal_onto hT hn coarse honto hv
    have hE := (index_lt_iff (d := d) hn).1 hidx
    obtain ⟨i1, a1, b1⟩ := rep_exists hT hn (cf := cf) (coarse := coarse) (index / n ^ (d + 1)) i
    refine ⟨_, hlt _ hE i, ?_⟩
    rw [← b1, ← hi]
    exact edge_connected hT hn hlt hE rfl a1 i i
  intro v w hv hw
  obtain ⟨c, hc, h1⟩ := hto v hv
  obtain ⟨c', hc', h2⟩ := hto w hw
  exact (h1.trans (hstep c c' (hcon c c' hc hc'))).trans (chain_symm h2)

/-- And does not connect what was not. -/
theorem coarse_connected (hcon : ConnectedNodes (ce * n ^ (d + 1)) (cf * n ^ d + ce * T.size (refFaces d n)) (refNode T d n cf coarse)) :
    ConnectedNodes ce cf coarse := by
  have hD : 0 < n ^ d := Nat.pow_pos hn
  let φ : Nat → Nat := fun v => if v < cf * n ^ d then v / n ^ d else coarse ((v - cf * n ^ d) / T.size (refFaces d n)) 0
  have hφ : ∀ index, index < ce * n ^ (d + 1) → ∀ i, ∃ g, φ (refNode T d n cf coarse index i) = coarse (index / n ^ (d + 1)) g := by
    intro index hidx i
    have hE := (index_lt_iff (d := d) hn).1 hidx
    have hr := subElem_belongs (d := d) hT hn index
    simp only [φ, refNode, nodeVal]
    by_cases hi : faceCoord (subElem T d n index) i = 0 ∨ faceCoord (subElem T d n index) i = n
    · have h1 := slice_facet_lt hT hr i
      rw [if_pos hi, if_pos (Fits.slice_add (hlt _ hE i) h1)]
      refine ⟨i, ?_⟩
      rw [Nat.mul_add_div hD, Nat.div_eq_of_lt h1]
      rfl
    · have h1 := hT.index_lt _ _ (facet_belongs_ref hr i hi)
      rw [if_neg hi, if_neg (by omega)]
      refine ⟨0, ?_⟩
      rw [Nat.add_assoc, Nat.add_sub_cancel_left, Nat.mul_add_div (by omega), Nat.div_eq_of_lt h1]
      rfl
  have key : ∀ v w, ReflTransGen (Linked (ce * n ^ (d + 1)) (refNode T d n cf coarse)) v w → ReflTransGen (Linked ce coarse) (φ v) (φ w) := by
    intro v w h
    induction h with
    | refl => exact .refl
    | tail _ h2 ih =>
      obtain ⟨index, hidx, f, g, hf, hg⟩ := h2
      obtain ⟨f', hf'⟩ := hφ index hidx f
      obtain ⟨g', hg'⟩ := hφ index hidx g
      exact .tail ih ⟨_, (index_lt_iff (d := d) hn).1 hidx, f', g', by rw [← hf', hf], by rw [← hg', hg]⟩
  have hφc : ∀ c, c < cf → n ^ d * c < cf * n ^ d ∧ φ (n ^ d * c) = c := by
    intro c hc
    have : n ^ d * c < cf * n ^ d := by rw [Nat.mul_comm cf]; exact Nat.mul_lt_mul_of_pos_left hc hD
    refine ⟨this, ?_⟩
    simp only [φ, if_pos this, Nat.mul_div_cancel_left _ hD]
  intro v w hv hw
  have := key _ _ (hcon (n ^ d * v) (n ^ d * w) (by have := (hφc v hv).1; omega) (by have := (hφc w hw).1; omega))
  rwa [(hφc v hv).2, (hφc w hw).2] at this

end Refine

/-! ## Lattices -/

section Lattice

variable (hT : T.Lawful) {dims : Fin s → Nat} (hds : d + 1 ≤ s) {hds' : d ≤ s}

/-- Two faces belong to the same cell. -/
def Share (T : Tpcc) (dims : Fin s → Nat) (hds : d + 1 ≤ s) (f f' : Elem s d) : Prop :=
  ∃ e : Elem s (d + 1), Belongs T ⟨.both, dims, hds⟩ e ∧ ∃ i i', e.facet i = f ∧ e.facet i' = f'

theorem Share.symm {f f' : Elem s d} (h : Share T dims hds f f') : Share T dims hds f' f := by
  obtain ⟨e, he, i, i', h1, h2⟩ := h
  exact ⟨e, he, i', i, h2, h1⟩

include hT

/-- The cell above a face in a given direction. -/
theorem cell_above {f : Elem s d} (hf : Belongs T ⟨.both, dims, hds'⟩ f) {i : Fin s} (hi : ∀ j, f.along j ≠ i) (hlt : f.coord i < dims i) :
    ∃ (e : Elem s (d + 1)) (dir : Fin (d + 1)), Belongs T ⟨.both, dims, hds⟩ e ∧ e.coord = f.coord ∧ e.along dir = i ∧
      (∀ j, e.along (dir.succAbove j) = f.along j) ∧ e.facet (facetNo dir 0) = f := by
  obtain ⟨a, dir, ha, hdir, hsucc⟩ := exists_insert hT hf.canon i hi
  refine ⟨⟨a, f.coord⟩, dir, ⟨ha, fun j => ?_, fun l hl => ?_⟩, rfl, hdir, hsucc, elem_ext ?_ ?_⟩
  · show f.coord (a j) < dims (a j)
    rcases Fin.eq_self_or_eq_succAbove dir j with rfl | ⟨j', rfl⟩
    · rw [hdir]; exact hlt
    · rw [hsucc]; exact hf.inside j'
  · exact hf.flat l (fun j => by rw [← hsucc]; exact hl _)
  · funext j
    simp only [Elem.facet, facetDir_facetNo, hsucc]
  · funext l
    simp only [Elem.facet, facetDir_facetNo, facetNo_mod]
    simp

/-- One step down. -/
theorem share_down {f : Elem s d} (hf : Belongs T ⟨.both, dims, hds'⟩ f) {i : Fin s} (hi : ∀ j, f.along j ≠ i) (hpos : 0 < f.coord i) :
    ∃ f', Belongs T ⟨.both, dims, hds'⟩ f' ∧ Share T dims hds f f' ∧ ∑ l, f'.coord l + 1 = ∑ l, f.coord l := by
  have hle : f.coord i ≤ dims i := hf.flat i hi
  let f' : Elem s d := ⟨f.along, Function.update f.coord i (f.coord i - 1)⟩
  have hf' : Belongs T ⟨.both, dims, hds'⟩ f' := by
    refine ⟨hf.canon, fun j => ?_, fun l hl => ?_⟩
    · show Function.update f.coord i (f.coord i - 1) (f.along j) < dims (f.along j)
      rw [Function.update_of_ne (hi j)]
      exact hf.inside j
    · show Function.update f.coord i (f.coord i - 1) l ≤ dims l
      by_cases h : l = i
      · subst h; rw [Function.update_self]; omega
      · rw [Function.update_of_ne h]; exact hf.flat l hl
  obtain ⟨e, dir, he, hco, hdir, hsucc, hfac⟩ := cell_above hT hds hf' (i := i) hi (by
    show Function.update f.coord i (f.coord i - 1) i < dims i
    rw [Function.update_self]; omega)
  refine ⟨f', hf', ⟨e, he, facetNo dir 1, facetNo dir 0, elem_ext ?_ ?_, hfac⟩, ?_⟩
  · funext j
    simp only [Elem.facet, facetDir_facetNo, hsucc]
    rfl
  · funext l
    simp only [Elem.facet, facetDir_facetNo, facetNo_mod, hco, hdir]
    by_cases h : l = i
    · subst h
      rw [Function.update_self]
      show Function.update f.coord l (f.coord l - 1) l + 1 = f.coord l
      rw [Function.update_self]; omega
    · rw [Function.update_of_ne h]
      exact Function.update_of_ne h _ _
  · show ∑ l, Function.update f.coord i (f.coord i - 1) l + 1 = _
    rw [Finset.sum_update_of_mem (Finset.mem_univ _)]
    have := Finset.add_sum_erase Finset.univ f.coord (Finset.mem_univ i)
    rw [Finset.erase_eq] at this
    omega

/-- One direction is exchanged for another. -/
theorem share_exchange {f : Elem s d} (hf : Belongs T ⟨.both, dims, hds'⟩ f) {i : Fin s} (hi : ∀ j, f.along j ≠ i) (hlt : f.coord i < dims i)
    (j : Fin d) : ∃ f', Belongs T ⟨.both, dims, hds'⟩ f' ∧ Share T dims hds f f' ∧ f'.coord = f.coord ∧
      ∀ l, l ∈ Set.range f'.along ↔ l = i ∨ (l ≠ f.along j ∧ l ∈ Set.range f.along) := by
  obtain ⟨e, dir, he, hco, hdir, hsucc, hfac⟩ := cell_above hT hds hf hi hlt
  have hinj := along_inj he.canon
  refine ⟨e.facet (facetNo (dir.succAbove j) 0), facet_belongs he _, ⟨e, he, facetNo dir 0, _, hfac, rfl⟩, ?_, fun l => ?_⟩
  · funext l
    simp only [Elem.facet, facetDir_facetNo, facetNo_mod]
    rw [hco]
    simp
  · simp only [Elem.facet, facetDir_facetNo]
    constructor
    · rintro ⟨k, rfl⟩
      rcases Fin.eq_self_or_eq_succAbove dir ((dir.succAbove j).succAbove k) with h | ⟨k', h⟩
      · left
        show e.along _ = i
        rw [h, hdir]
      · right
        refine ⟨?_, k', ?_⟩
        · show e.along _ ≠ _
          rw [← hsucc j]
          exact fun h' => Fin.succAbove_ne _ _ (hinj h')
        · rw [← hsucc k', ← h]
    · intro h
      have hne : l ≠ e.along (dir.succAbove j) ∧ l ∈ Set.range e.along := by
        rcases h with rfl | ⟨h, k, rfl⟩
        · rw [hsucc]
          exact ⟨(hi j).symm, dir, hdir⟩
        · rw [hsucc]
          exact ⟨h, dir.succAbove k, hsucc k⟩
      obtain ⟨hne, k, rfl⟩ := hne
      rcases Fin.eq_self_or_eq_succAbove (dir.succAbove j) k with h | ⟨k', h⟩
      · rw [h] at hne; exact absurd rfl hne
      · exact ⟨k', by rw [h]⟩

omit hT in
theorem exists_free (hds : d + 1 ≤ s) (f : Elem s d) : ∃ i, ∀ j, f.along j ≠ i := by
  by_contra hcon
  push Not at hcon
  have := Fintype.card_le_of_surjective f.along (fun i => hcon i)
  simp at this
  omega

/-- Every face is connected to one at the origin. -/
theorem to_origin (hdims : ∀ i, 0 < dims i) (k : Nat) : ∀ f : Elem s d, Belongs T ⟨.both, dims, hds'⟩ f → ∑ l, f.coord l = k →
    ∃ f', Belongs T ⟨.both, dims, hds'⟩ f' ∧ ReflTransGen (fun a b => Belongs T ⟨.both, dims, hds'⟩ b ∧ Share T dims hds a b) f f' ∧ ∀ l, f'.coord l = 0 := by
  induction k with
  | zero =>
    intro f hf hsum
    exact ⟨f, hf, .refl, fun l => (Finset.sum_eq_zero_iff.1 hsum) l (Finset.mem_univ _)⟩
  | succ k ih =>
    intro f hf hsum
    by_cases hex : ∃ i, (∀ j, f.along j ≠ i) ∧ 0 < f.coord i
    · obtain ⟨i, hi, hpos⟩ := hex
      obtain ⟨f1, h1, h2, h3⟩ := share_down hT hds hf hi hpos
      obtain ⟨f2, h4, h5, h6⟩ := ih f1 h1 (by omega)
      exact ⟨f2, h4, .head ⟨h1, h2⟩ h5, h6⟩
    · push Not at hex
      obtain ⟨l, hl⟩ : ∃ l, 0 < f.coord l := by
        by_contra hcon
        push Not at hcon
        have : ∑ l, f.coord l = 0 := Finset.sum_eq_zero fun l _ => Nat.le_zero.1 (hcon l)
        omega
      obtain ⟨j, hj⟩ : ∃ j, f.along j = l := by
        by_contra hcon
        push Not at hcon
        have := hex l hcon
        omega
      obtain ⟨i, hi⟩ := exists_free hds f
      obtain ⟨f1, h1, h2, h3, h4⟩ := share_exchange hT hds hf hi (by have := hex i hi; have := hdims i; omega) j
      have hfree : ∀ j', f1.along j' ≠ l := by
        intro j' hj'
        rcases (h4 l).1 ⟨j', hj'⟩ with h | h
        · exact hi j (hj.trans h)
        · exact h.1 hj.symm
      obtain ⟨f2, h5, h6, h7⟩ := share_down hT hds h1 hfree (by rw [h3]; exact hl)
      rw [h3, hsum] at h7
      obtain ⟨f3, h8, h9, h10⟩ := ih f2 h5 (by omega)
      exact ⟨f3, h8, .head ⟨h1, h2⟩ (.head ⟨h5, h6⟩ h9), h10⟩

/-- All faces at the origin are connected. -/
theorem at_origin (hdims : ∀ i, 0 < dims i) {g : Elem s d} (hg : Belongs T ⟨.both, dims, hds'⟩ g) (hg0 : ∀ l, g.coord l = 0) (k : Nat) :
    ∀ f : Elem s d, Belongs T ⟨.both, dims, hds'⟩ f → (∀ l, f.coord l = 0) →
      (Finset.univ.image g.along \ Finset.univ.image f.along).card = k →
      ReflTransGen (fun a b => Belongs T ⟨.both, dims, hds'⟩ b ∧ Share T dims hds a b) f g := by
  have hcard : ∀ f : Elem s d, Belongs T ⟨.both, dims, hds'⟩ f → (Finset.univ.image f.along).card = d := fun f hf => by
    rw [Finset.card_image_of_injective _ (along_inj hf.canon), Finset.card_univ, Fintype.card_fin]
  induction k with
  | zero =>
    intro f hf hf0 hk
    have hsub : Finset.univ.image g.along ⊆ Finset.univ.image f.along := Finset.sdiff_eq_empty_iff_subset.1 (Finset.card_eq_zero.1 hk)
    have heq := Finset.eq_of_subset_of_card_le hsub (by rw [hcard f hf, hcard g hg])
    have : f.along = g.along := by
      apply canon_unique hT hf.canon hg.canon
      have := congrArg (fun S : Finset (Fin s) => (S : Set (Fin s))) heq
      simp only [Finset.coe_image, Finset.coe_univ, Set.image_univ] at this
      exact this.symm
    have : f = g := elem_ext this (funext fun l => (hf0 l).trans (hg0 l).symm)
    rw [this]
  | succ k ih =>
    intro f hf hf0 hk
    obtain ⟨i, hi⟩ := Finset.card_pos.1 (show 0 < (Finset.univ.image g.along \ Finset.univ.image f.along).card by omega)
    rw [Finset.mem_sdiff] at hi
    have hi' : ∀ j, f.along j ≠ i := fun j hj => hi.2 (Finset.mem_image.2 ⟨j, Finset.mem_univ _, hj⟩)
    obtain ⟨j, hj⟩ : ∃ j, f.along j ∉ Finset.univ.image g.along := by
      by_contra hcon
      push Not at hcon
      have hsub : Finset.univ.image f.along ⊆ Finset.univ.image g.along := by
        intro l hl
        obtain ⟨j, _, rfl⟩ := Finset.mem_image.1 hl
        exact hcon j
      have heq := Finset.eq_of_subset_of_card_le hsub (by rw [hcard f hf, hcard g hg])
      rw [heq] at hi
      exact hi.2 hi.1
    obtain ⟨f1, h1, h2, h3, h4⟩ := share_exchange hT hds hf hi' (by rw [hf0]; exact hdims i) j
    refine .head ⟨h1, h2⟩ (ih f1 h1 (fun l => by rw [h3]; exact hf0 l) ?_)
    have : Finset.univ.image g.along \ Finset.univ.image f1.along = (Finset.univ.image g.along \ Finset.univ.image f.along).erase i := by
      ext l
      have h5 : l ∈ Finset.univ.image f1.along ↔ l = i ∨ (l ≠ f.along j ∧ l ∈ Finset.univ.image f.along) := by
        have := h4 l
        simp only [Set.mem_range] at this
        simpa using this
      rw [Finset.mem_sdiff, Finset.mem_erase, Finset.mem_sdiff, h5]
      constructor
      · rintro ⟨h6, h7⟩
        push Not at h7
        exact ⟨h7.1, h6, h7.2 fun h => hj (h ▸ h6)⟩
      · rintro ⟨h6, h7, h8⟩
        refine ⟨h7, ?_⟩
        rintro (h | h)
        · exact h6 h
        · exact h8 h.2
    rw [this, Finset.card_erase_of_mem (Finset.mem_sdiff.2 hi)]
    omega

/-- A lattice without empty directions is connected. -/
theorem cubic_coarse_connected (ns : Fin s → Nat) (hns : ∀ i, 0 < ns i) :
    ConnectedNodes (T.size (coarseElems hds ns)) (T.size (coarseFaces hds ns)) (cubicCoarse T hds ns) := by
  have key : ∀ f g : Elem s d, Belongs T (coarseFaces hds ns) f →
      ReflTransGen (fun a b => Belongs T (coarseFaces hds ns) b ∧ Share T ns hds a b) f g →
      ReflTransGen (Linked (T.size (coarseElems hds ns)) (cubicCoarse T hds ns)) (T.index (coarseFaces hds ns) f) (T.index (coarseFaces hds ns) g) := by
    intro f g hf h
    induction h with
    | refl => exact .refl
    | tail _ h2 ih =>
      obtain ⟨_, e, he, i, i', h3, h4⟩ := h2
      refine .tail ih ⟨T.index (coarseElems hds ns) e, hT.index_lt _ _ he, i, i', ?_, ?_⟩
      · unfold cubicCoarse; rw [hT.elem_index _ _ he, h3]
      · unfold cubicCoarse; rw [hT.elem_index _ _ he, h4]
  intro v w hv hw
  have hbv := hT.elem_belongs (coarseFaces hds ns) v hv
  have hbw := hT.elem_belongs (coarseFaces hds ns) w hw
  obtain ⟨f, h1, h2, h3⟩ := to_origin hT hds hns _ _ hbv rfl
  obtain ⟨g, h4, h5, h6⟩ := to_origin hT hds hns _ _ hbw rfl
  have h7 := at_origin hT hds hns h4 h6 _ f h1 h3 rfl
  have k1 := key _ _ hbv (h2.trans h7)
  have k2 := key _ _ hbw h5
  rw [hT.index_elem _ _ hv] at k1
  rw [hT.index_elem _ _ hw] at k2
  exact k1.trans (chain_symm k2)

end Lattice

end HyperHDG

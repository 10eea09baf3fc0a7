import Mathlib.Tactic.Ring
import Mathlib.Tactic.FieldSimp
import Mathlib.Tactic.Linarith
import Mathlib.Tactic.LinearCombination
import Verif.Model.UnitCube
import Verif.Proofs.CubicFile

/-! Helper lemmas: `Geometry::UnitCube`. -/

set_option linter.unusedSectionVars false

namespace HyperHDG

open Geometry Geometry.UnitCube Geometry.UnitCube.HyEdge

variable {T : Tpcc} {d s n : Nat} {K : Type} {α : Type}

theorem vecGet_lt (m : Mode) (v : Fin n → α) {i : Nat} (h : i < n) : vecGet m v i = .ok (v ⟨i, h⟩) := by
  unfold vecGet; rw [hyAssert_of h, Res.ok_bind, dif_pos h]; rfl

theorem vecGet_fin (m : Mode) (v : Fin n → α) (i : Fin n) : vecGet m v i = .ok (v i) := vecGet_lt m v i.2

theorem vecSet_fin (m : Mode) (v : Fin n → α) (i : Fin n) (x : α) : vecSet m v i x = .ok (arrSet v i x) := by
  unfold vecSet; rw [hyAssert_of i.2, Res.ok_bind, dif_pos i.2]; rfl

theorem vecSet_lt (m : Mode) (v : Fin n → α) {i : Nat} (h : i < n) (x : α) : vecSet m v i x = .ok (arrSet v ⟨i, h⟩ x) :=
  vecSet_fin m v ⟨i, h⟩ x

theorem across_point (e : Elem s 0) : e.across T = T.dirs s := by
  unfold Elem.across
  rw [List.filter_eq_self]
  intro i _
  simp

theorem exterior_point (hT : T.Lawful) (m : Mode) (e : Elem s 0) {i : Nat} (hi : i < s) :
    ∃ δ, (T.dirs s)[i]? = some δ ∧ Wrapper.exterior_direction m T e i = .ok δ ∧
      Wrapper.exterior_coordinate m T e i = .ok (e.coord δ) := by
  have hlen := dirs_length hT s
  refine ⟨(T.dirs s)[i], List.getElem?_eq_getElem _, ?_, ?_⟩
  · unfold Wrapper.exterior_direction
    rw [hyAssert_of (by omega), across_point, Res.ok_bind, vget_of_lt (by omega)]
  · unfold Wrapper.exterior_coordinate
    rw [hyAssert_of (by omega), across_point, Res.ok_bind, vget_of_lt (by omega)]
    rfl

variable [Field K] [LinearOrder K] [IsStrictOrderedRing K]

theorem fdiv_of_ne {a b : K} (h : b ≠ 0) : fdiv a b = .ok (a / b) := by unfold fdiv; rw [if_neg h]

theorem natCast_ne {a : Nat} (h : 0 < a) : (a : K) ≠ 0 := by exact_mod_cast h.ne'

theorem quot_mem {a b : Nat} (hb : 0 < b) (h : a ≤ b) : 0 ≤ (a : K) / b ∧ (a : K) / b ≤ 1 := by
  have hb' : (0 : K) < b := by exact_mod_cast hb
  refine ⟨div_nonneg (Nat.cast_nonneg _) hb'.le, ?_⟩
  rw [div_le_one hb']
  exact_mod_cast h

theorem fillTranslation_spec (hT : T.Lawful) (m : Mode) {N : Fin s → Nat} (hN : ∀ i, 0 < N i) {elem : Elem s 0}
    (hc : ∀ i, elem.coord i ≤ N i) (e : HyEdge d s K) :
    fillTranslation m T N elem e = .ok { e with translation := fun i => (elem.coord i : K) / N i } := by
  have hlen := dirs_length hT s
  obtain ⟨e', h1, h2⟩ := forUp_inv s (fun dim_pt (e : HyEdge d s K) => do
      let ext_dim ← Wrapper.exterior_direction m T elem dim_pt
      let c ← Wrapper.exterior_coordinate m T elem dim_pt
      let q ← fdiv (c : K) (N ext_dim : K)
      hyAssert m (0 ≤ q ∧ q ≤ 1)
      return { e with translation := arrSet e.translation ext_dim q }) e
    (fun k e' => e'.char_length = e.char_length ∧ e'.dim_indices = e.dim_indices ∧
      ∀ i, (T.dirs s).idxOf i < k → e'.translation i = (elem.coord i : K) / N i)
    ⟨rfl, rfl, fun i hi => absurd hi (Nat.not_lt_zero _)⟩
    (fun k hk t ⟨i1, i2, i3⟩ => by
      obtain ⟨δ, hδ, e1, e2⟩ := exterior_point hT m elem hk
      refine ⟨{ t with translation := arrSet t.translation δ ((elem.coord δ : K) / N δ) }, by
        rw [e1, Res.ok_bind, e2, Res.ok_bind, fdiv_of_ne (natCast_ne (hN δ)), Res.ok_bind,
          hyAssert_of (quot_mem (hN δ) (hc δ)), Res.ok_bind]; rfl, i1, i2, fun i hi => ?_⟩
      by_cases hid : i = δ
      · subst hid; simp only [arrSet, if_pos]
      · simp only [arrSet, if_neg hid]
        apply i3
        rcases Nat.lt_succ_iff_lt_or_eq.1 hi with h | h
        · exact h
        · exfalso
          apply hid
          have hmem := List.getElem?_idxOf (hT.dirs_mem s i)
          rw [h, hδ] at hmem
          exact (Option.some.inj hmem).symm)
  unfold fillTranslation
  rw [h1]
  obtain ⟨tr, di, cl⟩ := e'
  obtain ⟨i1, i2, i3⟩ := h2
  simp only at i1 i2 i3
  rw [i1, i2]
  congr 2
  funext i
  exact i3 i ((List.idxOf_lt_length_iff.2 (hT.dirs_mem s i)).trans_eq hlen)

theorem firstZero_spec {cl : Fin n → K} {p : Nat} (h1 : ∀ (j : Fin n), j.1 < p → cl j ≠ 0)
    (h2 : ∀ hp : p < n, cl ⟨p, hp⟩ = 0) (hpn : p ≤ n) :
    ∀ fuel dim, dim ≤ p → p ≤ dim + fuel → firstZero cl fuel dim = p
  | 0, dim, ha, hb => by unfold firstZero; omega
  | fuel + 1, dim, ha, hb => by
    unfold firstZero
    rcases Nat.lt_or_eq_of_le ha with hlt | heq
    · rw [dif_pos (by omega), if_pos (h1 ⟨dim, by omega⟩ hlt)]
      exact firstZero_spec h1 h2 hpn fuel (dim + 1) hlt (by omega)
    · subst heq
      by_cases hd : dim < n
      · rw [dif_pos hd, if_neg (by rw [h2 hd]; exact fun h => h rfl)]
      · rw [dif_neg hd]

theorem fillLength_spec (hT : T.Lawful) (m : Mode) {N : Fin s → Nat} (hN : ∀ i, 0 < N i) {elem : Elem s 0}
    (hc : ∀ i, elem.coord i ≤ N i) (dim : Fin (d + 1)) (e : HyEdge d s K) (δ : Fin s)
    (hδ : (elem.coord δ : K) / N δ ≠ e.translation δ)
    (hother : ∀ i, i ≠ δ → (elem.coord i : K) / N i = e.translation i) :
    fillLength m T N elem dim e = .ok { e with
      char_length := arrSet e.char_length dim ((elem.coord δ : K) / N δ - e.translation δ)
      dim_indices := arrSet e.dim_indices dim δ } := by
  have hlen := dirs_length hT s
  obtain ⟨st, h1, h2⟩ := forUp_inv s (fun dim_pt (st : HyEdge d s K × Bool) =>
      if st.2 then pure st else do
        let ext_dim ← Wrapper.exterior_direction m T elem dim_pt
        let c ← Wrapper.exterior_coordinate m T elem dim_pt
        let helper ← fdiv (c : K) (N ext_dim : K)
        hyAssert m (0 ≤ helper ∧ helper ≤ 1)
        if helper ≠ st.1.translation ext_dim then do
          let cl ← vecSet m st.1.char_length dim (helper - st.1.translation ext_dim)
          let di ← vecSet m st.1.dim_indices dim ext_dim
          return ({ st.1 with
            char_length := cl
            dim_indices := di }, true)
        else return st) (e, false)
    (fun k st => if (T.dirs s).idxOf δ < k then st = ({ e with
      char_length := arrSet e.char_length dim ((elem.coord δ : K) / N δ - e.translation δ)
      dim_indices := arrSet e.dim_indices dim δ }, true) else st = (e, false))
    (by rw [if_neg (Nat.not_lt_zero _)])
    (fun k hk t ht => by
      by_cases hlt : (T.dirs s).idxOf δ < k
      · rw [if_pos hlt] at ht
        subst ht
        exact ⟨_, by rw [if_pos rfl]; rfl, by rw [if_pos (by omega)]⟩
      · rw [if_neg hlt] at ht
        subst ht
        obtain ⟨ε, hε, e1, e2⟩ := exterior_point hT m elem hk
        have hmem := List.getElem?_idxOf (hT.dirs_mem s δ)
        rw [if_neg (by simp), e1, Res.ok_bind, e2, Res.ok_bind, fdiv_of_ne (natCast_ne (hN ε)), Res.ok_bind,
          hyAssert_of (quot_mem (hN ε) (hc ε)), Res.ok_bind]
        by_cases heq : ε = δ
        · subst heq
          have hk' : (T.dirs s).idxOf ε = k := by
            have hk2 : k < (T.dirs s).length := by omega
            rw [List.getElem?_eq_getElem hk2] at hε
            have := (hT.dirs_nodup s).idxOf_getElem k hk2
            rw [Option.some.inj hε] at this
            exact this
          rw [if_pos hδ, vecSet_fin, Res.ok_bind, vecSet_fin, Res.ok_bind]
          exact ⟨_, rfl, by rw [if_pos (by omega)]⟩
        · rw [if_neg (by rw [hother ε heq]; exact fun h => h rfl)]
          refine ⟨_, rfl, ?_⟩
          rw [if_neg]
          intro h
          have : (T.dirs s).idxOf δ = k := by omega
          rw [this, hε] at hmem
          exact heq (Option.some.inj hmem))
  unfold fillLength
  rw [h1, Res.ok_bind]
  rw [if_pos ((List.idxOf_lt_length_iff.2 (hT.dirs_mem s δ)).trans_eq hlen)] at h2
  rw [h2]
  rfl

/-- Offset of vertex number `idx` of a cube with directions `a`. -/
def vtxBit (a : Fin (d + 1) → Fin s) (idx : Nat) (i : Fin s) : Nat := ∑ j : Fin (d + 1), if a j = i then idx / 2 ^ (j : Nat) % 2 else 0

theorem vtxBit_along {a : Fin (d + 1) → Fin s} (ha : Function.Injective a) (idx : Nat) (j : Fin (d + 1)) :
    vtxBit a idx (a j) = idx / 2 ^ (j : Nat) % 2 := by
  unfold vtxBit
  rw [Finset.sum_eq_single j]
  · rw [if_pos rfl]
  · intro b _ hb; rw [if_neg (fun h => hb (ha h))]
  · intro h; exact absurd (Finset.mem_univ _) h

theorem vtxBit_out {a : Fin (d + 1) → Fin s} (idx : Nat) {i : Fin s} (hi : ∀ j, a j ≠ i) : vtxBit a idx i = 0 := by
  unfold vtxBit
  exact Finset.sum_eq_zero (fun j _ => if_neg (hi j))

theorem vtxBit_zero (a : Fin (d + 1) → Fin s) (i : Fin s) : vtxBit a 0 i = 0 := by
  unfold vtxBit
  exact Finset.sum_eq_zero (fun j _ => by simp)

/-- State of the data before vertex `idx` is visited. -/
structure FillInv (e0 : Elem s (d + 1)) (N : Fin s → Nat) (idx : Nat) (e : HyEdge d s K) : Prop where
  trans : 0 < idx → ∀ i, e.translation i = (e0.coord i : K) / N i
  len : ∀ j : Fin (d + 1), 2 ^ (j : Nat) < idx → e.char_length j = 1 / (N (e0.along j) : K) ∧ e.dim_indices j = e0.along j
  unset : ∀ j : Fin (d + 1), idx ≤ 2 ^ (j : Nat) → e.char_length j = 0

/-- `elem` is the face of dimension `k` of `e0` whose first vertex has number `idx`. -/
structure Visit (e0 : Elem s (d + 1)) (k idx : Nat) (elem : Elem s k) : Prop where
  le : k ≤ d + 1
  along : ∀ j : Fin k, elem.along j = e0.along (Fin.castLE le j)
  coord : ∀ i, elem.coord i = e0.coord i + vtxBit e0.along idx i
  dvd : 2 ^ k ∣ idx

theorem fillVertex_spec (hT : T.Lawful) (m : Mode) {N : Fin s → Nat} (hN : ∀ i, 0 < N i) {e0 : Elem s (d + 1)} {h : d + 1 ≤ s}
    (h0 : Belongs T (coarseElems h N) e0) {idx : Nat} {elem : Elem s 0} {e : HyEdge d s K} (hv : Visit e0 0 idx elem)
    (he : FillInv e0 N idx e) (hidx : idx < 2 ^ (d + 1)) :
    ∃ e', fillVertex m T N idx elem e = .ok e' ∧ FillInv e0 N (idx + 1) e' := by
  have hinj := along_inj h0.canon
  have hc : ∀ i, elem.coord i ≤ N i := by
    intro i
    rw [hv.coord]
    by_cases hi : ∃ j, e0.along j = i
    · obtain ⟨j, rfl⟩ := hi
      rw [vtxBit_along hinj]
      have h1 : e0.coord (e0.along j) < N (e0.along j) := h0.inside j
      have h2 : idx / 2 ^ (j : Nat) % 2 < 2 := Nat.mod_lt _ (by omega)
      omega
    · have hi' : ∀ j, e0.along j ≠ i := fun j hj => hi ⟨j, hj⟩
      rw [vtxBit_out _ hi']
      exact h0.flat i hi'
  -- after the first loop
  obtain ⟨e1, he1, hi1, htr⟩ : ∃ e1, (if idx = 0 then fillTranslation m T N elem e else pure e) = .ok e1 ∧
      FillInv e0 N idx e1 ∧ ∀ i, e1.translation i = (e0.coord i : K) / N i := by
    by_cases hz : idx = 0
    · subst hz
      rw [if_pos rfl, fillTranslation_spec hT m hN hc]
      have htr : ∀ i, (elem.coord i : K) / N i = (e0.coord i : K) / N i := by
        intro i; rw [hv.coord, vtxBit_zero, Nat.add_zero]
      exact ⟨_, rfl, ⟨fun _ i => htr i, he.len, he.unset⟩, htr⟩
    · rw [if_neg hz]
      exact ⟨e, rfl, he, he.trans (by omega)⟩
  -- first unset length
  have hex : ∃ p, idx ≤ 2 ^ p := ⟨d + 1, by omega⟩
  classical
  obtain ⟨p, hp1, hp2⟩ : ∃ p, idx ≤ 2 ^ p ∧ ∀ j, j < p → 2 ^ j < idx :=
    ⟨Nat.find hex, Nat.find_spec hex, fun j hj => by have := Nat.find_min hex hj; omega⟩
  have hpd : p ≤ d + 1 := by
    by_contra hcon
    have := hp2 (d + 1) (by omega)
    omega
  have hfz : firstZero e1.char_length (d + 1) 0 = p := by
    refine firstZero_spec (fun j hj => ?_) (fun hp => hi1.unset ⟨p, hp⟩ hp1) hpd _ _ (by omega) (by omega)
    rw [(hi1.len j (hp2 _ hj)).1]
    exact one_div_ne_zero (natCast_ne (hN _))
  unfold fillVertex fillOrigin
  rw [he1, Res.ok_bind]
  simp only [hfz, Nat.one_shiftLeft]
  by_cases hip : idx = 2 ^ p
  · have hplt : p < d + 1 := by
      by_contra hcon
      have : p = d + 1 := by omega
      subst this
      omega
    rw [if_pos hip, vecGet_lt m _ hplt, Res.ok_bind, hi1.unset ⟨p, hplt⟩ hp1, if_pos rfl]
    have hpt : ∀ j : Fin (d + 1), idx / 2 ^ (j : Nat) % 2 = if j = ⟨p, hplt⟩ then 1 else 0 := by
      intro j
      rw [hip]
      by_cases hj : j = ⟨p, hplt⟩
      · rw [if_pos hj, hj, Nat.div_self (Nat.pow_pos (by omega))]
      · rw [if_neg hj]
        have hj' : j.1 ≠ p := fun h' => hj (Fin.ext h')
        rcases Nat.lt_or_ge j.1 p with hlt | hge
        · rw [Nat.pow_div hlt.le (by omega)]
          obtain ⟨q, hq⟩ : ∃ q, p - j.1 = q + 1 := ⟨p - j.1 - 1, by omega⟩
          rw [hq, Nat.pow_succ]; omega
        · rw [Nat.div_eq_of_lt (Nat.pow_lt_pow_right (by omega) (by omega))]
    have hN' : ∀ i, (N i : K) ≠ 0 := fun i => natCast_ne (hN i)
    have hδ : (elem.coord (e0.along ⟨p, hplt⟩) : K) / N (e0.along ⟨p, hplt⟩)
        = e1.translation (e0.along ⟨p, hplt⟩) + 1 / N (e0.along ⟨p, hplt⟩) := by
      rw [hv.coord, vtxBit_along hinj, hpt, if_pos rfl, htr]
      push_cast
      ring
    have hspec := fillLength_spec (K := K) hT m hN hc ⟨p, hplt⟩ e1 (e0.along ⟨p, hplt⟩)
      (by rw [hδ]; intro hcon
          have hz : (1 : K) / N (e0.along ⟨p, hplt⟩) = 0 := by linear_combination hcon
          exact one_div_ne_zero (hN' _) hz)
      (fun i hi => by
        rw [hv.coord, htr]
        by_cases hj : ∃ j, e0.along j = i
        · obtain ⟨j, rfl⟩ := hj
          rw [vtxBit_along hinj, hpt, if_neg (fun h' => hi (by rw [h'])), Nat.add_zero]
        · rw [vtxBit_out _ (fun j hj' => hj ⟨j, hj'⟩), Nat.add_zero])
    refine ⟨_, hspec, fun _ => htr, fun j hj => ?_, fun j hj => ?_⟩
    · by_cases hjp : j = ⟨p, hplt⟩
      · subst hjp
        simp only [arrSet, if_pos]
        exact ⟨by rw [hδ]; ring, trivial⟩
      · simp only [arrSet, if_neg hjp]
        apply hi1.len
        have h1 : 2 ^ (j : Nat) ≠ 2 ^ p := fun h' => hjp (Fin.ext (Nat.pow_right_injective (le_refl 2) h'))
        omega
    · have hjp : j ≠ ⟨p, hplt⟩ := by
        intro h'
        rw [h'] at hj
        simp only at hj
        omega
      simp only [arrSet, if_neg hjp]
      exact hi1.unset j (by omega)
  · rw [if_neg hip]
    refine ⟨_, rfl, fun _ => htr, fun j hj => ?_, fun j hj => hi1.unset j (by omega)⟩
    apply hi1.len
    rcases Nat.lt_or_ge j.1 p with hlt | hge
    · exact hp2 _ hlt
    · have := Nat.pow_le_pow_right (show 0 < 2 by omega) hge
      omega

theorem visit_lower {e0 : Elem s (d + 1)} {k idx : Nat} {elem : Elem s (k + 1)} (hv : Visit e0 (k + 1) idx elem)
    {i : Fin (2 * (k + 1))} (hi : i.1 = 2 * (k + 1) - 2) : Visit e0 k idx (elem.facet i) := by
  have hdir : Elem.facetDir i = Fin.last k := by apply Fin.ext; simp only [Elem.facetDir, Fin.val_last]; omega
  refine ⟨by have := hv.le; omega, fun j => ?_, fun l => ?_, ?_⟩
  · show elem.along ((Elem.facetDir i).succAbove j) = _
    rw [hdir, Fin.succAbove_last, hv.along]
    rfl
  · show Function.update elem.coord _ _ l = _
    have h2 : i.1 % 2 = 0 := by omega
    rw [h2, Nat.add_zero (elem.coord _), Function.update_eq_self, hv.coord]
  · exact (Nat.pow_dvd_pow 2 (Nat.le_succ k)).trans hv.dvd

theorem visit_upper {e0 : Elem s (d + 1)} (hinj : Function.Injective e0.along) {k idx : Nat} {elem : Elem s (k + 1)}
    (hv : Visit e0 (k + 1) idx elem) {i : Fin (2 * (k + 1))} (hi : i.1 = 2 * (k + 1) - 1) :
    Visit e0 k (idx + 2 ^ k) (elem.facet i) := by
  have hdir : Elem.facetDir i = Fin.last k := by apply Fin.ext; simp only [Elem.facetDir, Fin.val_last]; omega
  refine ⟨by have := hv.le; omega, fun j => ?_, fun l => ?_, ?_⟩
  · show elem.along ((Elem.facetDir i).succAbove j) = _
    rw [hdir, Fin.succAbove_last, hv.along]
    rfl
  · show Function.update elem.coord (elem.along (Elem.facetDir i)) _ l = _
    have h2 : i.1 % 2 = 1 := by omega
    rw [h2, hdir, hv.along]
    obtain ⟨c, hc⟩ := hv.dvd
    have hbit : ∀ j : Fin (d + 1), (idx + 2 ^ k) / 2 ^ (j : Nat) % 2 = idx / 2 ^ (j : Nat) % 2 + if j.1 = k then 1 else 0 := by
      intro j
      rcases Nat.lt_trichotomy j.1 k with hlt | heq | hgt
      · rw [if_neg (by omega), Nat.add_zero (idx / _ % 2)]
        have e1 : idx = 2 ^ j.1 * (2 * (2 ^ (k - j.1) * c)) := by
          rw [hc, ← Nat.mul_assoc, ← Nat.mul_assoc, Nat.mul_assoc (2 ^ j.1), Nat.mul_comm 2, ← Nat.mul_assoc, ← Nat.pow_add]
          rw [show j.1 + (k - j.1) = k by omega, Nat.pow_succ]
        obtain ⟨q, hq⟩ : ∃ q, k = j.1 + (q + 1) := ⟨k - j.1 - 1, by omega⟩
        have e2 : 2 ^ k = 2 ^ j.1 * (2 * 2 ^ q) := by
          rw [hq, Nat.pow_add, Nat.pow_succ]; ring
        rw [e2]
        conv_lhs => rw [e1]
        conv_rhs => rw [e1]
        rw [← Nat.mul_add, Nat.mul_div_cancel_left _ (Nat.pow_pos (by omega)), Nat.mul_div_cancel_left _ (Nat.pow_pos (by omega))]
        omega
      · rw [if_pos heq, heq]
        have e1 : idx = 2 ^ k * (2 * c) := by rw [hc, Nat.pow_succ]; ring
        conv_lhs => rw [e1]
        conv_rhs => rw [e1]
        have e3 : 2 ^ k * (2 * c) + 2 ^ k = 2 ^ k * (2 * c + 1) := by ring
        rw [e3, Nat.mul_div_cancel_left _ (Nat.pow_pos (by omega)), Nat.mul_div_cancel_left _ (Nat.pow_pos (by omega))]
        omega
      · rw [if_neg (by omega), Nat.add_zero (idx / _ % 2)]
        obtain ⟨q, hq⟩ : ∃ q, j.1 = (k + 1) + q := ⟨j.1 - (k + 1), by omega⟩
        rw [hq, Nat.pow_add, ← Nat.div_div_eq_div_mul, ← Nat.div_div_eq_div_mul, hc,
          Nat.mul_add_div (Nat.pow_pos (by omega)), Nat.mul_div_cancel_left _ (Nat.pow_pos (by omega)),
          Nat.div_eq_of_lt (Nat.pow_lt_pow_right (by omega) (by omega)), Nat.add_zero]
    have hk : k < d + 1 := hv.le
    have hlast : Fin.castLE hv.le (Fin.last k) = ⟨k, hk⟩ := rfl
    rw [hlast]
    by_cases hl : l = e0.along ⟨k, hk⟩
    · subst hl
      rw [Function.update_self, hv.coord, vtxBit_along hinj, vtxBit_along hinj, hbit, if_pos rfl]
      omega
    · rw [Function.update_of_ne hl, hv.coord]
      congr 1
      by_cases hj : ∃ j, e0.along j = l
      · obtain ⟨j, rfl⟩ := hj
        rw [vtxBit_along hinj, vtxBit_along hinj, hbit, if_neg]
        · rfl
        intro h'
        exact hl (congrArg _ (Fin.ext h'))
      · rw [vtxBit_out _ (fun j hj' => hj ⟨j, hj'⟩), vtxBit_out _ (fun j hj' => hj ⟨j, hj'⟩)]
  · exact Nat.dvd_add ((Nat.pow_dvd_pow 2 (Nat.le_succ k)).trans hv.dvd) (Nat.dvd_refl _)

theorem fill_data_inv (hT : T.Lawful) (m : Mode) {N : Fin s → Nat} (hN : ∀ i, 0 < N i) {e0 : Elem s (d + 1)} {h : d + 1 ≤ s}
    (h0 : Belongs T (coarseElems h N) e0) :
    ∀ (k idx : Nat) (elem : Elem s k) (e : HyEdge d s K), Visit e0 k idx elem → FillInv e0 N idx e → idx + 2 ^ k ≤ 2 ^ (d + 1) →
      ∃ e', fill_data m T N k idx elem e = .ok (idx + 2 ^ k, e') ∧ FillInv e0 N (idx + 2 ^ k) e'
  | 0, idx, elem, e, hv, he, hle => by
    obtain ⟨e', h1, h2⟩ := fillVertex_spec hT m hN h0 hv he (by rw [Nat.pow_zero] at hle; omega)
    refine ⟨e', ?_, by simpa using h2⟩
    unfold fill_data
    rw [h1]
    rfl
  | k + 1, idx, elem, e, hv, he, hle => by
    have hp : 2 ^ (k + 1) = 2 ^ k + 2 ^ k := by rw [Nat.pow_succ]; omega
    obtain ⟨e1, a1, a2⟩ := fill_data_inv hT m hN h0 k idx (elem.facet ⟨2 * (k + 1) - 2, by omega⟩) e (visit_lower hv rfl) he
      (by rw [hp] at hle; exact Nat.le_trans (Nat.add_le_add_left (Nat.le_add_right _ _) _) hle)
    obtain ⟨e2, b1, b2⟩ := fill_data_inv hT m hN h0 k (idx + 2 ^ k) (elem.facet ⟨2 * (k + 1) - 1, by omega⟩) e1
      (visit_upper (along_inj h0.canon) hv rfl) a2 (by rw [Nat.add_assoc, ← hp]; exact hle)
    refine ⟨e2, ?_, by rw [hp, ← Nat.add_assoc]; exact b2⟩
    unfold fill_data
    have f0 : Wrapper.get_face m elem (2 * (k + 1) - 2) = .ok (elem.facet ⟨2 * (k + 1) - 2, by omega⟩) :=
      get_face_fin m elem ⟨2 * (k + 1) - 2, by omega⟩
    have f1 : Wrapper.get_face m elem (2 * (k + 1) - 1) = .ok (elem.facet ⟨2 * (k + 1) - 1, by omega⟩) :=
      get_face_fin m elem ⟨2 * (k + 1) - 1, by omega⟩
    rw [f0, Res.ok_bind, a1, Res.ok_bind, f1, Res.ok_bind, b1, hp, ← Nat.add_assoc]

/-- Data of a coarse hyperedge. -/
theorem fill_data_spec (hT : T.Lawful) (m : Mode) {N : Fin s → Nat} (hN : ∀ i, 0 < N i) {e0 : Elem s (d + 1)} {h : d + 1 ≤ s}
    (h0 : Belongs T (coarseElems h N) e0) :
    fill_data (K := K) m T N (d + 1) 0 e0 init = .ok (2 ^ (d + 1),
      ⟨fun i => (e0.coord i : K) / N i, fun j => e0.along j, fun j => 1 / (N (e0.along j) : K)⟩) := by
  obtain ⟨e', h1, h2⟩ := fill_data_inv (K := K) hT m hN h0 (d + 1) 0 e0 init
    ⟨Nat.le_refl _, fun j => rfl, fun i => by rw [vtxBit_zero]; rfl, Nat.dvd_zero _⟩
    ⟨fun h => absurd h (Nat.lt_irrefl _), fun j hj => absurd hj (Nat.not_lt_zero _), fun _ _ => rfl⟩ (by omega)
  rw [h1, Nat.zero_add]
  obtain ⟨tr, di, cl⟩ := e'
  rw [Nat.zero_add] at h2
  have hj : ∀ j : Fin (d + 1), 2 ^ (j : Nat) < 2 ^ (d + 1) := fun j => Nat.pow_lt_pow_right (by omega) j.2
  congr 3
  · funext i; exact h2.trans (Nat.pow_pos (by omega)) i
  · funext j; exact (h2.len j (hj j)).2
  · funext j; exact (h2.len j (hj j)).1

end HyperHDG

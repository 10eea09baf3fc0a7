import Verif.Model.HyperNodeFactory
import Verif.Proofs.Loops

namespace HyperHDG.HyperNodeFactory

variable {α : Type}

theorem initial_eq {F : HyperNodeFactory} {v : Nat} (h : v * F.n < U32) : F.initial v = v * F.n :=
  u32_of_lt h

theorem node_bound {F : HyperNodeFactory} {v : Nat} (hv : v < F.n_hyNodes) :
    v * F.n + F.n ≤ F.n_hyNodes * F.n := by
  have : (v + 1) * F.n ≤ F.n_hyNodes * F.n := Nat.mul_le_mul_right _ hv
  rw [Nat.add_mul] at this; omega

theorem get_dof_indices_eq (m : Mode) (F : HyperNodeFactory) (v : Nat) (buf : List Nat)
    (hb : buf.length = F.n) (hov : v * F.n + F.n < U32 + 1) :
    F.get_dof_indices m v buf = .ok ((List.range F.n).map (fun i => v * F.n + i)) := by
  unfold get_dof_indices
  rw [hyAssert_of hb]
  by_cases hn : F.n = 0
  · have : buf = [] := by rw [← List.length_eq_zero_iff, hb, hn]
    simp [hn, this]
  have hi : v * F.n < U32 := by omega
  obtain ⟨t, h1, h2, h3⟩ := forUp_write F.n 0
    (fun i d => vset d i (u32 (F.initial v + i))) buf (fun i _ => v * F.n + i)
    (fun i hi' t ht => by
      rw [vset_of_lt (by omega), initial_eq hi, u32_of_lt (by omega), Nat.zero_add])
    (fun _ _ _ _ _ => rfl) (by omega)
  simp only [Res.ok_bind, h1, Res.ok.injEq]
  apply List.ext_getElem?
  intro k
  rw [h3, List.getElem?_map]
  by_cases hk : k < F.n
  · simp [hk]
  · simp [hk, hb]

variable (m : Mode) (F : HyperNodeFactory) (v : Nat) 

theorem fits_of {g : List α} (h : v * F.n + F.n ≤ g.length) (hov : v * F.n + F.n < U32 + 1) :
    F.fits v g.length := by
  unfold fits
  by_cases hn : F.n = 0
  · unfold initial; simp [hn, u32]
  · rw [initial_eq (by omega)]
    have := Nat.mod_le (v * F.n + F.n) U32
    unfold u32; omega

theorem get_dof_values_eq (g loc : List α) (hl : loc.length = F.n)
    (hov : v * F.n + F.n < U32 + 1) (hg : v * F.n + F.n ≤ g.length) :
    F.get_dof_values m v g loc = .ok ((g.drop (v * F.n)).take F.n) := by
  unfold get_dof_values
  rw [hyAssert_of hl, hyAssert_of (fits_of F v hg hov)]
  by_cases hn : F.n = 0
  · have : loc = [] := by rw [← List.length_eq_zero_iff, hl, hn]
    simp [hn, this]
  obtain ⟨t, h1, h2, h3⟩ := forUp_write F.n 0
    (fun i l => do
      let x ← vget g (u32 (F.initial v + i))
      vset l i x) loc (fun i t => if h : v * F.n + i < g.length then g[v * F.n + i] else t[0]?.getD
        (g.head (by rintro rfl; simp at hg; omega)))
    (fun i hi' t ht => by
      have hb : v * F.n + i < g.length := by omega
      rw [initial_eq (by omega), u32_of_lt (by omega), vget_of_lt hb]
      simp only [Res.ok_bind, Nat.zero_add, dif_pos hb]
      rw [vset_of_lt (by omega)])
    (fun i hi _ _ _ => by simp only [dif_pos (show v * F.n + i < g.length by omega)]) (by omega)
  simp only [Res.ok_bind, h1, Res.ok.injEq]
  apply List.ext_getElem?
  intro k
  rw [h3]
  by_cases hk : k < F.n
  · rw [if_pos (by omega), List.getElem?_take_of_lt hk, List.getElem?_drop]
    have : v * F.n + k < g.length := by omega
    simp [this]
  · rw [if_neg (by omega), List.getElem?_eq_none (by omega), List.getElem?_eq_none]
    simp; omega

theorem set_dof_values_eq (g loc : List α) (hl : loc.length = F.n)
    (hov : v * F.n + F.n < U32 + 1) (hg : v * F.n + F.n ≤ g.length) :
    F.set_dof_values m v g loc =
      .ok (g.take (v * F.n) ++ loc ++ g.drop (v * F.n + F.n)) := by
  unfold set_dof_values
  rw [hyAssert_of hl, hyAssert_of (fits_of F v hg hov)]
  by_cases hn : F.n = 0
  · have : loc = [] := by rw [← List.length_eq_zero_iff, hl, hn]
    simp [hn, this]
  have hne : loc ≠ [] := by rintro rfl; simp at hl; omega
  obtain ⟨t, h1, h2, h3⟩ := forUp_write F.n (v * F.n)
    (fun i g => do
      let x ← vget loc i
      vset g (u32 (F.initial v + i)) x) g
    (fun i _ => if h : i < loc.length then loc[i] else loc.head hne)
    (fun i hi' t ht => by
      have hb : i < loc.length := by omega
      rw [initial_eq (by omega), u32_of_lt (by omega), vget_of_lt hb]
      simp only [Res.ok_bind, dif_pos hb]
      rw [vset_of_lt (by omega)])
    (fun i hi _ _ _ => rfl) hg
  simp only [Res.ok_bind, h1, Res.ok.injEq]
  refine write_eq_splice F.n _ g loc t hl hg (fun k hk => by rw [h3, if_neg hk]) (fun i hi => ?_)
  have : i < loc.length := by omega
  simp [h3, hi, this]

theorem set_dof_values_const_eq (g : List α) (a : α) 
    (hov : v * F.n + F.n < U32 + 1) (hg : v * F.n + F.n ≤ g.length) :
    F.set_dof_values_const m v g a =
      .ok (g.take (v * F.n) ++ List.replicate F.n a ++ g.drop (v * F.n + F.n)) := by
  unfold set_dof_values_const
  rw [hyAssert_of (fits_of F v hg hov)]
  by_cases hn : F.n = 0
  · simp [hn]
  obtain ⟨t, h1, h2, h3⟩ := forUp_write F.n (v * F.n)
    (fun i g => vset g (u32 (F.initial v + i)) a) g (fun _ _ => a)
    (fun i hi' t ht => by
      rw [initial_eq (by omega), u32_of_lt (by omega), vset_of_lt (by omega)])
    (fun i hi _ _ _ => rfl) hg
  simp only [Res.ok_bind, h1, Res.ok.injEq]
  refine write_eq_splice F.n _ g _ t (by simp) hg (fun k hk => by rw [h3, if_neg hk]) (fun i hi => ?_)
  simp [h3, hi]

theorem add_to_dof_values_eq [Add α] (g loc : List α) (hl : loc.length = F.n)
    (hov : v * F.n + F.n < U32 + 1) (hg : v * F.n + F.n ≤ g.length) :
    F.add_to_dof_values m v g loc =
      .ok (g.take (v * F.n) ++ List.zipWith (· + ·) ((g.drop (v * F.n)).take F.n) loc
        ++ g.drop (v * F.n + F.n)) := by
  unfold add_to_dof_values
  rw [hyAssert_of hl, hyAssert_of (fits_of F v hg hov)]
  by_cases hn : F.n = 0
  · have : loc = [] := by rw [← List.length_eq_zero_iff, hl, hn]
    simp [hn, this]
  have hne : loc ≠ [] := by rintro rfl; simp at hl; omega
  obtain ⟨t, h1, h2, h3⟩ := forUp_write F.n (v * F.n)
    (fun i g => do
      let x ← vget loc i
      let y ← vget g (u32 (F.initial v + i))
      vset g (u32 (F.initial v + i)) (y + x)) g
    (fun i t => if h : i < loc.length ∧ v * F.n + i < t.length then t[v * F.n + i] + loc[i]
       else loc.head hne)
    (fun i hi' t ht => by
      have hb : i < loc.length ∧ v * F.n + i < t.length := by omega
      rw [initial_eq (by omega), u32_of_lt (by omega), vget_of_lt hb.1]
      simp only [Res.ok_bind, dif_pos hb, vget_of_lt hb.2]
      rw [vset_of_lt (by omega)])
    (fun i hi t ht hk => by
      have h1 : i < loc.length ∧ v * F.n + i < t.length := by omega
      have h2 : i < loc.length ∧ v * F.n + i < g.length := by omega
      simp only [dif_pos h1, dif_pos h2]
      have := hk (v * F.n + i) (Nat.le_refl _)
      rw [List.getElem?_eq_getElem h1.2, List.getElem?_eq_getElem h2.2] at this
      simp at this; rw [this]) hg
  simp only [Res.ok_bind, h1, Res.ok.injEq]
  refine write_eq_splice F.n _ g _ t (by simp; omega) hg (fun k hk => by rw [h3, if_neg hk])
    (fun i hi => ?_)
  have h4 : i < loc.length ∧ v * F.n + i < g.length := by omega
  have h5 : i < (List.take F.n (List.drop (v * F.n) g)).length := by simp; omega
  simp [h3, hi, List.getElem?_zipWith, List.getElem?_take_of_lt hi, h4]

/-- With the second assertion violated, a debug build aborts. -/
theorem fits_false {g : List α} (h : g.length < v * F.n + F.n) (hov : v * F.n + F.n < U32) :
    ¬ F.fits v g.length := by
  unfold fits
  rw [initial_eq (by omega), u32_of_lt (by omega)]
  omega

end HyperHDG.HyperNodeFactory

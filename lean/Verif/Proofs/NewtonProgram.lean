import Verif.Spec.NewtonProgram
import Mathlib.Tactic.Ring
import Mathlib.Tactic.Linarith

namespace HyperHDG.NewtonProgram

open EigenvalueProgram (pyGet pySet npMultiply npSubtract)
open ParabolicProgram (LinearSolver)

theorem pyGet_last (x : List ℝ) (e : ℝ) : pyGet (x ++ [e]) (((x ++ [e]).length : Int) - 1) = .ok e := by
  have h : (((x ++ [e]).length : Int) - 1) = (x.length : Int) := by
    rw [List.length_append]
    simp
  rw [h]
  unfold pyGet
  rw [if_pos (Int.natCast_nonneg _), Int.toNat_natCast, List.getElem?_concat_length]

theorem pyGet_at (x : List ℝ) (e : ℝ) : pyGet (x ++ [e]) (x.length : Nat) = .ok e := by
  unfold pyGet
  rw [if_pos (Int.natCast_nonneg _), Int.toNat_natCast, List.getElem?_concat_length]

theorem pySet_at (x : List ℝ) (e a : ℝ) : pySet (x ++ [e]) x.length a = .ok (x ++ [a]) := by
  unfold pySet
  rw [if_pos (by simp), List.set_append_right _ _ (le_refl _), Nat.sub_self]
  rfl

theorem pySet_last (x : List ℝ) (e a : ℝ) : pySet (x ++ [e]) ((x ++ [e]).length - 1) a = .ok (x ++ [a]) := by
  rw [List.length_append, List.length_singleton, Nat.add_sub_cancel]
  exact pySet_at x e a

theorem sum_sq_nonneg (v : List ℝ) : 0 ≤ (v.map fun x => x * x).sum :=
  List.sum_nonneg fun a ha => by
    obtain ⟨x, _, rfl⟩ := List.mem_map.mp ha
    exact mul_self_nonneg x

theorem norm_sq (v : List ℝ) : norm v ^ 2 = (v.map fun x => x * x).sum := Real.sq_sqrt (sum_sq_nonneg v)

theorem norm_nonneg (v : List ℝ) : 0 ≤ norm v := Real.sqrt_nonneg _

theorem norm_sq_zero (x : List ℝ) : norm (x ++ [0]) ^ 2 = (x.map fun a => a * a).sum := by
  rw [norm_sq]
  simp

/-- What `eval_residual` returns. -/
theorem eval_residual_eq (W : Wrapper) (x : List ℝ) (eig : ℝ) {y : List ℝ} {last : ℝ} (h : W.trace_to_flux (x ++ [eig]) eig = .ok (y ++ [last])) :
    eval_residual W (x ++ [eig]) = .ok (y ++ [(x.map fun a => a * a).sum - 1], x ++ [eig]) := by
  unfold eval_residual
  rw [pyGet_last, Res.ok_bind, h, Res.ok_bind, Res.ok_bind, pySet_last, Res.ok_bind, pySet_last, Res.ok_bind, pySet_last, norm_sq_zero]
  rfl

/-- If `eval_residual` returns. -/
theorem of_eval_residual {W : Wrapper} {v : List ℝ} {r : List ℝ × List ℝ} (h : eval_residual W v = .ok r) :
    ∃ x eig y last, v = x ++ [eig] ∧ W.trace_to_flux (x ++ [eig]) eig = .ok (y ++ [last]) ∧ r = (y ++ [(x.map fun a => a * a).sum - 1], x ++ [eig]) := by
  have hv : v ≠ [] := by
    rintro rfl
    exact (nomatch h)
  obtain ⟨x, eig, rfl⟩ : ∃ x eig, v = x ++ [eig] := ⟨v.dropLast, v.getLast hv, (List.dropLast_append_getLast hv).symm⟩
  have h' := h
  unfold eval_residual at h'
  rw [pyGet_last, Res.ok_bind] at h'
  obtain ⟨vec, h1, h'⟩ := Res.bind_eq_ok.mp h'
  rw [Res.ok_bind, pySet_last, Res.ok_bind] at h'
  have hvec : vec ≠ [] := by
    rintro rfl
    exact (nomatch h')
  obtain ⟨y, last, rfl⟩ : ∃ y last, vec = y ++ [last] := ⟨vec.dropLast, vec.getLast hvec, (List.dropLast_append_getLast hvec).symm⟩
  refine ⟨x, eig, y, last, rfl, h1, ?_⟩
  rw [eval_residual_eq W x eig h1] at h
  exact (Res.ok.inj h).symm

/-- What `eval_jacobian` returns. -/
theorem eval_jacobian_eq (W : Wrapper) (x v : List ℝ) (eig eig_val : ℝ) (hlen : x.length = v.length) {y : List ℝ} {last : ℝ}
    (h : W.jacobian_of_trace_to_flux (x ++ [eig]) eig (v ++ [eig_val]) eig_val = .ok (y ++ [last])) :
    eval_jacobian W (v ++ [eig_val]) (x ++ [eig]) = .ok (y ++ [2 * (List.zipWith (fun a b => a * b) x v).sum], v ++ [eig_val]) := by
  unfold eval_jacobian
  have hd : npDot (x ++ [eig]) (v ++ [0]) = .ok (List.zipWith (fun a b => a * b) x v).sum := by
    unfold npDot
    rw [if_pos (by simp [hlen]), List.zipWith_append hlen]
    simp
  rw [pyGet_last, Res.ok_bind, pyGet_last, Res.ok_bind, h, Res.ok_bind, Res.ok_bind, pySet_last, Res.ok_bind, hd, Res.ok_bind, pySet_last, Res.ok_bind, pySet_last]
  rfl

/-- If `eval_jacobian` returns. -/
theorem of_eval_jacobian {W : Wrapper} {val w : List ℝ} {r : List ℝ × List ℝ} (h : eval_jacobian W val w = .ok r) :
    ∃ x eig v eig_val y last, w = x ++ [eig] ∧ val = v ++ [eig_val] ∧ x.length = v.length ∧ W.jacobian_of_trace_to_flux (x ++ [eig]) eig (v ++ [eig_val]) eig_val = .ok (y ++ [last]) ∧
      r = (y ++ [2 * (List.zipWith (fun a b => a * b) x v).sum], v ++ [eig_val]) := by
  have hw : w ≠ [] := by
    rintro rfl
    exact (nomatch h)
  obtain ⟨x, eig, rfl⟩ : ∃ x eig, w = x ++ [eig] := ⟨w.dropLast, w.getLast hw, (List.dropLast_append_getLast hw).symm⟩
  have h' := h
  unfold eval_jacobian at h'
  rw [pyGet_last, Res.ok_bind] at h'
  have hval : val ≠ [] := by
    rintro rfl
    exact (nomatch h')
  obtain ⟨v, eig_val, rfl⟩ : ∃ v eig_val, val = v ++ [eig_val] := ⟨val.dropLast, val.getLast hval, (List.dropLast_append_getLast hval).symm⟩
  rw [pyGet_last, Res.ok_bind] at h'
  obtain ⟨vec, h1, h'⟩ := Res.bind_eq_ok.mp h'
  rw [Res.ok_bind, pySet_last, Res.ok_bind] at h'
  obtain ⟨d, h2, h'⟩ := Res.bind_eq_ok.mp h'
  have hlen : x.length = v.length := by
    unfold npDot at h2
    split at h2
    · rename_i hl
      simpa using hl
    · exact (nomatch h2)
  have hvec : vec ≠ [] := by
    rintro rfl
    exact (nomatch h')
  obtain ⟨y, last, rfl⟩ : ∃ y last, vec = y ++ [last] := ⟨vec.dropLast, vec.getLast hvec, (List.dropLast_append_getLast hvec).symm⟩
  refine ⟨x, eig, v, eig_val, y, last, rfl, rfl, hlen, h1, ?_⟩
  rw [eval_jacobian_eq W x v eig eig_val hlen h1] at h
  exact (Res.ok.inj h).symm

theorem eval_residual_snd {W : Wrapper} {v : List ℝ} {r : List ℝ × List ℝ} (h : eval_residual W v = .ok r) : r.2 = v := by
  obtain ⟨x, eig, y, last, rfl, _, rfl⟩ := of_eval_residual h
  rfl

theorem npSubtract_ok {a b c : List ℝ} (h : npSubtract a b = .ok c) : a.length = b.length ∧ c = List.zipWith (fun x y => x - y) a b := by
  unfold npSubtract at h
  split at h
  · rename_i hl
    exact ⟨hl, (Res.ok.inj h).symm⟩
  · exact (nomatch h)

/-- The vector after the update is reduced by the factor `c`. -/
def moved (v u : List ℝ) (c : ℝ) : List ℝ := List.zipWith (fun x y => x - y) v (npMultiply u c)

theorem moved_one (v u : List ℝ) : List.zipWith (fun x y => x - y) v u = moved v u (gamma 0) := by
  unfold moved npMultiply gamma
  simp

theorem moved_length {v u : List ℝ} (c : ℝ) (h : v.length = u.length) : (moved v u c).length = v.length := by
  unfold moved npMultiply
  simp [h]

/-- If the line search ends with a new vector: the number of halvings, and that none less would do. -/
theorem line_search_ok (W : Wrapper) (sol upd : List ℝ) (norm_old : ℝ) (k : Nat) (hk : k ≤ 14) (res : List ℝ) (h0 : eval_residual W (moved sol upd (gamma k)) = .ok (res, moved sol upd (gamma k)))
    (s : List ℝ × List ℝ × ℝ) (h : line_search W sol upd norm_old k (moved sol upd (gamma k)) res (norm res) = .ok (some s)) :
    ∃ j, k ≤ j ∧ j ≤ 14 ∧ s.1 = moved sol upd (gamma j) ∧ eval_residual W s.1 = .ok (s.2.1, s.1) ∧ s.2.2 = norm s.2.1 ∧ s.2.2 ≤ (1 - alpha * gamma j) * norm_old ∧
      ∀ i, k ≤ i → i < j → ∃ r, eval_residual W (moved sol upd (gamma i)) = .ok (r, moved sol upd (gamma i)) ∧ (1 - alpha * gamma i) * norm_old < norm r := by
  unfold line_search at h
  split at h
  · rename_i hgt
    split at h
    · exact (nomatch h)
    · rename_i hg
      have hk' := lt_of_gamma hg
      obtain ⟨v, h1, ha⟩ := Res.bind_eq_ok.mp h
      obtain ⟨_, rfl⟩ := npSubtract_ok h1
      obtain ⟨r, h2, hb⟩ := Res.bind_eq_ok.mp ha
      have h3 := eval_residual_snd h2
      have h2' : eval_residual W (moved sol upd (gamma (k + 1))) = .ok (r.1, moved sol upd (gamma (k + 1))) := h2.trans (congrArg Res.ok (Prod.ext rfl h3))
      rw [h3] at hb
      obtain ⟨j, j1, j2, j3, j4, j5, j6, j7⟩ := line_search_ok W sol upd norm_old (k + 1) hk' r.1 h2' s hb
      refine ⟨j, by omega, j2, j3, j4, j5, j6, fun i hi hij => ?_⟩
      by_cases e : i = k
      · subst e
        exact ⟨res, h0, hgt⟩
      · exact j7 i (by omega) hij
  · rename_i hle
    rw [← Option.some.inj (Res.ok.inj h)]
    exact ⟨k, le_refl _, hk, rfl, h0, rfl, not_lt.mp hle, fun i hi hij => absurd hij (not_lt.mpr hi)⟩
termination_by 14 - k

/-- If the line search fails: all the step sizes have been tried. -/
theorem line_search_none (W : Wrapper) (sol upd : List ℝ) (norm_old : ℝ) (k : Nat) (hk : k ≤ 14) (res : List ℝ) (h0 : eval_residual W (moved sol upd (gamma k)) = .ok (res, moved sol upd (gamma k)))
    (h : line_search W sol upd norm_old k (moved sol upd (gamma k)) res (norm res) = .ok none) :
    ∀ i, k ≤ i → i ≤ 14 → ∃ r, eval_residual W (moved sol upd (gamma i)) = .ok (r, moved sol upd (gamma i)) ∧ (1 - alpha * gamma i) * norm_old < norm r := by
  unfold line_search at h
  split at h
  · rename_i hgt
    intro i hi hi'
    by_cases e : i = k
    · subst e
      exact ⟨res, h0, hgt⟩
    · split at h
      · rename_i hg
        refine absurd hg (not_lt.mpr ?_)
        have hk' : k ≤ 13 := by omega
        refine le_trans ?_ (pow_le_pow_of_le_one (by norm_num [beta]) (by norm_num [beta]) hk')
        norm_num [beta]
      · rename_i hg
        have hk' := lt_of_gamma hg
        obtain ⟨v, h1, ha⟩ := Res.bind_eq_ok.mp h
        obtain ⟨_, rfl⟩ := npSubtract_ok h1
        obtain ⟨r, h2, hb⟩ := Res.bind_eq_ok.mp ha
        have h3 := eval_residual_snd h2
        have h2' : eval_residual W (moved sol upd (gamma (k + 1))) = .ok (r.1, moved sol upd (gamma (k + 1))) := h2.trans (congrArg Res.ok (Prod.ext rfl h3))
        rw [h3] at hb
        exact line_search_none W sol upd norm_old (k + 1) hk' r.1 h2' hb i (by omega) hi'
  · exact (nomatch h)
termination_by 14 - k

/-- What a step does. -/
theorem newton_step_ok {W : Wrapper} {update : Update} {sol res : List ℝ} {nr : ℝ} {s : List ℝ × List ℝ × ℝ} (h : newton_step W update sol res nr = .ok (.ok s)) :
    ∃ upd, update nr (jacobian W sol) res = .ok (.ok upd) ∧ sol.length = upd.length ∧ ∃ j ≤ 14, s.1 = moved sol upd (gamma j) ∧ eval_residual W s.1 = .ok (s.2.1, s.1) ∧ s.2.2 = norm s.2.1 ∧
      s.2.2 ≤ (1 - alpha * gamma j) * nr ∧
      ∀ i < j, ∃ r, eval_residual W (moved sol upd (gamma i)) = .ok (r, moved sol upd (gamma i)) ∧ (1 - alpha * gamma i) * nr < norm r := by
  unfold newton_step at h
  obtain ⟨u, h1, h⟩ := Res.bind_eq_ok.mp h
  match u with
  | .error e => exact (nomatch h)
  | .ok upd =>
    obtain ⟨v, h2, h⟩ := Res.bind_eq_ok.mp h
    obtain ⟨r, h3, h⟩ := Res.bind_eq_ok.mp h
    obtain ⟨t, h4, h⟩ := Res.bind_eq_ok.mp h
    obtain ⟨hl, rfl⟩ := npSubtract_ok h2
    rw [moved_one] at h3
    have h5 := eval_residual_snd h3
    have h3' : eval_residual W (moved sol upd (gamma 0)) = .ok (r.1, moved sol upd (gamma 0)) := h3.trans (congrArg Res.ok (Prod.ext rfl h5))
    rw [h5] at h4
    match t with
    | none => exact (nomatch h)
    | some t =>
      have e : t = s := by
        have := Res.ok.inj h
        exact Except.ok.inj this
      subst e
      obtain ⟨j, _, j2, j3, j4, j5, j6, j7⟩ := line_search_ok W sol upd nr 0 (by omega) r.1 h3' t h4
      exact ⟨upd, h1, hl, j, j2, j3, j4, j5, j6, fun i hi => j7 i (Nat.zero_le i) hi⟩

theorem gamma_pos (k : Nat) : 0 < gamma k := pow_pos (by norm_num [beta]) k

theorem gamma_le (k : Nat) : gamma k ≤ 1 := pow_le_one₀ (by norm_num [beta]) (by norm_num [beta])

/-- An invariant of the loop. -/
theorem newton_loop_ok {W : Wrapper} {update : Update} (I : List ℝ → Prop)
    (hI : ∀ sol res upd nr c, I sol → eval_residual W sol = .ok (res, sol) → update nr (jacobian W sol) res = .ok (.ok upd) → sol.length = upd.length → I (moved sol upd c)) :
    ∀ (steps : Nat) (sol res : List ℝ) (_ : eval_residual W sol = .ok (res, sol)) (_ : I sol) (s : List ℝ × ℝ), newton_loop W update steps sol res (norm res) = .ok (.ok s) →
      I s.1 ∧ ∃ res', eval_residual W s.1 = .ok (res', s.1) ∧ s.2 = norm res' ∧ norm res' ≤ norm res
  | 0, sol, res, h0, hi, s, h => by
    have := Except.ok.inj (Res.ok.inj h)
    subst this
    exact ⟨hi, res, h0, rfl, le_refl _⟩
  | steps + 1, sol, res, h0, hi, s, h => by
    unfold newton_loop at h
    obtain ⟨t, h1, h⟩ := Res.bind_eq_ok.mp h
    match t with
    | .error e => exact (nomatch h)
    | .ok t =>
      obtain ⟨upd, k1, k2, j, k3, k4, k5, k6, k7, _⟩ := newton_step_ok h1
      have hi' : I t.1 := by
        rw [k4]
        exact hI sol res upd _ _ hi h0 k1 k2
      have hle : norm t.2.1 ≤ norm res := by
        rw [← k6]
        refine le_trans k7 ?_
        have h1 := norm_nonneg res
        have h2 : 0 ≤ alpha * gamma j := mul_nonneg (by norm_num [alpha]) (gamma_pos j).le
        nlinarith
      simp only at h
      split at h
      · have := Except.ok.inj (Res.ok.inj h)
        subst this
        exact ⟨hi', t.2.1, k5, k6, hle⟩
      · rw [k6] at h
        obtain ⟨l1, res', l2, l3, l4⟩ := newton_loop_ok I hI steps t.1 t.2.1 k5 hi' s h
        exact ⟨l1, res', l2, l3, l4.trans hle⟩

/-- The exceptions of the loop are those of the linear solvers and that the step is too small. -/
theorem newton_loop_error {W : Wrapper} {update : Update} : ∀ (steps : Nat) (sol res : List ℝ) (nr : ℝ) (e : Raised), newton_loop W update steps sol res nr = .ok (.error e) →
    e = .stepTooSmall ∨ ∃ r A b, update r A b = .ok (.error e)
  | 0, _, _, _, _, h => nomatch (Res.ok.inj h)
  | steps + 1, sol, res, nr, e, h => by
    unfold newton_loop at h
    obtain ⟨t, h1, h⟩ := Res.bind_eq_ok.mp h
    match t with
    | .error e' =>
      have : e' = e := Except.error.inj (Res.ok.inj h)
      subst this
      unfold newton_step at h1
      obtain ⟨u, h2, h1⟩ := Res.bind_eq_ok.mp h1
      match u with
      | .error e =>
        have : e = e' := Except.error.inj (Res.ok.inj h1)
        subst this
        exact .inr ⟨_, _, _, h2⟩
      | .ok upd =>
        obtain ⟨v, _, h1⟩ := Res.bind_eq_ok.mp h1
        obtain ⟨r, _, h1⟩ := Res.bind_eq_ok.mp h1
        obtain ⟨t, _, h1⟩ := Res.bind_eq_ok.mp h1
        match t with
        | none => exact .inl (Except.error.inj (Res.ok.inj h1)).symm
        | some t => exact (nomatch (Res.ok.inj h1))
    | .ok t =>
      simp only at h
      split at h
      · exact (nomatch (Res.ok.inj h))
      · exact newton_loop_error steps _ _ _ e h

end HyperHDG.NewtonProgram

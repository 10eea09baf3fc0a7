import Verif.Proofs.NewtonProgram

/-!
# Property C91: the programs which approximate eigenvalues with Newton's method
-/

namespace HyperHDG.NewtonProgram

open EigenvalueProgram (pyGet pySet npMultiply npSubtract)
open ParabolicProgram (LinearSolver)

variable {n : Nat}

theorem joined_of_length {l : List ℝ} (h : l.length = n + 1) : ∃ (x : Fin n → ℝ) (a : ℝ), l = joined x a := by
  have hl : l ≠ [] := by
    rintro rfl
    exact (nomatch h)
  have hd : l.dropLast.length = n := by rw [List.length_dropLast, h]; rfl
  refine ⟨fun k => l.dropLast.get (k.cast hd.symm), l.getLast hl, ?_⟩
  unfold joined
  conv_lhs => rw [← List.dropLast_append_getLast hl]
  congr 1
  refine List.ext_getElem (by rw [List.length_ofFn, hd]) fun i h1 h2 => ?_
  rw [List.getElem_ofFn]
  rfl

theorem joined_length (x : Fin n → ℝ) (a : ℝ) : (joined x a).length = n + 1 := by simp [joined]

theorem joined_inj {x y : Fin n → ℝ} {a b : ℝ} (h : joined x a = joined y b) : x = y ∧ a = b := by
  obtain ⟨h1, h2⟩ := List.append_inj h (by simp)
  exact ⟨List.ofFn_injective h1, by simpa using h2⟩

theorem sum_ofFn (x : Fin n → ℝ) : ((List.ofFn x).map fun a => a * a).sum = ∑ k, x k ^ 2 := by
  rw [List.map_ofFn, List.sum_ofFn]
  exact Finset.sum_congr rfl fun k _ => (sq (x k)).symm

theorem norm_joined (y : Fin n → ℝ) (a : ℝ) : norm (joined y a) = √((∑ k, y k ^ 2) + a ^ 2) := by
  unfold norm joined
  rw [List.map_append, List.sum_append, sum_ofFn]
  simp [sq]

theorem moved_joined (x dx : Fin n → ℝ) (a da c : ℝ) : moved (joined x a) (joined dx da) c = joined (fun k => x k - c * dx k) (a - c * da) := by
  unfold moved npMultiply joined
  rw [List.map_append, List.zipWith_append (by simp)]
  congr 1
  · refine List.ext_getElem (by simp) fun i h1 h2 => ?_
    simp [mul_comm]
  · simp [mul_comm]

/-- **C91** (residual).  For the fluxes `y` of `x` and `eig`, `eval_residual` returns the vector of `y` and `|x|^2 - 1`, whose norm is the defect, and the argument is the same afterwards. -/
theorem C91_residual (W : Wrapper) {x y : Fin n → ℝ} {eig : ℝ} (h : HasFlux W x eig y) :
    eval_residual W (joined x eig) = .ok (joined y ((∑ k, x k ^ 2) - 1), joined x eig) ∧ norm (joined y ((∑ k, x k ^ 2) - 1)) = defect x y := by
  obtain ⟨last, h⟩ := h
  refine ⟨?_, norm_joined _ _⟩
  have := eval_residual_eq W (List.ofFn x) eig h
  rw [sum_ofFn] at this
  exact this

/-- **C91** (Jacobian).  `eval_jacobian` returns the vector of the directional derivative `y` of the fluxes and the number `2 (x_val, x)`, which is that of `|x|^2 - 1`, and the point is the same
afterwards. -/
theorem C91_jacobian (W : Wrapper) {x_val x y : Fin n → ℝ} {eig_val eig : ℝ} (h : HasJacobian W x_val eig_val x eig y) :
    eval_jacobian W (joined x_val eig_val) (joined x eig) = .ok (joined y (2 * ∑ k, x_val k * x k), joined x_val eig_val) := by
  obtain ⟨last, h⟩ := h
  have := eval_jacobian_eq W (List.ofFn x) (List.ofFn x_val) eig eig_val (by simp) h
  have e : (List.zipWith (fun a b => a * b) (List.ofFn x) (List.ofFn x_val)).sum = ∑ k, x_val k * x k := by
    rw [← List.sum_ofFn]
    congr 1
    refine List.ext_getElem (by simp) fun i h1 h2 => ?_
    simp [mul_comm]
  rw [e] at this
  exact this

theorem residual_of_ok (W : Wrapper) (hL : Lengths W) {x : Fin n → ℝ} {eig : ℝ} {r : List ℝ × List ℝ} (h : eval_residual W (joined x eig) = .ok r) :
    ∃ y, HasFlux W x eig y ∧ r = (joined y ((∑ k, x k ^ 2) - 1), joined x eig) := by
  obtain ⟨x', eig', y, last, h1, h2, rfl⟩ := of_eval_residual h
  obtain ⟨rfl, h3⟩ := List.append_inj' h1 rfl
  have h3 : eig = eig' := by simpa using h3
  subst h3
  have hl := hL.flux _ _ _ h2
  rw [← h1, joined_length] at hl
  obtain ⟨y', last', hy⟩ := joined_of_length hl
  obtain ⟨rfl, _⟩ := List.append_inj' hy rfl
  refine ⟨y', ⟨last, h2⟩, ?_⟩
  rw [sum_ofFn]
  rfl

/-- **C91** (what is returned).  If the program returns the number `val` and a vector, then the vector consists of a trace `x` and `val`; the fluxes `y` of `x` and `val`, together with `|x|^2 - 1`, are
smaller than 1e-9, and not larger than for the start. -/
theorem C91_returned (W : Wrapper) (hL : Lengths W) (hn : W.size_of_system = n) (update : Update) (steps : Nat) (x0 : Fin n → ℝ) (eig0 val : ℝ) (sol : List ℝ)
    (h : newton W update steps (joined x0 eig0) = .ok (.ok (val, sol))) :
    ∃ x y : Fin n → ℝ, sol = joined x val ∧ HasFlux W x val y ∧ defect x y < 1 / 1000000000 ∧ ∀ y0, HasFlux W x0 eig0 y0 → defect x y ≤ defect x0 y0 := by
  unfold newton at h
  obtain ⟨r, h1, h⟩ := Res.bind_eq_ok.mp h
  obtain ⟨y0, hy0, rfl⟩ := residual_of_ok W hL h1
  obtain ⟨s, h2, h⟩ := Res.bind_eq_ok.mp h
  match s with
  | .error e => exact (nomatch h)
  | .ok s =>
    obtain ⟨⟨x, a, ha⟩, res, k2, k3, k4⟩ := newton_loop_ok (W := W) (update := update) (fun l => ∃ (x : Fin n → ℝ) (a : ℝ), l = joined x a) (fun sol res upd nr c hi _ _ hl => by
      obtain ⟨x, a, rfl⟩ := hi
      exact joined_of_length ((moved_length c hl).trans (joined_length x a))) steps (joined x0 eig0) _ h1 ⟨x0, eig0, rfl⟩ s h2
    rw [ha] at k2
    obtain ⟨y, hy, hr⟩ := residual_of_ok W hL k2
    simp only at h
    split at h
    · exact (nomatch (Res.ok.inj h))
    · rename_i hlt
      obtain ⟨v, h3, h⟩ := Res.bind_eq_ok.mp h
      have h4 : pyGet (joined x a) (n : Nat) = .ok a := by
        have := pyGet_at (List.ofFn x) a
        rwa [List.length_ofFn] at this
      rw [ha, hn, h4] at h3
      have h5 := Res.ok.inj h3
      subst h5
      have h6 := Except.ok.inj (Res.ok.inj h)
      have h7 : res = joined y ((∑ k, x k ^ 2) - 1) := congrArg Prod.fst hr
      have h8 : norm res = defect x y := by rw [h7]; exact norm_joined _ _
      have h9 : a = val := congrArg Prod.fst h6
      subst h9
      refine ⟨x, y, ?_, hy, ?_, fun y1 hy1 => ?_⟩
      · rw [← ha]
        exact (congrArg Prod.snd h6).symm
      · rw [← h8, ← k3]
        exact not_le.mp hlt
      · obtain ⟨l1, e1⟩ := hy0
        obtain ⟨l2, e2⟩ := hy1
        rw [e1] at e2
        obtain ⟨rfl, _⟩ := joined_inj (Res.ok.inj e2)
        rw [← h8]
        refine k4.trans (le_of_eq ?_)
        exact norm_joined _ _

/-- In particular each flux is smaller than 1e-9, the norm of the trace is one up to 1e-9, and the trace is not zero. -/
theorem C91_small {x y : Fin n → ℝ} (h : defect x y < 1 / 1000000000) :
    (∀ k, |y k| < 1 / 1000000000) ∧ |(∑ k, x k ^ 2) - 1| < 1 / 1000000000 ∧ x ≠ 0 := by
  have h0 : 0 ≤ ∑ k, y k ^ 2 := Finset.sum_nonneg fun k _ => sq_nonneg _
  have h1 : |(∑ k, x k ^ 2) - 1| < 1 / 1000000000 := by
    refine lt_of_le_of_lt ?_ h
    refine Real.le_sqrt_of_sq_le ?_
    rw [sq_abs]
    linarith
  refine ⟨fun k => ?_, h1, ?_⟩
  · refine lt_of_le_of_lt ?_ h
    refine Real.le_sqrt_of_sq_le ?_
    rw [sq_abs]
    have := Finset.single_le_sum (f := fun k => y k ^ 2) (fun k _ => sq_nonneg _) (Finset.mem_univ k)
    have h2 := sq_nonneg ((∑ k, x k ^ 2) - 1)
    linarith
  · rintro rfl
    norm_num at h1

/-- **C91** (step).  A step goes from `(x, eig)` in the direction of the update `(dx, deig)`, whose length is halved until the defect is at most `1 - 0.1 (1/2)^j` times that before; at most 14 times. -/
theorem C91_step (W : Wrapper) (hL : Lengths W) (update : Update) {x y : Fin n → ℝ} {eig : ℝ} {s : List ℝ × List ℝ × ℝ}
    (h : newton_step W update (joined x eig) (joined y ((∑ k, x k ^ 2) - 1)) (defect x y) = .ok (.ok s)) :
    ∃ (dx : Fin n → ℝ) (deig : ℝ) (j : Nat) (y' : Fin n → ℝ), update (defect x y) (jacobian W (joined x eig)) (joined y ((∑ k, x k ^ 2) - 1)) = .ok (.ok (joined dx deig)) ∧ j ≤ 14 ∧
      HasFlux W (fun k => x k - (1 / 2) ^ j * dx k) (eig - (1 / 2) ^ j * deig) y' ∧
      s = (joined (fun k => x k - (1 / 2) ^ j * dx k) (eig - (1 / 2) ^ j * deig), joined y' ((∑ k, (x k - (1 / 2) ^ j * dx k) ^ 2) - 1), defect (fun k => x k - (1 / 2) ^ j * dx k) y') ∧
      defect (fun k => x k - (1 / 2) ^ j * dx k) y' ≤ (1 - 1 / 10 * (1 / 2) ^ j) * defect x y ∧
      ∀ i < j, ∃ z, HasFlux W (fun k => x k - (1 / 2) ^ i * dx k) (eig - (1 / 2) ^ i * deig) z ∧ (1 - 1 / 10 * (1 / 2) ^ i) * defect x y < defect (fun k => x k - (1 / 2) ^ i * dx k) z := by
  obtain ⟨upd, h1, h2, j, h3, h4, h5, h6, h7, h8⟩ := newton_step_ok h
  obtain ⟨dx, deig, rfl⟩ := joined_of_length (h2.symm.trans (joined_length x eig))
  rw [moved_joined] at h4
  rw [h4] at h5
  obtain ⟨y', hy', e⟩ := residual_of_ok W hL h5
  have e1 := congrArg Prod.fst e
  simp only at e1
  have e2 : s.2.2 = defect (fun k => x k - gamma j * dx k) y' := by
    rw [h6, e1]
    exact norm_joined _ _
  refine ⟨dx, deig, j, y', h1, h3, hy', Prod.ext h4 (Prod.ext e1 e2), ?_, fun i hi => ?_⟩
  · rw [e2] at h7
    exact h7
  · obtain ⟨r, r1, r2⟩ := h8 i hi
    rw [moved_joined] at r1
    obtain ⟨z, hz, e⟩ := residual_of_ok W hL r1
    refine ⟨z, hz, ?_⟩
    have e3 : r = _ := congrArg Prod.fst e
    rw [e3, norm_joined] at r2
    exact r2

/-- The exceptions of the function. -/
theorem newton_error {W : Wrapper} {update : Update} {steps : Nat} {v : List ℝ} {e : Raised} (h : newton W update steps v = .ok (.error e)) :
    e = .stepTooSmall ∨ e = .notConverged ∨ ∃ r A b, update r A b = .ok (.error e) := by
  unfold newton at h
  obtain ⟨r, _, h⟩ := Res.bind_eq_ok.mp h
  obtain ⟨s, h2, h⟩ := Res.bind_eq_ok.mp h
  match s with
  | .error e' =>
    have : e' = e := Except.error.inj (Res.ok.inj h)
    subst this
    rcases newton_loop_error _ _ _ _ _ h2 with h | h
    · exact .inl h
    · exact .inr (.inr h)
  | .ok s =>
    simp only at h
    split at h
    · exact .inr (.inl (Except.error.inj (Res.ok.inj h)).symm)
    · obtain ⟨v, _, h⟩ := Res.bind_eq_ok.mp h
      exact (nomatch (Res.ok.inj h))

/-- **C91** (exceptions, bilaplacian).  The exceptions the programs for the bilaplacian raise are caught by their `except RuntimeError`. -/
theorem C91_caught (W : Wrapper) (bicgstab gmres : ℝ → LinearSolver ℝ) (steps : Nat) (v : List ℝ) (e : Raised) (h : newton W (bilaplacian_update bicgstab gmres) steps v = .ok (.error e)) :
    e.isRuntimeError = true := by
  rcases newton_error h with rfl | rfl | ⟨r, A, b, h⟩
  · rfl
  · rfl
  · unfold bilaplacian_update at h
    obtain ⟨t, _, h⟩ := Res.bind_eq_ok.mp h
    split at h
    · exact (nomatch (Res.ok.inj h))
    · obtain ⟨t, _, h⟩ := Res.bind_eq_ok.mp h
      split at h
      · exact (nomatch (Res.ok.inj h))
      · rw [← Except.error.inj (Res.ok.inj h)]
        rfl

/-- **C91** (exceptions, diffusion).  For diffusion this holds if `gmres` succeeds. -/
theorem C91_caught_partial (W : Wrapper) (gmres : ℝ → LinearSolver ℝ) (hg : ∀ tol A b r, gmres tol A b = .ok r → r.2 = 0) (steps : Nat) (v : List ℝ) (e : Raised)
    (h : newton W (diffusion_update gmres) steps v = .ok (.error e)) : e.isRuntimeError = true := by
  rcases newton_error h with rfl | rfl | ⟨r, A, b, h⟩
  · rfl
  · rfl
  · unfold diffusion_update at h
    obtain ⟨t, h1, h⟩ := Res.bind_eq_ok.mp h
    rw [if_pos (hg _ _ _ _ h1)] at h
    exact (nomatch (Res.ok.inj h))

/-- If `gmres` fails in the first step, then the exception is not caught. -/
theorem C91_uncaught (W : Wrapper) {x0 y0 : Fin n → ℝ} {eig0 : ℝ} (hf : HasFlux W x0 eig0 y0) (gmres : ℝ → LinearSolver ℝ) {u : List ℝ} {info : Int} (hinfo : info ≠ 0)
    (hg : gmres (1 / 100 * defect x0 y0) (jacobian W (joined x0 eig0)) (joined y0 ((∑ k, x0 k ^ 2) - 1)) = .ok (u, info)) (steps : Nat) :
    newton W (diffusion_update gmres) (steps + 1) (joined x0 eig0) = .ok (.error .noAttribute) ∧ Raised.noAttribute.isRuntimeError = false := by
  refine ⟨?_, rfl⟩
  obtain ⟨h1, h2⟩ := C91_residual W hf
  unfold newton
  rw [h1, Res.ok_bind]
  show (newton_loop W _ (steps + 1) (joined x0 eig0) (joined y0 _) (norm (joined y0 _)) >>= _) = _
  rw [h2]
  unfold newton_loop newton_step diffusion_update
  rw [show scaling_fac = 1 / 100 from rfl, hg]
  simp [hinfo]

/-- The updates computed by Krylov methods. -/
def KrylovUpdate (update : Update) : Prop := ∀ r A b x, update r A b = .ok (.ok x) → Krylov A b x

theorem krylov_diffusion {gmres : ℝ → LinearSolver ℝ} (h : KrylovSolver gmres) : KrylovUpdate (diffusion_update gmres) := by
  intro r A b x hx
  unfold diffusion_update at hx
  obtain ⟨t, h1, hx⟩ := Res.bind_eq_ok.mp hx
  split at hx
  · rename_i h0
    rw [← Except.ok.inj (Res.ok.inj hx)]
    exact h _ A b t.1 (h1.trans (congrArg Res.ok (Prod.ext rfl h0)))
  · exact (nomatch (Res.ok.inj hx))

theorem krylov_bilaplacian {bicgstab gmres : ℝ → LinearSolver ℝ} (hb : KrylovSolver bicgstab) (h : KrylovSolver gmres) : KrylovUpdate (bilaplacian_update bicgstab gmres) := by
  intro r A b x hx
  unfold bilaplacian_update at hx
  obtain ⟨t, h1, hx⟩ := Res.bind_eq_ok.mp hx
  split at hx
  · rename_i h0
    rw [← Except.ok.inj (Res.ok.inj hx)]
    exact hb _ A b t.1 (h1.trans (congrArg Res.ok (Prod.ext rfl h0)))
  · obtain ⟨t, h1, hx⟩ := Res.bind_eq_ok.mp hx
    split at hx
    · rename_i h0
      rw [← Except.ok.inj (Res.ok.inj hx)]
      exact h _ A b t.1 (h1.trans (congrArg Res.ok (Prod.ext rfl h0)))
    · exact (nomatch (Res.ok.inj hx))

theorem jacobian_of_ok (W : Wrapper) (hL : Lengths W) {x_val x : Fin n → ℝ} {eig_val eig : ℝ} {w : List ℝ} (h : jacobian W (joined x_val eig_val) (joined x eig) = .ok w) :
    ∃ y, HasJacobian W x_val eig_val x eig y ∧ w = joined y (2 * ∑ k, x_val k * x k) := by
  unfold jacobian at h
  obtain ⟨r, h, hw⟩ := Res.bind_eq_ok.mp h
  obtain ⟨x', eig', v', eig_val', y, last, h1, h2, _, h3, _⟩ := of_eval_jacobian h
  obtain ⟨rfl, e1⟩ := List.append_inj' h1 rfl
  obtain ⟨rfl, e2⟩ := List.append_inj' h2 rfl
  have e1 : eig = eig' := by simpa using e1
  have e2 : eig_val = eig_val' := by simpa using e2
  subst e1 e2
  have hl := hL.jacobian _ _ _ _ _ h3
  rw [← h1, joined_length] at hl
  obtain ⟨y', last', hy⟩ := joined_of_length hl
  rw [hy] at h3
  refine ⟨y', ⟨last', h3⟩, ?_⟩
  rw [C91_jacobian W ⟨last', h3⟩] at h
  rw [← Res.ok.inj h] at hw
  exact (Res.ok.inj hw).symm

/-- The vectors of a Krylov method are zero where all the fluxes are. -/
theorem krylov_zero (W : Wrapper) (hL : Lengths W) (Z : Fin n → Prop) (hJ : ∀ x_val eig_val (x : Fin n → ℝ) eig y, HasJacobian W x_val eig_val x eig y → ∀ k, Z k → y k = 0)
    {x_val y : Fin n → ℝ} {eig_val d : ℝ} (hy : ∀ k, Z k → y k = 0) {u : List ℝ} (h : Krylov (jacobian W (joined x_val eig_val)) (joined y d) u) :
    ∃ (dx : Fin n → ℝ) (deig : ℝ), u = joined dx deig ∧ ∀ k, Z k → dx k = 0 := by
  induction h with
  | zero =>
    refine ⟨0, 0, ?_, fun _ _ => rfl⟩
    rw [joined_length, List.replicate_add]
    unfold joined
    congr 1
    exact (List.ofFn_const n (0 : ℝ)).symm
  | rhs => exact ⟨y, d, rfl, hy⟩
  | product _ hA ih =>
    obtain ⟨dx, deig, rfl, _⟩ := ih
    obtain ⟨z, hz, rfl⟩ := jacobian_of_ok W hL hA
    exact ⟨z, _, rfl, hJ _ _ _ _ _ hz⟩
  | combination c d _ _ ih1 ih2 =>
    obtain ⟨x1, a1, rfl, h1⟩ := ih1
    obtain ⟨x2, a2, rfl, h2⟩ := ih2
    refine ⟨fun k => c * x1 k + d * x2 k, c * a1 + d * a2, ?_, fun k hk => by show c * x1 k + d * x2 k = 0; rw [h1 k hk, h2 k hk]; ring⟩
    unfold joined
    rw [List.zipWith_append (by simp)]
    congr 1
    refine List.ext_getElem (by simp) fun i h1 h2 => ?_
    simp

/-- **C91** (Dirichlet nodes).  Where all the fluxes are zero, which is so at the Dirichlet nodes, the trace returned has the values of the start. -/
theorem C91_dirichlet (W : Wrapper) (hL : Lengths W) (update : Update) (hK : KrylovUpdate update) (Z : Fin n → Prop)
    (hF : ∀ (x : Fin n → ℝ) eig y, HasFlux W x eig y → ∀ k, Z k → y k = 0) (hJ : ∀ x_val eig_val (x : Fin n → ℝ) eig y, HasJacobian W x_val eig_val x eig y → ∀ k, Z k → y k = 0)
    (steps : Nat) (x0 : Fin n → ℝ) (eig0 val : ℝ) (x : Fin n → ℝ) (h : newton W update steps (joined x0 eig0) = .ok (.ok (val, joined x val))) : ∀ k, Z k → x k = x0 k := by
  unfold newton at h
  obtain ⟨r, h1, h⟩ := Res.bind_eq_ok.mp h
  obtain ⟨y0, hy0, rfl⟩ := residual_of_ok W hL h1
  obtain ⟨s, h2, h⟩ := Res.bind_eq_ok.mp h
  match s with
  | .error e => exact (nomatch h)
  | .ok s =>
    obtain ⟨⟨x', a, ha, hz⟩, _⟩ := newton_loop_ok (W := W) (update := update) (fun l => ∃ (x : Fin n → ℝ) (a : ℝ), l = joined x a ∧ ∀ k, Z k → x k = x0 k) (fun sol res upd nr c hi hr hu hl => by
      obtain ⟨x, a, rfl, hx⟩ := hi
      obtain ⟨y, hy, e⟩ := residual_of_ok W hL hr
      have e : res = _ := congrArg Prod.fst e
      rw [e] at hu
      obtain ⟨dx, deig, rfl, hd⟩ := krylov_zero W hL Z hJ (hF _ _ _ hy) (hK _ _ _ _ hu)
      refine ⟨_, _, moved_joined x dx a deig c, fun k hk => ?_⟩
      rw [hd k hk, hx k hk]
      ring) steps (joined x0 eig0) _ h1 ⟨x0, eig0, rfl, fun _ _ => rfl⟩ s h2
    simp only at h
    split at h
    · exact (nomatch (Res.ok.inj h))
    · obtain ⟨v, h3, h⟩ := Res.bind_eq_ok.mp h
      have h6 := congrArg Prod.snd (Except.ok.inj (Res.ok.inj h))
      simp only at h6
      rw [ha] at h6
      obtain ⟨rfl, _⟩ := joined_inj h6
      exact hz

theorem norm_trace (v : Fin n → ℝ) : norm (joined v 0) = √(∑ k, v k ^ 2) := by
  rw [norm_joined]
  simp

theorem normalise_joined (v : Fin n → ℝ) (h : v ≠ 0) : normalise (joined v 0) = .ok (joined (fun k => v k / √(∑ k, v k ^ 2)) 0) := by
  have hpos : 0 < ∑ k, v k ^ 2 := by
    obtain ⟨k, hk⟩ : ∃ k, v k ≠ 0 := by
      by_contra hc
      push Not at hc
      exact h (funext hc)
    exact Finset.sum_pos' (fun k _ => sq_nonneg _) ⟨k, Finset.mem_univ k, by positivity⟩
  unfold normalise
  rw [norm_trace, if_neg (Real.sqrt_pos.mpr hpos).ne']
  unfold npMultiply joined
  rw [List.map_append]
  congr 2
  · refine List.ext_getElem (by simp) fun i h1 h2 => ?_
    simp [div_eq_mul_inv]
  · simp

theorem normalised (v : Fin n → ℝ) (h : v ≠ 0) : ∑ k, (v k / √(∑ k, v k ^ 2)) ^ 2 = 1 := by
  have hpos : 0 < ∑ k, v k ^ 2 := by
    obtain ⟨k, hk⟩ : ∃ k, v k ≠ 0 := by
      by_contra hc
      push Not at hc
      exact h (funext hc)
    exact Finset.sum_pos' (fun k _ => sq_nonneg _) ⟨k, Finset.mem_univ k, by positivity⟩
  simp only [div_pow, Real.sq_sqrt hpos.le]
  simp only [div_eq_mul_inv]
  rw [← Finset.sum_mul, mul_inv_cancel₀ hpos.ne']

/-- **C91** (start).  With the vector `v` (not zero) of `make_initial`, or of another program, the start is `v` of norm one and the number given. -/
theorem C91_start (W : Wrapper) (hn : W.size_of_system = n) (v : Fin n → ℝ) (hv : v ≠ 0) (guess value : ℝ) (hi : W.make_initial (List.replicate (n + 1) 0) = .ok (joined v 0)) :
    start_default W guess = .ok (joined (fun k => v k / √(∑ k, v k ^ 2)) guess) ∧ start_initial (joined v value) = .ok (joined (fun k => v k / √(∑ k, v k ^ 2)) value, joined v 0) ∧
      ∑ k, (v k / √(∑ k, v k ^ 2)) ^ 2 = 1 := by
  refine ⟨?_, ?_, normalised v hv⟩
  · unfold start_default
    rw [hn, hi, Res.ok_bind, normalise_joined v hv, Res.ok_bind]
    have := pySet_at (List.ofFn (fun k => v k / √(∑ k, v k ^ 2))) 0 guess
    rwa [List.length_ofFn] at this
  · unfold start_initial
    show (pyGet (List.ofFn v ++ [value]) _ >>= _) = _
    have h1 := pyGet_last (List.ofFn v) value
    have h2 := pySet_last (List.ofFn v) value 0
    rw [show joined v value = List.ofFn v ++ [value] from rfl, h1, Res.ok_bind, h2, Res.ok_bind]
    rw [show List.ofFn v ++ [0] = joined v 0 from rfl, normalise_joined v hv, Res.ok_bind]
    have h3 := pySet_last (List.ofFn (fun k => v k / √(∑ k, v k ^ 2))) 0 value
    rw [show joined (fun k => v k / √(∑ k, v k ^ 2)) 0 = List.ofFn (fun k => v k / √(∑ k, v k ^ 2)) ++ [0] from rfl, h3]
    rfl

end HyperHDG.NewtonProgram

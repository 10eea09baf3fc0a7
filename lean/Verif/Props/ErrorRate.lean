import Verif.Proofs.ErrorRate
import Verif.Props.ErrorEstimate
import Mathlib.Analysis.SpecialFunctions.Trigonometric.Deriv

/-!
# Property C94: rates of convergence on an interval

The unit interval is divided into `n` edges of length `1 / n`; the diffusion problem has a smooth solution.
-/

namespace HyperHDG.Estimate

open Finset Spec Matrix HyGraph Diffusion EllipticProgram Polynomial Exact

variable {p d : Nat} {P : Fin (p + 1) → ℝ[X]}

/-- A hyperedge with the integrals of given data. -/
noncomputable def edgeOf (P : Fin (p + 1) → ℝ[X]) (B : Data d) (types : Nat → Nat) (dirichlet : List Nat) : Edge (d + 1) ((p + 1) ^ (d + 1)) ℝ where
  vol_phiphi i j := B.A.vol * (tensorIntegrator (p + 1) (d + 1) (exactBasis P)).vol_phiphi i j
  vol_phiphifunc _ i j := if h : i < (p + 1) ^ (d + 1) ∧ j < (p + 1) ^ (d + 1) then B.A.vol * cubeInt fun x => B.a x * (shape P ⟨i, h.1⟩ x * shape P ⟨j, h.2⟩ x) else 0
  vol_nablaphiphi i j k := ∑ a : Fin (d + 1), B.A.cof a k * (tensorIntegrator (p + 1) (d + 1) (exactBasis P)).vol_Dphiphi i j a
  bdr_phiphi i j f := if h : f < 2 * (d + 1) then B.A.area ⟨f, h⟩ * (tensorIntegrator (p + 1) (d + 1) (exactBasis P)).bdr_phiphi i j f else 0
  bdr_phipsi i j f := if h : f < 2 * (d + 1) then B.A.area ⟨f, h⟩ * (tensorIntegrator (p + 1) (d + 1) (exactBasis P)).bdr_phipsi i j f else 0
  vol_phifunc _ i := if h : i < (p + 1) ^ (d + 1) then B.A.vol * cubeInt fun x => B.f x * shape P ⟨i, h⟩ x else 0
  bdr_phifunc _ i f := if h : i < (p + 1) ^ (d + 1) ∧ f < 2 * (d + 1) then
    B.A.area ⟨f, h.2⟩ * cubeInt fun y => B.g (facePoint ⟨f, h.2⟩ y) * shape P ⟨i, h.1⟩ (facePoint ⟨f, h.2⟩ y) else 0
  bdrUni_psifunc _ _ _ := 0
  vol_diffsquare _ u := B.A.vol * cubeInt fun x => (polyFun P u x - B.w x) ^ 2
  local_normal f k := if h : f < 2 * (d + 1) then B.A.normal ⟨f, h⟩ k else 0
  face_area f := if h : f < 2 * (d + 1) then B.A.area ⟨f, h⟩ else 0
  node_descriptor := types
  dirichlet_nodes := dirichlet

/-- For all data, there is a hyperedge which satisfies `ExactIntegrals`. -/
theorem edgeOf_exact (P : Fin (p + 1) → ℝ[X]) (B : Data d) (types : Nat → Nat) (dirichlet : List Nat) (time : ℝ) : ExactIntegrals P B time (edgeOf P B types dirichlet) where
  form := by
    unfold form affineForm
    congr 1
    · ext i j
      simp only [edgeOf, of_apply]
      rw [dif_pos ⟨i.2, j.2⟩]
    · funext f
      ext i j
      simp only [edgeOf, of_apply]
      rw [dif_pos f.2]
    · funext f
      ext i j
      simp only [edgeOf, of_apply]
      rw [dif_pos f.2]
    · funext f k
      simp only [edgeOf]
      rw [dif_pos f.2]
    · funext f
      simp only [edgeOf]
      rw [dif_pos f.2]
  source := fun i => by
    simp only [edgeOf]
    rw [dif_pos i.2]
  dirichlet := fun i f => by
    simp only [edgeOf]
    rw [dif_pos ⟨i.2, f.2⟩]
  diff := fun _ => rfl

/-- A diffusion problem on the real line with its solution: `a q + u' = 0`, `q' = f`. -/
structure Line where
  a : ℝ → ℝ
  f : ℝ → ℝ
  q : ℝ → ℝ
  u : ℝ → ℝ
  cont : Continuous a
  pos : ∀ r, 0 < a r
  flux : ∀ r, HasDerivAt u (-(a r * q r)) r
  balance : ∀ r, HasDerivAt q (f r) r

/-- The data on edge `e` of the path with `n` edges: the interval from `e / n` to `(e + 1) / n`; Dirichlet values and analytic result are the values of the solution. -/
noncomputable def Line.data (L : Line) (n e : Nat) : Data 0 where
  A := ⟨1 / n, 1, fun _ => 1, fun f _ => if f.1 % 2 = 0 then -1 else 1⟩
  a := fun z => L.a ((e + z 0) / n)
  f := fun z => L.f ((e + z 0) / n)
  g := fun z => L.u ((e + z 0) / n)
  w := fun z => L.u ((e + z 0) / n)

/-- The edges; the ends of the path are Dirichlet nodes. -/
noncomputable def Line.edges (P : Fin (p + 1) → ℝ[X]) (L : Line) (n e : Nat) : Edge (0 + 1) ((p + 1) ^ (0 + 1)) ℝ :=
  edgeOf P (L.data n e) (fun f => if e + f = 0 ∨ e + f = n then 1 else 0) [1]

open Exact.Example

section
variable (L : Line) {n : Nat} (hn : 0 < n)

include hn

theorem data_admissible (e : Nat) : (L.data n e).Admissible where
  affine := ⟨by show (0 : ℝ) < 1 / n; have : (0 : ℝ) < n := Nat.cast_pos.mpr hn; positivity, isUnit_one, fun _ => one_pos, fun f k => by
    have h1 : axis f = 0 := only _
    have h2 : k = 0 := only k
    subst h2
    simp only [Line.data, Spec.normal, h1, Matrix.one_apply_eq, mul_one]⟩
  cont := L.cont.comp ((continuous_const.add (continuous_apply 0)).div_const _)
  pos := fun _ => L.pos _

theorem facePoint_zero (f : Fin (2 * (0 + 1))) (y : Fin 0 → ℝ) : facePoint f y 0 = f.1 := by
  have hf : f = 0 ∨ f = 1 := by
    have := f.2
    rcases (show f.1 = 0 ∨ f.1 = 1 by omega) with h | h
    · exact .inl (Fin.ext h)
    · exact .inr (Fin.ext h)
  unfold facePoint
  rw [show (0 : Fin (0 + 1)) = axis f from Subsingleton.elim (α := Fin 1) _ _, Fin.insertNth_apply_same]
  rcases hf with rfl | rfl <;> simp

theorem line_solution (p : Nat) (hf : Continuous L.f) : IsClassicalSolution (fun e : Fin (path p n).n_hyEdges => L.data n e) (pathNodes p n) (Ends p n)
    (fun e _ z => L.q ((e.1 + z 0) / n)) (fun e z => L.u ((e.1 + z 0) / n)) (fun v _ => L.u (v.1 / n)) where
  equation := fun e => by
    have hz : Continuous fun z : Fin (0 + 1) → ℝ => ((e.1 : ℝ) + z 0) / n := (continuous_const.add (continuous_apply 0)).div_const _
    have huc : Continuous L.u := continuous_iff_continuousAt.mpr fun r => (L.flux r).continuousAt
    have hqc : Continuous L.q := continuous_iff_continuousAt.mpr fun r => (L.balance r).continuousAt
    have hx : ∀ x : Fin (0 + 1) → ℝ, ∀ l : Fin (0 + 1), HasDerivAt (fun r => ((e.1 : ℝ) + Function.update x l r 0) / n) (1 / n) (x l) := fun x l => by
      have hl : l = 0 := only l
      subst hl
      simp only [Function.update_self]
      exact ((hasDerivAt_id (x 0)).const_add (e.1 : ℝ)).div_const (n : ℝ)
    have hd : ∀ {g g' : ℝ → ℝ}, (∀ r, HasDerivAt g (g' r) r) → ∀ l : Fin (0 + 1), IsPartial l (fun z : Fin (0 + 1) → ℝ => g (((e.1 : ℝ) + z 0) / n)) fun z => 1 / n * g' (((e.1 : ℝ) + z 0) / n) := fun hg l x => by
      have h1 := HasDerivAt.comp (x l) (h₂ := _) (by rw [Function.update_eq_self]; exact hg _) (hx x l)
      exact h1.congr_deriv (mul_comm _ _)
    refine ⟨fun _ z => 1 / n * -(L.a ((e.1 + z 0) / n) * L.q ((e.1 + z 0) / n)), fun _ _ z => 1 / n * L.f ((e.1 + z 0) / n), fun l => ⟨hd L.flux l, ?_⟩, fun k l => ⟨hd L.balance l, ?_⟩, huc.comp hz, fun _ => hqc.comp hz,
      fun x _ => ⟨fun k => ?_, ?_⟩⟩
    · exact continuous_const.mul ((L.cont.comp hz).mul (hqc.comp hz)).neg
    · exact continuous_const.mul (hf.comp hz)
    · have hk : k = 0 := only k
      subst hk
      simp [Line.data]
    · simp [Line.data]
  continuous := fun e f _ y _ => by
    rw [facePoint_zero hn]
    simp [pathNodes]
  dirichlet := fun e f _ y _ => rfl
  balance := fun v hv y _ => by
    have hv0 : v.1 ≠ 0 := fun h => hv (.inl h)
    have hvn : v.1 ≠ n := fun h => hv (.inr h)
    have hv2 : v.1 < n + 1 := v.2
    have hsum : ∀ g : Fin (2 * (0 + 1)) → ℝ, ∑ f, g f = g 0 + g 1 := fun g => Fin.sum_univ_two g
    simp only [hsum, Finset.sum_add_distrib]
    have s1 : (∑ e : Fin (path p n).n_hyEdges, if pathNodes p n e 0 = v then (L.data n e).A.area 0 * ∑ k, (L.data n e).A.normal 0 k * L.q ((e.1 + facePoint 0 y 0) / n) else 0) = -L.q (v.1 / n) := by
      rw [Finset.sum_eq_single (⟨v.1, by show v.1 < n; omega⟩ : Fin (path p n).n_hyEdges)]
      · rw [if_pos (show pathNodes p n ⟨v.1, _⟩ 0 = v from Fin.ext rfl), facePoint_zero hn]
        simp [Line.data]
      · intro e _ he
        refine if_neg fun h' => he (Fin.ext ?_)
        have h2 : e.1 + 0 = v.1 := congrArg Fin.val h'
        exact h2
      · simp
    have s2 : (∑ e : Fin (path p n).n_hyEdges, if pathNodes p n e 1 = v then (L.data n e).A.area 1 * ∑ k, (L.data n e).A.normal 1 k * L.q ((e.1 + facePoint 1 y 0) / n) else 0) = L.q (v.1 / n) := by
      rw [Finset.sum_eq_single (⟨v.1 - 1, by show v.1 - 1 < n; omega⟩ : Fin (path p n).n_hyEdges)]
      · rw [if_pos (Fin.ext (by show v.1 - 1 + 1 = v.1; omega)), facePoint_zero hn]
        have hc : ((v.1 - 1 : Nat) : ℝ) = v.1 - 1 := by rw [Nat.cast_sub (by omega)]; simp
        simp [Line.data, hc]
      · intro e _ he
        refine if_neg fun h' => he (Fin.ext ?_)
        have h2 : e.1 + 1 = v.1 := congrArg Fin.val h'
        show e.1 = v.1 - 1
        omega
      · simp
    exact (congrArg₂ (· + ·) s1 s2).trans (neg_add_cancel _)

end

/-- The right-hand side of the estimate of the flux. -/
theorem rate_rhs (L : Line) {n : Nat} (hn : 0 < n) {tau A C Mq Mu : ℝ} (ht : 0 < tau) (hA0 : 0 ≤ A) (hC : 0 ≤ C) :
    C * ∑ e : Fin (path p n).n_hyEdges, ((L.data n e).A.vol * A * (Mq * (1 / n : ℝ) ^ (p + 1)) ^ 2 + (∑ f, (L.data n e).A.area f) *
      ((Mq * (1 / n : ℝ) ^ (p + 1)) ^ 2 / tau + tau * (Mu * (1 / n : ℝ) ^ (p + 1)) ^ 2)) ≤ C * (A * Mq ^ 2 + 2 * (Mq ^ 2 + Mu ^ 2)) * (1 + tau + 1 / tau) * (1 / n : ℝ) ^ (2 * p + 1) := by
  have hn' : (0 : ℝ) < n := Nat.cast_pos.mpr hn
  have h6 : ∀ e : Fin (path p n).n_hyEdges, ((L.data n e).A.vol * A * (Mq * (1 / n : ℝ) ^ (p + 1)) ^ 2 + (∑ f, (L.data n e).A.area f) *
    ((Mq * (1 / n : ℝ) ^ (p + 1)) ^ 2 / tau + tau * (Mu * (1 / n : ℝ) ^ (p + 1)) ^ 2)) = (1 / n : ℝ) * ((A * Mq ^ 2 * (1 / n) + 2 * (Mq ^ 2 / tau + tau * Mu ^ 2)) * (1 / n : ℝ) ^ (2 * p + 1)) := fun e => by
    have h7 : (∑ f, (L.data n e).A.area f) = 2 := by
      show ∑ f : Fin 2, (1 : ℝ) = 2
      simp
    have h8 : (L.data n e).A.vol = 1 / n := rfl
    rw [h7, h8]
    ring
  rw [sum_congr rfl fun e _ => h6 e, sum_const, card_univ, Fintype.card_fin, nsmul_eq_mul]
  have h5 : ((path p n).n_hyEdges : ℝ) * ((1 / n : ℝ) * ((A * Mq ^ 2 * (1 / n) + 2 * (Mq ^ 2 / tau + tau * Mu ^ 2)) * (1 / n : ℝ) ^ (2 * p + 1))) =
      (A * Mq ^ 2 * (1 / n) + 2 * (Mq ^ 2 / tau + tau * Mu ^ 2)) * (1 / n : ℝ) ^ (2 * p + 1) := by
    rw [← mul_assoc, show ((path p n).n_hyEdges : ℝ) = n from rfl, mul_one_div_cancel hn'.ne', one_mul]
  rw [h5, ← mul_assoc]
  refine mul_le_mul_of_nonneg_right ?_ (by positivity)
  rw [mul_assoc C]
  refine mul_le_mul_of_nonneg_left ?_ hC
  have h8 : (1 / n : ℝ) ≤ 1 := by
    rw [div_le_one hn']
    exact_mod_cast hn
  have h9 : A * Mq ^ 2 * (1 / n) ≤ A * Mq ^ 2 := mul_le_of_le_one_right (by positivity) h8
  have h10 : Mq ^ 2 / tau = Mq ^ 2 * (1 / tau) := by ring
  have h11 : 0 < 1 / tau := by positivity
  rw [h10]
  have h12 : 0 ≤ A * Mq ^ 2 * (tau + 1 / tau) + 2 * (Mq ^ 2 * (1 + tau) + Mu ^ 2 * (1 + 1 / tau)) := by positivity
  linarith

theorem line_mem {n : Nat} (hn : 0 < n) (e : Fin n) (z : Fin (0 + 1) → ℝ) (hz : z ∈ cube (0 + 1)) : (e.1 + z 0) / n ∈ Set.Icc (0 : ℝ) 1 := by
  have hn' : (0 : ℝ) < n := Nat.cast_pos.mpr hn
  have hz0 : z 0 ∈ Set.Icc (0 : ℝ) 1 := hz 0 trivial
  have he : ((e.1 : ℝ) + 1) ≤ n := by exact_mod_cast e.2
  exact ⟨div_nonneg (add_nonneg (Nat.cast_nonneg _) hz0.1) hn'.le, by rw [div_le_one hn']; linarith [hz0.2]⟩

/-- A telescoping sum. -/
theorem telescope {n : Nat} (err : Nat → ℝ) (t : Fin n → ℝ) (h0 : err 0 = 0) (h : ∀ e : Fin n, err (e.1 + 1) - err e.1 = t e) : ∀ k, k ≤ n → |err k| ≤ ∑ e, |t e| := by
  have hpath : ∀ k, k ≤ n → |err k| ≤ ∑ e : Fin n, if e.1 < k then |t e| else 0 := by
    intro k
    induction k with
    | zero =>
      intro _
      rw [h0, abs_zero]
      exact sum_nonneg fun e _ => by split <;> simp
    | succ k ih =>
      intro hk
      have hk' : k < n := by omega
      have h3 := h ⟨k, hk'⟩
      have h4 := ih (by omega)
      have h5 : (∑ e : Fin n, if e.1 < k + 1 then |t e| else 0) = (∑ e : Fin n, if e.1 < k then |t e| else 0) + |t ⟨k, hk'⟩| := by
        have h6 : ∀ e : Fin n, (if e.1 < k + 1 then |t e| else 0) = (if e.1 < k then |t e| else 0) + if e = ⟨k, hk'⟩ then |t e| else 0 := fun e => by
          by_cases h7 : e.1 < k
          · rw [if_pos h7, if_pos (by omega), if_neg (fun h => by rw [h] at h7; exact lt_irrefl _ h7), add_zero]
          · by_cases h8 : e = ⟨k, hk'⟩
            · rw [if_neg h7, if_pos h8, if_pos (by rw [h8]; exact Nat.lt_succ_self k), zero_add]
            · rw [if_neg h7, if_neg h8, if_neg (fun h9 => h8 (Fin.ext (by show e.1 = k; omega))), add_zero]
        rw [sum_congr rfl fun e _ => h6 e, sum_add_distrib, sum_ite_eq' univ (⟨k, hk'⟩ : Fin n) fun e => |t e|, if_pos (mem_univ _)]
      rw [h5]
      have h6 : err (k + 1) = t ⟨k, hk'⟩ + err k := by
        have h7 : err (k + 1) - err k = t ⟨k, hk'⟩ := h3
        linear_combination h7
      rw [h6]
      exact (abs_add_le _ _).trans (by linarith)
  refine fun k hk => (hpath k hk).trans (sum_le_sum fun e _ => ?_)
  split
  · exact le_rfl
  · exact abs_nonneg _

/-- Squares of sums of weighted means. -/
theorem sum_means {n : Nat} (hn : 0 < n) {A : ℝ} (a : Fin n → (Fin (0 + 1) → ℝ) → ℝ) (g : Fin n → (Fin (0 + 1) → ℝ) → ℝ) (ha : ∀ e, Continuous (a e)) (hg : ∀ e, Continuous (g e)) (h0 : ∀ e z, 0 < a e z)
    (hA : ∀ e, ∀ z ∈ cube (0 + 1), a e z ≤ A) : (∑ e : Fin n, |(1 / n : ℝ) * cubeInt fun z => a e z * g e z|) ^ 2 ≤ A * ∑ e : Fin n, (1 / n : ℝ) * cubeInt fun z => a e z * g e z ^ 2 := by
  have hn' : (0 : ℝ) < n := Nat.cast_pos.mpr hn
  have ht : ∀ e : Fin n, |(1 / n : ℝ) * cubeInt fun z => a e z * g e z| ^ 2 ≤ (1 / n : ℝ) * (A * ((1 / n : ℝ) * cubeInt fun z => a e z * g e z ^ 2)) := fun e => by
    rw [sq_abs, mul_pow]
    have h5 := mean_sq ((ha e).fun_mul (hg e))
    have h6 : cubeInt (fun z => (a e z * g e z) ^ 2) ≤ A * cubeInt fun z => a e z * g e z ^ 2 := by
      rw [← cubeInt_mul]
      refine cubeInt_mono (((ha e).mul (hg e)).pow 2) (continuous_const.mul ((ha e).mul ((hg e).pow 2))) fun z hz' => ?_
      have h8 := mul_le_mul_of_nonneg_right (hA e z hz') (mul_nonneg (h0 e z).le (sq_nonneg (g e z)))
      show (a e z * g e z) ^ 2 ≤ _
      linarith
    have h9 := mul_le_mul_of_nonneg_left (h5.trans h6) (sq_nonneg (1 / n : ℝ))
    linarith
  refine (sq_sum_le_card_mul_sum_sq (s := univ) (f := fun e : Fin n => |(1 / n : ℝ) * cubeInt fun z => a e z * g e z|)).trans ?_
  rw [card_univ, Fintype.card_fin]
  refine (mul_le_mul_of_nonneg_left (sum_le_sum fun e _ => ht e) hn'.le).trans (le_of_eq ?_)
  rw [← mul_sum, ← mul_assoc, mul_one_div_cancel hn'.ne', one_mul, mul_sum]

theorem line_types (L : Line) (n : Nat) (e : Fin (path p n).n_hyEdges) (f : Fin (2 * (0 + 1))) :
    (L.edges P n e).node_descriptor f ∈ (L.edges P n e).dirichlet_nodes ↔ Ends p n (pathNodes p n e f) := by
  show (if e.1 + f.1 = 0 ∨ e.1 + f.1 = n then 1 else 0) ∈ [1] ↔ e.1 + f.1 = 0 ∨ e.1 + f.1 = n
  split <;> simp_all

theorem line_integrals (P : Fin (p + 1) → ℝ[X]) (L : Line) (n e : Nat) : ExactIntegrals P (L.data n e) 0 (L.edges P n e) := edgeOf_exact _ _ _ _ _

theorem line_q_cont (L : Line) : Continuous L.q := continuous_iff_continuousAt.mpr fun r => (L.balance r).continuousAt

/-- The values at the nodes: those of the solution at the ends, those of the traces at the other ones. -/
noncomputable def nodeValue (P : Fin (p + 1) → ℝ[X]) (L : Line) (n : Nat) (x : Fin ((path p n).n_hyNodes * (p + 1) ^ 0) → ℝ) (k : Nat) : ℝ :=
  if k = 0 ∨ k = n then L.u (k / n) else if h : k < (path p n).n_hyNodes then polyFun P (fun j : Fin ((p + 1) ^ 0) => x (dof ⟨k, h⟩ j)) (fun k : Fin 0 => k.elim0) else 0

theorem nodeValue_end (L : Line) {n : Nat} (x : Fin ((path p n).n_hyNodes * (p + 1) ^ 0) → ℝ) {e : Fin (path p n).n_hyEdges} {f : Fin (2 * (0 + 1))} (h : Ends p n (pathNodes p n e f)) :
    nodeValue P L n x (e.1 + f.1) = L.u (((e.1 + f.1 : Nat) : ℝ) / n) := if_pos h

theorem nodeValue_inner (L : Line) {n : Nat} (x : Fin ((path p n).n_hyNodes * (p + 1) ^ 0) → ℝ) {e : Fin (path p n).n_hyEdges} {f : Fin (2 * (0 + 1))} (h : ¬ Ends p n (pathNodes p n e f)) (y : Fin 0 → ℝ) :
    nodeValue P L n x (e.1 + f.1) = polyFun P (faceValues (pathNodes p n) x e f) y := by
  have hy : y = fun k => k.elim0 := funext fun k => k.elim0
  rw [hy]
  exact (if_neg h).trans (dif_pos (pathNodes p n e f).2)

theorem node_step (hP : OrthonormalPolys p P) (L : Line) (hfc : Continuous L.f) {n : Nat} (hn : 0 < n) {tau : ℝ} (x : Fin ((path p n).n_hyNodes * (p + 1) ^ 0) → ℝ) (hx0 : VanishesAt (Ends p n) x)
    (e : Fin (path p n).n_hyEdges) (q' : Fin (0 + 1) → Fin ((p + 1) ^ (0 + 1)) → ℝ) (u' : Fin ((p + 1) ^ (0 + 1)) → ℝ)
    (h2 : IsSolution (form (L.edges P n e) ((p + 1) ^ 0) 0) tau 0 1 (moments (form (L.edges P n e) ((p + 1) ^ 0) 0) (faceValues (pathNodes p n) x e) + dirichletMoments (L.edges P n e) 0)
      (source (L.edges P n e) 0) q' u') :
    (nodeValue P L n x (e.1 + 1) - L.u (((e.1 + 1 : Nat) : ℝ) / n)) - (nodeValue P L n x e.1 - L.u (e.1 / n)) =
      (1 / n : ℝ) * cubeInt fun z => L.a ((e.1 + z 0) / n) * (L.q ((e.1 + z 0) / n) - polyFun P (q' 0) z) := by
  have hz : Continuous fun z : Fin (0 + 1) → ℝ => ((e.1 : ℝ) + z 0) / n := (continuous_const.add (continuous_apply 0)).div_const _
  have hG : ∀ (f : Fin (2 * (0 + 1))) (i : Fin ((p + 1) ^ (0 + 1))), (moments (form (L.edges P n e) ((p + 1) ^ 0) 0) (faceValues (pathNodes p n) x e) + dirichletMoments (L.edges P n e) 0) f i =
      (L.data n e).A.area f * cubeInt fun y => (fun (f : Fin (2 * (0 + 1))) (_ : Fin 0 → ℝ) => nodeValue P L n x (e.1 + f.1)) f y * shape P i (facePoint f y) := fun f i => by
    refine moments_of hP (line_integrals P L n e) (u := fun z => L.u ((e.1 + z 0) / n)) (T := fun (f : Fin (2 * (0 + 1))) (_ : Fin 0 → ℝ) => nodeValue P L n x (e.1 + f.1)) f (fun hd => ⟨?_, ?_, ?_⟩) (fun hd => ?_) i
    · exact funext fun j => hx0 _ ((line_types L n e f).mp hd) j
    · exact fun y hy => rfl
    · funext y
      show nodeValue P L n x (e.1 + f.1) = L.u ((e.1 + facePoint f y 0) / n)
      rw [facePoint_zero hn, nodeValue_end L x ((line_types (P := P) L n e f).mp hd), Nat.cast_add]
    · funext y
      exact nodeValue_inner L x (fun h => hd ((line_types L n e f).mpr h)) y
  have h3 := mean_flux hP (data_admissible L hn e) (line_integrals P L n e) h2 (T := fun f _ => nodeValue P L n x (e.1 + f.1)) (fun f => continuous_const) hG 0
  have h4 := mean_exact hP (data_admissible L hn e) (line_integrals P L n e) ((line_solution L hn p hfc).equation e) 0
  have hsum : ∀ g : Fin (2 * (0 + 1)) → ℝ, ∑ f, g f = g 0 + g 1 := fun g => Fin.sum_univ_two g
  have hval : ∀ g : ℝ, cubeInt (fun _ : Fin 0 → ℝ => g) = g := fun g => cubeInt_const g
  have hnode : ∀ f : Fin (2 * (0 + 1)), (fun y : Fin 0 → ℝ => L.u ((e.1 + facePoint f y 0) / n)) = fun _ => L.u (((e.1 + f.1 : Nat) : ℝ) / n) := fun f => funext fun y => by
    rw [facePoint_zero hn, Nat.cast_add]
  simp only [hsum, hval, hnode] at h3 h4
  have h5 : ((1 / n : ℝ) * cubeInt fun z => L.a ((e.1 + z 0) / n) * (L.q ((e.1 + z 0) / n) - polyFun P (q' 0) z)) =
      (L.data n e).A.vol * cubeInt (fun z => (L.data n e).a z * L.q ((e.1 + z 0) / n)) - (L.data n e).A.vol * cubeInt fun z => (L.data n e).a z * polyFun P (q' 0) z := by
    have h6 := cubeInt_sub ((data_admissible L hn e).cont.fun_mul ((line_q_cont L).comp hz)) ((data_admissible L hn e).cont.fun_mul (polyFun_cont (P := P) (q' 0)))
    refine Eq.trans ?_ ((congrArg ((L.data n e).A.vol * ·) h6).trans (mul_sub _ _ _))
    exact congrArg ((1 / n : ℝ) * ·) (congrArg cubeInt (funext fun z => mul_sub _ _ _))
  have n0 : (L.data n e).A.normal 0 0 = -1 := by simp [Line.data]
  have n1 : (L.data n e).A.normal 1 0 = 1 := by simp [Line.data]
  have a0 : ∀ f, (L.data n e).A.area f = 1 := fun f => rfl
  have i0 : e.1 + (0 : Fin (2 * (0 + 1))).1 = e.1 := rfl
  have i1 : e.1 + (1 : Fin (2 * (0 + 1))).1 = e.1 + 1 := rfl
  rw [n0, n1, a0, a0, i0, i1] at h3 h4
  rw [h5]
  linear_combination h3 - h4

/-- The errors of the values at the nodes are bounded by the error of the flux. -/
theorem node_errors (hP : OrthonormalPolys p P) (L : Line) (hfc : Continuous L.f) {n : Nat} (hn : 0 < n) {A : ℝ} (hA : ∀ r ∈ Set.Icc (0 : ℝ) 1, L.a r ≤ A) {tau : ℝ}
    (x : Fin ((path p n).n_hyNodes * (p + 1) ^ 0) → ℝ) (q' : Fin (path p n).n_hyEdges → Fin (0 + 1) → Fin ((p + 1) ^ (0 + 1)) → ℝ) (u' : Fin (path p n).n_hyEdges → Fin ((p + 1) ^ (0 + 1)) → ℝ) (hx0 : VanishesAt (Ends p n) x)
    (h2 : ∀ e : Fin (path p n).n_hyEdges, IsSolution (form (L.edges P n e) ((p + 1) ^ 0) 0) tau 0 1
      (moments (form (L.edges P n e) ((p + 1) ^ 0) 0) (faceValues (pathNodes p n) x e) + dirichletMoments (L.edges P n e) 0) (source (L.edges P n e) 0) (q' e) (u' e))
    (e : Fin (path p n).n_hyEdges) (f : Fin (2 * (0 + 1))) (y : Fin 0 → ℝ) (hf : ¬ Ends p n (pathNodes p n e f)) :
    (polyFun P (faceValues (pathNodes p n) x e f) y - L.u ((pathNodes p n e f).1 / n)) ^ 2 ≤
      A * ∑ e : Fin (path p n).n_hyEdges, (1 / n : ℝ) * cubeInt (fun z => L.a ((e.1 + z 0) / n) * (L.q ((e.1 + z 0) / n) - polyFun P (q' e 0) z) ^ 2) := by
  have hz : ∀ e : Nat, Continuous fun z : Fin (0 + 1) → ℝ => ((e : ℝ) + z 0) / n := fun e => (continuous_const.add (continuous_apply 0)).div_const _
  have h4 := telescope (n := n) (fun k => nodeValue P L n x k - L.u (k / n)) (fun e => (1 / n : ℝ) * cubeInt fun z => L.a ((e.1 + z 0) / n) * (L.q ((e.1 + z 0) / n) - polyFun P (q' e 0) z))
    (by show nodeValue P L n x 0 - _ = 0; rw [nodeValue, if_pos (.inl rfl), sub_self]) (fun e => node_step hP L hfc hn x hx0 e (q' e) (u' e) (h2 e)) (e.1 + f.1) (Nat.lt_succ_iff.mp (pathNodes p n e f).2)
  have h5 := sum_means hn (A := A) (fun (e : Fin n) z => L.a ((e.1 + z 0) / n)) (fun e z => L.q ((e.1 + z 0) / n) - polyFun P (q' e 0) z) (fun e => L.cont.comp (hz e))
    (fun e => ((line_q_cont L).comp (hz e)).sub (polyFun_cont _)) (fun e z => L.pos _) (fun e z hz => hA _ (line_mem hn e z hz))
  rw [← sq_abs, ← nodeValue_inner L x hf y]
  exact (pow_le_pow_left₀ (abs_nonneg _) h4 2).trans h5

/-- The estimate of the flux on the path. -/
theorem line_flux (hP : OrthonormalPolys p P) (L : Line) (hu : ContDiff ℝ (p + 1) L.u) (hq : ContDiff ℝ (p + 1) L.q) (hfc : Continuous L.f) {A : ℝ} (hA : ∀ r ∈ Set.Icc (0 : ℝ) 1, L.a r ≤ A) (hA0 : 0 ≤ A) :
    ∃ K : ℝ, 0 ≤ K ∧ ∀ (n : Nat) (_ : 0 < n) (tau : ℝ) (_ : 0 < tau)
    (x : Fin ((path p n).n_hyNodes * (p + 1) ^ 0) → ℝ) (q' : Fin (path p n).n_hyEdges → Fin (0 + 1) → Fin ((p + 1) ^ (0 + 1)) → ℝ) (u' : Fin (path p n).n_hyEdges → Fin ((p + 1) ^ (0 + 1)) → ℝ) (_ : VanishesAt (Ends p n) x)
    (_ : ∀ e : Fin (path p n).n_hyEdges, IsSolution (form (L.edges P n e) ((p + 1) ^ 0) 0) tau 0 1
      (moments (form (L.edges P n e) ((p + 1) ^ 0) 0) (faceValues (pathNodes p n) x e) + dirichletMoments (L.edges P n e) 0) (source (L.edges P n e) 0) (q' e) (u' e))
    (_ : ∀ v, ¬ Ends p n v → ∀ j, ∑ e : Fin (path p n).n_hyEdges, ∑ f, (if pathNodes p n e f = v then faceFlux (form (L.edges P n e) ((p + 1) ^ 0) 0) tau (faceValues (pathNodes p n) x e) (q' e) (u' e) f j else 0) = 0),
    ∑ e : Fin (path p n).n_hyEdges, (1 / n : ℝ) * cubeInt (fun z => L.a ((e.1 + z 0) / n) * (L.q ((e.1 + z 0) / n) - polyFun P (q' e 0) z) ^ 2) ≤ K * (1 + tau + 1 / tau) * (1 / n : ℝ) ^ (2 * p + 1) := by
  obtain ⟨C, hC, hest⟩ := flux_estimate hP 0
  obtain ⟨Mq, hMq0, hMq⟩ := taylor_approx hq
  obtain ⟨Mu, hMu0, hMu⟩ := taylor_approx hu
  refine ⟨C * (A * Mq ^ 2 + 2 * (Mq ^ 2 + Mu ^ 2)), mul_nonneg hC (by positivity), fun n hn tau ht x q' u' hx0 h2 h3 => ?_⟩
  have hN : ∀ e f, ∑ k, (L.data n e).A.normal f k ^ 2 = 1 := fun e f => by
    simp only [Line.data]
    rw [Fin.sum_univ_one]
    split <;> norm_num
  have hbound := hest tau ht (L.data n) (data_admissible L hn) hN 0 (L.edges P n) (line_integrals P L n) (path p n) (pathNodes p n) (Ends p n) (line_types L n)
    (fun e _ z => L.q ((e.1 + z 0) / n)) (fun e z => L.u ((e.1 + z 0) / n)) (fun v _ => L.u (v.1 / n)) (line_solution L hn p hfc)
    (fun _ => A) (fun _ => Mq * (1 / n : ℝ) ^ (p + 1)) (fun _ => Mu * (1 / n : ℝ) ^ (p + 1)) (fun e z hz => hA _ (line_mem hn e z hz)) (fun e k => hMq n e.1 e.2) (fun e => hMu n e.1 e.2) x q' u' hx0 h2 h3
  refine le_trans (le_of_eq ?_) (hbound.trans (rate_rhs L hn ht hA0 hC))
  refine sum_congr rfl fun e _ => ?_
  have h5 : ∀ g : Fin (0 + 1) → ℝ, ∑ k, g k = g 0 := fun g => Fin.sum_univ_one g
  simp only [h5]
  rfl

/-- **C94** (rates).  For a diffusion problem with a smooth solution on the unit interval, divided into `n` edges: the squares of the error of the flux and of the errors of the values at the inner nodes are at most a
constant, which does not depend on `n` and `tau`, times `(1 + tau + 1 / tau) (1 / n)^(2 p + 1)`. -/
theorem C94_rate (hP : OrthonormalPolys p P) (L : Line) (hu : ContDiff ℝ (p + 1) L.u) (hq : ContDiff ℝ (p + 1) L.q) :
    ∃ C : ℝ, ∀ (n : Nat) (_ : 0 < n) (_ : n + 1 < U32) (m : Mode) (gesv : Gesv (((0 + 1) + 1) * (p + 1) ^ (0 + 1)) 1 ℝ) (_ : GesvSpec gesv) (tau : ℝ) (_ : 0 < tau),
    ∃ (x : Fin ((path p n).n_hyNodes * (p + 1) ^ 0) → ℝ) (qh uh : Fin (path p n).n_hyEdges → (Fin (0 + 1) → ℝ) → ℝ),
      (∀ old0 new0 y, (VanishesAt (Ends p n) y ∧
        (Elliptic.mk' (path p n)).apply m (localResidual m gesv tau (L.edges P n) 0) old0 new0 (List.ofFn y) = .ok (List.replicate ((path p n).n_hyNodes * (p + 1) ^ 0) 0)) ↔ y = x) ∧
      (∀ (e : Fin (path p n).n_hyEdges) abscissas vals0, ∃ vals, bulk_values m gesv (fun c l => polyFun P c (coords (0 + 1) l)) tau abscissas (faceValues (pathNodes p n) x e) (L.edges P n e) 0 vals0 = .ok vals ∧
        ∀ pt : Fin (Hypercube.pow (0 + 1) abscissas.length), ∃ l, Hypercube.tensorial_pt m (0 + 1) pt abscissas = .ok l ∧
          (∀ k : Fin (0 + 1), vals k.castSucc pt = qh e (coords (0 + 1) l)) ∧ vals (Fin.last (0 + 1)) pt = uh e (coords (0 + 1) l)) ∧
      ∑ e : Fin (path p n).n_hyEdges, (1 / n : ℝ) * cubeInt (fun z => L.a ((e.1 + z 0) / n) * (L.q ((e.1 + z 0) / n) - qh e z) ^ 2) ≤ C * (1 + tau + 1 / tau) * (1 / n : ℝ) ^ (2 * p + 1) ∧
      ∀ (e : Fin (path p n).n_hyEdges) (f : Fin (2 * (0 + 1))) (y : Fin 0 → ℝ), ¬ Ends p n (pathNodes p n e f) →
        (polyFun P (faceValues (pathNodes p n) x e f) y - L.u ((pathNodes p n e f).1 / n)) ^ 2 ≤ C * (1 + tau + 1 / tau) * (1 / n : ℝ) ^ (2 * p + 1) := by
  obtain ⟨A, hA'⟩ := isCompact_Icc (a := (0 : ℝ)) (b := 1) |>.exists_bound_of_continuousOn L.cont.continuousOn
  have hA : ∀ r ∈ Set.Icc (0 : ℝ) 1, L.a r ≤ A := fun r hr => (le_abs_self _).trans (hA' r hr)
  have hA0 : 0 ≤ A := (L.pos 0).le.trans (hA 0 ⟨le_rfl, zero_le_one⟩)
  have hfc : Continuous L.f := by
    have h1 : deriv L.q = L.f := funext fun r => (L.balance r).deriv
    rw [← h1]
    exact hq.continuous_deriv (by norm_cast; omega)
  obtain ⟨K, hK, hest⟩ := line_flux hP L hu hq hfc hA hA0
  refine ⟨K * (1 + A), fun n hn hU m gesv hg tau ht => ?_⟩
  obtain ⟨x, q', u', h1, h2, h3⟩ := discrete_solution hP m gesv hg tau ht (L.data n) (data_admissible L hn) 0 (L.edges P n) (line_integrals P L n) (path p n) (pathNodes p n) (path_wf p n hU) (Ends p n)
    (line_types L n) (path_anchored p n)
  have hx0 := ((h1 0 0 x).mpr rfl).1
  have hflux := hest n hn tau ht x q' u' hx0 h2 h3
  have hpos : 0 ≤ (1 + tau + 1 / tau) * (1 / n : ℝ) ^ (2 * p + 1) := by positivity
  refine ⟨x, fun e => polyFun P (q' e 0), fun e => polyFun P (u' e), h1, fun e abscissas vals0 => ?_, hflux.trans ?_, fun e f y hf => ?_⟩
  · have hF := (exact_laws hP (data_admissible L hn e) (line_integrals P L n e)).1
    have hS := (C21_solvable m gesv hg tau (L.edges P n e) 0 hF ht (0 : LocDofs (0 + 1) ((p + 1) ^ 0) ℝ) 0).1
    obtain ⟨q'', u'', h4, vals, h5, h6⟩ := C48_bulk_values m gesv hg tau (L.edges P n e) 0 hS (fun c l => polyFun P c (coords (0 + 1) l)) abscissas (faceValues (pathNodes p n) x e) vals0
    obtain ⟨rfl, rfl⟩ := solution_unique hS h4 (h2 e)
    refine ⟨vals, h5, fun pt => ?_⟩
    obtain ⟨l, h7, h8, h9⟩ := h6 pt
    refine ⟨l, h7, fun k => ?_, h9⟩
    obtain rfl : k = 0 := only k
    exact h8 0
  · have := mul_nonneg (mul_nonneg hK hA0) hpos
    linarith
  · refine (node_errors hP L hfc hn hA x q' u' hx0 h2 e f y hf).trans ((mul_le_mul_of_nonneg_left hflux hA0).trans ?_)
    have := mul_nonneg hK hpos
    linarith

/-- A diffusion problem which satisfies the hypotheses of `C94_rate`: the solution is the sine. -/
noncomputable def Line.sine : Line where
  a := fun _ => 1
  f := Real.sin
  q := fun r => -Real.cos r
  u := Real.sin
  cont := continuous_const
  pos := fun _ => one_pos
  flux := fun r => by
    have h := Real.hasDerivAt_sin r
    rwa [one_mul, neg_neg]
  balance := fun r => by
    have h := (Real.hasDerivAt_cos r).neg
    rwa [neg_neg] at h

theorem sine_smooth (p : Nat) : ContDiff ℝ (p + 1) Line.sine.u ∧ ContDiff ℝ (p + 1) Line.sine.q := ⟨Real.contDiff_sin, Real.contDiff_cos.neg⟩

end HyperHDG.Estimate

import Mathlib.Data.Rat.Defs
import Mathlib.Algebra.Order.Field.Rat
import Mathlib.Tactic.Linarith
import Mathlib.Tactic.IntervalCases
import Mathlib.Tactic.NormNum
import Verif.Proofs.SparseLA

/-!
# Properties C10, C11, C12: vector operations and conjugate gradient

Vectors of length `N` are `List.ofFn u` with `u : Fin N → K`; `dot u v = Σ u i * v i`.
-/

namespace HyperHDG.SparseLA

open Finset

variable {K : Type}

/-! ## C10 -/

/-- **C10** (aliasing).  The storing `linear_combination` replaces the vector at `result` by `a*u + b*v` with the vectors `u`, `v` stored at `l` and
`r` before the call, for all positions `l`, `r`, `res`, equal or not, and leaves all other vectors as they are. -/
theorem C10_alias_safe [CommRing K] {N : Nat} (m : Mode) (a b : K) (l r res : Nat) (st : List (List K))
    (u v w : Fin N → K) (hl : st[l]? = some (List.ofFn u)) (hr : st[r]? = some (List.ofFn v))
    (hres : st[res]? = some (List.ofFn w)) :
    ∃ st', linear_combination_into m a l b r res st = .ok st' ∧
      st'[res]? = some (List.ofFn (fun i => a * u i + b * v i)) ∧
      ∀ p, p ≠ res → st'[p]? = st[p]? := by
  refine ⟨_, linear_combination_into_eq m a b l r res st u v w hl hr hres, ?_, fun p hp => ?_⟩
  · have := (List.getElem?_eq_some_iff.mp hres).1
    simp [this]
  · rw [List.getElem?_set_ne (Ne.symm hp)]

/-- **C10** (returning version). -/
theorem C10_linear_combination [CommRing K] {N : Nat} (m : Mode) (a b : K) (u v : Fin N → K) :
    linear_combination m a (List.ofFn u) b (List.ofFn v) = .ok (List.ofFn (fun i => a * u i + b * v i)) :=
  linear_combination_ofFn m a b u v

/-- **C10** (inner product).  The value is the sum of the products; it is symmetric and linear in the first (hence in each) argument. -/
theorem C10_inner_product [CommRing K] {N : Nat} (m : Mode) :
    ∃ ip : (Fin N → K) → (Fin N → K) → K,
      (∀ u v, inner_product m (List.ofFn u) (List.ofFn v) = .ok (ip u v)) ∧
      (∀ u v, ip u v = ∑ i, u i * v i) ∧ (∀ u v, ip u v = ip v u) ∧
      (∀ (a b : K) u v w, ip (fun i => a * u i + b * v i) w = a * ip u w + b * ip v w) := by
  refine ⟨fun u v => ∑ i, u i * v i, fun u v => inner_product_ofFn m u v, fun _ _ => rfl, fun u v => ?_,
    fun a b u v w => ?_⟩
  · exact Finset.sum_congr rfl (fun i _ => mul_comm _ _)
  · rw [Finset.mul_sum, Finset.mul_sum, ← Finset.sum_add_distrib]
    exact Finset.sum_congr rfl (fun i _ => by ring)

/-- **C10** (different lengths).  With assertions the program stops; without them, `inner_product` reads out of bounds if the right vector is
shorter, and silently ignores the excess if it is longer. -/
theorem C10_length_mismatch [CommRing K] (u v : List K) (h : u.length ≠ v.length) :
    inner_product .debug u v = .abort ∧ (∀ a b, linear_combination .debug a u b v = .abort) ∧
    (v.length < u.length → inner_product .release u v = .ub) := by
  refine ⟨by simp [inner_product, hyAssert, h], fun a b => by simp [linear_combination, hyAssert, h], fun hlt => ?_⟩
  simp only [inner_product, hyAssert_release, Res.ok_bind]
  have key : ∀ k, k ≤ u.length → k ≤ v.length → ∃ p, forUp k (fun i product => do
      let l ← vget u i
      let r ← vget v i
      return product + l * r) (0 : K) = .ok p := by
    intro k hu hv
    obtain ⟨p, hp, _⟩ := forUp_inv k (fun i product => do
      let l ← vget u i
      let r ← vget v i
      return product + l * r) (0 : K) (fun _ _ => True) trivial (fun c hc p _ => by
        rw [vget_of_lt (by omega), vget_of_lt (by omega)]
        exact ⟨_, rfl, trivial⟩)
    exact ⟨p, hp⟩
  obtain ⟨p, hp⟩ := key v.length (by omega) (le_refl _)
  have step : ∀ j, v.length + 1 + j ≤ u.length → forUp (v.length + 1 + j) (fun i product => do
      let l ← vget u i
      let r ← vget v i
      return product + l * r) (0 : K) = .ub := by
    intro j
    induction j with
    | zero =>
      intro hj
      rw [Nat.add_zero, forUp_succ, hp, Res.ok_bind, vget_of_lt (by omega), vget_ub (le_refl _)]
      rfl
    | succ j ih =>
      intro hj
      rw [← Nat.add_assoc, forUp_succ, ih (by omega)]
      rfl
  have := step (u.length - (v.length + 1)) (by omega)
  rwa [show v.length + 1 + (u.length - (v.length + 1)) = u.length by omega] at this

/-- Non-vacuity: `x = 2 x + 3 x` with all three references equal. -/
example : linear_combination_into .debug 2 0 3 0 0 [[1, 4], [7, 7]] = .ok [[5, 20], [7, (7 : Int)]] := by decide

/-! ## C11 -/

section
variable [Field K] [LinearOrder K] [IsStrictOrderedRing K] {N : Nat} {σ : Type}

/-- **C11** (an operator which is linear in the states of the object which satisfy the invariant `Inv`).  `conjugate_gradient` either throws `SolveException` or returns a vector `x` with `|b - A x|² < tolerance²`; `calls`
grows by at most one with each call of the operator. -/
theorem C11_invariant (m : Mode) (div : K → K → K) (ttf : σ → List K → Res (List K × σ))
    (A : (Fin N → K) →ₗ[K] (Fin N → K)) (calls : σ → Nat) (Inv : σ → Prop)
    (hA : ∀ p v, Inv p → ∃ p', ttf p (List.ofFn v) = .ok (List.ofFn (A v), p') ∧ Inv p' ∧ calls p' ≤ calls p + 1)
    (b : Fin N → K) (p : σ) (hp : Inv p) (n_iterations : Nat) (tolerance : K) (hN : N < U32)
    (hpos : n_iterations ≠ 0 ∨ N ≠ 0) :
    conjugate_gradient m div ttf (List.ofFn b) p n_iterations tolerance = .throw .solve ∨
    ∃ x : Fin N → K, ∃ p',
      conjugate_gradient m div ttf (List.ofFn b) p n_iterations tolerance = .ok (List.ofFn x, p') ∧
      dot (b - A x) (b - A x) < tolerance ^ 2 ∧ Inv p' ∧
      calls p' ≤ calls p + (if n_iterations = 0 then N else n_iterations) := by
  unfold conjugate_gradient
  simp only [inner_product_ofFn, Res.ok_bind, List.length_ofFn, u32_of_lt hN]
  by_cases h0 : ∑ i, b i * b i < tolerance * tolerance
  · rw [if_pos h0]
    refine Or.inr ⟨fun _ => 0, p, ?_, ?_, hp, Nat.le_add_right _ _⟩
    · rw [List.ofFn_const]; rfl
    · have : A (fun _ => 0) = 0 := map_zero A
      rw [this, sub_zero, pow_two]; exact h0
  · rw [if_neg h0]
    have hpos' : 0 < (if n_iterations = 0 then N else n_iterations) := by split <;> omega
    rw [hyAssert_of hpos']
    simp only [Res.ok_bind]
    generalize (if n_iterations = 0 then N else n_iterations) = n
    have key : ∀ (n : Nat) (x r d : Fin N → K) (z : List K) (rs : K) (p0 : σ), Inv p0 → r = b - A x →
        cgLoop m div ttf tolerance n ⟨[List.ofFn x, List.ofFn r, List.ofFn d, z], rs, p0⟩ = .throw .solve ∨
        ∃ x' : Fin N → K, ∃ p',
          cgLoop m div ttf tolerance n ⟨[List.ofFn x, List.ofFn r, List.ofFn d, z], rs, p0⟩ = .ok (List.ofFn x', p') ∧
          dot (b - A x') (b - A x') < tolerance ^ 2 ∧ Inv p' ∧ calls p' ≤ calls p0 + n := by
      intro n
      induction n with
      | zero => intros; left; rfl
      | succ n ih =>
        intro x r d z rs p0 hp0 hr
        obtain ⟨p1, hp1, hi1, hc1⟩ := hA p0 d hp0
        obtain ⟨al, be, x', r', d', _, _, hx', hr', _, hs⟩ := cgStep_eq m div ttf A x r d z rs p0 p1 hp1
        have hinv : r' = b - A x' := by
          rw [hr', hx', hr, map_add, map_smul]; abel
        simp only [cgLoop, hs, Res.ok_bind]
        by_cases hlt : dot r' r' < tolerance * tolerance
        · right
          rw [if_pos hlt]
          refine ⟨x', p1, rfl, ?_, hi1, by omega⟩
          rw [← hinv, pow_two]; exact hlt
        · rw [if_neg hlt]
          rcases ih x' r' d' (List.ofFn (A d)) (dot r' r') p1 hi1 hinv with h | ⟨x2, p2, h1, h2, hi2, h3⟩
          · left; exact h
          · right; exact ⟨x2, p2, h1, h2, hi2, by omega⟩
    have e : List.replicate N (0 : K) = List.ofFn (fun _ : Fin N => (0 : K)) := by rw [List.ofFn_const]
    rw [e]
    have hz : A (fun _ => 0) = 0 := map_zero A
    exact key n (fun _ => 0) b b [] (∑ i, b i * b i) p hp (by rw [hz, sub_zero])

/-- **C11**.  Let `problem.trace_to_flux` apply a linear operator `A` (and count its calls).  Then `conjugate_gradient` either throws
`SolveException` or returns a vector `x` with `|b - A x|² < tolerance²`; in the latter case the operator has been called at most
`n_iterations` times (`b.size()` times if `n_iterations = 0`).  Nothing is assumed about the operator but linearity, and nothing about divisions, not even
that they are divisions.  (The hypothesis `hpos` excludes an empty right-hand side without iteration limit.) -/
theorem C11_returns_solution (m : Mode) (div : K → K → K) (ttf : σ → List K → Res (List K × σ))
    (A : (Fin N → K) →ₗ[K] (Fin N → K)) (calls : σ → Nat)
    (hA : ∀ p v, ∃ p', ttf p (List.ofFn v) = .ok (List.ofFn (A v), p') ∧ calls p' = calls p + 1)
    (b : Fin N → K) (p : σ) (n_iterations : Nat) (tolerance : K) (hN : N < U32)
    (hpos : n_iterations ≠ 0 ∨ N ≠ 0) :
    conjugate_gradient m div ttf (List.ofFn b) p n_iterations tolerance = .throw .solve ∨
    ∃ x : Fin N → K, ∃ p',
      conjugate_gradient m div ttf (List.ofFn b) p n_iterations tolerance = .ok (List.ofFn x, p') ∧
      dot (b - A x) (b - A x) < tolerance ^ 2 ∧
      calls p' ≤ calls p + (if n_iterations = 0 then N else n_iterations) := by
  rcases C11_invariant m div ttf A calls (fun _ => True) (fun p v _ => (hA p v).imp fun _ h => ⟨h.1, trivial, h.2.le⟩) b p trivial n_iterations tolerance hN hpos with h | ⟨x, p', h1, h2, _, h3⟩
  · exact .inl h
  · exact .inr ⟨x, p', h1, h2, h3⟩

/-- **C11** (exceptions of the operator propagate, e.g. a LAPACK exception from a local solver). -/
theorem C11_operator_exception (m : Mode) (div : K → K → K) (ttf : σ → List K → Res (List K × σ))
    (b : Fin N → K) (p : σ) (n_iterations : Nat) (tolerance : K) (hn : n_iterations ≠ 0) (ex : Exc)
    (hb : tolerance ^ 2 ≤ dot b b) (hex : ttf p (List.ofFn b) = .throw ex) :
    conjugate_gradient m div ttf (List.ofFn b) p n_iterations tolerance = .throw ex := by
  unfold conjugate_gradient
  have h0 : ¬ (∑ i, b i * b i < tolerance * tolerance) := by
    rw [← pow_two]; exact not_lt.mpr hb
  simp only [inner_product_ofFn, Res.ok_bind, if_neg h0, if_neg hn]
  rw [hyAssert_of (Nat.pos_of_ne_zero hn)]
  obtain ⟨n, rfl⟩ : ∃ n, n_iterations = n + 1 := ⟨n_iterations - 1, by omega⟩
  simp [cgLoop, cgStep, vget, hex]

/-! ## C12 -/

/-- **C12** (operators which are definite on a subspace).  Let `W` be a subspace which contains the right-hand side and the values of the operator, for example the vectors
vanishing at the Dirichlet nodes, and let the operator be symmetric and positive (or negative) definite on `W`.  Then for non-zero tolerance and default iteration limit `conjugate_gradient`
returns a vector in `W` which solves the system within the tolerance, after at most `N` calls of the operator (`calls` grows by at most one with each call; `Inv` is an invariant of the states of the object).  The division is only assumed to be correct for non-zero divisors, so that no
division by zero contributes to the result. -/
theorem C12_subspace (m : Mode) (div : K → K → K) (hdiv : ∀ a c, c ≠ 0 → div a c = a / c)
    (ttf : σ → List K → Res (List K × σ)) (A : (Fin N → K) →ₗ[K] (Fin N → K)) (calls : σ → Nat) (Inv : σ → Prop)
    (hA : ∀ p v, Inv p → ∃ p', ttf p (List.ofFn v) = .ok (List.ofFn (A v), p') ∧ Inv p' ∧ calls p' ≤ calls p + 1)
    (W : Submodule K (Fin N → K)) (hW : ∀ u ∈ W, A u ∈ W) (hsym : ∀ u ∈ W, ∀ v ∈ W, dot u (A v) = dot v (A u))
    (hdef : (∀ u ∈ W, u ≠ 0 → 0 < dot u (A u)) ∨ (∀ u ∈ W, u ≠ 0 → dot u (A u) < 0))
    (b : Fin N → K) (hb : b ∈ W) (p : σ) (hp : Inv p) (tolerance : K) (htol : tolerance ≠ 0) (hN : N < U32) :
    ∃ x : Fin N → K, ∃ p',
      conjugate_gradient m div ttf (List.ofFn b) p 0 tolerance = .ok (List.ofFn x, p') ∧ x ∈ W ∧
      dot (b - A x) (b - A x) < tolerance ^ 2 ∧ Inv p' ∧ calls p' ≤ calls p + N := by
  have htol2 : 0 < tolerance * tolerance := mul_self_pos.mpr htol
  -- the exact recurrences
  let F : (Fin N → K) × (Fin N → K) → (Fin N → K) × (Fin N → K) := fun s =>
    (s.1 - (dot s.1 s.1 / dot s.2 (A s.2)) • A s.2,
      (s.1 - (dot s.1 s.1 / dot s.2 (A s.2)) • A s.2) +
        (dot (s.1 - (dot s.1 s.1 / dot s.2 (A s.2)) • A s.2) (s.1 - (dot s.1 s.1 / dot s.2 (A s.2)) • A s.2) /
          dot s.1 s.1) • s.2)
  let seq : Nat → (Fin N → K) × (Fin N → K) := fun k => F^[k] (b, b)
  have hseq : ∀ k, seq (k + 1) = F (seq k) := fun k => Function.iterate_succ_apply' F k (b, b)
  let r : Nat → Fin N → K := fun k => (seq k).1
  let d : Nat → Fin N → K := fun k => (seq k).2
  have hrec : CGRec A r d := by
    refine ⟨rfl, fun k => ?_, fun k => ?_⟩
    · show (seq (k + 1)).1 = _
      rw [hseq]
    · show (seq (k + 1)).2 = _
      simp only [r]
      rw [hseq]
  have hmem : ∀ k, r k ∈ W ∧ d k ∈ W := by
    intro k
    induction k with
    | zero => exact ⟨hb, hb⟩
    | succ k ih =>
      have hr : r (k + 1) ∈ W := by
        rw [hrec.r_succ]
        exact W.sub_mem ih.1 (W.smul_mem _ (hW _ ih.2))
      refine ⟨hr, ?_⟩
      rw [hrec.d_succ]
      exact W.add_mem hr (W.smul_mem _ ih.2)
  have hsym' : ∀ i j, dot (d i) (A (d j)) = dot (d j) (A (d i)) := fun i j => hsym _ (hmem i).2 _ (hmem j).2
  have hdef' : ∀ i, d i ≠ 0 → dot (d i) (A (d i)) ≠ 0 := by
    intro i hu
    rcases hdef with h | h
    · exact ne_of_gt (h _ (hmem i).2 hu)
    · exact ne_of_lt (h _ (hmem i).2 hu)
  have hterm := cg_terminates A r d hrec hsym' hdef'
  -- the loop follows the recurrences
  have key : ∀ (n k : Nat) (x : Fin N → K) (z : List K) (p0 : σ), k + n = N → (∀ i ≤ k, r i ≠ 0) → x ∈ W → r k = b - A x → Inv p0 →
      ∃ x' : Fin N → K, ∃ p', cgLoop m div ttf tolerance n ⟨[List.ofFn x, List.ofFn (r k), List.ofFn (d k), z], dot (r k) (r k), p0⟩ = .ok (List.ofFn x', p') ∧ x' ∈ W ∧
        dot (b - A x') (b - A x') < tolerance ^ 2 ∧ Inv p' ∧ calls p' ≤ calls p0 + n := by
    intro n
    induction n with
    | zero =>
      intro k x z p0 hk hne
      obtain ⟨i, hi, hri⟩ := hterm
      exact absurd hri (hne i (by omega))
    | succ n ih =>
      intro k x z p0 hk hne hx hrx hp0
      obtain ⟨p1, hp1, hi1, hc1⟩ := hA p0 (d k) hp0
      obtain ⟨al, be, x', r', d', hal, hbe, hx', hr', hd', hs⟩ :=
        cgStep_eq m div ttf A x (r k) (d k) z (dot (r k) (r k)) p0 p1 hp1
      have hrk : dot (r k) (r k) ≠ 0 := fun h => hne k (le_refl k) ((dot_self_eq_zero _).mp h)
      have hdk : d k ≠ 0 := by
        intro h
        have := (cg_orthogonal A r d hrec hsym' hdef' k hne).1 k (le_refl k)
        rw [h, dot_comm, dot_zero_left] at this
        exact hrk this.symm
      have e1 : al = dot (r k) (r k) / dot (d k) (A (d k)) := by rw [hal, hdiv _ _ (hdef' _ hdk)]
      have e2 : r' = r (k + 1) := by rw [hr', e1, hrec.r_succ]
      have e3 : d' = d (k + 1) := by
        rw [hd', hbe, hdiv _ _ hrk, e2, hrec.d_succ]
      have hinv : r' = b - A x' := by
        rw [hr', hx', hrx, map_add, map_smul]; abel
      have hxW : x' ∈ W := by
        rw [hx']
        exact W.add_mem hx (W.smul_mem _ (hmem k).2)
      simp only [cgLoop, hs, Res.ok_bind]
      by_cases hlt : dot r' r' < tolerance * tolerance
      · rw [if_pos hlt]
        refine ⟨x', p1, rfl, hxW, ?_, hi1, by omega⟩
        rw [← hinv, pow_two]; exact hlt
      · rw [if_neg hlt, e2, e3]
        obtain ⟨x2, p2, h1, h2, h3, h5, h4⟩ := ih (k + 1) x' (List.ofFn (A (d k))) p1 (by omega) (fun i hi => by
          by_cases h : i = k + 1
          · subst h
            intro hz
            apply hlt
            rw [e2, hz, dot_zero_left]; exact htol2
          · exact hne i (by omega)) hxW (e2 ▸ hinv) hi1
        exact ⟨x2, p2, h1, h2, h3, h5, by omega⟩
  unfold conjugate_gradient
  simp only [inner_product_ofFn, Res.ok_bind, List.length_ofFn, u32_of_lt hN, if_true]
  have hz : A (fun _ => 0) = 0 := map_zero A
  by_cases h0 : ∑ i, b i * b i < tolerance * tolerance
  · refine ⟨fun _ => 0, p, ?_, W.zero_mem, ?_, hp, Nat.le_add_right _ _⟩
    · rw [if_pos h0, List.ofFn_const]; rfl
    · rw [hz, sub_zero, pow_two]; exact h0
  · have hb0 : b ≠ 0 := by
      intro h
      apply h0
      rw [h]; simpa using htol2
    have hN0 : N ≠ 0 := by
      intro h
      apply hb0
      subst h
      funext i; exact i.elim0
    rw [if_neg h0, hyAssert_of (Nat.pos_of_ne_zero hN0)]
    simp only [Res.ok_bind]
    have e : List.replicate N (0 : K) = List.ofFn (fun _ : Fin N => (0 : K)) := by rw [List.ofFn_const]
    rw [e]
    exact key N 0 (fun _ => 0) [] p (by omega) (fun i hi => by
      have : i = 0 := by omega
      subst this; exact hb0) W.zero_mem (by rw [hz, sub_zero]; rfl) hp

/-- **C12**.  For a symmetric positive definite or negative definite operator, non-zero tolerance and default iteration limit, `conjugate_gradient`
returns (with a solution within the tolerance, after at most `N` calls of the operator). -/
theorem C12_converges (m : Mode) (div : K → K → K) (hdiv : ∀ a c, c ≠ 0 → div a c = a / c)
    (ttf : σ → List K → Res (List K × σ)) (A : (Fin N → K) →ₗ[K] (Fin N → K)) (calls : σ → Nat)
    (hA : ∀ p v, ∃ p', ttf p (List.ofFn v) = .ok (List.ofFn (A v), p') ∧ calls p' = calls p + 1)
    (hsym : ∀ u v, dot u (A v) = dot v (A u))
    (hdef : (∀ u, u ≠ 0 → 0 < dot u (A u)) ∨ (∀ u, u ≠ 0 → dot u (A u) < 0))
    (b : Fin N → K) (p : σ) (tolerance : K) (htol : tolerance ≠ 0) (hN : N < U32) :
    ∃ x : Fin N → K, ∃ p',
      conjugate_gradient m div ttf (List.ofFn b) p 0 tolerance = .ok (List.ofFn x, p') ∧
      dot (b - A x) (b - A x) < tolerance ^ 2 ∧ calls p' ≤ calls p + N := by
  obtain ⟨x, p', h1, _, h2, _, h3⟩ := C12_subspace m div hdiv ttf A calls (fun _ => True) (fun p v _ => (hA p v).imp fun _ h => ⟨h.1, trivial, h.2.le⟩) ⊤ (fun _ _ => trivial) (fun u _ v _ => hsym u v)
    (hdef.imp (fun h u _ => h u) fun h u _ => h u) b trivial p trivial tolerance htol hN
  exact ⟨x, p', h1, h2, h3⟩

end

/-! ### Concrete instances -/

namespace Example

/-- The operator with matrix `[[2, 1], [1, 3]]`, counting its calls. -/
def ttf : Nat → List ℚ → Res (List ℚ × Nat) := fun p v =>
  match v with
  | [a, b] => .ok ([2 * a + b, a + 3 * b], p + 1)
  | _ => .ub

/-- Two iterations give the exact solution of `A x = (3, 4)`, which is `(1, 1)`. -/
example : conjugate_gradient .debug (fun a b => a / b) ttf [3, 4] 0 0 (1 / 1000) = .ok ([1, 1], 2) := by decide +kernel

/-- One iteration is not enough. -/
example : conjugate_gradient .debug (fun a b => a / b) ttf [3, 4] 0 1 (1 / 1000) = .throw .solve := by decide +kernel

/-- The operator as a linear map. -/
def A : (Fin 2 → ℚ) →ₗ[ℚ] (Fin 2 → ℚ) where
  toFun v := fun i => if i = 0 then 2 * v 0 + v 1 else v 0 + 3 * v 1
  map_add' u v := by funext i; dsimp; split <;> ring
  map_smul' c v := by funext i; simp only [Pi.smul_apply, smul_eq_mul, RingHom.id_apply]; split <;> ring

theorem hA (p : Nat) (v : Fin 2 → ℚ) : ∃ p', ttf p (List.ofFn v) = .ok (List.ofFn (A v), p') ∧ p' = p + 1 :=
  ⟨p + 1, by simp [List.ofFn_succ, ttf, A], rfl⟩

/-- All hypotheses of C12 hold. -/
example := C12_converges .debug (fun a b => a / b) (fun _ _ _ => rfl) ttf A id hA
  (fun u v => by simp [dot, Fin.sum_univ_two, A]; ring)
  (Or.inl (fun u hu => by
    have : dot u (A u) = (u 0 + u 1) ^ 2 + u 0 ^ 2 + 2 * u 1 ^ 2 := by
      simp [dot, Fin.sum_univ_two, A]; ring
    rw [this]
    by_contra hcon
    have h0 := sq_nonneg (u 0 + u 1)
    have h1 := sq_nonneg (u 0)
    have h2 := sq_nonneg (u 1)
    have e0 : u 0 ^ 2 = 0 := by linarith
    have e1 : u 1 ^ 2 = 0 := by linarith
    apply hu
    funext i
    rcases i with ⟨i, hi⟩
    interval_cases i
    · exact pow_eq_zero_iff (two_ne_zero) |>.mp e0
    · exact pow_eq_zero_iff (two_ne_zero) |>.mp e1))
  (fun i => if i = 0 then 3 else 4) 0 (1 / 1000) (by norm_num) (by decide)

end Example

end HyperHDG.SparseLA

import Verif.Model.EllipticProgram
import Verif.Proofs.GlobalSolve
import Verif.Props.SparseLA
import Verif.Props.GlobalClasses

/-!
# Proof support for elliptic programs
-/

namespace HyperHDG.EllipticProgram

open HyGraph SparseLA Finset

variable {K : Type} {dim n N : Nat}

theorem negate_eq [CommRing K] (v : Fin N → K) : negate (List.ofFn v) = .ok (List.ofFn (-v)) := by
  unfold negate
  obtain ⟨t, h1, h2⟩ := forUp_inv (List.ofFn v).length (fun i (v : List K) => do
      let x ← vget v i
      vset v i (x * -1)) (List.ofFn v)
    (fun c t => t = List.ofFn (fun k : Fin N => if k.1 < c then -v k else v k)) (by simp)
    (fun c hc t ht => by
      have hc' : c < N := by simpa using hc
      subst ht
      rw [vget_of_lt (by simpa using hc'), Res.ok_bind, vset_of_lt (by simpa using hc')]
      refine ⟨_, rfl, ?_⟩
      apply List.ext_getElem
      · simp
      · intro k h1 h2
        simp only [List.getElem_set, List.getElem_ofFn]
        by_cases hk : c = k
        · subst hk
          simp
        · have : k < c ↔ k < c + 1 := by omega
          simp [hk, this])
  rw [h1, h2]
  refine congrArg Res.ok (List.ofFn_inj.mpr (funext fun k => ?_))
  have : k.1 < (List.ofFn v).length := by simp
  simp only [this, if_true, Pi.neg_apply]

section
variable [Field K]

/-- The vectors vanishing at the indices in `S`. -/
def masked (S : Fin N → Prop) : Submodule K (Fin N → K) where
  carrier := {x | ∀ k, S k → x k = 0}
  add_mem' := fun {x y} hx hy k hk => by
    show x k + y k = 0
    rw [hx k hk, hy k hk, add_zero]
  zero_mem' := fun _ _ => rfl
  smul_mem' := fun a {x} hx k hk => by
    show a * x k = 0
    rw [hx k hk, mul_zero]

/-- An injective operator has exactly one solution for each right-hand side. -/
theorem unique_masked_inj (A : (Fin N → K) →ₗ[K] (Fin N → K)) (S : Fin N → Prop) (hAS : ∀ x k, S k → A x k = 0)
    (hinj : ∀ x, (∀ k, S k → x k = 0) → A x = 0 → x = 0) (b : Fin N → K) (hb : ∀ k, S k → b k = 0) :
    ∃! y : Fin N → K, (∀ k, S k → y k = 0) ∧ A y = b := by
  let W : Submodule K (Fin N → K) := masked S
  let B : W →ₗ[K] W := LinearMap.codRestrict W (A.comp W.subtype) fun x => hAS x
  have hinj : Function.Injective B := by
    rw [← LinearMap.ker_eq_bot, LinearMap.ker_eq_bot']
    intro x hx
    exact Subtype.ext (hinj x x.2 (congrArg Subtype.val hx))
  obtain ⟨y, hy⟩ := LinearMap.injective_iff_surjective.mp hinj ⟨b, hb⟩
  refine ⟨y, ⟨y.2, congrArg Subtype.val hy⟩, fun y' ⟨h1, h2⟩ => ?_⟩
  have : B ⟨y', h1⟩ = B y := by
    rw [hy]
    exact Subtype.ext h2
  exact congrArg Subtype.val (hinj this)

/-- A definite operator has exactly one solution for each right-hand side. -/
theorem unique_masked (A : (Fin N → K) →ₗ[K] (Fin N → K)) (S : Fin N → Prop) (hAS : ∀ x k, S k → A x k = 0)
    (hdef : ∀ x, (∀ k, S k → x k = 0) → ∑ k, x k * A x k = 0 → x = 0) (b : Fin N → K) (hb : ∀ k, S k → b k = 0) :
    ∃! y : Fin N → K, (∀ k, S k → y k = 0) ∧ A y = b :=
  unique_masked_inj A S hAS (fun x hx h => hdef x hx (by rw [h]; simp)) b hb

variable [LinearOrder K] [IsStrictOrderedRing K]

/-- Conjugate gradients for an operator which is symmetric and negative definite on the vectors vanishing in `S`. -/
theorem cg_masked {σ : Type} (m : Mode) (div : K → K → K) (hdiv : ∀ a c, c ≠ 0 → div a c = a / c) (ttf : σ → List K → Res (List K × σ))
    (A : (Fin N → K) →ₗ[K] (Fin N → K)) (S : Fin N → Prop) (hAS : ∀ x k, S k → A x k = 0)
    (hsym : ∀ x z, (∀ k, S k → x k = 0) → (∀ k, S k → z k = 0) → ∑ k, z k * A x k = ∑ k, x k * A z k)
    (hneg : ∀ x, (∀ k, S k → x k = 0) → ∑ k, x k * A x k ≤ 0) (hdef : ∀ x, (∀ k, S k → x k = 0) → ∑ k, x k * A x k = 0 → x = 0)
    (p : σ) (hA : ∀ v, ttf p (List.ofFn v) = .ok (List.ofFn (A v), p)) (b : Fin N → K) (hb : ∀ k, S k → b k = 0) (tolerance : K) (htol : tolerance ≠ 0) (hN : N < U32) :
    ∃ x : Fin N → K, ∃ p', conjugate_gradient m div ttf (List.ofFn b) p 0 tolerance = .ok (List.ofFn x, p') ∧ (∀ k, S k → x k = 0) ∧
      ∑ k, (b k - A x k) ^ 2 < tolerance ^ 2 := by
  obtain ⟨x, p', h1, h2, h3, _, _⟩ := C12_subspace m div hdiv ttf A (fun _ => 0) (· = p) (fun q v hq => by subst hq; exact ⟨q, hA v, rfl, by omega⟩) (masked S)
    (fun u _ => hAS u) (fun u hu v hv => hsym v u hv hu) (.inr fun u hu hu0 => lt_of_le_of_ne (hneg u hu) fun h => hu0 (hdef u hu h)) b hb p rfl tolerance htol hN
  refine ⟨x, p', h1, h2, lt_of_eq_of_lt ?_ h3⟩
  simp only [dot, Pi.sub_apply, pow_two]

end

end HyperHDG.EllipticProgram

import Mathlib.LinearAlgebra.FiniteDimensional.Basic
import Mathlib.LinearAlgebra.Dimension.Constructions
import Verif.Proofs.GlobalClasses

/-!
# Proof support: unique solvability of the global system
-/

namespace HyperHDG.HyGraph

open Finset Spec

variable {dim n : Nat} {K : Type}

/-- The vector vanishes at the nodes in `D`. -/
def VanishesAt [Zero K] {N : Nat} (D : Fin N → Prop) (x : Fin (N * n) → K) : Prop := ∀ v, D v → ∀ j, x (dof v j) = 0

theorem dof_surj {N : Nat} (k : Fin (N * n)) : ∃ (v : Fin N) (j : Fin n), dof v j = k := by
  have hn : 0 < n := Nat.pos_of_ne_zero fun h => by
    have := k.2
    subst h
    simp at this
  refine ⟨⟨k.1 / n, Nat.div_lt_of_lt_mul (lt_of_lt_of_eq k.2 (Nat.mul_comm _ _))⟩, ⟨k.1 % n, Nat.mod_lt _ hn⟩, Fin.ext ?_⟩
  show k.1 / n * n + k.1 % n = k.1
  exact Nat.div_add_mod' _ _

theorem assemble_vanishes [CommRing K] {E N F : Nat} (nodes : Fin E → Fin F → Fin N) (D : Fin N → Prop) (y : Fin E → Fin F → Fin n → K)
    (h : ∀ e f, D (nodes e f) → y e f = 0) : VanishesAt D (assemble nodes y) := by
  intro v hv j
  unfold assemble
  refine Finset.sum_eq_zero fun e _ => Finset.sum_eq_zero fun i _ => Finset.sum_eq_zero fun k _ => ?_
  split
  next hd =>
    obtain ⟨h1, _⟩ := dof_inj hd
    rw [h e i (by rw [h1]; exact hv)]
    rfl
  next => rfl

theorem assemble_sum_add [CommRing K] {E N F : Nat} (nodes : Fin E → Fin F → Fin N) (y z : Fin E → Fin F → Fin n → K) :
    assemble nodes (fun e => y e + z e) = assemble nodes y + assemble nodes z := by
  funext k
  simp only [assemble, Pi.add_apply, ← Finset.sum_add_distrib]
  refine Finset.sum_congr rfl fun e _ => Finset.sum_congr rfl fun i _ => Finset.sum_congr rfl fun j _ => ?_
  split <;> simp

/-- A definite global operator has exactly one zero of the residual. -/
theorem unique_zero [Field K] (m : Mode) (G : HyGraph dim n) (nodes : Fin G.n_hyEdges → Fin (2 * dim) → Fin G.n_hyNodes) (hwf : G.WF nodes)
    (old0 new0 : LocDofs dim n K) (res : LocalFun dim n K) (L : Fin G.n_hyEdges → LocDofs dim n K →ₗ[K] LocDofs dim n K) (R0 : Fin G.n_hyEdges → LocDofs dim n K)
    (hres : ∀ (e : Fin G.n_hyEdges) (u : LocDofs dim n K), res e u (fun _ _ => 0) = .ok (L e u + R0 e)) (D : Fin G.n_hyNodes → Prop)
    (hL : ∀ e u f, D (nodes e f) → L e u f = 0) (hR : ∀ e f, D (nodes e f) → R0 e f = 0)
    (hdef : ∀ x : Fin (G.n_hyNodes * n) → K, VanishesAt D x → ∑ e, ∑ i, ∑ j, faceValues nodes x e i j * L e (faceValues nodes x e) i j = 0 → x = 0) :
    ∃! y : Fin (G.n_hyNodes * n) → K, VanishesAt D y ∧ G.mat_vec_multiply m res old0 new0 (List.ofFn y) = .ok (List.replicate (G.n_hyNodes * n) 0) := by
  let A : (Fin (G.n_hyNodes * n) → K) →ₗ[K] (Fin (G.n_hyNodes * n) → K) :=
    { toFun := fun x => assemble nodes (fun e => L e (faceValues nodes x e))
      map_add' := fun x z => by
        rw [← assemble_sum_add]
        congr 1
        funext e
        rw [← map_add]
        rfl
      map_smul' := fun a x => by
        funext k
        simp only [assemble, RingHom.id_apply, Pi.smul_apply, smul_eq_mul, Finset.mul_sum]
        refine Finset.sum_congr rfl fun e _ => Finset.sum_congr rfl fun i _ => Finset.sum_congr rfl fun j _ => ?_
        rw [show faceValues nodes (a • x) e = a • faceValues nodes x e from rfl, map_smul]
        split <;> simp }
  let W : Submodule K (Fin (G.n_hyNodes * n) → K) :=
    { carrier := {x | VanishesAt D x}
      add_mem' := fun {x y} hx hy v hv j => by
        show x _ + y _ = 0
        rw [hx v hv j, hy v hv j, add_zero]
      zero_mem' := fun v hv j => rfl
      smul_mem' := fun a {x} hx v hv j => by
        show a * x _ = 0
        rw [hx v hv j, mul_zero] }
  have hAW : ∀ x, A x ∈ W := fun x => assemble_vanishes nodes D _ fun e f h => hL e _ f h
  let B : W →ₗ[K] W := LinearMap.codRestrict W (A.comp W.subtype) fun x => hAW x
  have hinj : Function.Injective B := by
    rw [← LinearMap.ker_eq_bot, LinearMap.ker_eq_bot']
    intro x hx
    have h1 : A x = 0 := congrArg Subtype.val hx
    refine Subtype.ext (hdef x x.2 ?_)
    have h2 := pairing_assemble nodes (fun e => L e (faceValues nodes x.1 e)) x.1
    rw [← h2]
    refine Finset.sum_eq_zero fun k _ => ?_
    rw [show assemble nodes (fun e => L e (faceValues nodes x.1 e)) k = A x k from rfl, h1]
    simp
  have hsurj : Function.Surjective B := LinearMap.injective_iff_surjective.mp hinj
  have hr : ∀ y, G.mat_vec_multiply m res old0 new0 (List.ofFn y) = .ok (List.ofFn (A y + assemble nodes R0)) := by
    intro y
    rw [mat_vec_eq m G nodes hwf res y _ (fun e => hres e _) old0 new0, assemble_sum_add]
    rfl
  have hz : ∀ y, G.mat_vec_multiply m res old0 new0 (List.ofFn y) = .ok (List.replicate (G.n_hyNodes * n) 0) ↔ A y = -assemble nodes R0 := by
    intro y
    rw [hr, ← List.ofFn_const]
    constructor
    · intro h
      injection h with h
      exact eq_neg_of_add_eq_zero_left (List.ofFn_injective h)
    · intro h
      rw [h, neg_add_cancel]
      rfl
  obtain ⟨y, hy⟩ := hsurj ⟨-assemble nodes R0, W.neg_mem (assemble_vanishes nodes D R0 hR)⟩
  refine ⟨y, ⟨y.2, (hz y).mpr (congrArg Subtype.val hy)⟩, fun y' ⟨h1, h2⟩ => ?_⟩
  have : B ⟨y', h1⟩ = B y := by
    rw [hy]
    exact Subtype.ext ((hz y').mp h2)
  exact congrArg Subtype.val (hinj this)

end HyperHDG.HyGraph

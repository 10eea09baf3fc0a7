import Mathlib.Algebra.BigOperators.Group.List.Basic
import Mathlib.Algebra.BigOperators.Pi
import Mathlib.Algebra.Module.LinearMap.Basic
import Mathlib.Algebra.Module.Pi
import Mathlib.LinearAlgebra.Pi
import Mathlib.Data.List.FinRange
import Mathlib.Tactic.Ring
import Verif.Proofs.GlobalLoop

namespace HyperHDG.HyGraph

open Finset Spec

variable {dim n : Nat} {K : Type}

/-- The first `T.length` entries of the three vectors of length `L` are the triplets `T`, `pos` points behind them. -/
def Written (L : Nat) [Zero K] (T : List (Nat × Nat × K)) (mat : SparseMat K) (pos : Nat) : Prop :=
  pos = T.length ∧ T.length ≤ L ∧
  mat.row_vec = T.map (fun t => t.1) ++ List.replicate (L - T.length) 0 ∧
  mat.col_vec = T.map (fun t => t.2.1) ++ List.replicate (L - T.length) 0 ∧
  mat.value_vec = T.map (fun t => t.2.2) ++ List.replicate (L - T.length) 0

theorem set_append_replicate {α : Type} (l : List α) (k : Nat) (z a : α) :
    (l ++ List.replicate (k + 1) z).set l.length a = (l ++ [a]) ++ List.replicate k z := by
  rw [List.set_append_right _ _ (Nat.le_refl _)]
  simp [List.replicate_succ]

/-- `f` appends the triplets `g` if there is room for them and is undefined otherwise. -/
def Appends {σ : Type} [Zero K] (L : Nat) (view : σ → SparseMat K × Nat) (f : σ → Res σ)
    (g : List (Nat × Nat × K)) : Prop :=
  ∀ T s, Written L T (view s).1 (view s).2 →
    (T.length + g.length ≤ L → ∃ s', f s = .ok s' ∧ Written L (T ++ g) (view s').1 (view s').2) ∧
    (L < T.length + g.length → f s = .ub)

theorem writeTriplet_appends [Zero K] (L r c : Nat) (v : K) :
    Appends L id (fun s : SparseMat K × Nat => writeTriplet r c v s.1 s.2) [(r, c, v)] := by
  rintro T ⟨mat, pos⟩ ⟨h1, h2, h3, h4, h5⟩
  simp only [id] at h1 h2 h3 h4 h5 ⊢
  have l1 : mat.row_vec.length = L := by rw [h3]; simp; omega
  have l2 : mat.col_vec.length = L := by rw [h4]; simp; omega
  have l3 : mat.value_vec.length = L := by rw [h5]; simp; omega
  constructor
  · intro h
    simp at h
    unfold writeTriplet
    rw [vset_of_lt (by omega), vset_of_lt (by omega), vset_of_lt (by omega)]
    refine ⟨_, rfl, by simp [h1], by simp; omega, ?_, ?_, ?_⟩
    · simp only [h3, h1]
      obtain ⟨k, hk⟩ : ∃ k, L - T.length = k + 1 := ⟨L - T.length - 1, by omega⟩
      have := set_append_replicate (T.map (fun t => t.1)) k 0 r
      rw [List.length_map] at this
      rw [hk, this]
      simp; omega
    · simp only [h4, h1]
      obtain ⟨k, hk⟩ : ∃ k, L - T.length = k + 1 := ⟨L - T.length - 1, by omega⟩
      have := set_append_replicate (T.map (fun t => t.2.1)) k 0 c
      rw [List.length_map] at this
      rw [hk, this]
      simp; omega
    · simp only [h5, h1]
      obtain ⟨k, hk⟩ : ∃ k, L - T.length = k + 1 := ⟨L - T.length - 1, by omega⟩
      have := set_append_replicate (T.map (fun t => t.2.2)) k 0 v
      rw [List.length_map] at this
      rw [hk, this]
      simp; omega
  · intro h
    simp at h
    unfold writeTriplet
    rw [vset_ub (by omega)]; rfl

theorem appends_forFin {σ : Type} [Zero K] (L : Nat) (view : σ → SparseMat K × Nat) :
    ∀ (d : Nat) (f : Fin d → σ → Res σ) (g : Fin d → List (Nat × Nat × K)),
      (∀ i, Appends L view (f i) (g i)) →
      Appends L view (fun s => forFin d f s) ((List.finRange d).flatMap g) := by
  intro d
  induction d with
  | zero =>
    intro f g _ T s hs
    refine ⟨fun _ => ⟨s, rfl, by simpa using hs⟩, fun h => ?_⟩
    simp at h
    have := hs.2.1; omega
  | succ d ih =>
    intro f g hfg T s hs
    have hsplit : (List.finRange (d + 1)).flatMap g =
        (List.finRange d).flatMap (fun i => g i.castSucc) ++ g (Fin.last d) := by
      rw [List.finRange_succ_last, List.flatMap_append]
      simp [List.flatMap_map]
    have hd := ih (fun i => f i.castSucc) (fun i => g i.castSucc) (fun i => hfg _) T s hs
    rw [hsplit]
    constructor
    · intro h
      simp only [List.length_append] at h
      obtain ⟨s1, e1, w1⟩ := hd.1 (by omega)
      obtain ⟨s2, e2, w2⟩ := (hfg (Fin.last d) _ s1 w1).1 (by simp only [List.length_append]; omega)
      exact ⟨s2, by simp [forFin, e1, e2], by rw [← List.append_assoc]; exact w2⟩
    · intro h
      simp only [List.length_append] at h
      by_cases hc : T.length + ((List.finRange d).flatMap (fun i => g i.castSucc)).length ≤ L
      · obtain ⟨s1, e1, w1⟩ := hd.1 hc
        have := (hfg (Fin.last d) _ s1 w1).2 (by simp only [List.length_append]; omega)
        simp [forFin, e1, this]
      · have := hd.2 (by omega)
        simp [forFin, this]

theorem appends_forUp {σ : Type} [Zero K] (L : Nat) (view : σ → SparseMat K × Nat) :
    ∀ (d : Nat) (f : Nat → σ → Res σ) (g : Nat → List (Nat × Nat × K)),
      (∀ i, i < d → Appends L view (f i) (g i)) →
      Appends L view (fun s => forUp d f s) ((List.range d).flatMap g) := by
  intro d
  induction d with
  | zero =>
    intro f g _ T s hs
    refine ⟨fun _ => ⟨s, rfl, by simpa using hs⟩, fun h => ?_⟩
    simp at h
    have := hs.2.1; omega
  | succ d ih =>
    intro f g hfg T s hs
    have hsplit : (List.range (d + 1)).flatMap g = (List.range d).flatMap g ++ g d := by
      rw [List.range_succ, List.flatMap_append]; simp
    have hd := ih f g (fun i hi => hfg i (by omega)) T s hs
    rw [hsplit]
    constructor
    · intro h
      simp only [List.length_append] at h
      obtain ⟨s1, e1, w1⟩ := hd.1 (by omega)
      obtain ⟨s2, e2, w2⟩ := (hfg d (by omega) _ s1 w1).1 (by simp only [List.length_append]; omega)
      exact ⟨s2, by simp [forUp, e1, e2], by rw [← List.append_assoc]; exact w2⟩
    · intro h
      simp only [List.length_append] at h
      by_cases hc : T.length + ((List.range d).flatMap g).length ≤ L
      · obtain ⟨s1, e1, w1⟩ := hd.1 hc
        have := (hfg d (by omega) _ s1 w1).2 (by simp only [List.length_append]; omega)
        simp [forUp, e1, this]
      · have := hd.2 (by omega)
        simp [forUp, this]

/-- The unit vector used in the generation of column `(node_j, dof_j)`. -/
def unitDofs [Zero K] [One K] (node_j : Fin (2 * dim)) (dof_j : Fin n) : LocDofs dim n K :=
  fun i j => if i = node_j ∧ j = dof_j then 1 else 0

theorem arrSet_unit [Zero K] [One K] (node_j : Fin (2 * dim)) (dof_j : Fin n) :
    arrSet (fun _ _ => (0 : K)) node_j (arrSet (fun _ => 0) dof_j 1) = unitDofs node_j dof_j := by
  funext i j
  unfold arrSet unitDofs
  by_cases hi : i = node_j
  · by_cases hj : j = dof_j <;> simp [hi, hj]
  · simp [hi]

/-- The triplets written for one column of one hyperedge. -/
def colTriplets (idx : Fin (2 * dim) → Fin n → Nat) (j : Fin (2 * dim)) (k : Fin n) (y : LocDofs dim n K) :
    List (Nat × Nat × K) :=
  (List.finRange (2 * dim)).flatMap (fun i => (List.finRange n).flatMap (fun l => [(idx i l, idx j k, y i l)]))

theorem genColumn_appends [Zero K] [One K] (L : Nat) (loc : LocalFun dim n K) (edge : Nat)
    (idx : Fin (2 * dim) → Fin n → Nat) (j : Fin (2 * dim)) (k : Fin n) (y : LocDofs dim n K)
    (hy : loc edge (unitDofs j k) (fun _ _ => 0) = .ok y) :
    Appends L (fun s : GenState dim n K => (s.mat, s.pos)) (genColumn loc edge idx j k) (colTriplets idx j k y) := by
  intro T s hs
  have h := appends_forFin L id (2 * dim) (fun node_i (t : SparseMat K × Nat) =>
    forFin n (fun dof_i (t : SparseMat K × Nat) =>
      writeTriplet (idx node_i dof_i) (idx j k) (y node_i dof_i) t.1 t.2) t)
    (fun i => (List.finRange n).flatMap (fun l => [(idx i l, idx j k, y i l)]))
    (fun i => appends_forFin L id n _ _ (fun l => writeTriplet_appends L _ _ _)) T (s.mat, s.pos) hs
  constructor
  · intro hlen
    obtain ⟨s', e, w⟩ := h.1 hlen
    refine ⟨⟨s'.1, s'.2, unitDofs j k, y⟩, ?_, w⟩
    simp only [genColumn, arrSet_unit, hy, Res.ok_bind, e]
    rfl
  · intro hlen
    have e := h.2 hlen
    simp only [genColumn, arrSet_unit, hy, Res.ok_bind, e]
    rfl

/-- The triplets written for one hyperedge. -/
def edgeTriplets [Zero K] [One K] (idx : Fin (2 * dim) → Fin n → Nat)
    (y : Fin (2 * dim) → Fin n → LocDofs dim n K) : List (Nat × Nat × K) :=
  (List.finRange (2 * dim)).flatMap (fun j => (List.finRange n).flatMap (fun k => colTriplets idx j k (y j k)))

theorem get_idx_eq (m : Mode) (G : HyGraph dim n) (hfit : G.n_hyNodes * n < U32)
    (hyNodes : Fin (2 * dim) → Nat) (nodes : Fin (2 * dim) → Fin G.n_hyNodes)
    (hn : ∀ i, hyNodes i = nodes i) (idx0 : Fin (2 * dim) → Fin n → Nat) :
    forFin (2 * dim) (fun node (d : Fin (2 * dim) → Fin n → Nat) => do
      let row ← onArray (d node) (G.factory.get_dof_indices m (hyNodes node))
      return arrSet d node row) idx0 = .ok (fun i j => (dof (nodes i) j).val) := by
  obtain ⟨t, h1, h2⟩ := forFin_inv (2 * dim) (fun node (d : Fin (2 * dim) → Fin n → Nat) => do
      let row ← onArray (d node) (G.factory.get_dof_indices m (hyNodes node))
      return arrSet d node row) idx0
    (fun k d => ∀ i : Fin (2 * dim), i.1 < k → d i = fun j => (dof (nodes i) j).val)
    (fun i h => absurd h (Nat.not_lt_zero _))
    (fun i d hd => by
      have hb := factory_bounds G hfit (nodes i)
      have : onArray (d i) (G.factory.get_dof_indices m (hyNodes i)) =
          .ok (fun j => (dof (nodes i) j).val) := by
        apply onArray_ok
        rw [hn, HyperNodeFactory.get_dof_indices_eq m G.factory (nodes i) _ (by simp [factory]) hb.1]
        congr 1
        apply List.ext_getElem
        · simp [factory]
        · intro k h1 h2; simp [dof, factory]
      refine ⟨_, by rw [this]; rfl, fun i' hi' => ?_⟩
      simp only [arrSet]
      by_cases h : i' = i
      · subst h; simp
      · have : i'.1 ≠ i.1 := fun h' => h (Fin.ext h')
        rw [if_neg h]
        exact hd i' (by omega))
  rw [h1]
  congr 1
  funext i
  exact h2 i i.2

theorem genStep_appends [Zero K] [One K] (m : Mode) (L : Nat) (G : HyGraph dim n) (loc : LocalFun dim n K)
    (edge : Nat) (hfit : G.n_hyNodes * n < U32) (nodes : Fin (2 * dim) → Fin G.n_hyNodes)
    (hn : ∀ i, G.hyNodes edge i = nodes i)
    (y : Fin (2 * dim) → Fin n → LocDofs dim n K)
    (hy : ∀ j k, loc edge (unitDofs j k) (fun _ _ => 0) = .ok (y j k)) :
    Appends L (fun s : GenState dim n K => (s.mat, s.pos)) (G.genStep m loc edge)
      (edgeTriplets (fun i j => (dof (nodes i) j).val) y) := by
  have h := appends_forFin L (fun s : GenState dim n K => (s.mat, s.pos)) (2 * dim)
    (fun node_j s => forFin n (fun dof_j s =>
      genColumn loc edge (fun i j => (dof (nodes i) j).val) node_j dof_j s) s)
    (fun j => (List.finRange n).flatMap (fun k => colTriplets (fun i j => (dof (nodes i) j).val) j k (y j k)))
    (fun j => appends_forFin L _ n _ _ (fun k => genColumn_appends L loc edge _ j k (y j k) (hy j k)))
  have e : G.genStep m loc edge = fun s : GenState dim n K => forFin (2 * dim) (fun node_j s =>
      forFin n (fun dof_j s =>
        genColumn loc edge (fun i j => (dof (nodes i) j).val) node_j dof_j s) s) s := by
    funext s
    simp only [genStep, get_idx_eq m G hfit _ nodes hn, Res.ok_bind]
  rw [e]
  exact h

theorem length_flatMap_const {α β : Type} (l : List α) (g : α → List β) (c : Nat)
    (h : ∀ a ∈ l, (g a).length = c) : (l.flatMap g).length = l.length * c := by
  induction l with
  | nil => simp
  | cons a l ih =>
    rw [List.flatMap_cons, List.length_append, ih (fun b hb => h b (by simp [hb])), h a (by simp)]
    simp [Nat.add_mul]; omega

theorem length_edgeTriplets [Zero K] [One K] (idx : Fin (2 * dim) → Fin n → Nat)
    (y : Fin (2 * dim) → Fin n → LocDofs dim n K) :
    (edgeTriplets idx y).length = (2 * dim * n) * (2 * dim * n) := by
  unfold edgeTriplets
  rw [length_flatMap_const _ _ (n * (2 * dim * n))]
  · rw [List.length_finRange]; ring
  · intro j _
    rw [length_flatMap_const _ _ (2 * dim * n)]
    · rw [List.length_finRange]
    · intro k _
      unfold colTriplets
      rw [length_flatMap_const _ _ n]
      · rw [List.length_finRange]
      · intro i _
        rw [length_flatMap_const _ _ 1]
        · simp
        · intro l _; rfl

end HyperHDG.HyGraph

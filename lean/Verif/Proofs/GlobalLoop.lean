import Mathlib.Algebra.BigOperators.Fin
import Mathlib.Algebra.BigOperators.Ring.Finset
import Mathlib.Tactic.Ring
import Verif.Model.GlobalLoop
import Verif.Proofs.HyperNodeFactory
import Verif.Spec.Assembly

namespace HyperHDG

open Finset Spec

theorem forFin_inv {σ : Type} : ∀ (n : Nat) (f : Fin n → σ → Res σ) (s : σ) (I : Nat → σ → Prop)
    (_ : I 0 s) (_ : ∀ i : Fin n, ∀ t, I i t → ∃ t', f i t = .ok t' ∧ I (i + 1) t'),
    ∃ t, forFin n f s = .ok t ∧ I n t
  | 0, _, s, _, h0, _ => ⟨s, rfl, h0⟩
  | n + 1, f, s, I, h0, hs => by
    obtain ⟨t, ht, hI⟩ := forFin_inv n (fun i => f i.castSucc) s I h0 (fun i t h => hs i.castSucc t h)
    obtain ⟨t', ht', hI'⟩ := hs (Fin.last n) t hI
    exact ⟨t', by simp [forFin, ht, ht'], hI'⟩

theorem onArray_ok {n : Nat} {α : Type} (a : Fin n → α) (f : List α → Res (List α)) (b : Fin n → α)
    (h : f (List.ofFn a) = .ok (List.ofFn b)) : onArray a f = .ok b := by
  unfold onArray
  rw [h]
  simp

theorem drop_take_ofFn {N n : Nat} {K : Type} (x : Fin (N * n) → K) (v : Fin N) :
    ((List.ofFn x).drop (v * n)).take n = List.ofFn (fun j => x (dof v j)) := by
  have hb : v * n + n ≤ N * n := by
    have := Nat.mul_le_mul_right n (show v.1 + 1 ≤ N from v.2)
    rw [Nat.add_mul] at this; omega
  apply List.ext_getElem
  · simp; omega
  · intro k h1 h2
    simp [dof]

namespace HyGraph

variable {dim n : Nat} {K : Type}

/-- `nodes` describes the hypernodes of the hyperedges of `G`; the number of dofs is representable. -/
structure WF (G : HyGraph dim n) (nodes : Fin G.n_hyEdges → Fin (2 * dim) → Fin G.n_hyNodes) : Prop where
  hyNodes_eq : ∀ (e : Fin G.n_hyEdges) (i : Fin (2 * dim)), G.hyNodes e i = nodes e i
  fits : G.n_hyNodes * n < U32

theorem factory_bounds (G : HyGraph dim n) (hfit : G.n_hyNodes * n < U32) (v : Fin G.n_hyNodes) :
    v * G.factory.n + G.factory.n < U32 + 1 ∧ v * G.factory.n + G.factory.n ≤ G.n_hyNodes * n := by
  have h := HyperNodeFactory.node_bound (F := G.factory) v.2
  have h' : G.factory.n_hyNodes * G.factory.n = G.n_hyNodes * n := rfl
  rw [h'] at h
  exact ⟨by omega, h⟩

theorem gather_eq [Zero K] (m : Mode) (G : HyGraph dim n) (hfit : G.n_hyNodes * n < U32)
    (x : Fin (G.n_hyNodes * n) → K) (hyNodes : Fin (2 * dim) → Nat)
    (nodes : Fin (2 * dim) → Fin G.n_hyNodes) (hn : ∀ i, hyNodes i = nodes i)
    (buf : LocDofs dim n K × LocDofs dim n K) :
    G.gather m (List.ofFn x) hyNodes buf = .ok (fun i j => x (dof (nodes i) j), fun _ _ => 0) := by
  unfold gather
  obtain ⟨t, h1, h2⟩ := forFin_inv (2 * dim)
    (fun node (s : LocDofs dim n K × LocDofs dim n K) => do
      let old ← onArray (s.1 node) (G.factory.get_dof_values m (hyNodes node) (List.ofFn x))
      return (arrSet s.1 node old, arrSet s.2 node (fun _ => 0))) buf
    (fun k s => ∀ i : Fin (2 * dim), i.1 < k → s.1 i = (fun j => x (dof (nodes i) j)) ∧ s.2 i = fun _ => 0)
    (fun i h => absurd h (Nat.not_lt_zero _))
    (fun i s hs => by
      have hb := factory_bounds G hfit (nodes i)
      have : onArray (s.1 i) (G.factory.get_dof_values m (hyNodes i) (List.ofFn x)) =
          .ok (fun j => x (dof (nodes i) j)) := by
        apply onArray_ok
        rw [hn, HyperNodeFactory.get_dof_values_eq m G.factory (nodes i) _ _ (by simp [factory]) hb.1
          (by simpa using hb.2)]
        congr 1
        exact drop_take_ofFn x (nodes i)
      refine ⟨_, by rw [this]; rfl, fun i' hi' => ?_⟩
      simp only [arrSet]
      by_cases h : i' = i
      · subst h; simp
      · have : i'.1 ≠ i.1 := fun h' => h (Fin.ext h')
        rw [if_neg h, if_neg h]
        exact hs i' (by omega))
  rw [h1]
  congr 1
  ext i j
  · exact congrFun (h2 i i.2).1 j
  · exact congrFun (h2 i i.2).2 j

theorem dof_inj {N n : Nat} {v w : Fin N} {i j : Fin n} (h : dof v i = dof w j) : v = w ∧ i = j := by
  have h' : v.1 * n + i.1 = w.1 * n + j.1 := congrArg Fin.val h
  have hi := i.2
  have hj := j.2
  have e1 : (v.1 * n + i) / n = v := by
    rw [Nat.mul_comm, Nat.mul_add_div (by omega), Nat.div_eq_of_lt hi]; rfl
  have e2 : (w.1 * n + j) / n = w := by
    rw [Nat.mul_comm, Nat.mul_add_div (by omega), Nat.div_eq_of_lt hj]; rfl
  have e3 : v.1 = w.1 := by rw [← e1, ← e2, h']
  refine ⟨Fin.ext e3, Fin.ext ?_⟩
  rw [e3] at h'; omega

theorem add_ofFn [AddCommMonoid K] (m : Mode) (G : HyGraph dim n) (hfit : G.n_hyNodes * n < U32)
    (a : Fin (G.n_hyNodes * n) → K) (v : Fin G.n_hyNodes) (l : Fin n → K) :
    G.factory.add_to_dof_values m v (List.ofFn a) (List.ofFn l) =
      .ok (List.ofFn (fun k => a k + ∑ j, if dof v j = k then l j else 0)) := by
  have hb := factory_bounds G hfit v
  rw [HyperNodeFactory.add_to_dof_values_eq m G.factory v _ _ (by simp [factory]) hb.1
    (by simpa using hb.2)]
  congr 1
  have hlt : v.1 * n + n ≤ G.n_hyNodes * n := hb.2
  show List.take (v * n) _ ++ List.zipWith _ (List.take n (List.drop (v * n) _)) _ ++
    List.drop (v * n + n) _ = _
  rw [drop_take_ofFn]
  apply List.ext_getElem
  · simp; omega
  · intro k h1 h2
    simp only [List.length_ofFn] at h2
    rw [List.getElem_ofFn]
    by_cases hk1 : k < v * n
    · rw [List.getElem_append_left (by simp; omega), List.getElem_append_left (by simp; omega),
        List.getElem_take, List.getElem_ofFn, Finset.sum_eq_zero, add_zero]
      intro j _
      rw [if_neg]
      intro h
      have : v.1 * n + j.1 = k := congrArg Fin.val h
      omega
    · by_cases hk2 : k < v * n + n
      · have hj : k - v * n < n := by omega
        rw [List.getElem_append_left (by simp; omega), List.getElem_append_right (by simp; omega)]
        simp only [List.getElem_zipWith, List.getElem_ofFn, List.length_take, List.length_ofFn]
        have e : k - min (v.1 * n) (G.n_hyNodes * n) = k - v * n := by
          rw [Nat.min_eq_left (by omega)]
        have hd : dof v ⟨k - v * n, hj⟩ = ⟨k, h2⟩ := Fin.ext (by simp [dof]; omega)
        rw [Finset.sum_eq_single (⟨k - v * n, hj⟩ : Fin n)]
        · simp only [e, hd, if_true]
        · intro j _ hne
          rw [if_neg]
          intro h
          exact hne (dof_inj (h.trans hd.symm)).2
        · simp
      · rw [List.getElem_append_right (by simp; omega)]
        simp only [List.getElem_drop, List.getElem_ofFn]
        rw [Finset.sum_eq_zero, add_zero]
        · congr 1; apply Fin.ext; simp; omega
        · intro j _
          rw [if_neg]
          intro h
          have : v.1 * n + j.1 = k := congrArg Fin.val h
          omega

theorem scatterAdd_eq [AddCommMonoid K] (m : Mode) (G : HyGraph dim n) (hfit : G.n_hyNodes * n < U32)
    (hyNodes : Fin (2 * dim) → Nat)
    (nodes : Fin (2 * dim) → Fin G.n_hyNodes) (hn : ∀ i, hyNodes i = nodes i)
    (y : LocDofs dim n K) (a : Fin (G.n_hyNodes * n) → K) :
    G.scatterAdd m hyNodes y (List.ofFn a) =
      .ok (List.ofFn (fun k => a k + ∑ i, ∑ j, if dof (nodes i) j = k then y i j else 0)) := by
  unfold scatterAdd
  have key : ∀ (d : Nat) (nodes : Fin d → Fin G.n_hyNodes) (hyNodes : Fin d → Nat) (y : Fin d → Fin n → K),
      (∀ i, hyNodes i = nodes i) →
      forFin d (fun node ax =>
        G.factory.add_to_dof_values m (hyNodes node) ax (List.ofFn (y node))) (List.ofFn a) =
      .ok (List.ofFn (fun k => a k + ∑ i, ∑ j, if dof (nodes i) j = k then y i j else 0)) := by
    intro d
    induction d with
    | zero => intro nodes hyNodes y _; simp [forFin]
    | succ d ih =>
      intro nodes hyNodes y hn
      rw [forFin, ih (fun i => nodes i.castSucc) _ (fun i => y i.castSucc) (fun i => hn _)]
      simp only [Res.ok_bind]
      rw [hn, add_ofFn m G hfit]
      simp only [Fin.sum_univ_castSucc, add_assoc]
  exact key _ nodes hyNodes y hn

theorem mat_vec_eq [AddCommMonoid K] (m : Mode) (G : HyGraph dim n)
    (nodes : Fin G.n_hyEdges → Fin (2 * dim) → Fin G.n_hyNodes) (hwf : G.WF nodes)
    (loc : LocalFun dim n K) (x : Fin (G.n_hyNodes * n) → K)
    (y : Fin G.n_hyEdges → Fin (2 * dim) → Fin n → K)
    (hloc : ∀ e : Fin G.n_hyEdges, loc e (faceValues nodes x e) (fun _ _ => 0) = .ok (y e))
    (old0 new0 : LocDofs dim n K) :
    G.mat_vec_multiply m loc old0 new0 (List.ofFn x) = .ok (List.ofFn (assemble nodes y)) := by
  unfold mat_vec_multiply for_each
  have h0 : List.replicate (List.ofFn x).length (0 : K) =
      List.ofFn (fun _ : Fin (G.n_hyNodes * n) => (0 : K)) := by
    rw [List.length_ofFn, List.ofFn_const]
  obtain ⟨s, h1, h2⟩ := forUp_inv G.n_hyEdges (G.matVecStep m loc (List.ofFn x))
    ⟨List.replicate (List.ofFn x).length 0, old0, new0⟩
    (fun c s => s.ax = List.ofFn (fun k : Fin (G.n_hyNodes * n) =>
      ∑ e : Fin G.n_hyEdges, if e.1 < c then
        ∑ i, ∑ j, if dof (nodes e i) j = k then y e i j else 0 else 0))
    (by simp)
    (fun c hc s hs => by
      let e : Fin G.n_hyEdges := ⟨c, hc⟩
      simp only [matVecStep]
      have hg := gather_eq m G hwf.fits x (G.hyNodes c) (nodes e) (fun i => hwf.hyNodes_eq e i) (s.old, s.new)
      have hl : loc c (fun i j => x (dof (nodes e i) j)) (fun _ _ => 0) = .ok (y e) := hloc e
      have hs' := scatterAdd_eq m G hwf.fits (G.hyNodes c) (nodes e) (fun i => hwf.hyNodes_eq e i) (y e)
        (fun k : Fin (G.n_hyNodes * n) =>
      ∑ e : Fin G.n_hyEdges, if e.1 < c then
        ∑ i, ∑ j, if dof (nodes e i) j = k then y e i j else 0 else 0)
      rw [hg]
      simp only [Res.ok_bind]
      rw [hl]
      simp only [Res.ok_bind]
      rw [hs, hs']
      refine ⟨_, rfl, ?_⟩
      simp only
      congr 1
      funext k
      rw [← Finset.sum_erase_add _ _ (Finset.mem_univ e),
        ← Finset.sum_erase_add (Finset.univ) (fun e' : Fin G.n_hyEdges => if e'.1 < c + 1 then _ else _) (Finset.mem_univ e)]
      have he1 : ¬ (e.1 < c) := by simp [e]
      have he2 : e.1 < c + 1 := by simp [e]
      rw [if_neg he1, if_pos he2, add_zero]
      congr 1
      apply Finset.sum_congr rfl
      intro e' he'
      have hne : e'.1 ≠ c := fun h => (Finset.mem_erase.mp he').1 (Fin.ext h)
      by_cases h : e'.1 < c
      · rw [if_pos h, if_pos (by omega)]
      · rw [if_neg h, if_neg (by omega)])
  rw [h1]
  simp only [Res.ok_bind, Res.pure_eq]
  rw [h2]
  congr 2
  funext k
  unfold assemble
  exact Finset.sum_congr rfl (fun e _ => by rw [if_pos e.2])

end HyGraph
end HyperHDG

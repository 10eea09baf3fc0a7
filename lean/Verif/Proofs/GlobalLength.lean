import Verif.Proofs.GlobalOk
import Verif.Proofs.GlobalLoopExtended

/-!
# What a returned result says about lengths and local calls, for the loops of nonlinear eigenvalue problems
-/

namespace HyperHDG

theorem forUp_pres {σ : Type} (P : σ → Prop) : ∀ (n : Nat) (f : Nat → σ → Res σ) (s t : σ), (∀ c s t, P s → f c s = .ok t → P t) → P s → forUp n f s = .ok t → P t
  | 0, _, s, t, _, hs, h => by
    rw [← Res.ok.inj h]
    exact hs
  | n + 1, f, s, t, hf, hs, h => by
    rw [forUp_succ] at h
    obtain ⟨s', h1, h2⟩ := Res.bind_eq_ok.mp h
    exact hf n s' t (forUp_pres P n f s s' hf hs h1) h2

theorem forFin_pres {σ : Type} (P : σ → Prop) : ∀ (n : Nat) (f : Fin n → σ → Res σ) (s t : σ), (∀ c s t, P s → f c s = .ok t → P t) → P s → forFin n f s = .ok t → P t
  | 0, _, s, t, _, hs, h => by
    rw [← Res.ok.inj h]
    exact hs
  | n + 1, f, s, t, hf, hs, h => by
    unfold forFin at h
    obtain ⟨s', h1, h2⟩ := Res.bind_eq_ok.mp h
    exact hf (Fin.last n) s' t (forFin_pres P n (fun i => f i.castSucc) s s' (fun c => hf c.castSucc) hs h1) h2

theorem vset_length {α : Type} {v w : List α} {i : Nat} {a : α} (h : vset v i a = .ok w) : w.length = v.length := by
  unfold vset at h
  split at h
  · rw [← Res.ok.inj h, List.length_set]
  · exact (nomatch h)

theorem HyperNodeFactory.add_length {α : Type} [Add α] {m : Mode} {F : HyperNodeFactory} {v : Nat} {l loc r : List α} (h : F.add_to_dof_values m v l loc = .ok r) : r.length = l.length := by
  unfold add_to_dof_values at h
  obtain ⟨_, _, h⟩ := Res.bind_eq_ok.mp h
  obtain ⟨_, _, h⟩ := Res.bind_eq_ok.mp h
  refine forUp_pres (fun r => r.length = l.length) _ _ _ _ (fun c s t hs ht => ?_) rfl h
  obtain ⟨_, _, ht⟩ := Res.bind_eq_ok.mp ht
  obtain ⟨_, _, ht⟩ := Res.bind_eq_ok.mp ht
  exact (vset_length ht).trans hs

theorem HyperNodeFactory.set_length {α : Type} {m : Mode} {F : HyperNodeFactory} {v : Nat} {l loc r : List α} (h : F.set_dof_values m v l loc = .ok r) : r.length = l.length := by
  unfold set_dof_values at h
  obtain ⟨_, _, h⟩ := Res.bind_eq_ok.mp h
  obtain ⟨_, _, h⟩ := Res.bind_eq_ok.mp h
  refine forUp_pres (fun r => r.length = l.length) _ _ _ _ (fun c s t hs ht => ?_) rfl h
  obtain ⟨_, _, ht⟩ := Res.bind_eq_ok.mp ht
  exact (vset_length ht).trans hs

namespace HyGraph

open Spec

variable {K : Type} {dim n : Nat}

theorem scatterAdd_length [Add K] {m : Mode} {G : HyGraph dim n} {hyNodes : Fin (2 * dim) → Nat} {new : LocDofs dim n K} {ax r : List K} (h : G.scatterAdd m hyNodes new ax = .ok r) :
    r.length = ax.length :=
  forFin_pres (fun r => r.length = ax.length) _ _ _ _ (fun _ _ _ hs ht => (HyperNodeFactory.add_length ht).trans hs) rfl h

theorem scatterSet_length {m : Mode} {G : HyGraph dim n} {hyNodes : Fin (2 * dim) → Nat} {new : LocDofs dim n K} {ax r : List K} (h : G.scatterSet m hyNodes new ax = .ok r) :
    r.length = ax.length :=
  forFin_pres (fun r => r.length = ax.length) _ _ _ _ (fun _ _ _ hs ht => (HyperNodeFactory.set_length ht).trans hs) rfl h

theorem mat_vec_length [Zero K] [Add K] {m : Mode} {G : HyGraph dim n} {loc : LocalFun dim n K} {old0 new0 : LocDofs dim n K} {x r : List K}
    (h : G.mat_vec_multiply m loc old0 new0 x = .ok r) : r.length = x.length := by
  unfold mat_vec_multiply for_each at h
  obtain ⟨s, h1, h2⟩ := Res.bind_eq_ok.mp h
  rw [← Res.ok.inj h2]
  refine forUp_pres (fun s : LoopState dim n K => s.ax.length = x.length) _ _ _ _ (fun c s t hs ht => ?_) (by simp) h1
  unfold matVecStep at ht
  obtain ⟨_, _, ht⟩ := Res.bind_eq_ok.mp ht
  obtain ⟨_, _, ht⟩ := Res.bind_eq_ok.mp ht
  obtain ⟨_, h3, ht⟩ := Res.bind_eq_ok.mp ht
  rw [← Res.ok.inj ht]
  exact (scatterAdd_length h3).trans hs

theorem jacobian_length [Zero K] [Add K] {m : Mode} {G : HyGraph dim n} {loc : Nat → LocDofs dim n K → LocDofs dim n K → LocDofs dim n K → Res (LocDofs dim n K)}
    {old0 vals0 new0 : LocDofs dim n K} {x x_val r : List K} (h : G.jacobian m loc old0 vals0 new0 x x_val = .ok r) : r.length = x.length := by
  unfold jacobian for_each at h
  obtain ⟨s, h1, h2⟩ := Res.bind_eq_ok.mp h
  rw [← Res.ok.inj h2]
  refine forUp_pres (fun s : List K × LocDofs dim n K × LocDofs dim n K × LocDofs dim n K => s.1.length = x.length) _ _ _ _ (fun c s t hs ht => ?_) (by simp) h1
  obtain ⟨_, _, ht⟩ := Res.bind_eq_ok.mp ht
  obtain ⟨_, _, ht⟩ := Res.bind_eq_ok.mp ht
  obtain ⟨_, h3, ht⟩ := Res.bind_eq_ok.mp ht
  rw [← Res.ok.inj ht]
  exact (scatterAdd_length h3).trans hs

theorem make_initial_length [Zero K] {m : Mode} {G : HyGraph dim n} {loc : Nat → LocDofs dim n K → Res (LocDofs dim n K)} {buf0 : LocDofs dim n K} {x r : List K}
    (h : G.make_initial_gather m loc buf0 x = .ok r) : r.length = x.length := by
  unfold make_initial_gather for_each at h
  obtain ⟨s, h1, h2⟩ := Res.bind_eq_ok.mp h
  rw [← Res.ok.inj h2]
  refine forUp_pres (fun s : List K × LocDofs dim n K => s.1.length = x.length) _ _ _ _ (fun c s t hs ht => ?_) (by simp) h1
  obtain ⟨_, _, ht⟩ := Res.bind_eq_ok.mp ht
  obtain ⟨_, _, ht⟩ := Res.bind_eq_ok.mp ht
  obtain ⟨_, h3, ht⟩ := Res.bind_eq_ok.mp ht
  rw [← Res.ok.inj ht]
  exact (scatterSet_length h3).trans hs

/-- If the global Jacobian returns, then so did all the local ones. -/
theorem jacobian_local [AddCommMonoid K] (m : Mode) (G : HyGraph dim n) (nodes : Fin G.n_hyEdges → Fin (2 * dim) → Fin G.n_hyNodes) (hwf : G.WF nodes)
    (loc : Nat → LocDofs dim n K → LocDofs dim n K → LocDofs dim n K → Res (LocDofs dim n K)) (old0 vals0 new0 : LocDofs dim n K) (x x_val : Fin (G.n_hyNodes * n) → K) {y : List K}
    (h : G.jacobian m loc old0 vals0 new0 (List.ofFn x) (List.ofFn x_val) = .ok y) (e : Fin G.n_hyEdges) :
    ∃ z, loc e (faceValues nodes x e) (faceValues nodes x_val e) (fun _ _ => 0) = .ok z := by
  unfold jacobian for_each at h
  obtain ⟨s, h1, _⟩ := Res.bind_eq_ok.mp h
  obtain ⟨s', t', h2⟩ := forUp_ok _ _ _ _ h1 e e.2
  have one : ∀ (z : Fin (G.n_hyNodes * n) → K) (i : Fin (2 * dim)) (a : Fin n → K),
      onArray a (G.factory.get_dof_values m (G.hyNodes e i) (List.ofFn z)) = .ok (faceValues nodes z e i) := by
    intro z i a
    have hb := factory_bounds G hwf.fits (nodes e i)
    apply onArray_ok
    rw [hwf.hyNodes_eq, HyperNodeFactory.get_dof_values_eq m G.factory (nodes e i) _ _ (by simp [factory]) hb.1 (by simpa using hb.2)]
    congr 1
    exact drop_take_ofFn z (nodes e i)
  obtain ⟨t, h3, h4⟩ := forFin_inv (2 * dim)
    (fun node (b : LocDofs dim n K × LocDofs dim n K × LocDofs dim n K) => do
      let old ← onArray (b.1 node) (G.factory.get_dof_values m (G.hyNodes e node) (List.ofFn x))
      let vals ← onArray (b.2.1 node) (G.factory.get_dof_values m (G.hyNodes e node) (List.ofFn x_val))
      return (arrSet b.1 node old, arrSet b.2.1 node vals, arrSet b.2.2 node (fun _ => 0))) s'.2
    (fun c b => ∀ i : Fin (2 * dim), i.1 < c → b.1 i = faceValues nodes x e i ∧ b.2.1 i = faceValues nodes x_val e i ∧ b.2.2 i = fun _ => 0)
    (fun i h => absurd h (Nat.not_lt_zero _))
    (fun i b hb => by
      rw [one x i, one x_val i]
      refine ⟨_, rfl, fun i' hi' => ?_⟩
      simp only [arrSet]
      by_cases h : i' = i
      · subst h; simp
      · have : i'.1 ≠ i.1 := fun h' => h (Fin.ext h')
        simp only [if_neg h]
        exact hb i' (by omega))
  have h5 : t = (faceValues nodes x e, faceValues nodes x_val e, fun _ _ => 0) := by
    obtain ⟨t1, t2, t3⟩ := t
    have a1 : t1 = faceValues nodes x e := funext fun i => (h4 i i.2).1
    have a2 : t2 = faceValues nodes x_val e := funext fun i => (h4 i i.2).2.1
    have a3 : t3 = fun _ _ => 0 := funext fun i => (h4 i i.2).2.2
    rw [a1, a2, a3]
  rw [h3, h5, Res.ok_bind] at h2
  obtain ⟨z, h6, _⟩ := Res.bind_eq_ok.mp h2
  exact ⟨z, h6⟩

end HyGraph
end HyperHDG

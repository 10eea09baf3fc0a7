import Verif.Proofs.GlobalLoop
import Verif.Model.GlobalClasses

/-!
# The global loops for vectors with additional entries at the end

The loops access the vectors only at the dofs of hypernodes, so additional entries of the argument have no influence, and those of the result are zero.
-/

namespace HyperHDG

theorem forUp_map {σ τ : Type} (φ : σ → τ) (P : σ → Prop) (f : Nat → σ → Res σ) (g : Nat → τ → Res τ) (s : σ) (hs : P s) :
    ∀ n, (∀ c < n, ∀ s, P s → g c (φ s) = (f c s >>= fun s' => .ok (φ s')) ∧ ∀ s', f c s = .ok s' → P s') →
      forUp n g (φ s) = (forUp n f s >>= fun s' => .ok (φ s')) ∧ ∀ s', forUp n f s = .ok s' → P s'
  | 0, _ => ⟨rfl, fun s' h => by cases h; exact hs⟩
  | n + 1, hstep => by
    obtain ⟨h1, h2⟩ := forUp_map φ P f g s hs n fun c hc => hstep c (Nat.lt_succ_of_lt hc)
    unfold forUp
    rw [h1]
    cases h : forUp n f s with
    | ok t =>
      simp only [Res.ok_bind]
      exact hstep n (Nat.lt_succ_self n) t (h2 t h)
    | abort => exact ⟨rfl, fun s' h => nomatch h⟩
    | throw e => exact ⟨rfl, fun s' h => nomatch h⟩
    | ub => exact ⟨rfl, fun s' h => nomatch h⟩

theorem Res.bind_assoc {α β γ : Type} (x : Res α) (f : α → Res β) (g : β → Res γ) : (x >>= f >>= g) = (x >>= fun a => f a >>= g) := by
  cases x <;> rfl

theorem forFin_congr {σ : Type} : ∀ (n : Nat) (f g : Fin n → σ → Res σ) (s : σ), (∀ i s, f i s = g i s) → forFin n f s = forFin n g s := by
  intro n f g s h
  rw [show f = g from funext fun i => funext fun s => h i s]

namespace HyGraph

variable {dim n : Nat} {K : Type}

theorem get_append (m : Mode) (G : HyGraph dim n) (hfit : G.n_hyNodes * n < U32) (v : Fin G.n_hyNodes) (l e loc : List K) (hl : l.length = G.n_hyNodes * n) (hloc : loc.length = n) :
    G.factory.get_dof_values m v (l ++ e) loc = G.factory.get_dof_values m v l loc := by
  have hb := factory_bounds G hfit v
  rw [HyperNodeFactory.get_dof_values_eq m G.factory v l _ hloc hb.1 (by rw [hl]; exact hb.2),
    HyperNodeFactory.get_dof_values_eq m G.factory v (l ++ e) _ hloc hb.1 (by rw [List.length_append, hl]; exact Nat.le_add_right_of_le hb.2)]
  congr 1
  rw [List.drop_append_of_le_length (by rw [hl]; exact le_of_add_le_left hb.2), List.take_append_of_le_length]
  rw [List.length_drop, hl]
  exact Nat.le_sub_of_add_le' hb.2

theorem add_append [Add K] (m : Mode) (G : HyGraph dim n) (hfit : G.n_hyNodes * n < U32) (v : Fin G.n_hyNodes) (l e loc : List K) (hl : l.length = G.n_hyNodes * n) (hloc : loc.length = n) :
    ∃ l', G.factory.add_to_dof_values m v l loc = .ok l' ∧ l'.length = G.n_hyNodes * n ∧ G.factory.add_to_dof_values m v (l ++ e) loc = .ok (l' ++ e) := by
  have hb := factory_bounds G hfit v
  refine ⟨_, HyperNodeFactory.add_to_dof_values_eq m G.factory v _ _ hloc hb.1 (by rw [hl]; exact hb.2), ?_, ?_⟩
  · have h1 := hb.2
    have h2 : G.factory.n = n := rfl
    simp only [List.length_append, List.length_zipWith, List.length_take, List.length_drop, hl, hloc]
    rw [h2] at h1 ⊢
    omega
  · rw [HyperNodeFactory.add_to_dof_values_eq m G.factory v _ _ hloc hb.1 (by rw [List.length_append, hl]; exact Nat.le_add_right_of_le hb.2),
      List.drop_append_of_le_length (by rw [hl]; exact le_of_add_le_left hb.2), List.drop_append_of_le_length (by rw [hl]; exact hb.2),
      List.take_append_of_le_length (by rw [hl]; exact le_of_add_le_left hb.2), List.take_append_of_le_length (by rw [List.length_drop, hl]; exact Nat.le_sub_of_add_le' hb.2), List.append_assoc, List.append_assoc, List.append_assoc]

theorem set_append (m : Mode) (G : HyGraph dim n) (hfit : G.n_hyNodes * n < U32) (v : Fin G.n_hyNodes) (l e loc : List K) (hl : l.length = G.n_hyNodes * n) (hloc : loc.length = n) :
    ∃ l', G.factory.set_dof_values m v l loc = .ok l' ∧ l'.length = G.n_hyNodes * n ∧ G.factory.set_dof_values m v (l ++ e) loc = .ok (l' ++ e) := by
  have hb := factory_bounds G hfit v
  refine ⟨_, HyperNodeFactory.set_dof_values_eq m G.factory v _ _ hloc hb.1 (by rw [hl]; exact hb.2), ?_, ?_⟩
  · have h1 := hb.2
    have h2 : G.factory.n = n := rfl
    simp only [List.length_append, List.length_take, List.length_drop, hl, hloc]
    rw [h2] at h1 ⊢
    omega
  · rw [HyperNodeFactory.set_dof_values_eq m G.factory v _ _ hloc hb.1 (by rw [List.length_append, hl]; exact Nat.le_add_right_of_le hb.2),
      List.drop_append_of_le_length (by rw [hl]; exact hb.2),
      List.take_append_of_le_length (by rw [hl]; exact le_of_add_le_left hb.2), List.append_assoc, List.append_assoc, List.append_assoc]

theorem scatter_append (G : HyGraph dim n) (f : Nat → List K → List K → Res (List K))
    (hf : ∀ (v : Fin G.n_hyNodes) (l e loc : List K), l.length = G.n_hyNodes * n → loc.length = n → ∃ l', f v l loc = .ok l' ∧ l'.length = G.n_hyNodes * n ∧ f v (l ++ e) loc = .ok (l' ++ e))
    (e : List K) : ∀ (d : Nat) (nodes : Fin d → Fin G.n_hyNodes) (hyNodes : Fin d → Nat) (_ : ∀ i, hyNodes i = nodes i) (y : Fin d → Fin n → K) (l : List K), l.length = G.n_hyNodes * n →
      ∃ l', forFin d (fun node ax => f (hyNodes node) ax (List.ofFn (y node))) l = .ok l' ∧ l'.length = G.n_hyNodes * n ∧
        forFin d (fun node ax => f (hyNodes node) ax (List.ofFn (y node))) (l ++ e) = .ok (l' ++ e)
  | 0, _, _, _, _, l, hl => ⟨l, rfl, hl, rfl⟩
  | d + 1, nodes, hyNodes, hn, y, l, hl => by
    obtain ⟨l1, h1, h2, h3⟩ := scatter_append G f hf e d (fun i => nodes i.castSucc) (fun i => hyNodes i.castSucc) (fun i => hn _) (fun i => y i.castSucc) l hl
    obtain ⟨l2, h4, h5, h6⟩ := hf (nodes (Fin.last d)) l1 e (List.ofFn (y (Fin.last d))) h2 List.length_ofFn
    refine ⟨l2, ?_, h5, ?_⟩
    · unfold forFin
      rw [h1, Res.ok_bind]
      show f (hyNodes (Fin.last d)) l1 _ = _
      rw [hn]
      exact h4
    · unfold forFin
      rw [h3, Res.ok_bind]
      show f (hyNodes (Fin.last d)) (l1 ++ e) _ = _
      rw [hn]
      exact h6

variable (m : Mode) (G : HyGraph dim n) (nodes : Fin G.n_hyEdges → Fin (2 * dim) → Fin G.n_hyNodes) (hwf : G.WF nodes)
include hwf

theorem onArray_append (e : Fin G.n_hyEdges) (i : Fin (2 * dim)) (a : Fin n → K) (x ext : List K) (hx : x.length = G.n_hyNodes * n) :
    onArray a (G.factory.get_dof_values m (G.hyNodes e i) (x ++ ext)) = onArray a (G.factory.get_dof_values m (G.hyNodes e i) x) := by
  unfold onArray
  rw [hwf.hyNodes_eq, get_append m G hwf.fits _ x ext _ hx List.length_ofFn]

/-- `trace_to_flux` for a vector with additional entries. -/
theorem mat_vec_append [Zero K] [Add K] (loc : LocalFun dim n K) (old0 new0 : LocDofs dim n K) (x ext : List K) (hx : x.length = G.n_hyNodes * n) :
    G.mat_vec_multiply m loc old0 new0 (x ++ ext) = (G.mat_vec_multiply m loc old0 new0 x >>= fun y => .ok (y ++ List.replicate ext.length 0)) ∧
      ∀ y, G.mat_vec_multiply m loc old0 new0 x = .ok y → y.length = G.n_hyNodes * n := by
  unfold mat_vec_multiply for_each
  obtain ⟨h1, h2⟩ := forUp_map (fun s : LoopState dim n K => (⟨s.ax ++ List.replicate ext.length 0, s.old, s.new⟩ : LoopState dim n K)) (fun s => s.ax.length = G.n_hyNodes * n)
    (G.matVecStep m loc x) (G.matVecStep m loc (x ++ ext)) ⟨List.replicate x.length 0, old0, new0⟩ (by rw [List.length_replicate, hx]) G.n_hyEdges (fun c hc s hs => by
      let e : Fin G.n_hyEdges := ⟨c, hc⟩
      unfold matVecStep
      have hg : G.gather m (x ++ ext) (G.hyNodes c) (s.old, s.new) = G.gather m x (G.hyNodes c) (s.old, s.new) := by
        unfold gather
        refine forFin_congr _ _ _ _ fun i s => ?_
        rw [show G.hyNodes c i = G.hyNodes e i from rfl, onArray_append m G nodes hwf e i _ x ext hx]
      simp only [hg]
      cases G.gather m x (G.hyNodes c) (s.old, s.new) with
      | ok buf =>
        simp only [Res.ok_bind]
        cases loc c buf.1 buf.2 with
        | ok new =>
          simp only [Res.ok_bind]
          obtain ⟨l', e1, e2, e3⟩ := scatter_append G (fun v l loc => G.factory.add_to_dof_values m v l loc) (fun v l e loc => add_append m G hwf.fits v l e loc) (List.replicate ext.length 0) (2 * dim) (nodes e)
            (G.hyNodes c) (fun i => hwf.hyNodes_eq e i) new s.ax hs
          unfold scatterAdd
          rw [e1, e3]
          refine ⟨rfl, fun s' h => ?_⟩
          cases h
          exact e2
        | abort => exact ⟨rfl, fun s' h => nomatch h⟩
        | throw e => exact ⟨rfl, fun s' h => nomatch h⟩
        | ub => exact ⟨rfl, fun s' h => nomatch h⟩
      | abort => exact ⟨rfl, fun s' h => nomatch h⟩
      | throw e => exact ⟨rfl, fun s' h => nomatch h⟩
      | ub => exact ⟨rfl, fun s' h => nomatch h⟩)
  rw [List.length_append, List.replicate_add, h1]
  cases h : forUp G.n_hyEdges (G.matVecStep m loc x) ⟨List.replicate x.length 0, old0, new0⟩ with
  | ok s =>
    refine ⟨rfl, fun y hy => ?_⟩
    cases hy
    exact h2 s h
  | abort => exact ⟨rfl, fun s' h => nomatch h⟩
  | throw e => exact ⟨rfl, fun s' h => nomatch h⟩
  | ub => exact ⟨rfl, fun s' h => nomatch h⟩

/-- `jacobian_of_trace_to_flux` for vectors with additional entries. -/
theorem jacobian_append [Zero K] [Add K] (loc : Nat → LocDofs dim n K → LocDofs dim n K → LocDofs dim n K → Res (LocDofs dim n K)) (old0 vals0 new0 : LocDofs dim n K)
    (x x_val ext ext_val : List K) (hx : x.length = G.n_hyNodes * n) (hx_val : x_val.length = G.n_hyNodes * n) :
    G.jacobian m loc old0 vals0 new0 (x ++ ext) (x_val ++ ext_val) = (G.jacobian m loc old0 vals0 new0 x x_val >>= fun y => .ok (y ++ List.replicate ext.length 0)) := by
  unfold jacobian for_each
  obtain ⟨h1, _⟩ := forUp_map (fun s : List K × LocDofs dim n K × LocDofs dim n K × LocDofs dim n K => (s.1 ++ List.replicate ext.length 0, s.2)) (fun s => s.1.length = G.n_hyNodes * n)
    (fun edge s => do
      let b ← forFin (2 * dim) (fun node (b : LocDofs dim n K × LocDofs dim n K × LocDofs dim n K) => do
        let old ← onArray (b.1 node) (G.factory.get_dof_values m (G.hyNodes edge node) x)
        let vals ← onArray (b.2.1 node) (G.factory.get_dof_values m (G.hyNodes edge node) x_val)
        return (arrSet b.1 node old, arrSet b.2.1 node vals, arrSet b.2.2 node (fun _ => 0))) s.2
      let new ← loc edge b.1 b.2.1 b.2.2
      let ax ← G.scatterAdd m (G.hyNodes edge) new s.1
      return (ax, b.1, b.2.1, new))
    (fun edge s => do
      let b ← forFin (2 * dim) (fun node (b : LocDofs dim n K × LocDofs dim n K × LocDofs dim n K) => do
        let old ← onArray (b.1 node) (G.factory.get_dof_values m (G.hyNodes edge node) (x ++ ext))
        let vals ← onArray (b.2.1 node) (G.factory.get_dof_values m (G.hyNodes edge node) (x_val ++ ext_val))
        return (arrSet b.1 node old, arrSet b.2.1 node vals, arrSet b.2.2 node (fun _ => 0))) s.2
      let new ← loc edge b.1 b.2.1 b.2.2
      let ax ← G.scatterAdd m (G.hyNodes edge) new s.1
      return (ax, b.1, b.2.1, new))
    (List.replicate x.length 0, old0, vals0, new0) (by rw [List.length_replicate, hx]) G.n_hyEdges (fun c hc s hs => by
      let e : Fin G.n_hyEdges := ⟨c, hc⟩
      rw [forFin_congr (2 * dim) (fun node (b : LocDofs dim n K × LocDofs dim n K × LocDofs dim n K) => do
        let old ← onArray (b.1 node) (G.factory.get_dof_values m (G.hyNodes c node) (x ++ ext))
        let vals ← onArray (b.2.1 node) (G.factory.get_dof_values m (G.hyNodes c node) (x_val ++ ext_val))
        return (arrSet b.1 node old, arrSet b.2.1 node vals, arrSet b.2.2 node (fun _ => 0))) (fun node b => do
        let old ← onArray (b.1 node) (G.factory.get_dof_values m (G.hyNodes c node) x)
        let vals ← onArray (b.2.1 node) (G.factory.get_dof_values m (G.hyNodes c node) x_val)
        return (arrSet b.1 node old, arrSet b.2.1 node vals, arrSet b.2.2 node (fun _ => 0))) s.2 (fun i s => by
          rw [show G.hyNodes c i = G.hyNodes e i from rfl, onArray_append m G nodes hwf e i _ x ext hx, onArray_append m G nodes hwf e i _ x_val ext_val hx_val])]
      cases forFin (2 * dim) (fun node (b : LocDofs dim n K × LocDofs dim n K × LocDofs dim n K) => do
        let old ← onArray (b.1 node) (G.factory.get_dof_values m (G.hyNodes c node) x)
        let vals ← onArray (b.2.1 node) (G.factory.get_dof_values m (G.hyNodes c node) x_val)
        return (arrSet b.1 node old, arrSet b.2.1 node vals, arrSet b.2.2 node (fun _ => 0))) s.2 with
      | ok buf =>
        simp only [Res.ok_bind]
        cases loc c buf.1 buf.2.1 buf.2.2 with
        | ok new =>
          simp only [Res.ok_bind]
          obtain ⟨l', e1, e2, e3⟩ := scatter_append G (fun v l loc => G.factory.add_to_dof_values m v l loc) (fun v l e loc => add_append m G hwf.fits v l e loc) (List.replicate ext.length 0) (2 * dim) (nodes e)
            (G.hyNodes c) (fun i => hwf.hyNodes_eq e i) new s.1 hs
          unfold scatterAdd
          rw [e1, e3]
          refine ⟨rfl, fun s' h => ?_⟩
          cases h
          exact e2
        | abort => exact ⟨rfl, fun s' h => nomatch h⟩
        | throw e => exact ⟨rfl, fun s' h => nomatch h⟩
        | ub => exact ⟨rfl, fun s' h => nomatch h⟩
      | abort => exact ⟨rfl, fun s' h => nomatch h⟩
      | throw e => exact ⟨rfl, fun s' h => nomatch h⟩
      | ub => exact ⟨rfl, fun s' h => nomatch h⟩)
  rw [List.length_append, List.replicate_add, h1]
  simp only [Res.bind_assoc]
  rfl

/-- `make_initial` for a vector with additional entries. -/
theorem make_initial_append [Zero K] (loc : Nat → LocDofs dim n K → Res (LocDofs dim n K)) (buf0 : LocDofs dim n K) (x ext : List K) (hx : x.length = G.n_hyNodes * n) :
    G.make_initial_gather m loc buf0 (x ++ ext) = (G.make_initial_gather m loc buf0 x >>= fun y => .ok (y ++ List.replicate ext.length 0)) ∧
      ∀ y, G.make_initial_gather m loc buf0 x = .ok y → y.length = G.n_hyNodes * n := by
  unfold make_initial_gather for_each
  obtain ⟨h1, h2⟩ := forUp_map (fun s : List K × LocDofs dim n K => (s.1 ++ List.replicate ext.length 0, s.2)) (fun s => s.1.length = G.n_hyNodes * n)
    (fun edge s => do
      let buf ← G.gather1 m x (G.hyNodes edge) s.2
      let new ← loc edge buf
      let ax ← G.scatterSet m (G.hyNodes edge) new s.1
      return (ax, new))
    (fun edge s => do
      let buf ← G.gather1 m (x ++ ext) (G.hyNodes edge) s.2
      let new ← loc edge buf
      let ax ← G.scatterSet m (G.hyNodes edge) new s.1
      return (ax, new))
    (List.replicate x.length 0, buf0) (by rw [List.length_replicate, hx]) G.n_hyEdges (fun c hc s hs => by
      let e : Fin G.n_hyEdges := ⟨c, hc⟩
      have hg : G.gather1 m (x ++ ext) (G.hyNodes c) s.2 = G.gather1 m x (G.hyNodes c) s.2 := by
        unfold gather1
        refine forFin_congr _ _ _ _ fun i s => ?_
        rw [show G.hyNodes c i = G.hyNodes e i from rfl, onArray_append m G nodes hwf e i _ x ext hx]
      simp only [hg]
      cases G.gather1 m x (G.hyNodes c) s.2 with
      | ok buf =>
        simp only [Res.ok_bind]
        cases loc c buf with
        | ok new =>
          simp only [Res.ok_bind]
          obtain ⟨l', e1, e2, e3⟩ := scatter_append G (fun v l loc => G.factory.set_dof_values m v l loc) (fun v l e loc => set_append m G hwf.fits v l e loc) (List.replicate ext.length 0) (2 * dim) (nodes e)
            (G.hyNodes c) (fun i => hwf.hyNodes_eq e i) new s.1 hs
          unfold scatterSet
          rw [e1, e3]
          refine ⟨rfl, fun s' h => ?_⟩
          cases h
          exact e2
        | abort => exact ⟨rfl, fun s' h => nomatch h⟩
        | throw e => exact ⟨rfl, fun s' h => nomatch h⟩
        | ub => exact ⟨rfl, fun s' h => nomatch h⟩
      | abort => exact ⟨rfl, fun s' h => nomatch h⟩
      | throw e => exact ⟨rfl, fun s' h => nomatch h⟩
      | ub => exact ⟨rfl, fun s' h => nomatch h⟩)
  rw [List.length_append, List.replicate_add, h1]
  simp only [Res.bind_assoc]
  refine ⟨rfl, fun y hy => ?_⟩
  obtain ⟨s, hs, hy⟩ := Res.bind_eq_ok.mp hy
  cases hy
  exact h2 s hs

end HyGraph
end HyperHDG

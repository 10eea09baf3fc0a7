import Mathlib.Data.List.Sort
import Verif.Proofs.MatSum
import Verif.Model.GlobalClasses

namespace HyperHDG

open Finset Spec

/-! ### Sorting and removing duplicates -/

theorem mem_uniqueErase (a : Nat) : ∀ l, a ∈ uniqueErase l ↔ a ∈ l
  | [] => by simp [uniqueErase]
  | [b] => by simp [uniqueErase]
  | b :: c :: l => by
    have ih := mem_uniqueErase a (c :: l)
    unfold uniqueErase
    split
    · rename_i h; rw [ih, h]; simp
    · rw [List.mem_cons, ih, List.mem_cons (l := c :: l)]

theorem uniqueErase_sorted : ∀ l : List Nat, l.Pairwise (· ≤ ·) → (uniqueErase l).Pairwise (· < ·)
  | [], _ => by simp [uniqueErase]
  | [b], _ => by simp [uniqueErase]
  | b :: c :: l, h => by
    have ih := uniqueErase_sorted (c :: l) h.of_cons
    unfold uniqueErase
    split
    · exact ih
    · rename_i hne
      refine List.Pairwise.cons (fun x hx => ?_) ih
      rw [mem_uniqueErase] at hx
      have hbc := (List.pairwise_cons.mp h).1 c (by simp)
      rcases List.mem_cons.mp hx with rfl | hx
      · omega
      · have := (List.pairwise_cons.mp (List.pairwise_cons.mp h).2).1 x hx
        omega

theorem mem_insertIdx (a b : Nat) : ∀ l, a ∈ insertIdx b l ↔ a = b ∨ a ∈ l
  | [] => by simp [insertIdx]
  | c :: l => by
    unfold insertIdx
    split
    · simp
    · rw [List.mem_cons, mem_insertIdx a b l, List.mem_cons]
      constructor
      · rintro (h | h | h) <;> simp [h]
      · rintro (h | h | h) <;> simp [h]

theorem mem_sortIdx (a : Nat) : ∀ l, a ∈ sortIdx l ↔ a ∈ l
  | [] => by simp [sortIdx]
  | c :: l => by rw [sortIdx, mem_insertIdx, mem_sortIdx a l, List.mem_cons]

theorem insertIdx_sorted (a : Nat) : ∀ l : List Nat, l.Pairwise (· ≤ ·) → (insertIdx a l).Pairwise (· ≤ ·)
  | [], _ => by simp [insertIdx]
  | c :: l, h => by
    unfold insertIdx
    split
    · rename_i hac
      refine List.Pairwise.cons (fun x hx => ?_) h
      rcases List.mem_cons.mp hx with rfl | hx
      · exact hac
      · exact le_trans hac ((List.pairwise_cons.mp h).1 x hx)
    · rename_i hac
      refine List.Pairwise.cons (fun x hx => ?_) (insertIdx_sorted a l h.of_cons)
      rw [mem_insertIdx] at hx
      rcases hx with rfl | hx
      · omega
      · exact (List.pairwise_cons.mp h).1 x hx

theorem sortIdx_sorted : ∀ l : List Nat, (sortIdx l).Pairwise (· ≤ ·)
  | [] => by simp [sortIdx]
  | a :: l => insertIdx_sorted a _ (sortIdx_sorted l)

theorem mem_unique_sort (a : Nat) (l : List Nat) : a ∈ uniqueErase (sortIdx l) ↔ a ∈ l := by
  rw [mem_uniqueErase, mem_sortIdx]

theorem unique_sort_strict (l : List Nat) : (uniqueErase (sortIdx l)).Pairwise (· < ·) :=
  uniqueErase_sorted _ (sortIdx_sorted l)

theorem forUp_ub_at {σ : Type} (n : Nat) (f : Nat → σ → Res σ) (s : σ) (c : Nat) (hc : c < n) (r : Res σ)
    (hr : ∀ t, r ≠ .ok t) (I : σ → Prop)
    (hpre : ∃ t, forUp c f s = .ok t ∧ I t) (hst : ∀ t, I t → f c t = r) : forUp n f s = r := by
  obtain ⟨t, ht, hI⟩ := hpre
  have key : ∀ k, forUp (c + 1 + k) f s = r := by
    intro k
    induction k with
    | zero => rw [Nat.add_zero, forUp_succ, ht, Res.ok_bind, hst t hI]
    | succ k ih =>
      rw [← Nat.add_assoc, forUp_succ, ih]
      cases r with
      | ok t => exact absurd rfl (hr t)
      | abort => rfl
      | throw e => rfl
      | ub => rfl
  have := key (n - (c + 1))
  rwa [show c + 1 + (n - (c + 1)) = n by omega] at this

namespace HyGraph

variable {dim n : Nat} {K : Type}

/-! ### Setting zero at given positions -/

theorem zero_loop [Zero K] {N : Nat} (m : Mode) (G : HyGraph dim n) (hN : N = G.n_global_dofs) (d : List Nat)
    (hd : ∀ x ∈ d, x < N) (a : Fin N → K) :
    forUp d.length (fun i ax => do
      let x ← vget d i
      hyAssert m (x < G.n_global_dofs)
      vset ax x 0) (List.ofFn a) = .ok (List.ofFn (fun k => if k.1 ∈ d then 0 else a k)) := by
  obtain ⟨t, h1, h2⟩ := forUp_inv d.length (fun i ax => do
      let x ← vget d i
      hyAssert m (x < G.n_global_dofs)
      vset ax x (0 : K)) (List.ofFn a)
    (fun c ax => ax = List.ofFn (fun k => if k.1 ∈ d.take c then 0 else a k))
    (by simp)
    (fun c hc ax hax => by
      have hx : d[c] < N := hd _ (List.getElem_mem hc)
      rw [vget_of_lt hc]
      simp only [Res.ok_bind]
      rw [hyAssert_of (by rw [← hN]; exact hx)]
      simp only [Res.ok_bind]
      rw [vset_of_lt (by rw [hax]; simpa using hx)]
      refine ⟨_, rfl, ?_⟩
      subst hax
      apply List.ext_getElem
      · simp
      · intro k hk1 hk2
        simp only [List.getElem_set, List.getElem_ofFn]
        have hm : k ∈ d.take (c + 1) ↔ k ∈ d.take c ∨ k = d[c] := by
          rw [List.take_add_one, List.getElem?_eq_getElem hc, List.mem_append, Option.toList_some, List.mem_singleton]
        simp only [hm]
        by_cases h : d[c] = k
        · simp [h]
        · have h' : ¬ k = d[c] := fun h' => h h'.symm
          simp [h, h'])
  rw [h1, h2]
  simp

theorem n_global_dofs_eq (G : HyGraph dim n) (hfit : G.n_hyNodes * n < U32) :
    G.n_global_dofs = G.n_hyNodes * n := by
  show u32 (G.n_hyNodes * n) = _
  exact u32_of_lt hfit

theorem read_eq (m : Mode) (E : Elliptic dim n) (I : List Nat) (hI : ∀ x ∈ I, x < E.G.n_global_dofs) :
    E.read_dirichlet_indices m I = .ok { E with dirichlet_indices := uniqueErase (sortIdx I) } := by
  unfold Elliptic.read_dirichlet_indices
  obtain ⟨t, h1, h2⟩ := forUp_inv I.length (fun i (d : List Nat) => do
    let x ← vget I i
    hyAssert m (x < E.G.n_global_dofs)
    return d ++ [x]) [] (fun c d => d = I.take c) (by simp)
    (fun c hc d hd => by
      rw [vget_of_lt hc]
      simp only [Res.ok_bind]
      rw [hyAssert_of (hI _ (List.getElem_mem hc))]
      refine ⟨_, rfl, ?_⟩
      rw [hd, List.take_add_one, List.getElem?_eq_getElem hc]; rfl)
  rw [h1]
  simp only [Res.ok_bind, h2, List.take_length]
  rfl

/-! ### Gathering and setting -/

theorem gather1_eq (m : Mode) (G : HyGraph dim n) (hfit : G.n_hyNodes * n < U32)
    (x : Fin (G.n_hyNodes * n) → K) (hyNodes : Fin (2 * dim) → Nat)
    (nodes : Fin (2 * dim) → Fin G.n_hyNodes) (hn : ∀ i, hyNodes i = nodes i)
    (buf : LocDofs dim n K) :
    G.gather1 m (List.ofFn x) hyNodes buf = .ok (fun i j => x (dof (nodes i) j)) := by
  unfold gather1
  obtain ⟨t, h1, h2⟩ := forFin_inv (2 * dim)
    (fun node (s : LocDofs dim n K) => do
      let old ← onArray (s node) (G.factory.get_dof_values m (hyNodes node) (List.ofFn x))
      return arrSet s node old) buf
    (fun k s => ∀ i : Fin (2 * dim), i.1 < k → s i = (fun j => x (dof (nodes i) j)))
    (fun i h => absurd h (Nat.not_lt_zero _))
    (fun i s hs => by
      have hb := factory_bounds G hfit (nodes i)
      have : onArray (s i) (G.factory.get_dof_values m (hyNodes i) (List.ofFn x)) =
          .ok (fun j => x (dof (nodes i) j)) := by
        apply onArray_ok
        rw [hn, HyperNodeFactory.get_dof_values_eq m G.factory (nodes i) _ _ (by simp [factory]) hb.1
          (by simpa using hb.2)]
        congr 1
        exact drop_take_ofFn x (nodes i)
      refine ⟨_, by rw [this]; rfl, fun i' hi' => ?_⟩
      simp only [arrSet]
      by_cases h : i' = i
      · subst h; simp
      · have : i'.1 ≠ i.1 := fun h' => h (Fin.ext h')
        rw [if_neg h]
        exact hs i' (by omega))
  rw [h1]
  congr 1
  funext i
  exact h2 i i.2

theorem set_ofFn (m : Mode) (G : HyGraph dim n) (hfit : G.n_hyNodes * n < U32)
    (a : Fin (G.n_hyNodes * n) → K) (v : Fin G.n_hyNodes) (l : Fin n → K) :
    ∃ b : Fin (G.n_hyNodes * n) → K,
      G.factory.set_dof_values m v (List.ofFn a) (List.ofFn l) = .ok (List.ofFn b) ∧
      (∀ j, b (dof v j) = l j) ∧ (∀ k, (∀ j, dof v j ≠ k) → b k = a k) := by
  have hb := factory_bounds G hfit v
  have hlt : v.1 * n + n ≤ G.n_hyNodes * n := hb.2
  rw [HyperNodeFactory.set_dof_values_eq m G.factory v _ _ (by simp [factory]) hb.1
    (by simpa using hb.2)]
  refine ⟨fun k => if h : v * n ≤ k.1 ∧ k.1 < v * n + n then l ⟨k - v * n, by omega⟩ else a k, ?_, ?_, ?_⟩
  · congr 1
    show List.take (v * n) _ ++ _ ++ List.drop (v * n + n) _ = _
    apply List.ext_getElem
    · simp; omega
    · intro k h1 h2
      simp only [List.length_ofFn] at h2
      rw [List.getElem_ofFn]
      by_cases hk1 : k < v * n
      · rw [List.getElem_append_left (by simp; omega), List.getElem_append_left (by simp; omega),
          List.getElem_take, List.getElem_ofFn, dif_neg (by simp; omega)]
      · by_cases hk2 : k < v * n + n
        · rw [List.getElem_append_left (by simp; omega), List.getElem_append_right (by simp; omega)]
          rw [dif_pos (by simp; omega)]
          simp only [List.getElem_ofFn, List.length_take, List.length_ofFn]
          congr 1; apply Fin.ext; simp
          try omega
        · rw [List.getElem_append_right (by simp; omega), dif_neg (by simp; omega)]
          simp only [List.getElem_drop, List.getElem_ofFn]
          congr 1; apply Fin.ext; simp; omega
  · intro j
    have hj := j.2
    dsimp only
    rw [dif_pos (by simp [dof])]
    congr 1; apply Fin.ext; simp [dof]
  · intro k hk
    dsimp only
    rw [dif_neg]
    rintro ⟨h1, h2⟩
    exact hk ⟨k - v * n, by omega⟩ (Fin.ext (by simp [dof]; omega))

theorem scatterSet_eq (m : Mode) (G : HyGraph dim n) (hfit : G.n_hyNodes * n < U32)
    (hyNodes : Fin (2 * dim) → Nat) (nodes : Fin (2 * dim) → Fin G.n_hyNodes) (hn : ∀ i, hyNodes i = nodes i)
    (y : LocDofs dim n K) (a : Fin (G.n_hyNodes * n) → K) :
    ∃ b : Fin (G.n_hyNodes * n) → K, G.scatterSet m hyNodes y (List.ofFn a) = .ok (List.ofFn b) ∧
      ∀ k, (∃ i j, dof (nodes i) j = k ∧ b k = y i j ∧ ∀ i', nodes i' = nodes i → i' ≤ i) ∨
        ((∀ i j, dof (nodes i) j ≠ k) ∧ b k = a k) := by
  unfold scatterSet
  obtain ⟨t, h1, b, h2, h3⟩ := forFin_inv (2 * dim)
    (fun node ax => G.factory.set_dof_values m (hyNodes node) ax (List.ofFn (y node))) (List.ofFn a)
    (fun c ax => ∃ b : Fin (G.n_hyNodes * n) → K, ax = List.ofFn b ∧
      ∀ k, (∃ i j, i.1 < c ∧ dof (nodes i) j = k ∧ b k = y i j ∧ ∀ i', i'.1 < c → nodes i' = nodes i → i' ≤ i) ∨
        ((∀ i j, i.1 < c → dof (nodes i) j ≠ k) ∧ b k = a k))
    ⟨a, rfl, fun k => Or.inr ⟨fun i j h => absurd h (Nat.not_lt_zero _), rfl⟩⟩
    (fun i ax ⟨b, hb, hk⟩ => by
      obtain ⟨b', e1, e2, e3⟩ := set_ofFn m G hfit b (nodes i) (y i)
      refine ⟨_, by rw [hb, hn, e1], b', rfl, fun k => ?_⟩
      by_cases hk1 : ∃ j, dof (nodes i) j = k
      · obtain ⟨j, rfl⟩ := hk1
        exact Or.inl ⟨i, j, by omega, rfl, e2 j, fun i' hi' _ => by rw [Fin.le_def]; omega⟩
      · have hk1' : ∀ j, dof (nodes i) j ≠ k := fun j h => hk1 ⟨j, h⟩
        have hb' := e3 k hk1'
        rcases hk k with ⟨i0, j0, q1, q2, q3, q4⟩ | ⟨q1, q2⟩
        · refine Or.inl ⟨i0, j0, by omega, q2, hb'.trans q3, fun i' hi' hne => ?_⟩
          by_cases h : i' = i
          · subst h
            exact absurd (by rw [hne]; exact q2) (hk1' j0)
          · have : i'.1 ≠ i.1 := fun h' => h (Fin.ext h')
            exact q4 i' (by omega) hne
        · refine Or.inr ⟨fun i' j hi' => ?_, hb'.trans q2⟩
          by_cases h : i' = i
          · subst h; exact hk1' j
          · have : i'.1 ≠ i.1 := fun h' => h (Fin.ext h')
            exact q1 i' j (by omega))
  refine ⟨b, by rw [h1, h2], fun k => ?_⟩
  rcases h3 k with ⟨i0, j0, q1, q2, q3, q4⟩ | ⟨q1, q2⟩
  · exact Or.inl ⟨i0, j0, q2, q3, fun i' => q4 i' i'.2⟩
  · exact Or.inr ⟨fun i j => q1 i j i.2, q2⟩

/-- `r` is obtained by writing the local values `y e i` of all hyperedges and faces one after the other into a vector of zeros. -/
def LastWriter [Zero K] {E N F : Nat} (nodes : Fin E → Fin F → Fin N) (y : Fin E → Fin F → Fin n → K)
    (r : Fin (N * n) → K) : Prop :=
  ∀ k, (∃ e i j, dof (nodes e i) j = k ∧ r k = y e i j ∧
      ∀ e' i', nodes e' i' = nodes e i → e' < e ∨ e' = e ∧ i' ≤ i) ∨
    ((∀ e i j, dof (nodes e i) j ≠ k) ∧ r k = 0)

/-- Generic loop that sets values edge by edge and keeps an invariant. -/
theorem set_loop_inv [Zero K] {σ : Type} (m : Mode) (G : HyGraph dim n)
    (nodes : Fin G.n_hyEdges → Fin (2 * dim) → Fin G.n_hyNodes) (hwf : G.WF nodes)
    (y : Fin G.n_hyEdges → Fin (2 * dim) → Fin n → K) (view : σ → List K) (f : Nat → σ → Res σ) (s0 : σ)
    (hs0 : view s0 = List.ofFn (fun _ : Fin (G.n_hyNodes * n) => (0 : K))) (I : Nat → σ → Prop) (hI : I 0 s0)
    (hf : ∀ (e : Fin G.n_hyEdges) (s : σ) (ax : List K), I e s → G.scatterSet m (G.hyNodes e) (y e) (view s) = .ok ax →
      ∃ s', f e s = .ok s' ∧ view s' = ax ∧ I (e + 1) s') :
    ∃ s r, G.for_each f s0 = .ok s ∧ view s = List.ofFn r ∧ LastWriter nodes y r ∧ I G.n_hyEdges s := by
  unfold for_each
  obtain ⟨t, h1, hIt, b, h2, h3⟩ := forUp_inv G.n_hyEdges f s0
    (fun c s => I c s ∧ ∃ b : Fin (G.n_hyNodes * n) → K, view s = List.ofFn b ∧
      ∀ k, (∃ e i j, e.1 < c ∧ dof (nodes e i) j = k ∧ b k = y e i j ∧
          ∀ e' i', e'.1 < c → nodes e' i' = nodes e i → e' < e ∨ e' = e ∧ i' ≤ i) ∨
        ((∀ e i j, e.1 < c → dof (nodes e i) j ≠ k) ∧ b k = 0))
    ⟨hI, fun _ => 0, hs0, fun k => Or.inr ⟨fun e i j h => absurd h (Nat.not_lt_zero _), rfl⟩⟩
    (fun c hc s ⟨hIs, b, hb, hk⟩ => by
      let e : Fin G.n_hyEdges := ⟨c, hc⟩
      obtain ⟨b', e1, e2⟩ := scatterSet_eq m G hwf.fits (G.hyNodes c) (nodes e) (fun i => hwf.hyNodes_eq e i) (y e) b
      obtain ⟨s', q1, q2, hIs'⟩ := hf e s (List.ofFn b') hIs (by rw [hb]; exact e1)
      refine ⟨s', q1, hIs', b', q2, fun k => ?_⟩
      rcases e2 k with ⟨i, j, p1, p2, p3⟩ | ⟨p1, p2⟩
      · refine Or.inl ⟨e, i, j, Nat.lt_succ_self c, p1, p2, fun e' i' he' hne => ?_⟩
        by_cases h : e' = e
        · subst h; exact Or.inr ⟨rfl, p3 i' hne⟩
        · have : e'.1 ≠ c := fun h' => h (Fin.ext h')
          exact Or.inl (by rw [Fin.lt_def]; simp [e]; omega)
      · rcases hk k with ⟨e0, i0, j0, r1, r2, r3, r4⟩ | ⟨r1, r2⟩
        · refine Or.inl ⟨e0, i0, j0, by omega, r2, p2.trans r3, fun e' i' he' hne => ?_⟩
          by_cases h : e' = e
          · subst h
            exact absurd (by rw [hne]; exact r2) (p1 i' j0)
          · have : e'.1 ≠ c := fun h' => h (Fin.ext h')
            exact r4 e' i' (by omega) hne
        · refine Or.inr ⟨fun e' i' j' he' => ?_, p2.trans r2⟩
          by_cases h : e' = e
          · subst h; exact p1 i' j'
          · have : e'.1 ≠ c := fun h' => h (Fin.ext h')
            exact r1 e' i' j' (by omega))
  refine ⟨t, b, h1, h2, fun k => ?_, hIt⟩
  rcases h3 k with ⟨e, i, j, _, q2, q3, q4⟩ | ⟨q1, q2⟩
  · exact Or.inl ⟨e, i, j, q2, q3, fun e' i' => q4 e' i' e'.2⟩
  · exact Or.inr ⟨fun e i j => q1 e i j e.2, q2⟩

/-- Generic loop that sets values edge by edge. -/
theorem set_loop [Zero K] {σ : Type} (m : Mode) (G : HyGraph dim n)
    (nodes : Fin G.n_hyEdges → Fin (2 * dim) → Fin G.n_hyNodes) (hwf : G.WF nodes)
    (y : Fin G.n_hyEdges → Fin (2 * dim) → Fin n → K) (view : σ → List K) (f : Nat → σ → Res σ) (s0 : σ)
    (hs0 : view s0 = List.ofFn (fun _ : Fin (G.n_hyNodes * n) => (0 : K)))
    (hf : ∀ (e : Fin G.n_hyEdges) (s : σ) (ax : List K), G.scatterSet m (G.hyNodes e) (y e) (view s) = .ok ax →
      ∃ s', f e s = .ok s' ∧ view s' = ax) :
    ∃ s r, G.for_each f s0 = .ok s ∧ view s = List.ofFn r ∧ LastWriter nodes y r := by
  obtain ⟨s, r, h1, h2, h3, _⟩ := set_loop_inv m G nodes hwf y view f s0 hs0 (fun _ _ => True) trivial
    (fun e s ax _ h => by
      obtain ⟨s', h1, h2⟩ := hf e s ax h
      exact ⟨s', h1, h2, trivial⟩)
  exact ⟨s, r, h1, h2, h3⟩

/-- Adjointness of gathering and assembling. -/
theorem pairing_assemble [CommRing K] {E N F : Nat} (nodes : Fin E → Fin F → Fin N)
    (y : Fin E → Fin F → Fin n → K) (z : Fin (N * n) → K) :
    ∑ k, z k * assemble nodes y k = ∑ e, ∑ i, ∑ j, faceValues nodes z e i j * y e i j := by
  unfold assemble faceValues
  simp only [Finset.mul_sum]
  rw [Finset.sum_comm]
  apply Finset.sum_congr rfl
  intro e _
  rw [Finset.sum_comm]
  apply Finset.sum_congr rfl
  intro i _
  rw [Finset.sum_comm]
  apply Finset.sum_congr rfl
  intro j _
  rw [Finset.sum_eq_single (dof (nodes e i) j)]
  · simp
  · intro k _ h; simp [Ne.symm h]
  · simp

theorem assemble_add [AddCommMonoid K] {E N F : Nat} (nodes : Fin E → Fin F → Fin N)
    (y y' : Fin E → Fin F → Fin n → K) (k : Fin (N * n)) :
    assemble nodes (fun e i j => y e i j + y' e i j) k = assemble nodes y k + assemble nodes y' k := by
  unfold assemble
  simp only [← Finset.sum_add_distrib]
  refine Finset.sum_congr rfl (fun e _ => Finset.sum_congr rfl (fun i _ => Finset.sum_congr rfl (fun j _ => ?_)))
  split <;> simp

theorem assemble_smul [CommRing K] {E N F : Nat} (nodes : Fin E → Fin F → Fin N)
    (y : Fin E → Fin F → Fin n → K) (c : K) (k : Fin (N * n)) :
    assemble nodes (fun e i j => c * y e i j) k = c * assemble nodes y k := by
  unfold assemble
  simp only [Finset.mul_sum, mul_ite, mul_zero]

theorem assemble_reindex [AddCommMonoid K] {E N F : Nat} (nodes : Fin E → Fin F → Fin N)
    (y : Fin E → Fin F → Fin n → K) (σ : Equiv.Perm (Fin E)) :
    assemble (fun e => nodes (σ e)) (fun e => y (σ e)) = assemble nodes y := by
  funext k
  unfold assemble
  exact Equiv.sum_comp σ (fun e => ∑ i, ∑ j, if dof (nodes e i) j = k then y e i j else 0)

end HyGraph
end HyperHDG

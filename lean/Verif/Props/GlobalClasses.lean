import Mathlib.Analysis.Real.Sqrt
import Verif.Props.GlobalLoop

/-!
# Properties C22, C23, C38, C39, C40, C41, C42: the classes of `global_loop`
-/

namespace HyperHDG.HyGraph

open Finset Spec

variable {dim n : Nat} {K : Type}

/-! ## C23 Dirichlet indices declared by the user -/

/-- **C23**.  Let `I` be a list of indices below `size_of_system()`, in any order and with any repetitions, and let `E` be in any state (in
particular after earlier calls).  Then `read_dirichlet_indices(I)` returns, and afterwards `trace_to_flux` / `residual_flux` return the vector of
the operator without Dirichlet indices, with exactly the entries in `I` replaced by 0. -/
theorem C23_zero_at_declared [AddCommMonoid K] (m : Mode) (E : Elliptic dim n) 
    (hfit : E.G.n_hyNodes * n < U32) (I : List Nat) (hI : ∀ d ∈ I, d < E.G.n_global_dofs) :
    ∃ E', E.read_dirichlet_indices m I = .ok E' ∧ E'.G = E.G ∧
      ∀ (loc : LocalFun dim n K) (old0 new0 : LocDofs dim n K) (x : List K) (a : Fin (E.G.n_hyNodes * n) → K),
        E.G.mat_vec_multiply m loc old0 new0 x = .ok (List.ofFn a) →
        E'.apply m loc old0 new0 x = .ok (List.ofFn (fun k => if k.1 ∈ I then 0 else a k)) := by
  refine ⟨_, read_eq m E I hI, rfl, fun loc old0 new0 x a h => ?_⟩
  have hN := n_global_dofs_eq E.G hfit
  simp only [Elliptic.apply]
  rw [h]
  simp only [Res.ok_bind, Elliptic.zeroDirichlet]
  rw [zero_loop m E.G hN.symm (uniqueErase (sortIdx I))
    (fun x hx => by rw [mem_unique_sort] at hx; rw [← hN]; exact hI x hx) a]
  simp only [mem_unique_sort]

/-- **C23** (before the first declaration).  A new object returns the plain operator. -/
theorem C23_fresh [Zero K] [Add K] (m : Mode) (G : HyGraph dim n) (loc : LocalFun dim n K) (old0 new0 : LocDofs dim n K)
    (x : List K) : (Elliptic.mk' G).apply m loc old0 new0 x = G.mat_vec_multiply m loc old0 new0 x := by
  unfold Elliptic.apply Elliptic.zeroDirichlet Elliptic.mk'
  cases G.mat_vec_multiply m loc old0 new0 x <;> rfl

/-- **C23** (invalid declaration, with assertions).  An index that is too large aborts the program. -/
theorem C23_invalid_aborts (E : Elliptic dim n) (I : List Nat) (d : Nat) (hd : d ∈ I)
    (hbad : E.G.n_global_dofs ≤ d) : E.read_dirichlet_indices .debug I = .abort := by
  unfold Elliptic.read_dirichlet_indices
  -- position of the first index that is too large
  classical
  have hex : ∃ c, ∃ h : c < I.length, E.G.n_global_dofs ≤ I[c] := by
    obtain ⟨c, hc, rfl⟩ := List.getElem_of_mem hd
    exact ⟨c, hc, hbad⟩
  obtain ⟨hc, hbad'⟩ := Nat.find_spec hex
  have hmin : ∀ b, b < Nat.find hex → ∀ h : b < I.length, I[b] < E.G.n_global_dofs := by
    intro b hb h
    by_contra hcon
    exact Nat.find_min hex hb ⟨h, Nat.le_of_not_lt hcon⟩
  have h := forUp_ub_at I.length (fun i (d : List Nat) => do
    let x ← vget I i
    hyAssert .debug (x < E.G.n_global_dofs)
    return d ++ [x]) [] (Nat.find hex) hc .abort (fun t => by simp) (fun _ => True)
    (forUp_inv (Nat.find hex) (fun i (d : List Nat) => do
      let x ← vget I i
      hyAssert .debug (x < E.G.n_global_dofs)
      return d ++ [x]) [] (fun _ _ => True) trivial
      (fun b hb t _ => by
        have hb' : b < I.length := by omega
        rw [vget_of_lt hb']
        simp only [Res.ok_bind]
        rw [hyAssert_of (hmin b hb hb')]
        exact ⟨_, rfl, trivial⟩))
    (fun t _ => by
      rw [vget_of_lt hc]
      simp only [Res.ok_bind]
      rw [hyAssert_debug_not (by omega)]
      rfl)
  rw [h]
  rfl

/-- **C23** (`_partial`).  The English property is about the operator, whichever way the user obtains it.  It holds for the matrix-free operator
(`C23_zero_at_declared`), but only as long as the refinement is not changed after the declaration, and it does not hold for the assembled matrix:
see the three witnesses below.  What does hold after a change of the refinement: if all declared indices are still below the new number of dofs, the
entries with the *old* numbers are zeroed. -/
theorem C23_after_refinement_partial [AddCommMonoid K] (m : Mode) (E : Elliptic dim n) (G' : HyGraph dim n)
    (hfit : G'.n_hyNodes * n < U32) (hI : ∀ d ∈ E.dirichlet_indices, d < G'.n_global_dofs)
    (loc : LocalFun dim n K) (old0 new0 : LocDofs dim n K) (x : List K) (a : Fin (G'.n_hyNodes * n) → K)
    (ha : G'.mat_vec_multiply m loc old0 new0 x = .ok (List.ofFn a)) :
    (E.set_refinement G').apply m loc old0 new0 x =
      .ok (List.ofFn (fun k => if k.1 ∈ E.dirichlet_indices then 0 else a k)) := by
  have hN := n_global_dofs_eq G' hfit
  simp only [Elliptic.apply, Elliptic.set_refinement]
  rw [ha]
  simp only [Res.ok_bind, Elliptic.zeroDirichlet]
  exact zero_loop m G' hN.symm E.dirichlet_indices (fun d hd => by rw [← hN]; exact hI d hd) a

namespace Example

/-- One edge, two nodes. -/
def edge : HyGraph 1 1 := ⟨1, 2, fun e i => e + i⟩

/-- Witness 1: coarsening from the path `0 - 1 - 2` to one edge after declaring dof 2 makes `trace_to_flux` abort (with assertions). -/
theorem C23_stale_abort_witness :
    (do let E ← (Elliptic.mk' path).read_dirichlet_indices .debug [2]
        (E.set_refinement edge).apply .debug loc (fun _ _ => 0) (fun _ _ => 0) [1, 5]) = .abort := by decide

/-- Witness 2: and it writes out of bounds without assertions. -/
theorem C23_stale_ub_witness :
    (do let E ← (Elliptic.mk' path).read_dirichlet_indices .release [2]
        (E.set_refinement edge).apply .release loc (fun _ _ => 0) (fun _ _ => 0) [1, 5]) = .ub := by decide

/-- Witness 3: the assembled matrix ignores the Dirichlet indices: its product with `[1, 5, 2]` has the entry 4 in row 0, while
`trace_to_flux` returns 0 there. -/
theorem C23_matrix_ignores_dirichlet_witness :
    ∃ E mat, (Elliptic.mk' path).read_dirichlet_indices .debug [0] = .ok E ∧
      E.trace_to_flux_mat .debug loc (fun _ _ => 0) (fun _ _ => 0) = .ok mat ∧
      E.apply .debug loc (fun _ _ => 0) (fun _ _ => 0) [1, 5, 2] = .ok [0, -7, 3] ∧
      (List.range 3).map (tripletProduct mat.row_vec mat.col_vec mat.value_vec (fun c => [1, 5, 2].getD c 0)) =
        [4, -7, 3] := ⟨⟨path, [0]⟩, ⟨_, _, _⟩, rfl, rfl, by decide, by decide⟩

/-- The hypotheses of C23 hold for the path with indices given twice and in wrong order. -/
example : ∃ E, (Elliptic.mk' path).read_dirichlet_indices .debug [2, 0, 2] = .ok E ∧
    E.apply .debug loc (fun _ _ => 0) (fun _ _ => 0) [1, 5, 2] = .ok [0, -7, 0] :=
  ⟨⟨path, [0, 2]⟩, rfl, by decide⟩

end Example

/-! ## C22 Dirichlet indices reported by the eigenvalue problems -/

/-- `k` is a dof of a hypernode which is of Dirichlet type (1) on some hyperedge. -/
def IsDirichletDof (G : HyGraph dim n) (types : Nat → Fin (2 * dim) → Nat) (k : Nat) : Prop :=
  ∃ e < G.n_hyEdges, ∃ i, types e i = 1 ∧ ∃ j < n, k = G.hyNodes e i * n + j

/-- The hypernodes handed out are valid and the number of dofs fits into `unsigned int`. -/
def Valid (G : HyGraph dim n) : Prop :=
  G.n_hyNodes * n < U32 ∧ ∀ e < G.n_hyEdges, ∀ i, G.hyNodes e i < G.n_hyNodes

theorem eigen_append (x l : List Nat) :
    forUp l.length (fun j (d : List Nat) => do let y ← vget l j; return d ++ [y]) x = .ok (x ++ l) := by
  obtain ⟨t, h1, h2⟩ := forUp_inv l.length (fun j (d : List Nat) => do let y ← vget l j; return d ++ [y]) x
    (fun c d => d = x ++ l.take c) (by simp)
    (fun c hc d hd => by
      rw [vget_of_lt hc]
      refine ⟨_, rfl, ?_⟩
      rw [hd, List.take_add_one, List.getElem?_eq_getElem hc, Option.toList_some, List.append_assoc])
  rw [h1, h2, List.take_length]

theorem eigen_call_eq (m : Mode) (E : Eigen dim n) (hv : E.G.Valid) :
    ∃ E', E.dirichlet_indices_call m = .ok E' ∧ E'.G = E.G ∧ E'.node_types = E.node_types ∧
      E'.dirichlet_indices.Pairwise (· < ·) ∧
      ∀ k, k ∈ E'.dirichlet_indices ↔ k ∈ E.dirichlet_indices ∨ IsDirichletDof E.G E.node_types k := by
  unfold Eigen.dirichlet_indices_call for_each
  obtain ⟨t, h1, h2⟩ := forUp_inv E.G.n_hyEdges (fun edge d =>
    forFin (2 * dim) (fun i (d : List Nat) =>
      if E.node_types edge i = 1 then do
        let dof_indices ← E.G.factory.get_dof_indices m (E.G.hyNodes edge i) (List.replicate n 0)
        forUp dof_indices.length (fun j (d : List Nat) => do
          let x ← vget dof_indices j
          return d ++ [x]) d
      else .ok d) d) E.dirichlet_indices
    (fun c d => ∀ k, k ∈ d ↔ k ∈ E.dirichlet_indices ∨
      ∃ e < c, ∃ i, E.node_types e i = 1 ∧ ∃ j < n, k = E.G.hyNodes e i * n + j)
    (by simp)
    (fun c hc d hd => by
      obtain ⟨d', q1, q2⟩ := forFin_inv (2 * dim) (fun i (d : List Nat) =>
        if E.node_types c i = 1 then do
          let dof_indices ← E.G.factory.get_dof_indices m (E.G.hyNodes c i) (List.replicate n 0)
          forUp dof_indices.length (fun j (d : List Nat) => do
            let x ← vget dof_indices j
            return d ++ [x]) d
        else .ok d) d
        (fun a d' => ∀ k, k ∈ d' ↔ k ∈ d ∨
          ∃ i : Fin (2 * dim), i.1 < a ∧ E.node_types c i = 1 ∧ ∃ j < n, k = E.G.hyNodes c i * n + j)
        (by simp)
        (fun i d' hd' => by
          have split : ∀ k, (∃ i' : Fin (2 * dim), i'.1 < i.1 + 1 ∧ E.node_types c i' = 1 ∧
              ∃ j < n, k = E.G.hyNodes c i' * n + j) ↔
              (∃ i' : Fin (2 * dim), i'.1 < i.1 ∧ E.node_types c i' = 1 ∧ ∃ j < n, k = E.G.hyNodes c i' * n + j) ∨
              (E.node_types c i = 1 ∧ ∃ j < n, k = E.G.hyNodes c i * n + j) := by
            intro k
            constructor
            · rintro ⟨i', h1, h2, h3⟩
              by_cases h : i' = i
              · subst h; exact Or.inr ⟨h2, h3⟩
              · have : i'.1 ≠ i.1 := fun h' => h (Fin.ext h')
                exact Or.inl ⟨i', by omega, h2, h3⟩
            · rintro (⟨i', h1, h2, h3⟩ | ⟨h2, h3⟩)
              · exact ⟨i', by omega, h2, h3⟩
              · exact ⟨i, by omega, h2, h3⟩
          by_cases ht : E.node_types c i = 1
          · have hb := factory_bounds E.G hv.1 ⟨E.G.hyNodes c i, hv.2 c hc i⟩
            have hidx := HyperNodeFactory.get_dof_indices_eq m E.G.factory (E.G.hyNodes c i) (List.replicate n 0)
              (by simp [factory]) hb.1
            rw [if_pos ht, hidx]
            simp only [Res.ok_bind]
            refine ⟨_, eigen_append _ _, fun k => ?_⟩
            rw [List.mem_append, hd' k, split k, or_assoc]
            apply or_congr Iff.rfl
            apply or_congr Iff.rfl
            simp only [List.mem_map, List.mem_range, ht, true_and, factory]
            constructor
            · rintro ⟨j, h1, h2⟩; exact ⟨j, h1, h2.symm⟩
            · rintro ⟨j, h1, h2⟩; exact ⟨j, h1, h2.symm⟩
          · rw [if_neg ht]
            refine ⟨_, rfl, fun k => ?_⟩
            rw [hd' k, split k]
            simp [ht])
      refine ⟨d', q1, fun k => ?_⟩
      rw [q2 k, hd k, or_assoc]
      apply or_congr Iff.rfl
      constructor
      · rintro (⟨e, h1, i, h2, h3⟩ | ⟨i, _, h2, h3⟩)
        · exact ⟨e, by omega, i, h2, h3⟩
        · exact ⟨c, by omega, i, h2, h3⟩
      · rintro ⟨e, h1, i, h2, h3⟩
        by_cases h : e = c
        · subst h; exact Or.inr ⟨i, i.2, h2, h3⟩
        · exact Or.inl ⟨e, by omega, i, h2, h3⟩)
  rw [h1]
  refine ⟨_, rfl, rfl, rfl, unique_sort_strict t, fun k => ?_⟩
  rw [mem_unique_sort, h2 k]
  rfl

/-- Operations on an eigenvalue problem. -/
inductive EigenOp (dim n : Nat) where
  | call
  | refine (G' : HyGraph dim n) (types' : Nat → Fin (2 * dim) → Nat)

/-- Executing a history of operations. -/
def Eigen.run (m : Mode) : List (EigenOp dim n) → Eigen dim n → Res (Eigen dim n)
  | [], E => .ok E
  | .call :: ops, E => E.dirichlet_indices_call m >>= Eigen.run m ops
  | .refine G' t' :: ops, E => Eigen.run m ops (E.set_refinement G' t')

/-- The meshes on which `dirichlet_indices()` was called in a history that starts with mesh `G`, types `t`. -/
def calledOn : List (EigenOp dim n) → HyGraph dim n × (Nat → Fin (2 * dim) → Nat) →
    List (HyGraph dim n × (Nat → Fin (2 * dim) → Nat))
  | [], _ => []
  | .call :: ops, s => s :: calledOn ops s
  | .refine G' t' :: ops, _ => calledOn ops (G', t')

/-- **C22** (all histories).  After any history of calls and refinements, the member (which is what `dirichlet_indices()` returns) contains
exactly the dofs of Dirichlet hypernodes of all the meshes on which it was called. -/
theorem C22_history (m : Mode) (ops : List (EigenOp dim n)) : ∀ (E : Eigen dim n)
    (_ : ∀ s ∈ calledOn ops (E.G, E.node_types), s.1.Valid),
    ∃ E', E.run m ops = .ok E' ∧ ∀ k, k ∈ E'.dirichlet_indices ↔
      k ∈ E.dirichlet_indices ∨ ∃ s ∈ calledOn ops (E.G, E.node_types), IsDirichletDof s.1 s.2 k := by
  induction ops with
  | nil => intro E _; exact ⟨E, rfl, by simp [calledOn]⟩
  | cons op ops ih =>
    intro E hv
    cases op with
    | call =>
      obtain ⟨E1, a1, a2, a3, _, a4⟩ := eigen_call_eq m E (hv (E.G, E.node_types) (by simp [calledOn]))
      obtain ⟨E2, b1, b2⟩ := ih E1 (fun s hs => hv s (by
        rw [a2, a3] at hs; simp [calledOn, hs]))
      refine ⟨E2, by simp [Eigen.run, a1, b1], fun k => ?_⟩
      rw [b2 k, a4 k, a2, a3, or_assoc]
      simp [calledOn]
    | refine G' t' =>
      obtain ⟨E2, b1, b2⟩ := ih (E.set_refinement G' t') hv
      exact ⟨E2, b1, b2⟩

/-- **C22** (`_partial`).  On a new object without change of the refinement between the calls, `dirichlet_indices()` returns,
strictly increasing, exactly the dofs of the Dirichlet hypernodes, however often it is called.  Missing from the full property: changes of the
refinement after the first call, for which it is false, see `C22_stale_witness`; what the function returns then is `C22_history`. -/
theorem C22_exact_partial (m : Mode) (G : HyGraph dim n) (types : Nat → Fin (2 * dim) → Nat) (hv : G.Valid) (c : Nat) :
    ∃ E', (Eigen.mk G types []).run m (List.replicate (c + 1) .call) = .ok E' ∧
      E'.dirichlet_indices.Pairwise (· < ·) ∧
      ∀ k, k ∈ E'.dirichlet_indices ↔ IsDirichletDof G types k := by
  have key : ∀ (c : Nat) (E : Eigen dim n), E.G = G → E.node_types = types →
      (∀ k, k ∈ E.dirichlet_indices → IsDirichletDof G types k) →
      ∃ E', E.run m (List.replicate (c + 1) .call) = .ok E' ∧ E'.dirichlet_indices.Pairwise (· < ·) ∧
        ∀ k, k ∈ E'.dirichlet_indices ↔ IsDirichletDof G types k := by
    intro c
    induction c with
    | zero =>
      intro E hG ht hk
      subst hG ht
      obtain ⟨E1, a1, a2, a3, a4, a5⟩ := eigen_call_eq m E hv
      refine ⟨E1, by simp [Eigen.run, a1], a4, fun k => ?_⟩
      rw [a5]
      exact ⟨fun h => h.elim (hk k) id, Or.inr⟩
    | succ c ih =>
      intro E hG ht hk
      subst hG ht
      obtain ⟨E1, a1, a2, a3, a4, a5⟩ := eigen_call_eq m E hv
      obtain ⟨E2, b1, b2, b3⟩ := ih E1 a2 a3 (fun k h => ((a5 k).mp h).elim (hk k) id)
      refine ⟨E2, ?_, b2, b3⟩
      rw [List.replicate_succ]
      simp only [Eigen.run]
      rw [a1, Res.ok_bind, b1]
  exact key c ⟨G, types, []⟩ rfl rfl (by simp)

namespace Example

/-- Dirichlet type at the two ends of the path (face 0 of edge 0, face 1 of edge 1). -/
def pathTypes : Nat → Fin (2 * 1) → Nat := fun e i => if (e = 0 ∧ i = 0) ∨ (e = 1 ∧ i = 1) then 1 else 0

/-- The same for the single edge. -/
def edgeTypes : Nat → Fin (2 * 1) → Nat := fun _ _ => 1

theorem path_valid : path.Valid := ⟨by decide, fun e he i => by
  have : i.1 < 2 := i.2; show e + i.1 < 3; have : e < 2 := he; omega⟩

/-- The hypotheses of C22 hold, the result is `[0, 2]`. -/
example : ∃ E, (Eigen.mk path pathTypes []).run .debug (List.replicate 3 .call) = .ok E ∧
    E.dirichlet_indices = [0, 2] := ⟨⟨path, pathTypes, [0, 2]⟩, rfl, rfl⟩

/-- **C22** fails in general: after a call on the fine mesh and coarsening, the index 2 is reported, which is no dof of the coarse mesh (2
dofs), and after a call on the coarse mesh and refining, the interior dof 1 is reported. -/
theorem C22_stale_witness :
    (∃ E, (Eigen.mk path pathTypes []).run .debug [.call, .refine edge edgeTypes, .call] = .ok E ∧
      E.dirichlet_indices = [0, 1, 2] ∧ E.G.n_global_dofs = 2) ∧
    (∃ E, (Eigen.mk edge edgeTypes []).run .debug [.call, .refine path pathTypes, .call] = .ok E ∧
      E.dirichlet_indices = [0, 1, 2] ∧ ¬ IsDirichletDof path pathTypes 1) := by
  refine ⟨⟨⟨edge, edgeTypes, [0, 1, 2]⟩, rfl, rfl, by decide⟩, ⟨⟨path, pathTypes, [0, 1, 2]⟩, rfl, rfl, ?_⟩⟩
  rintro ⟨e, he, i, ht, j, hj, hk⟩
  have he : e < 2 := he
  have hk : 1 = (e + i.1) * 1 + j := hk
  have hi := i.2
  unfold pathTypes at ht
  split at ht
  · rename_i h
    rcases h with ⟨h1, h2⟩ | ⟨h1, h2⟩ <;> subst h1 h2 <;> simp at hk <;> omega
  · simp at ht

end Example

/-! ## C39 Initial values -/

/-- **C39** (values).  If the local solver returns `y e` on hyperedge `e` (from zeroed local arrays), then `make_initial` returns a vector `r`
which has, at each dof that belongs to a hyperedge, the value of the last hyperedge and face containing it, and 0 at the others; the content of the
input vector is irrelevant (only its length is used). -/
theorem C39_last_writer [Zero K] (m : Mode) (G : HyGraph dim n)
    (nodes : Fin G.n_hyEdges → Fin (2 * dim) → Fin G.n_hyNodes) (hwf : G.WF nodes)
    (loc : Nat → Nat → LocDofs dim n K → Res (LocDofs dim n K)) (t : Nat)
    (y : Fin G.n_hyEdges → Fin (2 * dim) → Fin n → K)
    (hloc : ∀ e : Fin G.n_hyEdges, loc t e (fun _ _ => 0) = .ok (y e)) :
    ∃ r : Fin (G.n_hyNodes * n) → K,
      (∀ x : List K, x.length = G.n_hyNodes * n → G.make_initial m loc x t = .ok (List.ofFn r)) ∧
      LastWriter nodes y r := by
  unfold make_initial
  obtain ⟨s, r, h1, h2, h3⟩ := set_loop m G nodes hwf y id (fun edge ax => do
    let new ← loc t edge (fun _ _ => 0)
    G.scatterSet m (G.hyNodes edge) new ax) (List.replicate (G.n_hyNodes * n) 0)
    (by rw [List.ofFn_const]; rfl)
    (fun e s ax h => ⟨ax, by rw [hloc e]; exact h, rfl⟩)
  refine ⟨r, fun x hx => ?_, h3⟩
  rw [hx, h1]
  exact congrArg _ h2

/-- **C39** (independence of the order).  If the hyperedges agree on the dofs they share, the value at each dof is the one of every hyperedge
containing it. -/
theorem C39_consistent [Zero K] (m : Mode) (G : HyGraph dim n)
    (nodes : Fin G.n_hyEdges → Fin (2 * dim) → Fin G.n_hyNodes) (hwf : G.WF nodes)
    (loc : Nat → Nat → LocDofs dim n K → Res (LocDofs dim n K)) (t : Nat)
    (y : Fin G.n_hyEdges → Fin (2 * dim) → Fin n → K)
    (hloc : ∀ e : Fin G.n_hyEdges, loc t e (fun _ _ => 0) = .ok (y e))
    (hagree : ∀ e e' i i', nodes e i = nodes e' i' → y e i = y e' i')
    (x : List K) (hx : x.length = G.n_hyNodes * n) :
    ∃ r : Fin (G.n_hyNodes * n) → K, G.make_initial m loc x t = .ok (List.ofFn r) ∧
      (∀ e i j, r (dof (nodes e i) j) = y e i j) ∧ (∀ k, (∀ e i j, dof (nodes e i) j ≠ k) → r k = 0) := by
  obtain ⟨r, h1, h2⟩ := C39_last_writer m G nodes hwf loc t y hloc
  refine ⟨r, h1 x hx, fun e i j => ?_, fun k hk => ?_⟩
  · rcases h2 (dof (nodes e i) j) with ⟨e', i', j', q1, q2, _⟩ | ⟨q1, _⟩
    · obtain ⟨w1, w2⟩ := dof_inj q1
      rw [q2, hagree e' e i' i w1, w2]
    · exact absurd rfl (q1 e i j)
  · rcases h2 k with ⟨e', i', j', q1, _⟩ | ⟨_, q2⟩
    · exact absurd q1 (hk e' i' j')
    · exact q2

/-- The vector returned by a function satisfying `LastWriter` is determined by the local values: `C39_last_writer` describes the result
completely. -/
theorem LastWriter_unique [Zero K] {E N F : Nat} (nodes : Fin E → Fin F → Fin N)
    (y : Fin E → Fin F → Fin n → K) (r r' : Fin (N * n) → K) (h : LastWriter nodes y r) (h' : LastWriter nodes y r') :
    r = r' := by
  funext k
  rcases h k with ⟨e, i, j, q1, q2, q3⟩ | ⟨q1, q2⟩ <;> rcases h' k with ⟨e', i', j', p1, p2, p3⟩ | ⟨p1, p2⟩
  · obtain ⟨w1, w2⟩ := dof_inj (q1.trans p1.symm)
    have a := q3 e' i' w1.symm
    have b := p3 e i w1
    have hee : e = e' := by
      rcases a with a | a
      · rcases b with b | b
        · exact absurd (lt_trans a b) (lt_irrefl _)
        · exact b.1
      · exact a.1.symm
    subst hee
    have hii : i = i' := by
      rcases a with a | a
      · exact absurd a (lt_irrefl _)
      · rcases b with b | b
        · exact absurd b (lt_irrefl _)
        · exact le_antisymm b.2 a.2
    subst hii
    rw [q2, p2, w2]
  · exact absurd q1 (p1 e i j)
  · exact absurd p1 (q1 e' i' j')
  · rw [q2, p2]

/-- **C39** (time, `_partial`).  `Parabolic::make_initial` uses the requested time if it is a natural number representable as
`unsigned int`.  Missing: all other times, for which the property is false, see `C39_time_witness`. -/
theorem C39_time_partial [Zero K] (m : Mode) (G : HyGraph dim n)
    (loc : Nat → Nat → LocDofs dim n K → Res (LocDofs dim n K)) (x : List K) (t : Nat) (ht : t < U32) :
    G.make_initial_at m loc x t 1 = G.make_initial m loc x t := by
  simp [make_initial_at, truncTime, ht]

/-- **C39** fails for times that are not integers: the time is converted to `unsigned int`, so that e.g. at time 3/2 the initial values of
time 1 are returned, and a negative time is undefined behaviour. -/
theorem C39_time_witness [Zero K] (m : Mode) (G : HyGraph dim n)
    (loc : Nat → Nat → LocDofs dim n K → Res (LocDofs dim n K)) (x : List K) :
    G.make_initial_at m loc x 3 2 = G.make_initial m loc x 1 ∧ G.make_initial_at m loc x (-1) 1 = .ub := by
  constructor <;> rfl

/-- `NonlinearEigenvalue::make_initial`: here the local function sees the gathered values of the input vector. -/
theorem C39_gathering_variant [Zero K] (m : Mode) (G : HyGraph dim n)
    (nodes : Fin G.n_hyEdges → Fin (2 * dim) → Fin G.n_hyNodes) (hwf : G.WF nodes)
    (loc : Nat → LocDofs dim n K → Res (LocDofs dim n K)) (buf0 : LocDofs dim n K)
    (x : Fin (G.n_hyNodes * n) → K) (y : Fin G.n_hyEdges → Fin (2 * dim) → Fin n → K)
    (hloc : ∀ e : Fin G.n_hyEdges, loc e (faceValues nodes x e) = .ok (y e)) :
    ∃ r : Fin (G.n_hyNodes * n) → K,
      G.make_initial_gather m loc buf0 (List.ofFn x) = .ok (List.ofFn r) ∧ LastWriter nodes y r := by
  unfold make_initial_gather
  obtain ⟨s, r, h1, h2, h3⟩ := set_loop m G nodes hwf y (Prod.fst : List K × LocDofs dim n K → List K)
    (fun edge (s : List K × LocDofs dim n K) => do
      let buf ← G.gather1 m (List.ofFn x) (G.hyNodes edge) s.2
      let new ← loc edge buf
      let ax ← G.scatterSet m (G.hyNodes edge) new s.1
      return (ax, new)) (List.replicate (List.ofFn x).length 0, buf0)
    (by simp)
    (fun e s ax h => by
      have hg := gather1_eq m G hwf.fits x (G.hyNodes e) (nodes e) (fun i => hwf.hyNodes_eq e i) s.2
      have hl : loc e (fun i j => x (dof (nodes e i) j)) = .ok (y e) := hloc e
      refine ⟨(ax, y e), ?_, rfl⟩
      rw [hg]
      simp only [Res.ok_bind]
      rw [hl]
      simp only [Res.ok_bind]
      rw [h]
      rfl)
  refine ⟨r, ?_, h3⟩
  rw [h1]
  simp only [Res.ok_bind, Res.pure_eq, h2]

namespace Example

/-- Local initial values on the path: the value of the node number squared. -/
def init : Nat → Nat → LocDofs 1 1 Int → Res (LocDofs 1 1 Int) := fun t e _ => .ok (fun i _ => (e + i) ^ 2 + t)

/-- The hypotheses of `C39_consistent` hold (the two edges agree at node 1). -/
example := C39_consistent .debug path pathNodes path_wf init 0 (fun e i _ => ((e : Int) + i) ^ 2 + (0 : Nat)) (fun _ => rfl)
  (fun e e' i i' h => by
    have : e.1 + i.1 = e'.1 + i'.1 := congrArg Fin.val h
    have : (e : Int) + i = e' + i' := by exact_mod_cast this
    simp only [this]) [7, 7, 7] rfl

example : path.make_initial .debug init [7, 7, 7] 0 = .ok [0, 1, 4] := by decide

end Example

/-! ## C40 Errors -/

/-- **C40** (general).  `errors` combines the local errors of the hyperedges `0, 1, ...` by `sum_error`, starting with
`initial_error`, and applies `postprocess_error` once. -/
theorem C40_fold {Err : Type} (m : Mode) (G : HyGraph dim n)
    (nodes : Fin G.n_hyEdges → Fin (2 * dim) → Fin G.n_hyNodes) (hwf : G.WF nodes) (ed : ErrorDef Err)
    (loc : Nat → LocDofs dim n K → Res Err) (buf0 : LocDofs dim n K) (x : Fin (G.n_hyNodes * n) → K)
    (err : Fin G.n_hyEdges → Err) (hloc : ∀ e : Fin G.n_hyEdges, loc e (faceValues nodes x e) = .ok (err e)) :
    G.errors m ed loc buf0 (List.ofFn x) =
      .ok (ed.postprocess_error ((List.ofFn err).foldl ed.sum_error ed.initial_error)) := by
  unfold errors for_each
  obtain ⟨s, h1, h2⟩ := forUp_inv G.n_hyEdges (fun edge (s : Err × LocDofs dim n K) => do
      let buf ← G.gather1 m (List.ofFn x) (G.hyNodes edge) s.2
      let e ← loc edge buf
      return (ed.sum_error s.1 e, buf)) (ed.initial_error, buf0)
    (fun c s => s.1 = ((List.ofFn err).take c).foldl ed.sum_error ed.initial_error) (by simp)
    (fun c hc s hs => by
      let e : Fin G.n_hyEdges := ⟨c, hc⟩
      have hg := gather1_eq m G hwf.fits x (G.hyNodes c) (nodes e) (fun i => hwf.hyNodes_eq e i) s.2
      have hl : loc c (fun i j => x (dof (nodes e i) j)) = .ok (err e) := hloc e
      rw [hg]
      simp only [Res.ok_bind]
      rw [hl]
      refine ⟨_, rfl, ?_⟩
      have : (List.ofFn err).take (c + 1) = (List.ofFn err).take c ++ [err e] := by
        rw [List.take_add_one, List.getElem?_eq_getElem (by simpa using hc)]; simp [e]
      rw [this, List.foldl_append, ← hs]
      rfl)
  rw [h1]
  simp only [Res.ok_bind, Res.pure_eq, h2]
  rw [List.take_of_length_le (by simp)]

theorem foldl_add_eq_sum (l : List ℝ) : ∀ a : ℝ, l.foldl (fun a b => a + b) a = a + l.sum := by
  induction l with
  | nil => simp
  | cons b l ih => intro a; simp [ih, add_assoc]

/-- **C40** (`error_def` of the diffusion solvers).  `errors` returns the square root of the sum of the local errors of all hyperedges, hence
(`Finset.sum`) independently of the order; if the local errors are non-negative it is zero exactly when all of them vanish. -/
theorem C40_sqrt_sum (m : Mode) (G : HyGraph dim n)
    (nodes : Fin G.n_hyEdges → Fin (2 * dim) → Fin G.n_hyNodes) (hwf : G.WF nodes)
    (loc : Nat → LocDofs dim n ℝ → Res ℝ) (buf0 : LocDofs dim n ℝ) (x : Fin (G.n_hyNodes * n) → ℝ)
    (err : Fin G.n_hyEdges → ℝ) (hloc : ∀ e : Fin G.n_hyEdges, loc e (faceValues nodes x e) = .ok (err e)) :
    G.errors m (l2ErrorDef Real.sqrt) loc buf0 (List.ofFn x) = .ok (Real.sqrt (∑ e, err e)) ∧
    ((∀ e, 0 ≤ err e) → (Real.sqrt (∑ e, err e) = 0 ↔ ∀ e, err e = 0)) := by
  constructor
  · rw [C40_fold m G nodes hwf _ loc buf0 x err hloc]
    simp only [l2ErrorDef]
    rw [foldl_add_eq_sum, zero_add, List.sum_ofFn]
  · intro h
    rw [Real.sqrt_eq_zero (Finset.sum_nonneg (fun e _ => h e)),
      Finset.sum_eq_zero_iff_of_nonneg (fun e _ => h e)]
    simp

example := C40_sqrt_sum .debug Example.path Example.pathNodes Example.path_wf
  (fun _ u => .ok ((u 0 0 - u 1 0) ^ 2)) (fun _ _ => 0) (fun k => k.1) _ (fun _ => rfl)

/-! ## C41 Hyperedge data -/

/-- **C41**.  `set_data(x)` replaces the data of each hyperedge, once, by what the local solver computes from the face values of `x` and the
former data of this hyperedge. -/
theorem C41_set_data {D : Type} (m : Mode) (G : HyGraph dim n)
    (nodes : Fin G.n_hyEdges → Fin (2 * dim) → Fin G.n_hyNodes) (hwf : G.WF nodes)
    (loc : Nat → LocDofs dim n K → D → Res D) (buf0 : LocDofs dim n K) (x : Fin (G.n_hyNodes * n) → K)
    (data data' : Fin G.n_hyEdges → D)
    (hloc : ∀ e : Fin G.n_hyEdges, loc e (faceValues nodes x e) (data e) = .ok (data' e)) :
    G.set_data m loc buf0 (List.ofFn x) (List.ofFn data) = .ok (List.ofFn data') := by
  unfold set_data for_each
  obtain ⟨s, h1, h2⟩ := forUp_inv G.n_hyEdges (fun edge (s : List D × LocDofs dim n K) => do
      hyAssert m (edge < s.1.length)
      let buf ← G.gather1 m (List.ofFn x) (G.hyNodes edge) s.2
      let d ← vget s.1 edge
      let d' ← loc edge buf d
      let data ← vset s.1 edge d'
      return (data, buf)) (List.ofFn data, buf0)
    (fun c s => s.1 = List.ofFn (fun e => if e.1 < c then data' e else data e)) (by simp)
    (fun c hc s hs => by
      let e : Fin G.n_hyEdges := ⟨c, hc⟩
      have hlen : c < s.1.length := by rw [hs]; simpa using hc
      have hg := gather1_eq m G hwf.fits x (G.hyNodes c) (nodes e) (fun i => hwf.hyNodes_eq e i) s.2
      have hv : vget s.1 c = .ok (data e) := by
        rw [vget_of_lt hlen]; congr 1; simp only [hs]; simp [e]
      have hl : loc c (fun i j => x (dof (nodes e i) j)) (data e) = .ok (data' e) := hloc e
      rw [hyAssert_of hlen]
      simp only [Res.ok_bind]
      rw [hg, hv]
      simp only [Res.ok_bind]
      rw [hl]
      simp only [Res.ok_bind]
      rw [vset_of_lt hlen]
      refine ⟨_, rfl, ?_⟩
      simp only [hs]
      apply List.ext_getElem
      · simp
      · intro k h1 h2
        simp only [List.length_ofFn] at h2
        simp only [List.getElem_set, List.getElem_ofFn]
        by_cases h : c = k
        · subst h; simp [e]
        · rw [if_neg h]
          by_cases h' : k < c
          · rw [if_pos h', if_pos (by omega)]
          · rw [if_neg h', if_neg (by omega)])
  rw [h1]
  simp only [Res.ok_bind, Res.pure_eq, h2]
  simp

/-- Writing an entry of a list of values. -/
theorem set_entry_ofFn {D : Type} {N : Nat} (data data' : Fin N → D) (c : Nat) (hc : c < N) :
    (List.ofFn (fun e : Fin N => if e.1 < c then data' e else data e)).set c (data' ⟨c, hc⟩) =
      List.ofFn (fun e : Fin N => if e.1 < c + 1 then data' e else data e) := by
  apply List.ext_getElem
  · simp
  · intro k h1 h2
    simp only [List.length_ofFn] at h2
    simp only [List.getElem_set, List.getElem_ofFn]
    by_cases h : c = k
    · subst h; simp
    · rw [if_neg h]
      by_cases h' : k < c
      · rw [if_pos h', if_pos (by omega)]
      · rw [if_neg h', if_neg (by omega)]

/-- **C41** (initial data).  `make_initial` replaces the data of each hyperedge, once, by what the local solver computes from the former data of
this hyperedge, and returns the initial trace: if the hyperedges agree on the dofs they share, each of them finds its own values in it. -/
theorem C41_make_initial {D : Type} [Zero K] (m : Mode) (G : HyGraph dim n)
    (nodes : Fin G.n_hyEdges → Fin (2 * dim) → Fin G.n_hyNodes) (hwf : G.WF nodes)
    (loc : Nat → LocDofs dim n K → D → Res (LocDofs dim n K × D)) (x : List K) (hx : x.length = G.n_hyNodes * n)
    (data data' : Fin G.n_hyEdges → D) (y : Fin G.n_hyEdges → Fin (2 * dim) → Fin n → K)
    (hloc : ∀ e : Fin G.n_hyEdges, loc e (fun _ _ => 0) (data e) = .ok (y e, data' e)) :
    ∃ r : Fin (G.n_hyNodes * n) → K, G.make_initial_data m loc x (List.ofFn data) = .ok (List.ofFn r, List.ofFn data') ∧
      LastWriter nodes y r ∧ ((∀ e e' i i', nodes e i = nodes e' i' → y e i = y e' i') → ∀ e, faceValues nodes r e = y e) := by
  unfold make_initial_data
  obtain ⟨s, r, h1, h2, h3, h4⟩ := set_loop_inv m G nodes hwf y (fun s : List K × List D => s.1) (fun edge (s : List K × List D) => do
    hyAssert m (edge < s.2.length)
    let d ← vget s.2 edge
    let r ← loc edge (fun _ _ => 0) d
    let data ← vset s.2 edge r.2
    let ax ← G.scatterSet m (G.hyNodes edge) r.1 s.1
    return (ax, data)) (List.replicate x.length 0, List.ofFn data) (by rw [hx, List.ofFn_const])
    (fun c s => s.2 = List.ofFn (fun e => if e.1 < c then data' e else data e)) (by simp)
    (fun e s ax hs h => by
      have hlen : e.1 < s.2.length := by rw [hs]; simp
      have hv : vget s.2 e = .ok (data e) := by
        rw [vget_of_lt hlen]; congr 1; simp only [hs]; simp
      rw [hyAssert_of hlen]
      simp only [Res.ok_bind]
      rw [hv]
      simp only [Res.ok_bind]
      rw [hloc e]
      simp only [Res.ok_bind]
      rw [vset_of_lt hlen]
      simp only [Res.ok_bind]
      rw [h]
      refine ⟨_, rfl, rfl, ?_⟩
      simp only [hs]
      exact set_entry_ofFn data data' e e.2)
  refine ⟨r, ?_, h3, fun hagree e => ?_⟩
  · rw [h1]
    refine congrArg Res.ok (Prod.ext h2 ?_)
    rw [h4]
    simp
  · funext i j
    rcases h3 (dof (nodes e i) j) with ⟨e', i', j', q1, q2, _⟩ | ⟨q1, _⟩
    · obtain ⟨w1, w2⟩ := dof_inj q1
      show r (dof (nodes e i) j) = _
      rw [q2, hagree e' e i' i w1, w2]
    · exact absurd rfl (q1 e i j)

example := C41_make_initial .debug Example.path Example.pathNodes Example.path_wf (fun e _ d => .ok (fun i _ => (e + i.1 : Nat), d + e)) [7, 7, 7] rfl
  (fun _ => 5) (fun e => 5 + e.1) _ (fun _ => rfl)

/-- **C41** (data missing).  With assertions, `set_data` aborts if the container has too few entries, instead of accessing memory out of
bounds. -/
theorem C41_debug_no_ub {D : Type} (G : HyGraph dim n) (hpos : 0 < G.n_hyEdges)
    (loc : Nat → LocDofs dim n K → D → Res D) (buf0 : LocDofs dim n K) (x : List K) :
    G.set_data .debug loc buf0 x [] = .abort := by
  unfold set_data for_each
  rw [forUp_ub_at G.n_hyEdges _ ([], buf0) 0 hpos .abort (fun t => by simp) (fun s => s.1 = [])
    ⟨_, rfl, rfl⟩ (fun s hs => by rw [hs]; rfl)]
  rfl

/-! ## C42 Jacobian of nonlinear eigenvalue problems -/

/-- **C42**.  `jacobian_of_trace_to_flux(x, x_val)` is the sum over all hyperedges and faces of what the local solver computes from the face
values of both vectors, each taken from the right vector. -/
theorem C42_jacobian [AddCommMonoid K] (m : Mode) (G : HyGraph dim n)
    (nodes : Fin G.n_hyEdges → Fin (2 * dim) → Fin G.n_hyNodes) (hwf : G.WF nodes)
    (loc : Nat → LocDofs dim n K → LocDofs dim n K → LocDofs dim n K → Res (LocDofs dim n K))
    (old0 vals0 new0 : LocDofs dim n K) (x x_val : Fin (G.n_hyNodes * n) → K)
    (y : Fin G.n_hyEdges → Fin (2 * dim) → Fin n → K)
    (hloc : ∀ e : Fin G.n_hyEdges,
      loc e (faceValues nodes x e) (faceValues nodes x_val e) (fun _ _ => 0) = .ok (y e)) :
    G.jacobian m loc old0 vals0 new0 (List.ofFn x) (List.ofFn x_val) =
      .ok (List.ofFn (fun k => ∑ e, ∑ i, ∑ j, if dof (nodes e i) j = k then y e i j else 0)) := by
  -- reduce to the loop of `mat_vec_multiply` with `x_val` built into the local function
  have hg : ∀ (e : Fin G.n_hyEdges) (b : LocDofs dim n K × LocDofs dim n K × LocDofs dim n K),
      forFin (2 * dim) (fun node (b : LocDofs dim n K × LocDofs dim n K × LocDofs dim n K) => do
        let old ← onArray (b.1 node) (G.factory.get_dof_values m (G.hyNodes e node) (List.ofFn x))
        let vals ← onArray (b.2.1 node) (G.factory.get_dof_values m (G.hyNodes e node) (List.ofFn x_val))
        return (arrSet b.1 node old, arrSet b.2.1 node vals, arrSet b.2.2 node (fun _ => 0))) b =
      .ok (faceValues nodes x e, faceValues nodes x_val e, fun _ _ => 0) := by
    intro e b
    have one : ∀ (z : Fin (G.n_hyNodes * n) → K) (i : Fin (2 * dim)) (a : Fin n → K),
        onArray a (G.factory.get_dof_values m (G.hyNodes e i) (List.ofFn z)) = .ok (faceValues nodes z e i) := by
      intro z i a
      have hb := factory_bounds G hwf.fits (nodes e i)
      apply onArray_ok
      rw [hwf.hyNodes_eq, HyperNodeFactory.get_dof_values_eq m G.factory (nodes e i) _ _ (by simp [factory]) hb.1
        (by simpa using hb.2)]
      congr 1
      exact drop_take_ofFn z (nodes e i)
    obtain ⟨t, h1, h2⟩ := forFin_inv (2 * dim)
      (fun node (b : LocDofs dim n K × LocDofs dim n K × LocDofs dim n K) => do
        let old ← onArray (b.1 node) (G.factory.get_dof_values m (G.hyNodes e node) (List.ofFn x))
        let vals ← onArray (b.2.1 node) (G.factory.get_dof_values m (G.hyNodes e node) (List.ofFn x_val))
        return (arrSet b.1 node old, arrSet b.2.1 node vals, arrSet b.2.2 node (fun _ => 0))) b
      (fun c b => ∀ i : Fin (2 * dim), i.1 < c → b.1 i = faceValues nodes x e i ∧
        b.2.1 i = faceValues nodes x_val e i ∧ b.2.2 i = fun _ => 0)
      (fun i h => absurd h (Nat.not_lt_zero _))
      (fun i b hb => by
        rw [one x i, one x_val i]
        refine ⟨_, rfl, fun i' hi' => ?_⟩
        simp only [arrSet]
        by_cases h : i' = i
        · subst h; simp
        · have : i'.1 ≠ i.1 := fun h' => h (Fin.ext h')
          simp only [if_neg h]
          exact hb i' (by omega))
    rw [h1]
    congr 1
    obtain ⟨t1, t2, t3⟩ := t
    have a1 : t1 = faceValues nodes x e := funext fun i => (h2 i i.2).1
    have a2 : t2 = faceValues nodes x_val e := funext fun i => (h2 i i.2).2.1
    have a3 : t3 = fun _ _ => 0 := funext fun i => (h2 i i.2).2.2
    rw [a1, a2, a3]
  unfold jacobian for_each
  obtain ⟨s, h1, h2⟩ := forUp_inv G.n_hyEdges
    (fun edge (s : List K × LocDofs dim n K × LocDofs dim n K × LocDofs dim n K) => do
      let b ← forFin (2 * dim) (fun node (b : LocDofs dim n K × LocDofs dim n K × LocDofs dim n K) => do
        let old ← onArray (b.1 node) (G.factory.get_dof_values m (G.hyNodes edge node) (List.ofFn x))
        let vals ← onArray (b.2.1 node) (G.factory.get_dof_values m (G.hyNodes edge node) (List.ofFn x_val))
        return (arrSet b.1 node old, arrSet b.2.1 node vals, arrSet b.2.2 node (fun _ => 0))) s.2
      let new ← loc edge b.1 b.2.1 b.2.2
      let ax ← G.scatterAdd m (G.hyNodes edge) new s.1
      return (ax, b.1, b.2.1, new)) (List.replicate (List.ofFn x).length 0, old0, vals0, new0)
    (fun c s => s.1 = List.ofFn (fun k : Fin (G.n_hyNodes * n) =>
      ∑ e ∈ Finset.univ.filter (fun e : Fin G.n_hyEdges => e.1 < c),
        ∑ i, ∑ j, if dof (nodes e i) j = k then y e i j else 0))
    (by simp)
    (fun c hc s hs => by
      let e : Fin G.n_hyEdges := ⟨c, hc⟩
      have hgc := hg e s.2
      have hl := hloc e
      have hsc := scatterAdd_eq m G hwf.fits (G.hyNodes c) (nodes e) (fun i => hwf.hyNodes_eq e i) (y e)
        (fun k : Fin (G.n_hyNodes * n) =>
          ∑ e ∈ Finset.univ.filter (fun e : Fin G.n_hyEdges => e.1 < c),
            ∑ i, ∑ j, if dof (nodes e i) j = k then y e i j else 0)
      simp only [show (c : Nat) = (e : Fin G.n_hyEdges).1 from rfl]
      rw [hgc]
      simp only [Res.ok_bind]
      rw [hl]
      simp only [Res.ok_bind]
      rw [hs]
      have hsc' : G.scatterAdd m (G.hyNodes e.1) (y e) _ = _ := hsc
      rw [hsc']
      refine ⟨_, rfl, ?_⟩
      simp only
      congr 1
      funext k
      have hf : Finset.univ.filter (fun e' : Fin G.n_hyEdges => e'.1 < e.1 + 1) =
          insert e (Finset.univ.filter (fun e' : Fin G.n_hyEdges => e'.1 < c)) := by
        ext e'
        simp only [Finset.mem_filter, Finset.mem_univ, true_and, Finset.mem_insert]
        constructor
        · intro h
          by_cases h' : e' = e
          · exact Or.inl h'
          · have : e'.1 ≠ c := fun h'' => h' (Fin.ext h'')
            have hec : e.1 = c := rfl
            exact Or.inr (by omega)
        · rintro (h | h)
          · rw [h]; omega
          · have hec : e.1 = c := rfl
            omega
      rw [hf, Finset.sum_insert (by simp [e]), add_comm])
  rw [h1]
  simp only [Res.ok_bind, Res.pure_eq, h2]
  congr 2
  funext k
  rw [Finset.filter_true_of_mem (fun e _ => e.2)]

example := C42_jacobian .debug Example.path Example.pathNodes Example.path_wf
  (fun _ u v _ => .ok (fun i j => u i j * v i j)) (fun _ _ => 3) (fun _ _ => 4) (fun _ _ => 5)
  (fun k => (k.1 : Int)) (fun k => 2 * k.1 + 1) _ (fun _ => rfl)

end HyperHDG.HyGraph

namespace HyperHDG.HyIterator

/-! ## C38 Iteration -/

/-- **C38**.  The loop `std::for_each(begin(), end(), f)` with the iterators of the hypergraph terminates (with one comparison more than there are
hyperedges) and calls `f` for the hyperedges `0, ..., n_hyEdges - 1` in this order, each once: it is the counting loop `forUp` (which is what the
models of the global loops use). -/
theorem C38_for_each {σ : Type} (g nE : Nat) (hE : nE < U32) (f : Nat → σ → Res σ) (s : σ) (fuel : Nat)
    (hfuel : nE < fuel) : forEach f («end» g nE) fuel (begin g) s = some (forUp nE f s) := by
  have key : ∀ (k c : Nat), c + k = nE → ∀ (fuel : Nat) (t : σ), k < fuel → forUp c f s = .ok t →
      forEach f («end» g nE) fuel ⟨g, c⟩ t = some (forUp nE f s) := by
    intro k
    induction k with
    | zero =>
      intro c hc fuel t hf ht
      obtain ⟨fuel, rfl⟩ : ∃ l, fuel = l + 1 := ⟨fuel - 1, by omega⟩
      have : c = nE := by omega
      subst this
      simp [forEach, beq, «end», ht]
    | succ k ih =>
      intro c hc fuel t hf ht
      obtain ⟨fuel, rfl⟩ : ∃ l, fuel = l + 1 := ⟨fuel - 1, by omega⟩
      have hne : ¬ c = nE := by omega
      have hbeq : (HyIterator.mk g c).beq («end» g nE) = false := by simp [beq, «end», hne]
      have hinc : (HyIterator.mk g c).incr = ⟨g, c + 1⟩ := by
        simp only [incr]; rw [u32_of_lt (by omega)]
      simp only [forEach, hbeq, hinc]
      have hs : forUp (c + 1) f s = f c t := by rw [forUp_succ, ht, Res.ok_bind]
      cases hft : f c t with
      | ok t' =>
        have := ih (c + 1) (by omega) fuel t' (by omega) (by rw [hs, hft])
        simpa using this
      | abort =>
        have := forUp_ub_at nE f s c (by omega) .abort (by simp) (fun t' => t' = t) ⟨t, ht, rfl⟩
          (fun t' h => by rw [h, hft])
        simp [this]
      | throw e =>
        have := forUp_ub_at nE f s c (by omega) (.throw e) (by simp) (fun t' => t' = t) ⟨t, ht, rfl⟩
          (fun t' h => by rw [h, hft])
        simp [this]
      | ub =>
        have := forUp_ub_at nE f s c (by omega) .ub (by simp) (fun t' => t' = t) ⟨t, ht, rfl⟩
          (fun t' h => by rw [h, hft])
        simp [this]
  exact key nE 0 (by omega) fuel s hfuel rfl

/-- **C38** (visited hyperedges).  Recording the visited hyperedges gives the list `0, 1, ..., n_hyEdges - 1`. -/
theorem C38_visits (g nE : Nat) (hE : nE < U32) (fuel : Nat) (hfuel : nE < fuel) :
    forEach (fun i l => .ok (l ++ [i])) («end» g nE) fuel (begin g) [] = some (.ok (List.range nE)) := by
  rw [C38_for_each g nE hE _ _ fuel hfuel]
  congr 1
  clear hE hfuel
  induction nE with
  | zero => rfl
  | succ n ih => rw [forUp_succ, ih, Res.ok_bind, List.range_succ]

/-- **C38** (bidirectional).  Decrement undoes increment and vice versa. -/
theorem C38_incr_decr (it : HyIterator) (h : it.index < U32) : it.incr.decr = it ∧ it.decr.incr = it := by
  obtain ⟨g, i⟩ := it
  have h' : i < U32 := h
  constructor
  · simp only [incr, decr, u32]
    refine congrArg (HyIterator.mk g) ?_
    rw [Nat.mod_add_mod, show i + 1 + (U32 - 1) = i + U32 by unfold U32; omega, Nat.add_mod_right, Nat.mod_eq_of_lt h']
  · simp only [incr, decr, u32]
    refine congrArg (HyIterator.mk g) ?_
    rw [Nat.mod_add_mod, show i + (U32 - 1) + 1 = i + U32 by unfold U32; omega, Nat.add_mod_right, Nat.mod_eq_of_lt h']

/-- **C38** (comparison).  Two iterators compare equal exactly if they point to the same position of the same hypergraph; so iterators of different hypergraphs
never do. -/
theorem C38_equality (a b : HyIterator) : a.beq b = true ↔ a = b := by
  obtain ⟨g, i⟩ := a
  obtain ⟨h, j⟩ := b
  simp [beq, and_comm]

example := C38_visits 0 5 (by decide) 6 (by decide)

end HyperHDG.HyIterator

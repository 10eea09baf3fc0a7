import Verif.Model.EllipticPython
import Verif.Spec.EllipticPython
import Verif.Proofs.ParabolicProgram
import Verif.Props.GlobalLoop

namespace HyperHDG.EllipticPython

open ParabolicProgram (LinearSolver negated solve exists_ofFn negated_ofFn getElem?_fin)
open HyGraph Spec Finset

variable {K : Type}

/-- The vector returned is one with which a solver claims success. -/
theorem solve_mem {solvers : List (LinearSolver K)} {A : List K → Res (List K)} {b x : List K} (h : solve solvers A b = .ok x) : ∃ s ∈ solvers, s A b = .ok (x, 0) := by
  induction solvers with
  | nil => cases h
  | cons s rest ih =>
    unfold solve at h
    obtain ⟨r, h1, h2⟩ := Res.bind_eq_ok.mp h
    split at h2
    · rename_i h3
      cases h2
      exact ⟨s, by simp, by rw [h1, ← h3]⟩
    · obtain ⟨s', hs', h4⟩ := ih h2
      exact ⟨s', by simp [hs'], h4⟩

/-- If all solvers report failure there is no result. -/
theorem solve_fails {solvers : List (LinearSolver K)} {A : List K → Res (List K)} {b : List K} (h : ∀ s ∈ solvers, ∃ x info, s A b = .ok (x, info) ∧ info ≠ 0) :
    solve solvers A b = .throw .solve := by
  induction solvers with
  | nil => rfl
  | cons s rest ih =>
    obtain ⟨x, info, h1, h2⟩ := h s (by simp)
    unfold solve
    rw [h1, Res.ok_bind, if_neg h2]
    exact ih fun s' hs' => h s' (by simp [hs'])

theorem solve_congr {solvers : List (LinearSolver K)} (hl : ∀ s ∈ solvers, Local s) {A A' : List K → Res (List K)} {b : List K} (h : ∀ x, x.length = b.length → A x = A' x) :
    solve solvers A b = solve solvers A' b := by
  induction solvers with
  | nil => rfl
  | cons s rest ih =>
    unfold solve
    rw [hl s (by simp) A A' b h, ih fun s' hs' => hl s' (by simp [hs'])]

theorem getD_lt [Zero K] {l : List K} {k : Nat} (h : k < l.length) : l.getD k 0 = l[k] := by
  rw [List.getD_eq_getElem?_getD, List.getElem?_eq_getElem h]
  rfl

section
variable [CommRing K]

theorem length_foldl_addTriplet (x : List K) (ts : List (Nat × Nat × K)) (result : List K) : (ts.foldl (addTriplet x) result).length = result.length := by
  induction ts generalizing result with
  | nil => rfl
  | cons t ts ih => rw [List.foldl_cons, ih, addTriplet, List.length_set]

/-- Entries of the product with a sparse matrix. -/
theorem getD_foldl_addTriplet (x : List K) (ts : List (Nat × Nat × K)) (result : List K) (hb : ∀ t ∈ ts, t.1 < result.length) (k : Nat) :
    (ts.foldl (addTriplet x) result).getD k 0 = result.getD k 0 + (ts.map fun t => if t.1 = k then t.2.2 * x.getD t.2.1 0 else 0).sum := by
  induction ts generalizing result with
  | nil => simp
  | cons t ts ih =>
    rw [List.foldl_cons, ih _ fun t' ht' => by rw [addTriplet, List.length_set]; exact hb t' (by simp [ht']), List.map_cons, List.sum_cons, ← add_assoc]
    refine congrArg (· + _) ?_
    have ht := hb t (by simp)
    unfold addTriplet
    by_cases h : t.1 = k
    · subst h
      rw [if_pos rfl, List.getD_eq_getElem?_getD, List.getElem?_set_self ht]
      rfl
    · rw [if_neg h, add_zero, List.getD_eq_getElem?_getD, List.getElem?_set_ne h, ← List.getD_eq_getElem?_getD]

/-- The product with the matrix of SciPy. -/
theorem csr_product {n : Nat} {rows cols : List Nat} {vals x : List K} (hr : ∀ i ∈ rows, i < n) (hx : x.length = n) :
    (rows.zip (cols.zip vals)).foldl (addTriplet x) (List.replicate n 0) = (List.range n).map (tripletProduct rows cols vals fun j => x.getD j 0) := by
  have hl : ((rows.zip (cols.zip vals)).foldl (addTriplet x) (List.replicate n 0)).length = n := by rw [length_foldl_addTriplet, List.length_replicate]
  apply List.ext_getElem
  · rw [hl, List.length_map, List.length_range]
  · intro k h1 h2
    have h3 := getD_foldl_addTriplet x (rows.zip (cols.zip vals)) (List.replicate n 0) (fun t ht => by
      rw [List.length_replicate]
      exact hr _ (List.of_mem_zip (show (t.1, t.2) ∈ _ from ht)).1) k
    rw [getD_lt h1] at h3
    rw [h3, List.getElem_map, List.getElem_range, getD_lt (show k < (List.replicate n (0 : K)).length by rw [List.length_replicate]; omega), List.getElem_replicate, zero_add]
    rfl

end

theorem map_getD_range [Zero K] {n : Nat} {x : List K} (hx : x.length = n) : (List.range n).map (fun j => x.getD j 0) = x := by
  apply List.ext_getElem
  · simp [hx]
  · intro k h1 h2
    rw [List.getElem_map, List.getElem_range, getD_lt h2]

section
variable [Field K]

theorem normSq_ofFn {N : Nat} (v : Fin N → K) : normSq (List.ofFn v) = ∑ i, v i ^ 2 := by
  unfold normSq
  rw [List.map_ofFn, List.sum_ofFn]
  rfl

omit [Field K] in
theorem zipWith_ofFn {N : Nat} (f : K → K → K) (v w : Fin N → K) : List.zipWith f (List.ofFn v) (List.ofFn w) = List.ofFn fun i => f (v i) (w i) := by
  apply List.ext_getElem
  · simp
  · intro k h1 h2
    simp

end

end HyperHDG.EllipticPython

import Verif.Model.ImportDefaults
import Verif.Proofs.ImportExample

/-!
# C87: configuration objects do not influence each other
-/

namespace HyperHDG.Import

open Spec.Import

theorem appended_mem (P : Platform) (fs : Files) (l : List (Text × Text)) (shared : List Text) : ∀ x ∈ shared, x ∈ appended P fs l shared := by
  induction l generalizing shared with
  | nil => exact fun x hx => hx
  | cons e l ih =>
    obtain ⟨folder, fullname⟩ := e
    intro x hx
    unfold appended
    cases find_definition P fs folder (extract_classname fullname) with
    | none => exact hx
    | some helper => exact ih _ x ((mem_addFile _ _ _).mpr (.inl hx))

/-- The list left behind by `extract_includes` is the one it uses. -/
theorem appended_eq (P : Platform) (fs : Files) (conf : Config) (inc : List Text) (h : collect_includes P fs conf = some inc) : appended P fs (wanted conf) conf.include_files = inc := by
  unfold collect_includes at h
  simp only [Option.bind_eq_bind, Option.pure_def, Option.bind_eq_some_iff, Option.some.injEq] at h
  obtain ⟨a1, h1, a2, h2, a3, h3, a4, h4, a5, h5, rfl⟩ := h
  simp only [wanted, appended, h1, h2, h3, h4, h5]

/-- **C87** (partial).  If each configuration object has been given a list `include_files` of its own, then a call of `include` has the same result and the same effect on
the files whatever classes have been included before in the same process. -/
theorem C87_independent_partial (P : Platform) (w : World) (shared shared' : List Text) (pc : PyConfig) (ho : pc.own = true) (fate : Fate) (during : List (Text × Text)) :
    (includePy P w shared pc fate during).1 = (includePy P w shared' pc fate during).1 ∧ (includePy P w shared pc fate during).2.2 = (includePy P w shared' pc fate during).2.2 := by
  unfold includePy PyConfig.seen
  simp only [ho, if_true]
  exact ⟨trivial, trivial⟩

/-- **C87** (partial).  And no such call changes what other objects see. -/
theorem C87_no_trace_partial (P : Platform) (w : World) (shared : List Text) (h : List (PyConfig × Fate × List (Text × Text))) (ho : ∀ e ∈ h, e.1.own = true) :
    (runPy P w shared h).2 = shared := by
  induction h generalizing w with
  | nil => rfl
  | cons e h ih =>
    obtain ⟨pc, fate, during⟩ := e
    have h1 : sharedAfter P w shared pc = shared := by
      unfold sharedAfter
      exact if_pos (ho (pc, fate, during) (by simp))
    show (runPy P (includePy P w shared pc fate during).1 (sharedAfter P w shared pc) h).2 = shared
    rw [h1]
    exact ih _ (fun e he => ho e (by simp [he]))

/-- **C87**, limit.  Otherwise all headers which have been found for any object stay: after any calls, they belong to each further object without a list of its own. -/
theorem C87_headers_stay (P : Platform) (w : World) (shared : List Text) (h : List (PyConfig × Fate × List (Text × Text))) (pc : PyConfig) (ho : pc.own = false) :
    ∀ x ∈ shared, x ∈ (pc.seen (runPy P w shared h).2).include_files := by
  intro x hx
  unfold PyConfig.seen
  simp only [ho, Bool.false_eq_true, if_false]
  induction h generalizing w shared with
  | nil => exact hx
  | cons e h ih =>
    obtain ⟨pc', fate, during⟩ := e
    refine ih _ _ ?_
    show x ∈ sharedAfter P w shared pc'
    unfold sharedAfter
    split
    · exact hx
    · split
      · exact appended_mem _ _ _ _ x hx
      · exact hx

/-- **C87**, limit.  What is compiled depends on the classes included before: the first object is included, then the second; the program for the second one differs from the
one which is compiled for it in a new process on a computer with the same files. -/
theorem C87_order_matters : ∃ (P : Platform) (w w' : World) (first second : PyConfig) (o o' : Object), NothingBuilt w ∧ NothingBuilt w' ∧
    first.own = false ∧ second.own = false ∧ first.conf.include_files = [] ∧ second.conf.include_files = [] ∧
    (includePy P (includePy P w [] first .link []).1 (includePy P w [] first .link []).2.1 second .done []).2.2 = some o ∧
    w'.files = (includePy P w [] first .link []).1.files ∧ (includePy P w' [] second .done []).2.2 = some o' ∧ o.pyx ≠ o'.pyx := by
  let P1 : Platform := { Example.P0 with glob := fun _ f => [t!"HyperHDG/" ++ f ++ t!"/a.hxx", t!"HyperHDG/" ++ f ++ t!"/b.hxx"] }
  let w1 : World := { Example.w0 with files := (t!"include/HyperHDG/geometry/b.hxx", Example.file t!"\nclass H\n{") :: Example.files0 }
  let c1 : Config := { Example.c0 with geometry := t!"H" }
  let w2 : World := { (includePy P1 w1 [] ⟨c1, false⟩ .link []).1 with shared := [], modules := [] }
  have h1 : (includePy P1 (includePy P1 w1 [] ⟨c1, false⟩ .link []).1 (includePy P1 w1 [] ⟨c1, false⟩ .link []).2.1 ⟨Example.c0, false⟩ .done []).2.2.map
      (fun o => contains t!"geometry/b.hxx" o.pyx) = some true := by decide +kernel
  have h2 : (includePy P1 w2 [] ⟨Example.c0, false⟩ .done []).2.2.map (fun o => contains t!"geometry/b.hxx" o.pyx) = some false := by decide +kernel
  obtain ⟨o, ho, hc⟩ := Example.some_of_map h1
  obtain ⟨o', ho', hc'⟩ := Example.some_of_map h2
  refine ⟨P1, w1, w2, ⟨c1, false⟩, ⟨Example.c0, false⟩, o, o', ⟨rfl, rfl⟩, ⟨rfl, rfl⟩, rfl, rfl, rfl, rfl, ho, rfl, ho', fun h => ?_⟩
  rw [h, hc'] at hc
  cases hc

end HyperHDG.Import

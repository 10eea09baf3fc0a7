import Verif.Proofs.ImportCheck
import Mathlib.Order.Basic
import Mathlib.Order.Defs.LinearOrder
import Mathlib.Data.Nat.Basic

/-!
# What included classes have been built from
-/

namespace HyperHDG.Import

open Spec.Import

theorem look_cons (p q : Text) (f : File) (fs : Files) : Files.look ((p, f) :: fs) q = if p = q then some f else fs.look q := by
  unfold Files.look
  by_cases h : p = q <;> simp [h]

/-- Not a generated file. -/
def Outside (q : Text) : Prop := ¬ t!"build/cython_files/" <+: q

theorem outside_template (conf : Config) (e : Text) : Outside (template conf e) := by
  rintro ⟨r, h⟩
  have h0 : some 'b' = some 'c' := congrArg List.head? h
  exact absurd h0 (by decide)

theorem outside_include (x : Text) : Outside (t!"include/" ++ x) := by
  rintro ⟨r, h⟩
  have h0 : some 'b' = some 'i' := congrArg List.head? h
  exact absurd h0 (by decide)

theorem outside_cmake : Outside t!"build/cmake_cython.cfg" := by
  unfold Outside
  rw [← List.isPrefixOf_iff_prefix]
  decide

/-- The same files but for generated ones. -/
def SameOutside (fs fs' : Files) : Prop := ∀ q, Outside q → fs'.look q = fs.look q

theorem SameOutside.refl (fs : Files) : SameOutside fs fs := fun _ _ => rfl

theorem SameOutside.trans {a b c : Files} (h1 : SameOutside a b) (h2 : SameOutside b c) : SameOutside a c := fun q hq => (h2 q hq).trans (h1 q hq)

theorem sameOutside_write (w : World) (r c : Text) : SameOutside w.files (w.write (t!"build/cython_files/" ++ r) c).files := by
  intro q hq
  show Files.look (_ :: _) q = _
  rw [look_cons, if_neg]
  rintro rfl
  exact hq ⟨r, rfl⟩

/-- Nothing but files has changed, each change has made a file newer. -/
structure Later (w w' : World) : Prop where
  clock : w.clock ≤ w'.clock
  old : ∀ q f, w'.files.look q = some f → f.mtime ≤ w.clock → w.files.look q = some f
  gone : ∀ q, w'.files.look q = none → w.files.look q = none
  shared : w'.shared = w.shared
  modules : w'.modules = w.modules

theorem Later.refl (w : World) : Later w w := ⟨le_rfl, fun _ _ h _ => h, fun _ h => h, rfl, rfl⟩

theorem Later.trans {a b c : World} (h1 : Later a b) (h2 : Later b c) : Later a c :=
  ⟨h1.clock.trans h2.clock, fun q f h hm => h1.old q f (h2.old q f h (hm.trans h1.clock)) hm, fun q h => h1.gone q (h2.gone q h), h2.shared.trans h1.shared,
    h2.modules.trans h1.modules⟩

theorem later_write (w : World) (p c : Text) : Later w (w.write p c) := by
  refine ⟨Nat.le_succ _, fun q f h hm => ?_, fun q h => ?_, rfl, rfl⟩
  · have h : Files.look ((p, ⟨c, w.clock + 1⟩) :: w.files) q = some f := h
    rw [look_cons] at h
    split at h
    · obtain rfl := Option.some.inj h
      exact absurd hm (by simp)
    · exact h
  · have h : Files.look ((p, ⟨c, w.clock + 1⟩) :: w.files) q = none := h
    rw [look_cons] at h
    split at h
    · cases h
    · exact h

theorem later_edits (w : World) (l : List (Text × Text)) : Later w (w.edits l) := by
  induction l generalizing w with
  | nil => exact Later.refl w
  | cons e l ih => exact (later_write w e.1 e.2).trans (ih _)

theorem own_path_eq (name : Text) : own_path name = t!"build/cython_files/" ++ (name ++ t!".hxx") := by
  unfold own_path
  rw [List.append_assoc]

/-- Files which are written for the module `name`. -/
def Generated (name q : Text) : Prop :=
  q = own_path name ∨ q = t!"build/cython_files/" ++ name ++ t!".pxd" ∨ q = t!"build/cython_files/" ++ name ++ t!".pyx"

/-- The same files but for those of the module `name`. -/
def Keeps (name : Text) (w w' : World) : Prop := ∀ q, ¬ Generated name q → w'.files.look q = w.files.look q

theorem Keeps.refl (name : Text) (w : World) : Keeps name w w := fun _ _ => rfl

theorem Keeps.trans {name : Text} {a b c : World} (h1 : Keeps name a b) (h2 : Keeps name b c) : Keeps name a c := fun q hq => (h2 q hq).trans (h1 q hq)

theorem keeps_write {name p : Text} (hp : Generated name p) (w : World) (c : Text) : Keeps name w (w.write p c) := by
  intro q hq
  show Files.look (_ :: _) q = _
  rw [look_cons, if_neg]
  rintro rfl
  exact hq hp

/-! ## Own code -/

theorem own_code_spec (w : World) (conf : Config) (name : Text) : Later w (own_code w conf name).1 ∧ SameOutside w.files (own_code w conf name).1.files ∧
    ((own_code w conf name).2 = false → (own_code w conf name).1 = w) ∧ Keeps name w (own_code w conf name).1 ∧
    (conf.cpp_code.isEmpty = false → ∃ f, (own_code w conf name).1.files.look (own_path name) = some f ∧ f.content = conf.cpp_code) := by
  unfold own_code
  by_cases he : conf.cpp_code.isEmpty = true
  · rw [if_pos he]
    exact ⟨Later.refl w, SameOutside.refl _, fun _ => rfl, Keeps.refl _ _, fun h => by rw [he] at h; cases h⟩
  · rw [if_neg he]
    have hw : Later w (w.write (own_path name) conf.cpp_code) ∧ SameOutside w.files (w.write (own_path name) conf.cpp_code).files ∧ Keeps name w (w.write (own_path name) conf.cpp_code) ∧
        ∃ f, (w.write (own_path name) conf.cpp_code).files.look (own_path name) = some f ∧ f.content = conf.cpp_code := by
      refine ⟨later_write w _ _, ?_, keeps_write (.inl rfl) w _, ⟨conf.cpp_code, w.clock + 1⟩, ?_, rfl⟩
      · rw [own_path_eq]
        exact sameOutside_write w _ _
      · show Files.look (_ :: _) _ = _
        rw [look_cons, if_pos rfl]
    cases hl : w.files.look (own_path name) with
    | none =>
      simp only [Bool.false_eq_true, if_false]
      exact ⟨hw.1, hw.2.1, fun h => (nomatch h), hw.2.2.1, fun _ => hw.2.2.2⟩
    | some f =>
      by_cases hc : (f.content == conf.cpp_code) = true
      · simp only [hc, if_true]
        exact ⟨Later.refl w, SameOutside.refl _, fun _ => trivial, Keeps.refl _ _, fun _ => ⟨f, hl, by simpa using hc⟩⟩
      · simp only [hc]
        exact ⟨hw.1, hw.2.1, fun h => (nomatch h), hw.2.2.1, fun _ => hw.2.2.2⟩

/-! ## Definitions of classes -/

theorem contains_iff (pattern text : Text) : contains pattern text = true ↔ pattern <:+: text := by
  induction text with
  | nil => simp [contains]
  | cons c cs ih =>
    rw [contains, Bool.or_eq_true, ih, List.isPrefixOf_iff_prefix, List.infix_cons_iff]

theorem find_definition_spec {P : Platform} {fs : Files} {folder classname x : Text} (h : find_definition P fs folder classname = some x) :
    x ∈ P.glob fs folder ∧ ∃ f, fs.look (t!"include/" ++ x) = some f ∧ (t!"\nclass " ++ classname ++ t!"\n{") <:+: f.content := by
  unfold find_definition at h
  refine ⟨List.mem_of_find?_eq_some h, ?_⟩
  have h1 := List.find?_some h
  cases hl : fs.look (t!"include/" ++ x) with
  | none => rw [hl] at h1; cases h1
  | some f =>
    rw [hl] at h1
    exact ⟨f, rfl, (contains_iff _ _).mp h1⟩

theorem mem_addFile (l : List Text) (x y : Text) : y ∈ addFile l x ↔ y ∈ l ∨ y = x := (addFile_spec l x).choose_spec.2 y

theorem collect_includes_spec {P : Platform} {fs : Files} {conf : Config} {inc : List Text} (h : collect_includes P fs conf = some inc) :
    (∀ x ∈ conf.include_files, x ∈ inc) ∧
    ∀ c ∈ [conf.geometry, conf.node_descriptor, conf.topology, conf.global_loop, conf.local_solver], Defined fs inc (extract_classname c) := by
  unfold collect_includes at h
  simp only [Option.bind_eq_bind, Option.pure_def, Option.bind_eq_some_iff, Option.some.injEq] at h
  obtain ⟨a1, h1, a2, h2, a3, h3, a4, h4, a5, h5, rfl⟩ := h
  have hd : ∀ {folder c x}, find_definition P fs folder (extract_classname c) = some x → ∀ inc : List Text, x ∈ inc → Defined fs inc (extract_classname c) :=
    fun hx inc hm => ⟨_, hm, (find_definition_spec hx).2⟩
  refine ⟨fun x hx => by simp [mem_addFile, hx], fun c hc => ?_⟩
  simp only [List.mem_cons, List.not_mem_nil, or_false] at hc
  rcases hc with rfl | rfl | rfl | rfl | rfl
  · exact hd h1 _ (by simp [mem_addFile])
  · exact hd h2 _ (by simp [mem_addFile])
  · exact hd h3 _ (by simp [mem_addFile])
  · exact hd h4 _ (by simp [mem_addFile])
  · exact hd h5 _ (by simp [mem_addFile])

/-! ## The compilation -/

/-- What is known when the compilation starts. -/
structure Prepared (P : Platform) (fs : Files) (conf : Config) (options : Options) (inc cy : List Text) : Prop where
  options : P.options ((fs.look t!"build/cmake_cython.cfg").map (·.content)) = some options
  cy : generate_cy_replace P fs conf = some cy
  inc : collect_includes P fs conf = some inc

theorem generate_cy_replace_congr {P : Platform} {fs fs' : Files} (h : SameOutside fs fs') (conf : Config) : generate_cy_replace P fs' conf = generate_cy_replace P fs conf := by
  unfold generate_cy_replace
  rw [h _ (outside_template conf _)]

theorem build_spec (P : Platform) (w0 w : World) (conf : Config) (options : Options) (inc cy : List Text) (fate : Fate) (during : List (Text × Text))
    (hp : Prepared P w0.files conf options inc cy) (hs : SameOutside w0.files w.files)
    (hown : conf.cpp_code.isEmpty = false → ∃ f, w.files.look (own_path (module_name P conf)) = some f ∧ f.content = conf.cpp_code) :
    ((build P w conf options inc cy fate during).2 = none → Later w (build P w conf options inc cy fate during).1 ∧
      (during = [] → Keeps (module_name P conf) w (build P w conf options inc cy fate during).1)) ∧
    ((build P w conf options inc cy fate during).2 = some () → ∃ w2 o, (build P w conf options inc cy fate during).1 = w2.writeShared (module_name P conf) o ∧ Later w w2 ∧
      Made P conf inc cy o ∧ (during = [] → o.sources = w2.files ∧ Keeps (module_name P conf) w w2)) := by
  unfold build
  dsimp only
  by_cases h1 : fate = .ownCode
  · rw [if_pos h1]
    exact ⟨fun _ => ⟨Later.refl w, fun _ => Keeps.refl _ _⟩, fun h => (nomatch h)⟩
  rw [if_neg h1]
  cases hpxd : w.files.look (template conf t!"pxd") with
  | none => exact ⟨fun _ => ⟨Later.refl w, fun _ => Keeps.refl _ _⟩, fun h => (nomatch h)⟩
  | some pxd =>
    dsimp only
    generalize hinst : instantiate (cpp_class conf) (cython_class P conf) (module_name P conf)
      (include_string inc (if conf.cpp_code.isEmpty = true then [] else own_path (module_name P conf))) cy = gen
    generalize hw1 : w.write (t!"build/cython_files/" ++ module_name P conf ++ t!".pxd") (gen pxd.content) = w1
    have hl1 : Later w w1 := hw1 ▸ later_write w _ _
    have hk1 : Keeps (module_name P conf) w w1 := hw1 ▸ keeps_write (.inr (.inl rfl)) w _
    have hs1 : SameOutside w.files w1.files := by
      rw [← hw1, List.append_assoc]
      exact sameOutside_write w _ _
    by_cases h2 : fate = .pxd
    · rw [if_pos h2]
      exact ⟨fun _ => ⟨hl1, fun _ => hk1⟩, fun h => (nomatch h)⟩
    rw [if_neg h2]
    cases hpyx : w1.files.look (template conf t!"pyx") with
    | none => exact ⟨fun _ => ⟨hl1, fun _ => hk1⟩, fun h => (nomatch h)⟩
    | some pyx =>
      dsimp only
      generalize hw2 : w1.write (t!"build/cython_files/" ++ module_name P conf ++ t!".pyx") (gen pyx.content) = w2
      have hl2 : Later w w2 := hl1.trans (hw2 ▸ later_write w1 _ _)
      have hk2 : Keeps (module_name P conf) w w2 := hk1.trans (hw2 ▸ keeps_write (.inr (.inr rfl)) w1 _)
      have hs2 : SameOutside w1.files w2.files := by
        rw [← hw2, List.append_assoc]
        exact sameOutside_write w1 _ _
      have hs02 : SameOutside w0.files w2.files := hs.trans (hs1.trans hs2)
      by_cases h3 : (decide (fate = .cython) || decide (fate = .compile)) = true
      · rw [if_pos h3]
        exact ⟨fun _ => ⟨hl2, fun _ => hk2⟩, fun h => (nomatch h)⟩
      rw [if_neg h3]
      by_cases h4 : fate = .link
      · rw [if_pos h4]
        exact ⟨fun _ => ⟨hl2.trans (later_edits w2 during), fun h => by subst h; exact hk2⟩, fun h => (nomatch h)⟩
      rw [if_neg h4]
      refine ⟨fun h => (nomatch h), fun _ => ⟨w2.edits during, _, rfl, hl2.trans (later_edits w2 during), ?_, fun h => by subst h; exact ⟨rfl, hk2⟩⟩⟩
      obtain ⟨hinc, hdefs⟩ := collect_includes_spec hp.inc
      refine ⟨⟨pxd, ?_, ?_⟩, ⟨pyx, ?_, ?_⟩, ?_, hinc, fun c hc => ?_, rfl, ?_, fun h => ?_⟩
      · exact ((hs1.trans hs2) _ (outside_template conf _)).trans hpxd
      · rw [hinst]
      · exact (hs2 _ (outside_template conf _)).trans hpyx
      · rw [hinst]
      · exact (generate_cy_replace_congr hs02 conf).trans hp.cy
      · obtain ⟨x, hx, f, hf, hd⟩ := hdefs c hc
        exact ⟨x, hx, f, (hs02 _ (outside_include x)).trans hf, hd⟩
      · dsimp only
        rw [hs02 _ outside_cmake]
        exact hp.options
      · obtain ⟨f, hf, hc⟩ := hown h
        refine ⟨f, ?_, hc⟩
        show w2.files.look _ = _
        rw [← hw2, ← hw1]
        show Files.look (_ :: _ :: _) _ = _
        rw [look_cons, if_neg, look_cons, if_neg, hf]
        · unfold own_path
          intro h
          have := List.append_cancel_left h
          exact absurd this (by decide)
        · unfold own_path
          intro h
          have := List.append_cancel_left h
          exact absurd this (by decide)

/-! ## A call -/

/-- The ways a call can end. -/
inductive Outcome (P : Platform) (w : World) (conf : Config) (during : List (Text × Text)) : World × Option Object → Prop
  /-- an exception, before anything is built -/
  | fails (w' : World) (h : Later w w') (hk : during = [] → Keeps (module_name P conf) w w') : Outcome P w conf during (w', none)
  /-- nothing to build -/
  | current (inc : List Text) (hinc : collect_includes P w.files conf = some inc) (hn : outdated w conf inc (module_name P conf) = some false)
      (hown : conf.cpp_code.isEmpty = false → ∃ f, w.files.look (own_path (module_name P conf)) = some f ∧ f.content = conf.cpp_code) :
      Outcome P w conf during (importModule w (module_name P conf))
  /-- built -/
  | built (w2 : World) (o : Object) (inc cy : List Text) (hl : Later w w2) (hm : Made P conf inc cy o)
      (hu : during = [] → o.sources = w2.files ∧ Keeps (module_name P conf) w w2) :
      Outcome P w conf during (importModule (w2.writeShared (module_name P conf) o) (module_name P conf))

theorem includeClass_outcome (P : Platform) (w : World) (conf : Config) (fate : Fate) (during : List (Text × Text)) :
    Outcome P w conf during (includeClass P w conf fate during) := by
  unfold includeClass
  by_cases hc : (!consistent conf) = true
  · rw [if_pos hc]; exact .fails w (Later.refl w) (fun _ => Keeps.refl _ _)
  rw [if_neg hc]
  cases hop : P.options ((w.files.look t!"build/cmake_cython.cfg").map (·.content)) with
  | none => exact .fails w (Later.refl w) (fun _ => Keeps.refl _ _)
  | some options =>
    dsimp only
    cases hcy : generate_cy_replace P w.files conf with
    | none => exact .fails w (Later.refl w) (fun _ => Keeps.refl _ _)
    | some cy =>
      dsimp only
      cases hinc : collect_includes P w.files conf with
      | none => exact .fails w (Later.refl w) (fun _ => Keeps.refl _ _)
      | some inc =>
        dsimp only
        obtain ⟨hl, hs, hsame, hk, hown⟩ := own_code_spec w conf (module_name P conf)
        unfold need_compile
        dsimp only
        generalize hoc : own_code w conf (module_name P conf) = oc at *
        obtain ⟨w1, b⟩ := oc
        dsimp only at *
        -- the compilation
        have hbuild : Outcome P w conf during (match build P w1 conf options inc cy fate during with
            | (w, none) => (w, none)
            | (w, some ()) => importModule w (module_name P conf)) := by
          obtain ⟨hb1, hb2⟩ := build_spec P w w1 conf options inc cy fate during ⟨hop, hcy, hinc⟩ hs hown
          generalize build P w1 conf options inc cy fate during = r at *
          obtain ⟨w3, _ | ⟨⟨⟩⟩⟩ := r
          · exact .fails w3 (hl.trans (hb1 rfl).1) (fun h => hk.trans ((hb1 rfl).2 h))
          · obtain ⟨w2, o, h1, h2, h3, h4⟩ := hb2 rfl
            dsimp only at h1 ⊢
            rw [h1]
            exact .built w2 o inc cy (hl.trans h2) h3 (fun h => ⟨(h4 h).1, hk.trans (h4 h).2⟩)
        cases b with
        | true => exact hbuild
        | false =>
          obtain rfl := hsame rfl
          simp only [Bool.false_eq_true, if_false]
          cases ho : outdated w1 conf inc (module_name P conf) with
          | none => exact .fails w1 hl (fun _ => hk)
          | some b =>
            cases b with
            | true => exact hbuild
            | false => exact .current inc hinc ho hown

/-! ## Invariants -/

/-- All shared objects and all loaded modules have been built for the class their name stands for. -/
def AllMade (P : Platform) (w : World) : Prop :=
  (∀ e ∈ w.shared, ∃ conf inc cy, Made P conf inc cy e.2.1 ∧ module_name P conf = e.1) ∧
  ∀ e ∈ w.modules, ∃ conf inc cy, Made P conf inc cy e.2 ∧ module_name P conf = e.1

theorem so_mem {w : World} {name : Text} {o : Object} {t : Nat} (h : w.so name = some (o, t)) : (name, o, t) ∈ w.shared := by
  unfold World.so at h
  obtain ⟨e, he, hh⟩ := Option.map_eq_some_iff.mp h
  have h1 := List.find?_some he
  have h2 := List.mem_of_find?_eq_some he
  simp only [decide_eq_true_eq] at h1
  subst h1
  rw [← hh]
  exact h2

theorem loaded_mem {w : World} {name : Text} {o : Object} (h : w.loaded name = some o) : (name, o) ∈ w.modules := by
  unfold World.loaded at h
  obtain ⟨e, he, hh⟩ := Option.map_eq_some_iff.mp h
  have h1 := List.find?_some he
  have h2 := List.mem_of_find?_eq_some he
  simp only [decide_eq_true_eq] at h1
  subst h1
  rw [← hh]
  exact h2

theorem AllMade.later {P : Platform} {w w' : World} (h : AllMade P w) (hl : Later w w') : AllMade P w' := by
  unfold AllMade
  rw [hl.shared, hl.modules]
  exact h

theorem AllMade.writeShared {P : Platform} {w : World} (h : AllMade P w) {conf : Config} {inc cy : List Text} {o : Object} (hm : Made P conf inc cy o) :
    AllMade P (w.writeShared (module_name P conf) o) := by
  refine ⟨fun e he => ?_, h.2⟩
  rcases List.mem_cons.mp he with rfl | he
  · exact ⟨conf, inc, cy, hm, rfl⟩
  · exact h.1 e he

theorem AllMade.importModule {P : Platform} {w : World} (h : AllMade P w) (name : Text) : AllMade P (importModule w name).1 ∧
    ∀ o, (importModule w name).2 = some o → ∃ conf inc cy, Made P conf inc cy o ∧ module_name P conf = name := by
  unfold Import.importModule
  cases hl : w.loaded name with
  | some o => exact ⟨h, fun o' ho => by obtain rfl := Option.some.inj ho; exact h.2 _ (loaded_mem hl)⟩
  | none =>
    cases hs : w.so name with
    | none => exact ⟨h, fun _ ho => (nomatch ho)⟩
    | some ot =>
      obtain ⟨o, t⟩ := ot
      have h1 := h.1 _ (so_mem hs)
      refine ⟨⟨h.1, fun e he => ?_⟩, fun o' ho => by obtain rfl := Option.some.inj ho; exact h1⟩
      rcases List.mem_cons.mp he with rfl | he
      · exact h1
      · exact h.2 e he

theorem AllMade.includeClass {P : Platform} {w : World} (h : AllMade P w) (conf : Config) (fate : Fate) (during : List (Text × Text)) :
    AllMade P (includeClass P w conf fate during).1 ∧
    ∀ o, (includeClass P w conf fate during).2 = some o → ∃ conf' inc cy, Made P conf' inc cy o ∧ module_name P conf' = module_name P conf := by
  have ho := includeClass_outcome P w conf fate during
  generalize Import.includeClass P w conf fate during = r at ho
  cases ho with
  | fails w' hl _ => exact ⟨h.later hl, fun _ ho => (nomatch ho)⟩
  | current inc _ _ _ => exact h.importModule _
  | built w2 o inc cy hl hm _ => exact ((h.later hl).writeShared hm).importModule _

theorem AllMade.step {P : Platform} {w : World} (h : AllMade P w) (e : Event) : AllMade P (step P w e) := by
  cases e with
  | edit p c => exact h.later (later_write w p c)
  | restore p c t => exact h
  | newProcess => exact ⟨h.1, fun e he => (nomatch he)⟩
  | includes conf fate during => exact (h.includeClass conf fate during).1

theorem AllMade.run {P : Platform} (h : List Event) {w : World} (hw : AllMade P w) : AllMade P (run P w h) := by
  induction h generalizing w with
  | nil => exact hw
  | cons e h ih => exact ih (hw.step e)

theorem allMade_init {P : Platform} {w : World} (h : NothingBuilt w) : AllMade P w := by
  unfold AllMade
  rw [h.1, h.2]
  exact ⟨fun e he => (nomatch he), fun e he => (nomatch he)⟩

/-- Files which are not newer than a shared object have not changed since it was built. -/
def Timely (w : World) : Prop :=
  ∀ e ∈ w.shared, e.2.2 ≤ w.clock ∧ (∀ q f, w.files.look q = some f → f.mtime ≤ e.2.2 → e.2.1.sources.look q = some f) ∧
    ∀ q, w.files.look q = none → e.2.1.sources.look q = none

theorem Timely.later {w w' : World} (h : Timely w) (hl : Later w w') : Timely w' := by
  intro e he
  rw [hl.shared] at he
  obtain ⟨h1, h2, h3⟩ := h e he
  exact ⟨h1.trans hl.clock, fun q f hf hm => h2 q f (hl.old q f hf (hm.trans h1)) hm, fun q hq => h3 q (hl.gone q hq)⟩

theorem Timely.writeShared {w : World} (h : Timely w) (name : Text) {o : Object} (ho : o.sources = w.files) : Timely (w.writeShared name o) := by
  intro e he
  rcases List.mem_cons.mp he with rfl | he
  · exact ⟨le_rfl, fun q f hf _ => ho ▸ hf, fun q hq => ho ▸ hq⟩
  · obtain ⟨h1, h2, h3⟩ := h e he
    exact ⟨h1.trans (Nat.le_succ _), h2, h3⟩

theorem importModule_same (w : World) (name : Text) : (importModule w name).1.shared = w.shared ∧ (importModule w name).1.files = w.files ∧
    (importModule w name).1.clock = w.clock := by
  unfold importModule
  cases w.loaded name with
  | some o => exact ⟨rfl, rfl, rfl⟩
  | none =>
    cases w.so name with
    | none => exact ⟨rfl, rfl, rfl⟩
    | some ot => exact ⟨rfl, rfl, rfl⟩

theorem Timely.importModule {w : World} (h : Timely w) (name : Text) : Timely (importModule w name).1 := by
  obtain ⟨h1, h2, h3⟩ := importModule_same w name
  unfold Timely
  rw [h1, h2, h3]
  exact h

theorem Timely.step {P : Platform} {w : World} (h : Timely w) {e : Event} (he : Undisturbed e) : Timely (step P w e) := by
  cases e with
  | edit p c => exact h.later (later_write w p c)
  | restore p c t => exact he.elim
  | newProcess => exact h
  | includes conf fate during =>
    show Timely (Import.includeClass P w conf fate during).1
    have ho := includeClass_outcome P w conf fate during
    generalize Import.includeClass P w conf fate during = r at ho
    cases ho with
    | fails w' hl _ => exact h.later hl
    | current inc _ _ _ => exact h.importModule _
    | built w2 o inc cy hl hm hu => exact ((h.later hl).writeShared _ (hu he).1).importModule _

theorem Timely.run {P : Platform} (h : List Event) {w : World} (hw : Timely w) (hu : ∀ e ∈ h, Undisturbed e) : Timely (run P w h) := by
  induction h generalizing w with
  | nil => exact hw
  | cons e h ih => exact ih (hw.step (hu e (by simp))) (fun e' he' => hu e' (by simp [he']))

/-! ## What is checked -/

theorem outdated_false {w : World} {conf : Config} {inc : List Text} {name : Text} (h : outdated w conf inc name = some false) : ∃ o t, w.so name = some (o, t) ∧
    (∀ f, w.files.look t!"build/cmake_cython.cfg" = some f → f.mtime ≤ t) ∧
    (∀ e ∈ [t!"pxd", t!"pyx", t!"cfg"], ∃ f, w.files.look (template conf e) = some f ∧ f.mtime ≤ t) ∧
    ∀ x, Needed w.files (hxxFiles inc) x → ∃ f, Found w.files x f ∧ f.mtime ≤ t := by
  unfold outdated at h
  cases hso : w.so name with
  | none => rw [hso] at h; cases h
  | some ot =>
    obtain ⟨o, t⟩ := ot
    rw [hso] at h
    dsimp only at h
    cases hthis : w.files.look t!"import/HyperHDG/import_cxx/compile_prep.py" with
    | none => rw [hthis] at h; cases h
    | some this =>
      rw [hthis] at h
      simp only [Option.bind_eq_bind, Option.bind_some] at h
      split at h
      · cases h
      rename_i h1
      split at h
      · cases h
      rename_i h2
      cases hpxd : w.files.look (template conf t!"pxd") with
      | none => rw [hpxd] at h; cases h
      | some pxd =>
        rw [hpxd] at h
        simp only [Option.bind_some] at h
        split at h
        · cases h
        rename_i h3
        cases hpyx : w.files.look (template conf t!"pyx") with
        | none => rw [hpyx] at h; cases h
        | some pyx =>
          rw [hpyx] at h
          simp only [Option.bind_some] at h
          split at h
          · cases h
          rename_i h4
          cases hcfg : w.files.look (template conf t!"cfg") with
          | none => rw [hcfg] at h; cases h
          | some cfg =>
            rw [hcfg] at h
            simp only [Option.bind_some] at h
            split at h
            · cases h
            rename_i h5
            split at h
            · cases h
            refine ⟨o, t, rfl, fun f hf => ?_, fun e he => ?_, ?_⟩
            · rw [hf] at h2
              simpa using h2
            · simp only [List.mem_cons, List.not_mem_nil, or_false] at he
              rcases he with rfl | rfl | rfl
              · exact ⟨pxd, hpxd, by omega⟩
              · exact ⟨pyx, hpyx, by omega⟩
              · exact ⟨cfg, hcfg, by omega⟩
            · have hc := check_spec w.files (hxxFiles inc) t
              cases ha : need_compile_check_hy_files w.files (hxxFiles inc) t with
              | no =>
                rw [ha] at hc
                intro x hx
                obtain ⟨f, h1, h2, _⟩ := hc x hx
                exact ⟨f, h1, h2⟩
              | yes => rw [ha] at h; cases h
              | raises => rw [ha] at h; cases h
              | running => rw [ha] at h; cases h

theorem importModule_fresh {w : World} {name : Text} (h : w.loaded name = none) {o : Object} (ho : (importModule w name).2 = some o) : ∃ t, w.so name = some (o, t) := by
  unfold importModule at ho
  rw [h] at ho
  dsimp only at ho
  cases hs : w.so name with
  | none => rw [hs] at ho; cases ho
  | some ot =>
    rw [hs] at ho
    obtain rfl := Option.some.inj ho
    exact ⟨ot.2, rfl⟩

theorem so_writeShared (w : World) (name : Text) (o : Object) : (w.writeShared name o).so name = some (o, w.clock + 1) := by
  simp [World.so, World.writeShared]

/-- In a process which has not loaded the module, the result is up to date with all checked files. -/
theorem includeClass_fresh {P : Platform} {w : World} (hw : Timely w) {conf : Config} {fate : Fate} {o : Object} {w' : World}
    (hload : w.loaded (module_name P conf) = none) (h : includeClass P w conf fate [] = (w', some o)) :
    SameContent o.sources w'.files t!"build/cmake_cython.cfg" ∧ (∀ e ∈ [t!"pxd", t!"pyx", t!"cfg"], SameContent o.sources w'.files (template conf e)) ∧
    ∀ inc, collect_includes P w.files conf = some inc → ∀ x f, Needed w'.files (hxxFiles inc) x → Found w'.files x f → Found o.sources x f := by
  have ho := includeClass_outcome P w conf fate []
  rw [h] at ho
  generalize hr : (w', some o) = r at ho
  cases ho with
  | fails w' hl _ => cases hr
  | current inc hinc hn _ =>
    have hw' : w'.files = w.files := by
      have := congrArg (fun r => r.1.files) hr
      exact this.trans (importModule_same w _).2.1
    obtain ⟨o', t, hso, h1, h2, h3⟩ := outdated_false hn
    have hob : (importModule w (module_name P conf)).2 = some o := (congrArg Prod.snd hr).symm
    obtain ⟨t', hso'⟩ := importModule_fresh hload hob
    rw [hso] at hso'
    obtain ⟨rfl, rfl⟩ := Prod.mk.inj (Option.some.inj hso')
    obtain ⟨_, h4, h5⟩ := hw _ (so_mem hso)
    dsimp only at h4 h5
    unfold SameContent
    rw [hw']
    refine ⟨?_, fun e he => ?_, fun inc' hinc' x f hn hf => ?_⟩
    · cases hl : w.files.look t!"build/cmake_cython.cfg" with
      | none => rw [h5 _ hl]
      | some f => rw [h4 _ f hl (h1 f hl)]
    · obtain ⟨f, hf, hm⟩ := h2 e he
      rw [hf, h4 _ f hf hm]
    · obtain rfl : inc = inc' := Option.some.inj (hinc.symm.trans hinc')
      obtain ⟨g, hg, hm⟩ := h3 x hn
      obtain rfl := found_unique hf hg
      rcases hf with hf | ⟨hf1, hf2⟩
      · exact .inl (h4 _ _ hf hm)
      · exact .inr ⟨h5 _ hf1, h4 _ _ hf2 hm⟩
  | built w2 o' inc cy hl hm hu =>
    have hl' : (w2.writeShared (module_name P conf) o').loaded (module_name P conf) = none := by
      unfold World.loaded World.writeShared
      dsimp only
      rw [hl.modules]
      exact hload
    have hob : (importModule (w2.writeShared (module_name P conf) o') (module_name P conf)).2 = some o := (congrArg Prod.snd hr).symm
    obtain ⟨t', hso'⟩ := importModule_fresh hl' hob
    rw [so_writeShared] at hso'
    obtain ⟨rfl, _⟩ := Prod.mk.inj (Option.some.inj hso')
    have hw' : w'.files = w2.files := by
      have := congrArg (fun r => r.1.files) hr
      exact this.trans (importModule_same _ _).2.1
    rw [hw', (hu rfl).1]
    exact ⟨rfl, fun _ _ => rfl, fun _ _ _ _ _ hf => hf⟩

/-! ## Own code over histories -/

theorem own_path_inj {a b : Text} (h : own_path a = own_path b) : a = b := by
  unfold own_path at h
  exact List.append_cancel_left (List.append_cancel_right h)

theorem own_not_generated {a b : Text} (h : a ≠ b) : ¬ Generated a (own_path b) := by
  have key : ∀ e : Text, e.length = 4 → e ≠ t!".hxx" → own_path b ≠ t!"build/cython_files/" ++ a ++ e := by
    intro e he hne hq
    unfold own_path at hq
    exact hne (List.append_inj_right' hq (by simp [he])).symm
  rintro (hq | hq | hq)
  · exact h (own_path_inj hq).symm
  · exact key _ rfl (by decide) hq
  · exact key _ rfl (by decide) hq

/-- The shared object of the module has been compiled with the own code in the file. -/
def OwnCurrent (P : Platform) (name : Text) (w : World) : Prop :=
  ∀ o t, w.so name = some (o, t) → SameContent o.sources w.files (own_path name) ∧ ∃ conf inc cy, Made P conf inc cy o ∧ module_name P conf = name ∧ conf.cpp_code ≠ []

theorem so_later {w w' : World} (h : Later w w') (name : Text) : w'.so name = w.so name := by
  unfold World.so
  rw [h.shared]

theorem so_import (w : World) (a name : Text) : (importModule w a).1.so name = w.so name := by
  unfold World.so
  rw [(importModule_same w a).1]

theorem OwnCurrent.import {P : Platform} {name : Text} {w : World} (h : OwnCurrent P name w) (a : Text) : OwnCurrent P name (importModule w a).1 := by
  intro o t hs
  rw [so_import] at hs
  rw [(importModule_same w a).2.1]
  exact h o t hs

theorem so_writeShared_ne {w : World} {a b : Text} (o : Object) (h : a ≠ b) : (w.writeShared a o).so b = w.so b := by
  simp [World.so, World.writeShared, h]

theorem OwnCurrent.run {P : Platform} {name : Text} (h : List Event) {w : World} (hw : OwnCurrent P name w) (ho : Orderly P name w h) : OwnCurrent P name (run P w h) := by
  induction h generalizing w with
  | nil => exact hw
  | cons e h ih =>
    obtain ⟨he, hrest⟩ := ho
    refine ih ?_ hrest
    cases e with
    | edit p c =>
      intro o t hs
      obtain ⟨h1, h2⟩ := hw o t ((so_later (later_write w p c) name) ▸ hs)
      refine ⟨?_, h2⟩
      unfold SameContent at h1 ⊢
      rw [h1]
      show _ = Option.map _ (Files.look (_ :: _) _)
      rw [look_cons, if_neg he]
    | restore p c t => exact he.elim
    | newProcess => exact hw
    | includes conf fate during =>
      obtain ⟨rfl, he⟩ := he
      show OwnCurrent P name (Import.includeClass P w conf fate []).1
      have hout := includeClass_outcome P w conf fate []
      generalize Import.includeClass P w conf fate [] = r at hout he
      cases hout with
      | fails w' hl hk =>
        have hne : module_name P conf ≠ name := fun h => (he h).2 rfl
        intro o t hs
        rw [so_later hl] at hs
        obtain ⟨h1, h2⟩ := hw o t hs
        refine ⟨?_, h2⟩
        unfold SameContent at h1 ⊢
        rw [h1, hk rfl _ (own_not_generated hne)]
      | current inc _ _ _ => exact hw.import _
      | built w2 o' inc cy hl hm hu =>
        refine OwnCurrent.import ?_ _
        obtain ⟨hu1, hk⟩ := hu rfl
        intro o t hs
        by_cases hne : module_name P conf = name
        · subst hne
          rw [so_writeShared] at hs
          obtain ⟨rfl, _⟩ := Prod.mk.inj (Option.some.inj hs)
          refine ⟨?_, conf, inc, cy, hm, rfl, (he rfl).1⟩
          unfold SameContent
          rw [hu1]
          rfl
        · rw [so_writeShared_ne _ hne, so_later hl] at hs
          obtain ⟨h1, h2⟩ := hw o t hs
          refine ⟨?_, h2⟩
          unfold SameContent at h1 ⊢
          rw [h1]
          show _ = Option.map _ (w2.files.look _)
          rw [hk _ (own_not_generated hne)]

theorem includeClass_own {P : Platform} {w : World} {conf : Config} (hw : OwnCurrent P (module_name P conf) w) (hc : conf.cpp_code ≠ []) {fate : Fate} {o : Object} {w' : World}
    (hload : w.loaded (module_name P conf) = none) (h : includeClass P w conf fate [] = (w', some o)) :
    ∃ conf' inc cy, Made P conf' inc cy o ∧ module_name P conf' = module_name P conf ∧ conf'.cpp_code = conf.cpp_code := by
  have hout := includeClass_outcome P w conf fate []
  rw [h] at hout
  generalize hr : (w', some o) = r at hout
  cases hout with
  | fails w' hl _ => cases hr
  | current inc hinc hn hown =>
    obtain ⟨t, hso⟩ := importModule_fresh hload (congrArg Prod.snd hr).symm
    obtain ⟨h1, conf', inc', cy', hm, hname, hc'⟩ := hw o t hso
    refine ⟨conf', inc', cy', hm, hname, ?_⟩
    obtain ⟨f, hf, hfc⟩ := hown (by simpa using hc)
    obtain ⟨g, hg, hgc⟩ := hm.own (by simpa using hc')
    unfold SameContent at h1
    rw [hname] at hg
    rw [hf, hg] at h1
    rw [← hgc, ← hfc]
    exact Option.some.inj h1
  | built w2 o' inc cy hl hm hu =>
    have hl' : (w2.writeShared (module_name P conf) o').loaded (module_name P conf) = none := by
      unfold World.loaded World.writeShared
      dsimp only
      rw [hl.modules]
      exact hload
    obtain ⟨t', hso'⟩ := importModule_fresh hl' (congrArg Prod.snd hr).symm
    rw [so_writeShared] at hso'
    obtain ⟨rfl, _⟩ := Prod.mk.inj (Option.some.inj hso')
    exact ⟨conf, inc, cy, hm, rfl, rfl⟩

/-! ## Names -/

theorem plain_hash {hash : Text → Text} (h : GoodHash hash) (s : Text) : plain (t!"mod" ++ hash s) = t!"mod" ++ hash s := by
  unfold plain
  rw [List.map_append]
  congr 1
  conv_rhs => rw [← List.map_id (hash s)]
  refine List.map_congr_left fun c hc => ?_
  rw [if_neg, id]
  intro hm
  have hc' := h.hex s c hc
  have : ∀ c ∈ t!"+-*/<>,:", ¬ (c.isDigit = true ∨ c.isLower = true) := by decide
  exact this c (by simpa using hm) hc'

theorem module_name_eq {P : Platform} (h : GoodHash P.hash) {conf conf' : Config} (he : module_name P conf' = module_name P conf) :
    SameButSpaces (cpp_class conf') (cpp_class conf) ∧ conf'.debug_mode = conf.debug_mode := by
  unfold module_name at he
  dsimp only at he
  rw [plain_hash h, plain_hash h] at he
  have h1 := h.injective _ _ (List.append_cancel_left he)
  unfold SameButSpaces
  cases hd' : conf'.debug_mode <;> cases hd : conf.debug_mode <;> rw [hd', hd] at h1 <;> simp only [if_true, Bool.false_eq_true, if_false, List.filter_append] at h1
  · exact ⟨List.append_cancel_right h1, rfl⟩
  · exact absurd (List.append_inj_right' h1 (by decide)) (by decide)
  · exact absurd (List.append_inj_right' h1 (by decide)) (by decide)
  · exact ⟨List.append_cancel_right h1, rfl⟩

end HyperHDG.Import

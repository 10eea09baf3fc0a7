import Verif.Proofs.ImportHistory
import Verif.Proofs.ImportNames
import Verif.Proofs.ImportExample

/-!
# C83, C84, C85, C86: importing classes from Python
-/

namespace HyperHDG.Import

open Spec.Import

/-! ## C83: which changes are noticed -/

/-- **C83**.  Let any files with any `#include` lines be given, also with cycles.  The check whether the headers have changed comes to an end. -/
theorem C83_ends (fs : Files) (roots : List Text) (t : Nat) : need_compile_check_hy_files fs roots t ≠ .running := by
  intro h
  have := check_spec fs roots t
  rw [h] at this
  exact this

/-- **C83**.  It says "no compilation needed" if and only if all headers of the library which are included, directly or indirectly, exist and are not newer than the
shared object (and can be scanned). -/
theorem C83_no_iff (fs : Files) (roots : List Text) (t : Nat) :
    need_compile_check_hy_files fs roots t = .no ↔ ∀ x, Needed fs roots x → ∃ f, Found fs x f ∧ f.mtime ≤ t ∧ Closed f.content := by
  have h := check_spec fs roots t
  constructor
  · intro ha
    rw [ha] at h
    exact h
  · intro hall
    cases ha : need_compile_check_hy_files fs roots t with
    | no => rfl
    | running => rw [ha] at h; exact h.elim
    | yes =>
      rw [ha] at h
      obtain ⟨x, f, h1, h2, h3⟩ := h
      obtain ⟨g, h4, h5, _⟩ := hall x h1
      rw [found_unique h2 h4] at h3
      omega
    | raises =>
      rw [ha] at h
      obtain ⟨x, h1, h2⟩ := h
      obtain ⟨g, h4, _, h6⟩ := hall x h1
      rcases h2 with h2 | ⟨f, h2, h3⟩
      · exact absurd h4 (h2 g)
      · rw [found_unique h2 h4] at h3
        exact absurd h6 h3

/-- **C83**.  If all these headers exist and can be scanned, it says "compilation needed" if and only if one of them is newer than the shared object. -/
theorem C83_yes_iff (fs : Files) (roots : List Text) (t : Nat) (hall : ∀ x, Needed fs roots x → ∃ f, Found fs x f ∧ Closed f.content) :
    need_compile_check_hy_files fs roots t = .yes ↔ ∃ x f, Needed fs roots x ∧ Found fs x f ∧ t < f.mtime := by
  have h := check_spec fs roots t
  constructor
  · intro ha
    rw [ha] at h
    exact h
  · rintro ⟨x, f, h1, h2, h3⟩
    cases ha : need_compile_check_hy_files fs roots t with
    | yes => rfl
    | running => rw [ha] at h; exact h.elim
    | no =>
      rw [ha] at h
      obtain ⟨g, h4, h5, _⟩ := h x h1
      rw [found_unique h2 h4] at h3
      omega
    | raises =>
      rw [ha] at h
      obtain ⟨y, h4, h5⟩ := h
      obtain ⟨g, h6, h7⟩ := hall y h4
      rcases h5 with h5 | ⟨f', h5, h8⟩
      · exact absurd h6 (h5 g)
      · rw [found_unique h5 h6] at h8
        exact absurd h7 h8

/-- A cycle of headers, the second of which has been changed. -/
example : need_compile_check_hy_files [(t!"include/HyperHDG/a", ⟨t!"#include <HyperHDG/b>", 1⟩), (t!"HyperHDG/b", ⟨t!"#include <HyperHDG/a>\n", 3⟩)]
    [t!"HyperHDG/a"] 2 = .yes ∧
    need_compile_check_hy_files [(t!"include/HyperHDG/a", ⟨t!"#include <HyperHDG/b>", 1⟩), (t!"HyperHDG/b", ⟨t!"#include <HyperHDG/a>\n", 2⟩)]
    [t!"HyperHDG/a"] 2 = .no := by decide +kernel

/-! ## C84: the class which is returned -/

/-- **C84**.  Let anything happen on the computer: classes are included with any configurations, in any number of processes; commands fail or processes stop in any
place; files are changed at any time, also while the compiler runs.  Suppose the hash function has no collisions.  If `include(conf)` returns a class then this comes from
a program which has been generated and compiled for a configuration with the same C++ class (up to spaces) and the same debug mode. -/
theorem C84_requested_class (P : Platform) (hP : GoodHash P.hash) (w : World) (hw : NothingBuilt w) (h : List Event) (conf : Config) (fate : Fate)
    (during : List (Text × Text)) (o : Object) (ho : (includeClass P (run P w h) conf fate during).2 = some o) :
    ∃ conf' inc cy, Made P conf' inc cy o ∧ SameButSpaces (cpp_class conf') (cpp_class conf) ∧ conf'.debug_mode = conf.debug_mode := by
  obtain ⟨conf', inc, cy, h1, h2⟩ := (AllMade.includeClass (AllMade.run h (allMade_init hw)) conf fate during).2 o ho
  exact ⟨conf', inc, cy, h1, module_name_eq hP h2⟩

/-- **C84**.  In particular assertions are active if and only if the debug mode has been asked for. -/
theorem C84_mode (P : Platform) (hP : GoodHash P.hash) (w : World) (hw : NothingBuilt w) (h : List Event) (conf : Config) (fate : Fate)
    (during : List (Text × Text)) (o : Object) (ho : (includeClass P (run P w h) conf fate during).2 = some o) : o.ndebug = !conf.debug_mode := by
  obtain ⟨conf', inc, cy, h1, _, h2⟩ := C84_requested_class P hP w hw h conf fate during o ho
  rw [h1.ndebug, h2]

/-- **C84**.  Different classes, or different modes, never share a module. -/
theorem C84_names (P : Platform) (hP : GoodHash P.hash) (conf conf' : Config) :
    module_name P conf = module_name P conf' ↔ SameButSpaces (cpp_class conf) (cpp_class conf') ∧ conf.debug_mode = conf'.debug_mode := by
  refine ⟨module_name_eq hP, fun ⟨h1, h2⟩ => ?_⟩
  unfold SameButSpaces at h1
  unfold module_name
  dsimp only
  rw [h2]
  cases conf'.debug_mode <;> simp only [Bool.false_eq_true, if_false, if_true, List.filter_append, h1]

/-! ## C85: the class is up to date -/

/-- **C85** (partial).  Suppose that no files are changed while the compiler runs, that each file carries the time of its last change, and that this process has not loaded
the module before.  If `include(conf)` returns a class then the options, the templates, and all headers which belong to the classes of `conf` and are included there, have
the contents which they had when the returned class was compiled.

Missing: see the theorems below for processes which have loaded the module, own code, replacements, files changed during a compilation and files with old times. -/
theorem C85_up_to_date_partial (P : Platform) (w : World) (hw : NothingBuilt w) (h : List Event) (hu : ∀ e ∈ h, Undisturbed e) (conf : Config) (fate : Fate)
    (hload : (run P w h).loaded (module_name P conf) = none) (o : Object) (w' : World) (ho : includeClass P (run P w h) conf fate [] = (w', some o)) :
    SameContent o.sources w'.files t!"build/cmake_cython.cfg" ∧
    (∀ e ∈ [t!"pxd", t!"pyx", t!"cfg"], SameContent o.sources w'.files (template conf e)) ∧
    ∀ inc, collect_includes P (run P w h).files conf = some inc → ∀ x f, Needed w'.files (hxxFiles inc) x → Found w'.files x f → Found o.sources x f := by
  refine includeClass_fresh (Timely.run h ?_ hu) hload ho
  unfold Timely
  rw [hw.1]
  exact fun e he => (nomatch he)

/-- **C85** (partial), own code.  Suppose that before, all calls for this class and mode had own code and returned a class, no files were changed while the compiler ran, and this
process has not loaded the module.  If `include(conf)`, with own code, returns a class then this has been compiled for the same C++ class and mode with the own code of `conf`. -/
theorem C85_own_code_partial (P : Platform) (hP : GoodHash P.hash) (w : World) (hw : NothingBuilt w) (h : List Event) (conf : Config) (hu : Orderly P (module_name P conf) w h)
    (hc : conf.cpp_code ≠ []) (fate : Fate) (hload : (run P w h).loaded (module_name P conf) = none) (o : Object) (w' : World)
    (ho : includeClass P (run P w h) conf fate [] = (w', some o)) :
    ∃ conf' inc cy, Made P conf' inc cy o ∧ SameButSpaces (cpp_class conf') (cpp_class conf) ∧ conf'.debug_mode = conf.debug_mode ∧ conf'.cpp_code = conf.cpp_code := by
  have hinit : OwnCurrent P (module_name P conf) w := by
    intro o t hs
    unfold World.so at hs
    rw [hw.1] at hs
    cases hs
  obtain ⟨conf', inc, cy, h1, h2, h3⟩ := includeClass_own (OwnCurrent.run h hinit hu) hc hload ho
  exact ⟨conf', inc, cy, h1, (module_name_eq hP h2).1, (module_name_eq hP h2).2, h3⟩

/-- **C85** (partial).  A module which a new process gets is the one last linked: the module is loaded from the shared object. -/
theorem C85_new_process (P : Platform) (w : World) (h : List Event) (conf : Config) : (run P w (h ++ [.newProcess])).loaded (module_name P conf) = none := by
  unfold run
  rw [List.foldl_append]
  rfl

section Witnesses

open Example

/-- The contents of a file when the object was compiled. -/
def Object.contents (o : Object) (path : Text) : Option Text := (o.sources.look path).map (·.content)

/-- The hypotheses can be met, and the change of a header which is included indirectly is noticed. -/
example : ((includeClass P0 (run P0 w0 [.includes c0 .done [], .edit t!"include/HyperHDG/b.hxx" t!"new", .newProcess]) c0 .done []).2.map fun o =>
    o.contents t!"include/HyperHDG/b.hxx") = some (some t!"new") := by decide +kernel

/-- The hypotheses for own code can be met: own code, then other own code in a new process. -/
example : Orderly P0 (module_name P0 { c0 with cpp_code := t!"2" }) w0 [.includes { c0 with cpp_code := t!"1" } .done [], .newProcess] ∧
    (includeClass P0 (run P0 w0 [.includes { c0 with cpp_code := t!"1" } .done [], .newProcess]) { c0 with cpp_code := t!"2" } .done []).2.map
      (fun o => o.contents (own_path (module_name P0 { c0 with cpp_code := t!"2" }))) = some (some t!"2") := by
  refine ⟨⟨⟨rfl, fun _ => ⟨by simp, ?_⟩⟩, True.intro, True.intro⟩, by decide +kernel⟩
  have h : (includeClass P0 w0 { c0 with cpp_code := t!"1" } .done []).2.isSome = true := by decide +kernel
  intro hn
  rw [hn] at h
  cases h

/-- **C85**, limit.  In one and the same process a class is not renewed: after the change of a header the program is compiled again, but the old class is returned. -/
theorem C85_same_process_not_updated : ∃ (P : Platform) (w : World) (h : List Event) (conf : Config) (o : Object), GoodHash P.hash ∧ NothingBuilt w ∧
    (∀ e ∈ h, Undisturbed e) ∧ (includeClass P (run P w h) conf .done []).2 = some o ∧
    ∃ x, Needed (includeClass P (run P w h) conf .done []).1.files [t!"HyperHDG/geometry/a.hxx"] x ∧
      ¬ SameContent o.sources (includeClass P (run P w h) conf .done []).1.files (t!"include/" ++ x) := by
  have h1 : (includeClass P0 (run P0 w0 [.includes c0 .done [], .edit t!"include/HyperHDG/geometry/a.hxx" t!"\nclass G\n{ int x;"]) c0 .done []).2.map
      (fun o => o.contents t!"include/HyperHDG/geometry/a.hxx") = some (some t!"#include <HyperHDG/b.hxx>\nclass G\n{") := by decide +kernel
  have h2 : (((includeClass P0 (run P0 w0 [.includes c0 .done [], .edit t!"include/HyperHDG/geometry/a.hxx" t!"\nclass G\n{ int x;"]) c0 .done []).1.files.look
      t!"include/HyperHDG/geometry/a.hxx").map (·.content)) = some t!"\nclass G\n{ int x;" := by decide +kernel
  obtain ⟨o, ho, hc⟩ := some_of_map h1
  refine ⟨P0, w0, _, c0, o, hexHash_good, w0_nothing, ?_, ho, t!"HyperHDG/geometry/a.hxx", .root (by simp), ?_⟩
  · intro e he
    simp only [List.mem_cons, List.not_mem_nil, or_false] at he
    rcases he with rfl | rfl <;> first | exact True.intro | exact (rfl : ([] : List (Text × Text)) = [])
  · intro h
    have h3 : some t!"#include <HyperHDG/b.hxx>\nclass G\n{" = some t!"\nclass G\n{ int x;" := hc.symm.trans (h.trans h2)
    exact absurd h3 (by decide)

/-- **C85**, limit.  Other replacements (types of the arguments) are not noticed: the class returned has been compiled with those used before, also in a new process. -/
theorem C85_replacements_not_noticed : ∃ (P : Platform) (w : World) (h : List Event) (conf : Config) (o : Object), GoodHash P.hash ∧ NothingBuilt w ∧
    (∀ e ∈ h, Undisturbed e) ∧ (run P w h).loaded (module_name P conf) = none ∧ (includeClass P (run P w h) conf .done []).2 = some o ∧
    ¬ ∃ inc cy, Made P conf inc cy o := by
  have h1 : (includeClass P0 (run P0 w0 [.includes c0 .done [], .newProcess]) { c0 with cython_replacements := [t!"float"] } .done []).2.map
      (fun o => (o.pxd, o.contents t!"cython/e.pxd", (o.sources.look t!"cython/e.cfg").isSome)) = some (t!"double", some t!"CyReplace01", true) := by decide +kernel
  obtain ⟨o, ho, hc⟩ := some_of_map h1
  obtain ⟨hc1, hc2⟩ := Prod.mk.inj hc
  obtain ⟨hc2, hc3⟩ := Prod.mk.inj hc2
  refine ⟨P0, w0, _, { c0 with cython_replacements := [t!"float"] }, o, hexHash_good, w0_nothing, ?_, rfl, ho, ?_⟩
  · intro e he
    simp only [List.mem_cons, List.not_mem_nil, or_false] at he
    rcases he with rfl | rfl <;> first | exact True.intro | exact (rfl : ([] : List (Text × Text)) = [])
  · rintro ⟨inc, cy, hm⟩
    obtain ⟨f, hf, hp⟩ := hm.pxd
    have hcy := hm.cy
    have ht : template { c0 with cython_replacements := [t!"float"] } t!"pxd" = t!"cython/e.pxd" := by decide
    have ht' : template { c0 with cython_replacements := [t!"float"] } t!"cfg" = t!"cython/e.cfg" := by decide
    unfold generate_cy_replace at hcy
    rw [ht'] at hcy
    obtain ⟨g, hg⟩ := Option.isSome_iff_exists.mp hc3
    rw [hg] at hcy
    have hcy' : some [t!"float"] = some cy := hcy
    obtain rfl := Option.some.inj hcy'
    rw [ht] at hf
    unfold Object.contents at hc2
    rw [hf] at hc2
    have hc2 : f.content = t!"CyReplace01" := Option.some.inj hc2
    rw [hc2, hc1] at hp
    have hp' : t!"double" = t!"float" := hp
    exact absurd hp' (by decide)

/-- **C85**, limit.  A failed compilation is forgotten: new own code is written, the compilation fails, and then the same own code counts as compiled.  The class
returned in a new process has been compiled from the previous own code. -/
theorem C85_own_code_after_failure : ∃ (P : Platform) (w : World) (h : List Event) (conf : Config) (o : Object), GoodHash P.hash ∧ NothingBuilt w ∧
    (∀ e ∈ h, Undisturbed e) ∧ (run P w h).loaded (module_name P conf) = none ∧ (includeClass P (run P w h) conf .done []).2 = some o ∧
    ¬ ∃ inc cy, Made P conf inc cy o := by
  have h1 : (includeClass P0 (run P0 w0 [.includes { c0 with cpp_code := t!"1" } .done [], .includes { c0 with cpp_code := t!"2" } .compile [], .newProcess])
      { c0 with cpp_code := t!"2" } .done []).2.map (fun o => o.contents (own_path (module_name P0 { c0 with cpp_code := t!"2" }))) = some (some t!"1") := by decide +kernel
  obtain ⟨o, ho, hc⟩ := some_of_map h1
  refine ⟨P0, w0, _, { c0 with cpp_code := t!"2" }, o, hexHash_good, w0_nothing, ?_, rfl, ho, ?_⟩
  · intro e he
    simp only [List.mem_cons, List.not_mem_nil, or_false] at he
    rcases he with rfl | rfl | rfl <;> first | exact True.intro | exact (rfl : ([] : List (Text × Text)) = [])
  · rintro ⟨inc, cy, hm⟩
    obtain ⟨f, hf, hp⟩ := hm.own (by decide)
    unfold Object.contents at hc
    rw [hf] at hc
    have h3 : t!"2" = t!"1" := hp.symm.trans (Option.some.inj hc)
    exact absurd h3 (by decide)

/-- **C85**, limit.  Own code stays: after a class has been included with own code, the same class without own code is the one with own code.  (A computer with the
same files on which nothing has been built compiles another program.) -/
theorem C85_own_code_stays : ∃ (P : Platform) (w : World) (h : List Event) (conf : Config) (o o' : Object), GoodHash P.hash ∧ NothingBuilt w ∧
    (∀ e ∈ h, Undisturbed e) ∧ (run P w h).loaded (module_name P conf) = none ∧ conf.cpp_code = [] ∧ (includeClass P (run P w h) conf .done []).2 = some o ∧
    (includeClass P { run P w h with shared := [], modules := [] } conf .done []).2 = some o' ∧ o.pyx ≠ o'.pyx := by
  have h1 : (includeClass P0 (run P0 w0 [.includes { c0 with cpp_code := t!"1" } .done [], .newProcess]) c0 .done []).2.map
      (fun o => decide (o.pyx.length < 700)) = some false := by decide +kernel
  have h2 : (includeClass P0 { run P0 w0 [.includes { c0 with cpp_code := t!"1" } .done [], .newProcess] with shared := [], modules := [] } c0 .done []).2.map
      (fun o => decide (o.pyx.length < 700)) = some true := by decide +kernel
  obtain ⟨o, ho, hc⟩ := some_of_map h1
  obtain ⟨o', ho', hc'⟩ := some_of_map h2
  refine ⟨P0, w0, _, c0, o, o', hexHash_good, w0_nothing, ?_, rfl, rfl, ho, ho', ?_⟩
  · intro e he
    simp only [List.mem_cons, List.not_mem_nil, or_false] at he
    rcases he with rfl | rfl <;> first | exact True.intro | exact (rfl : ([] : List (Text × Text)) = [])
  · intro h
    rw [h, hc'] at hc
    cases hc

/-- **C85**, limit.  Headers which are included only by own code are not checked. -/
theorem C85_own_code_headers_not_checked : ∃ (P : Platform) (w : World) (h : List Event) (conf : Config) (o : Object) (x : Text), GoodHash P.hash ∧ NothingBuilt w ∧
    (∀ e ∈ h, Undisturbed e) ∧ (run P w h).loaded (module_name P conf) = none ∧ HasInclude conf.cpp_code x ∧
    (includeClass P (run P w h) conf .done []).2 = some o ∧ ¬ SameContent o.sources (includeClass P (run P w h) conf .done []).1.files (t!"include/" ++ x) := by
  have h1 : (includeClass P0 (run P0 w0 [.includes { c0 with cpp_code := t!"#include <HyperHDG/c.hxx>" } .done [], .edit t!"include/HyperHDG/c.hxx" t!"new",
      .newProcess]) { c0 with cpp_code := t!"#include <HyperHDG/c.hxx>" } .done []).2.map (fun o => o.contents t!"include/HyperHDG/c.hxx") = some (some []) := by
    decide +kernel
  have h2 : (((includeClass P0 (run P0 w0 [.includes { c0 with cpp_code := t!"#include <HyperHDG/c.hxx>" } .done [], .edit t!"include/HyperHDG/c.hxx" t!"new",
      .newProcess]) { c0 with cpp_code := t!"#include <HyperHDG/c.hxx>" } .done []).1.files.look t!"include/HyperHDG/c.hxx").map (·.content)) = some t!"new" := by
    decide +kernel
  obtain ⟨o, ho, hc⟩ := some_of_map h1
  refine ⟨P0, w0, _, { c0 with cpp_code := t!"#include <HyperHDG/c.hxx>" }, o, t!"HyperHDG/c.hxx", hexHash_good, w0_nothing, ?_, rfl, ⟨[], [], by decide, by decide, by decide⟩, ho, ?_⟩
  · intro e he
    simp only [List.mem_cons, List.not_mem_nil, or_false] at he
    rcases he with rfl | rfl | rfl <;> first | exact True.intro | exact (rfl : ([] : List (Text × Text)) = [])
  · intro h
    have h3 : some [] = some t!"new" := hc.symm.trans (h.trans h2)
    exact absurd h3 (by decide)

/-- **C85**, limit.  A header which is changed while the compiler runs is older than the shared object; the change is never noticed. -/
theorem C85_change_during_compilation : ∃ (P : Platform) (w : World) (h : List Event) (conf : Config) (o : Object), GoodHash P.hash ∧ NothingBuilt w ∧
    (run P w h).loaded (module_name P conf) = none ∧ (includeClass P (run P w h) conf .done []).2 = some o ∧
    ∃ x, Needed (includeClass P (run P w h) conf .done []).1.files [t!"HyperHDG/geometry/a.hxx"] x ∧
      ¬ SameContent o.sources (includeClass P (run P w h) conf .done []).1.files (t!"include/" ++ x) := by
  have h1 : (includeClass P0 (run P0 w0 [.includes c0 .done [(t!"include/HyperHDG/geometry/a.hxx", t!"\nclass G\n{ int x;")], .newProcess]) c0 .done []).2.map
      (fun o => o.contents t!"include/HyperHDG/geometry/a.hxx") = some (some t!"#include <HyperHDG/b.hxx>\nclass G\n{") := by decide +kernel
  have h2 : (((includeClass P0 (run P0 w0 [.includes c0 .done [(t!"include/HyperHDG/geometry/a.hxx", t!"\nclass G\n{ int x;")], .newProcess]) c0 .done []).1.files.look
      t!"include/HyperHDG/geometry/a.hxx").map (·.content)) = some t!"\nclass G\n{ int x;" := by decide +kernel
  obtain ⟨o, ho, hc⟩ := some_of_map h1
  refine ⟨P0, w0, _, c0, o, hexHash_good, w0_nothing, rfl, ho, t!"HyperHDG/geometry/a.hxx", .root (by simp), ?_⟩
  intro h
  have h3 : some t!"#include <HyperHDG/b.hxx>\nclass G\n{" = some t!"\nclass G\n{ int x;" := hc.symm.trans (h.trans h2)
  exact absurd h3 (by decide)

/-- **C85**, limit.  A header which is replaced by one with an old time (`cp -p`, an archive) is not noticed. -/
theorem C85_restored_file : ∃ (P : Platform) (w : World) (h : List Event) (conf : Config) (o : Object), GoodHash P.hash ∧ NothingBuilt w ∧
    (run P w h).loaded (module_name P conf) = none ∧ (includeClass P (run P w h) conf .done []).2 = some o ∧
    ∃ x, Needed (includeClass P (run P w h) conf .done []).1.files [t!"HyperHDG/geometry/a.hxx"] x ∧
      ¬ SameContent o.sources (includeClass P (run P w h) conf .done []).1.files (t!"include/" ++ x) := by
  have h1 : (includeClass P0 (run P0 w0 [.includes c0 .done [], .restore t!"include/HyperHDG/geometry/a.hxx" t!"\nclass G\n{ int x;" 0, .newProcess]) c0 .done []).2.map
      (fun o => o.contents t!"include/HyperHDG/geometry/a.hxx") = some (some t!"#include <HyperHDG/b.hxx>\nclass G\n{") := by decide +kernel
  have h2 : (((includeClass P0 (run P0 w0 [.includes c0 .done [], .restore t!"include/HyperHDG/geometry/a.hxx" t!"\nclass G\n{ int x;" 0, .newProcess]) c0 .done []).1.files.look
      t!"include/HyperHDG/geometry/a.hxx").map (·.content)) = some t!"\nclass G\n{ int x;" := by decide +kernel
  obtain ⟨o, ho, hc⟩ := some_of_map h1
  refine ⟨P0, w0, _, c0, o, hexHash_good, w0_nothing, rfl, ho, t!"HyperHDG/geometry/a.hxx", .root (by simp), ?_⟩
  intro h
  have h3 : some t!"#include <HyperHDG/b.hxx>\nclass G\n{" = some t!"\nclass G\n{ int x;" := hc.symm.trans (h.trans h2)
  exact absurd h3 (by decide)

end Witnesses

/-! ## C86: names -/

/-- **C86**.  A name which consists of words is turned into the words in lower case letters, with underscores in between. -/
theorem C86_template_name (ws : List Text) (h : ∀ w ∈ ws, CamelWord w) : cython_from_cpp ws.flatten = List.intercalate ['_'] (ws.map (·.map Char.toLower)) :=
  cython_from_cpp_words ws h

example : cython_from_cpp t!"ShiftedInverseEigenvalue" = t!"shifted_inverse_eigenvalue" := by decide

/-- **C86**.  The header which is found for a class is one of those in the folder and contains `class <name>` followed by `{` on the next line. -/
theorem C86_definition_found (P : Platform) (fs : Files) (folder classname x : Text) (h : find_definition P fs folder classname = some x) :
    x ∈ P.glob fs folder ∧ ∃ f, fs.look (t!"include/" ++ x) = some f ∧ (t!"\nclass " ++ classname ++ t!"\n{") <:+: f.content :=
  find_definition_spec h

/-- **C86**.  If a header in the folder contains this, one is found. -/
theorem C86_definition_exists (P : Platform) (fs : Files) (folder classname : Text)
    (h : ∃ x ∈ P.glob fs folder, ∃ f, fs.look (t!"include/" ++ x) = some f ∧ (t!"\nclass " ++ classname ++ t!"\n{") <:+: f.content) :
    find_definition P fs folder classname ≠ none := by
  obtain ⟨x, hx, f, hf, hc⟩ := h
  intro hn
  unfold find_definition at hn
  rw [List.find?_eq_none] at hn
  have := hn x hx
  rw [hf] at this
  exact this ((contains_iff _ _).mpr hc)

/-- **C86**, limit.  A class which is defined with the word `struct` is never found, although the code tries to look for it. -/
theorem C86_struct_not_found : ∃ (P : Platform) (fs : Files) (folder classname x : Text) (f : File), x ∈ P.glob fs folder ∧ fs.look (t!"include/" ++ x) = some f ∧
    (t!"\nstruct " ++ classname ++ t!"\n{") <:+: f.content ∧ find_definition P fs folder classname = none := by
  refine ⟨Example.P0, [(t!"include/HyperHDG/geometry/a.hxx", ⟨t!"\nstruct G\n{", 0⟩)], t!"geometry", t!"G", t!"HyperHDG/geometry/a.hxx", ⟨t!"\nstruct G\n{", 0⟩,
    by decide, by rfl, ⟨[], [], by decide⟩, by decide +kernel⟩

/-- **C86**.  The name of the class is what comes before the first `<` or space. -/
theorem C86_classname (name rest : Text) (h : ∀ c ∈ name, c ≠ '<' ∧ c ≠ ' ') (hr : rest = [] ∨ rest.head? = some '<' ∨ rest.head? = some ' ') :
    extract_classname (name ++ rest) = name := by
  unfold extract_classname
  induction name with
  | nil =>
    cases rest with
    | nil => rfl
    | cons c rest =>
      simp only [List.nil_append, List.takeWhile_cons]
      rw [if_neg]
      simp only [List.head?_cons, Option.some.injEq, reduceCtorEq, false_or] at hr
      rcases hr with rfl | rfl <;> decide
  | cons c name ih =>
    have hc := h c (by simp)
    simp only [List.cons_append, List.takeWhile_cons]
    rw [if_pos (by simp [hc.1, hc.2]), ih (fun d hd => h d (by simp [hd]))]

/-- **C86**.  Each replacement is the one given by the user, or the default one if none or an empty one is given; it is an error if there is none in either place. -/
theorem C86_replacements (P : Platform) (fs : Files) (conf : Config) (file : File) (cfg : CyConfig) (hf : fs.look (template conf t!"cfg") = some file)
    (hc : P.parse file.content = some cfg) : match generate_cy_replace P fs conf with
    | some l => l.length = cfg.n_replacements ∧ ∀ i < cfg.n_replacements, (∃ r, conf.cython_replacements[i]? = some r ∧ r ≠ [] ∧ l[i]? = some r) ∨
        ((conf.cython_replacements[i]? = none ∨ conf.cython_replacements[i]? = some []) ∧ l[i]? = cfg.replacement i ∧ cfg.replacement i ≠ none)
    | none => ∃ i < cfg.n_replacements, (conf.cython_replacements[i]? = none ∨ conf.cython_replacements[i]? = some []) ∧ cfg.replacement i = none := by
  have h := cy_replace_loop_spec cfg conf.cython_replacements cfg.n_replacements
  unfold generate_cy_replace
  rw [hf]
  simp only [Option.bind_eq_bind, Option.bind_some, hc]
  exact h

example : generate_cy_replace Example.P0 Example.files0 Example.c0 = some [t!"double"] := by decide

end HyperHDG.Import

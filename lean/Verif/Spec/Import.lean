import Verif.Model.Import

/-!
# Specification: importing compiled classes
-/

namespace HyperHDG.Spec.Import

open HyperHDG.Import

/-- The text contains `#include <name>` for a header `HyperHDG/…`. -/
def HasInclude (content name : Text) : Prop :=
  ∃ a b, content = a ++ t!"#include <" ++ name ++ t!">" ++ b ∧ t!"HyperHDG/" <+: name ∧ '>' ∉ name

/-- Each `#include <HyperHDG/` of the text is closed. -/
def Closed (content : Text) : Prop := ∀ a b, content = a ++ t!"#include <HyperHDG/" ++ b → '>' ∈ b

/-- The file which the compiler finds for the name of a header (`-Iinclude -I.`). -/
def Found (fs : Files) (x : Text) (f : File) : Prop :=
  fs.look (t!"include/" ++ x) = some f ∨ (fs.look (t!"include/" ++ x) = none ∧ fs.look x = some f)

/-- The headers of the library which are included by `roots`, directly or indirectly. -/
inductive Needed (fs : Files) (roots : List Text) : Text → Prop
  | root {x : Text} (h : x ∈ roots) : Needed fs roots x
  | step {x y : Text} {f : File} (h : Needed fs roots x) (hf : Found fs x f) (hi : HasInclude f.content y) : Needed fs roots y

/-- Two texts are the same but for spaces. -/
def SameButSpaces (s t : Text) : Prop := s.filter (· ≠ ' ') = t.filter (· ≠ ' ')

/-- The hash function has no collisions, and its values have only the letters and digits of hexadecimal numbers. -/
structure GoodHash (hash : Text → Text) : Prop where
  injective : ∀ s t, hash s = hash t → s = t
  hex : ∀ s, ∀ c ∈ hash s, c.isDigit ∨ c.isLower

/-- One of the included headers contains the definition of this class. -/
def Defined (fs : Files) (inc : List Text) (classname : Text) : Prop :=
  ∃ x ∈ inc, ∃ f, fs.look (t!"include/" ++ x) = some f ∧ (t!"\nclass " ++ classname ++ t!"\n{") <:+: f.content

/-- A shared object which has been built for the configuration `conf`, with the include files `inc` and the replacements `cy`, from the files it names as its sources. -/
structure Made (P : Platform) (conf : Config) (inc cy : List Text) (o : Object) : Prop where
  /-- the `.pxd` file is the template with class, names, include files and replacements filled in -/
  pxd : ∃ f, o.sources.look (template conf t!"pxd") = some f ∧
    o.pxd = instantiate (cpp_class conf) (cython_class P conf) (module_name P conf)
      (include_string inc (if conf.cpp_code.isEmpty then [] else own_path (module_name P conf))) cy f.content
  pyx : ∃ f, o.sources.look (template conf t!"pyx") = some f ∧
    o.pyx = instantiate (cpp_class conf) (cython_class P conf) (module_name P conf)
      (include_string inc (if conf.cpp_code.isEmpty then [] else own_path (module_name P conf))) cy f.content
  /-- the replacements are those of the configuration, or the default ones -/
  cy : generate_cy_replace P o.sources conf = some cy
  /-- the include files of the configuration are among them -/
  all : ∀ x ∈ conf.include_files, x ∈ inc
  /-- the headers which define the classes are among them -/
  defs : ∀ c ∈ [conf.geometry, conf.node_descriptor, conf.topology, conf.global_loop, conf.local_solver], Defined o.sources inc (extract_classname c)
  /-- assertions are compiled in if and only if this is a debug configuration -/
  ndebug : o.ndebug = !conf.debug_mode
  options : P.options ((o.sources.look t!"build/cmake_cython.cfg").map (·.content)) = some o.options
  /-- own code, if any, was in its place -/
  own : conf.cpp_code.isEmpty = false → ∃ f, o.sources.look (own_path (module_name P conf)) = some f ∧ f.content = conf.cpp_code

/-- A computer on which nothing has been compiled yet. -/
def NothingBuilt (w : World) : Prop := w.shared = [] ∧ w.modules = []

/-- No file is written by someone else while the compiler runs, and every file gets the time of its last change. -/
def Undisturbed : Event → Prop
  | .includes _ _ during => during = []
  | .restore _ _ _ => False
  | _ => True

/-- No call for the module `name` is without own code or ends with an exception, nobody else writes the file with its own code, and no files are written while the compiler
runs. -/
def Orderly (P : Platform) (name : Text) : World → List Event → Prop
  | _, [] => True
  | w, e :: h =>
    (match e with
      | .edit path _ => path ≠ own_path name
      | .restore _ _ _ => False
      | .newProcess => True
      | .includes conf fate during => during = [] ∧ (module_name P conf = name → conf.cpp_code ≠ [] ∧ (includeClass P w conf fate during).2 ≠ none)) ∧
    Orderly P name (step P w e) h

/-- The same contents are found under this path. -/
def SameContent (fs fs' : Files) (path : Text) : Prop := (fs.look path).map (·.content) = (fs'.look path).map (·.content)

/-- A word of a name like `MassApproxEigenvalue`: an upper case letter and at least one lower case letter. -/
def CamelWord (w : Text) : Prop := ∃ u ls, w = u :: ls ∧ u.isUpper = true ∧ ls ≠ [] ∧ ∀ c ∈ ls, c.isLower = true

end HyperHDG.Spec.Import

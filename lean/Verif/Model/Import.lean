/-!
# Compiling and importing classes from Python

Model of `import/HyperHDG/import_cxx`: `names.py`, `cpp.py`, `config.py`, `compile_prep.py`, `include.py`, and of the part of `cmake.py` which they use.

Texts are lists of characters.  A Python exception (failed `assert`, missing file) is `none`; the files it leaves behind stay.  `hashlib.sha256(..).hexdigest()`,
`glob.glob`, `configparser` and the contents of `cmake_cython.cfg` are parameters.  The compilers are not modelled: a shared object is described by everything it has
been built from.  Paths are relative to the main directory.  Not modelled: text printed, creation of directories, `cython_log.txt`, the second place
`/home/runner/work/HyperHDG/build` of `cmake_cython.cfg`.  In `re.sub(pattern, replacement, text)` the replacement is taken literally, which is right as long as it
contains no backslash.
-/

namespace HyperHDG.Import

/-- A Python string. -/
abbrev Text := List Char

/-- `t!"abc"` is the list of the characters of `"abc"`. -/
macro:max "t!" s:str : term => do
  let cs := s.getString.toList.map fun c => Lean.Syntax.mkCharLit c
  `([$(cs.toArray),*])

/-! ## Files -/

/-- A file: its contents and `st_mtime`. -/
structure File where
  content : Text
  mtime : Nat

/-- The files, by their paths; the first entry of a path counts. -/
abbrev Files := List (Text × File)

/-- `open(path).read()` and `os.stat(path)`; `none` if not `os.path.isfile(path)`. -/
def Files.look (fs : Files) (path : Text) : Option File := (fs.find? fun e => e.1 = path).map (·.2)

/-- The options for the compilers: class `options`, `cmake.py` 5-17. -/
structure Options where
  compile_com : Text
  compile_inc : Text
  compile_flg : Text
  compile_std : Text
  link_com : Text
  link_flg : Text
  link_lib : Text
  cython_com : Text
  cython_flg : Text

/-- The default section of a file `cython/*.cfg`: `n_replacements` and the options `replacement01`, `replacement02`, … (here from 0). -/
structure CyConfig where
  n_replacements : Nat
  replacement : Nat → Option Text

/-- What the package calls. -/
structure Platform where
  /-- `hashlib.sha256(text.encode('utf-8')).hexdigest()` -/
  hash : Text → Text
  /-- `glob.glob(main_dir() + "/include/HyperHDG/" + folder + "/*.hxx")`, without `main_dir() + "/include/"`. -/
  glob : Files → Text → List Text
  /-- `configparser.ConfigParser().read(..)` for a file `cython/*.cfg`, `none` if this raises an exception. -/
  parse : Text → Option CyConfig
  /-- `get_options()`, `cmake.py` 20-64, from the contents of `build/cmake_cython.cfg`, or the default values; `none` if this raises an exception. -/
  options : Option Text → Option Options

/-- A shared object: what it has been built from. -/
structure Object where
  /-- the generated `.pxd` file -/
  pxd : Text
  /-- the generated `.pyx` file -/
  pyx : Text
  /-- `-DNDEBUG` given -/
  ndebug : Bool
  /-- the options for the compilers -/
  options : Options
  /-- all files when the compiler ran -/
  sources : Files

/-- The state of the computer.  Shared objects are kept apart from the other files. -/
structure World where
  /-- increases with each write -/
  clock : Nat
  files : Files
  /-- `build/shared_objects/<name>.so` with `st_mtime` -/
  shared : List (Text × Object × Nat)
  /-- `sys.modules` of the running Python process -/
  modules : List (Text × Object)
  /-- `st_mtime` of `Python.h` -/
  python_h : Nat
  /-- `st_mtime` of the directory `import/HyperHDG/import_cxx` -/
  import_dir : Nat

/-- Write a file. -/
def World.write (w : World) (path content : Text) : World :=
  { w with clock := w.clock + 1, files := (path, ⟨content, w.clock + 1⟩) :: w.files }

/-- Write a shared object. -/
def World.writeShared (w : World) (name : Text) (o : Object) : World :=
  { w with clock := w.clock + 1, shared := (name, o, w.clock + 1) :: w.shared }

/-- The shared object of a module. -/
def World.so (w : World) (name : Text) : Option (Object × Nat) := (w.shared.find? fun e => e.1 = name).map (·.2)

/-- The module of this name in the running process. -/
def World.loaded (w : World) (name : Text) : Option Object := (w.modules.find? fun e => e.1 = name).map (·.2)

/-! ## `config.py`, the data -/

/-- class `config`: `config.py` 7-16. -/
structure Config where
  global_loop : Text
  local_solver : Text
  topology : Text
  geometry : Text
  node_descriptor : Text
  cython_replacements : List Text
  cpp_code : Text
  include_files : List Text
  debug_mode : Bool

/-- `consistent`: `config.py` 19-45.  The types are right here. -/
def consistent (conf : Config) : Bool :=
  !conf.global_loop.isEmpty && !conf.local_solver.isEmpty && !conf.topology.isEmpty && !conf.geometry.isEmpty && !conf.node_descriptor.isEmpty

/-! ## `names.py` -/

/-- `re.sub('(.)([A-Z][a-z]+)', r'\1_\2', name)`: `names.py` 5.  The flag says whether the text before ends in a match, which takes all following `[a-z]`. -/
def splitWords : Bool → Text → Text
  | _, [] => []
  | _, [c] => [c]
  | inMatch, c :: u :: rest =>
    if inMatch && c.isLower then c :: splitWords true (u :: rest)
    else if c ≠ '\n' && u.isUpper && rest.head?.any Char.isLower then c :: '_' :: u :: splitWords true rest
    else c :: splitWords false (u :: rest)

/-- `re.sub('([a-z0-9])([A-Z])', r'\1_\2', helper)`: `names.py` 6. -/
def splitCases : Text → Text
  | [] => []
  | [c] => [c]
  | c :: u :: rest =>
    if (c.isLower || c.isDigit) && u.isUpper then c :: '_' :: u :: splitCases rest else c :: splitCases (u :: rest)

/-- `cython_from_cpp`: `names.py` 4-6.  `lower()` is that of ASCII letters. -/
def cython_from_cpp (name : Text) : Text := (splitCases (splitWords false name)).map Char.toLower

/-- The name of the C++ class: `names.py` 10-12. -/
def cpp_class (conf : Config) : Text :=
  t!"GlobalLoop::" ++ conf.global_loop ++ t!"<Topology::" ++ conf.topology ++ t!",Geometry::" ++ conf.geometry ++ t!",NodeDescriptor::"
    ++ conf.node_descriptor ++ t!",LocalSolver::" ++ conf.local_solver ++ t!" >"

/-- `re.sub('\+|\-|\*|\/|<|>|\,|\:', '_', cython_file)`: `names.py` 16. -/
def plain (t : Text) : Text := t.map fun c => if t!"+-*/<>,:".contains c then '_' else c

/-- `files`, second component (the name of the module): `names.py` 13-16. -/
def module_name (P : Platform) (conf : Config) : Text :=
  let cython_file := if conf.debug_mode then cpp_class conf ++ t!"_deb" else cpp_class conf ++ t!"_rel"
  let cython_file := cython_file.filter (· ≠ ' ')
  let cython_file := t!"mod" ++ P.hash cython_file
  plain cython_file

/-- `files`, third component: `names.py` 17. -/
def cython_class (P : Platform) (conf : Config) : Text := module_name P conf ++ t!"CP"

/-! ## `cpp.py` -/

/-- `extract_classname`: `cpp.py` 5-7. -/
def extract_classname (fullname : Text) : Text := fullname.takeWhile fun c => c ≠ '<' ∧ c ≠ ' '

/-- `pattern in text` of Python. -/
def contains (pattern : Text) : Text → Bool
  | [] => pattern.isEmpty
  | c :: cs => pattern.isPrefixOf (c :: cs) || contains pattern cs

/-- `find_definition`: `cpp.py` 10-15.  The value of `("\nclass …" or "\nstruct …")` is the first string. -/
def find_definition (P : Platform) (fs : Files) (folder classname : Text) : Option Text :=
  (P.glob fs folder).find? fun file =>
    match fs.look (t!"include/" ++ file) with
    | none => false
    | some f => contains (t!"\nclass " ++ classname ++ t!"\n{") f.content

/-! ## `config.py`, the functions -/

/-- `if helper not in conf.include_files: conf.include_files.append(helper)` -/
def addFile (l : List Text) (x : Text) : List Text := if x ∈ l then l else l ++ [x]

/-- The change of `conf.include_files` by `extract_includes`: `config.py` 50-64. -/
def collect_includes (P : Platform) (fs : Files) (conf : Config) : Option (List Text) := do
  let helper ← find_definition P fs t!"geometry" (extract_classname conf.geometry)
  let l := addFile conf.include_files helper
  let helper ← find_definition P fs t!"node_descriptor" (extract_classname conf.node_descriptor)
  let l := addFile l helper
  let helper ← find_definition P fs t!"topology" (extract_classname conf.topology)
  let l := addFile l helper
  let helper ← find_definition P fs t!"global_loop" (extract_classname conf.global_loop)
  let l := addFile l helper
  let helper ← find_definition P fs t!"local_solver" (extract_classname conf.local_solver)
  return addFile l helper

/-- The result of `extract_includes`: `config.py` 65-70. -/
def include_string (include_files : List Text) (cpp_inc : Text) : Text :=
  let line (x : Text) : Text := t!"cdef extern from \"<" ++ x ++ t!">\": pass\n"
  include_files.flatMap line ++ if cpp_inc.isEmpty then [] else line cpp_inc

/-- `cython/<name>.<file_end>` -/
def template (conf : Config) (file_end : Text) : Text := t!"cython/" ++ cython_from_cpp conf.global_loop ++ t!"." ++ file_end

/-- The loop of `generate_cy_replace`: `config.py` 79-84. -/
def cy_replace_loop (cfg : CyConfig) (cython_replacements : List Text) : Nat → Option (List Text)
  | 0 => some []
  | n + 1 => do
    let l ← cy_replace_loop cfg cython_replacements n
    match cython_replacements[n]? with
    | some r => if r.isEmpty then do let r ← cfg.replacement n; some (l ++ [r]) else some (l ++ [r])
    | none => do let r ← cfg.replacement n; some (l ++ [r])

/-- `generate_cy_replace`: `config.py` 73-86. -/
def generate_cy_replace (P : Platform) (fs : Files) (conf : Config) : Option (List Text) := do
  let file ← fs.look (template conf t!"cfg")
  let cfg ← P.parse file.content
  cy_replace_loop cfg conf.cython_replacements cfg.n_replacements

/-! ## `compile_prep.py` -/

/-- The file with own code of a module. -/
def own_path (name : Text) : Text := t!"build/cython_files/" ++ name ++ t!".hxx"

/-- `own_code`: `compile_prep.py` 66-76. -/
def own_code (w : World) (conf : Config) (name : Text) : World × Bool :=
  if conf.cpp_code.isEmpty then (w, false)
  else
    let same := match w.files.look (own_path name) with
      | none => false
      | some f => f.content == conf.cpp_code
    if same then (w, false) else (w.write (own_path name) conf.cpp_code, true)

/-- `filename = main_dir() + "/include/" + x`, or `main_dir() + "/" + x`: `compile_prep.py` 48-51. -/
def resolve (fs : Files) (x : Text) : Option File :=
  match fs.look (t!"include/" ++ x) with
  | some f => some f
  | none => fs.look x

/-- The names found by `re.finditer("\#include \<HyperHDG\/", content)`: `compile_prep.py` 56-60 (the pattern cannot overlap itself).  `none` if the closing `>` is
missing: `re.search` returns `None` then. -/
def includes : Text → Option (List Text)
  | [] => some []
  | c :: cs =>
    if t!"#include <HyperHDG/".isPrefixOf (c :: cs) then
      let rest := (c :: cs).drop 10
      if rest.contains '>' then do
        let l ← includes cs
        some (rest.takeWhile (· ≠ '>') :: l)
      else none
    else includes cs

/-- How `need_compile_check_hy_files` can end; `running` if the given number of iterations was not enough. -/
inductive Answer where
  | yes
  | no
  | raises
  | running
deriving DecidableEq

/-- `need_compile_check_hy_files` from the iteration `k` on: `compile_prep.py` 46-63.  The list grows while the loop runs over it. -/
def checkLoop (fs : Files) (time_so : Nat) : Nat → Nat → List Text → Answer
  | 0, _, _ => .running
  | fuel + 1, k, dependent_files =>
    match dependent_files[k]? with
    | none => .no
    | some x =>
      match resolve fs x with
      | none => .raises
      | some file =>
        if time_so < file.mtime then .yes
        else
          match includes file.content with
          | none => .raises
          | some names => checkLoop fs time_so fuel (k + 1) (names.foldl addFile dependent_files)

/-- A number of iterations which is enough: the given files, and all which are included anywhere. -/
def iterations (fs : Files) (dependent_files : List Text) : Nat :=
  dependent_files.length + (fs.map fun e => ((includes e.2.content).getD []).length).sum + 1

/-- `need_compile_check_hy_files`: `compile_prep.py` 46-63. -/
def need_compile_check_hy_files (fs : Files) (dependent_files : List Text) (time_so : Nat) : Answer :=
  checkLoop fs time_so (iterations fs dependent_files) 0 dependent_files

/-- `x for x in conf.include_files if ".hxx" in x`: `compile_prep.py` 42. -/
def hxxFiles (include_files : List Text) : List Text := include_files.filter fun x => contains t!".hxx" x

/-- `need_compile` after `own_code` returned false: `compile_prep.py` 24-43, `none` for an exception.  (`Python.h` exists.) -/
def outdated (w : World) (conf : Config) (include_files : List Text) (name : Text) : Option Bool :=
  match w.so name with
  | none => some true
  | some (_, time_so) => do
    let this ← w.files.look t!"import/HyperHDG/import_cxx/compile_prep.py"
    if time_so < w.python_h || time_so < this.mtime then return true
    if (w.files.look t!"build/cmake_cython.cfg").any fun f => time_so < f.mtime then return true
    let pxd ← w.files.look (template conf t!"pxd")
    if time_so < pxd.mtime then return true
    let pyx ← w.files.look (template conf t!"pyx")
    if time_so < pyx.mtime then return true
    let cfg ← w.files.look (template conf t!"cfg")
    if time_so < cfg.mtime then return true
    if time_so < w.import_dir then return true
    match need_compile_check_hy_files w.files (hxxFiles include_files) time_so with
    | .yes => return true
    | .no => return false
    | _ => none

/-- `need_compile`: `compile_prep.py` 20-43. -/
def need_compile (w : World) (conf : Config) (include_files : List Text) (name : Text) : World × Option Bool :=
  let r := own_code w conf name
  if r.2 then (r.1, some true) else (r.1, outdated r.1 conf include_files name)

/-! ## `include.py` -/

/-- `re.sub(key, value, text)` for a key without special characters; the counter skips the characters of a match. -/
def replaceFrom (key value : Text) : Nat → Text → Text
  | _, [] => []
  | n + 1, _ :: cs => replaceFrom key value n cs
  | 0, c :: cs => if key.isPrefixOf (c :: cs) then value ++ replaceFrom key value (key.length - 1) cs else c :: replaceFrom key value 0 cs

/-- `re.sub(key, value, text)` -/
def replaceAll (key value text : Text) : Text := replaceFrom key value 0 text

/-- `'%02d' % n` -/
def twoDigits (n : Nat) : Text := if n < 10 then '0' :: (toString n).toList else (toString n).toList

/-- `for i in range(len(cy_replace))`: `include.py` 53-54. -/
def replaceCy : Nat → List Text → Text → Text
  | _, [], content => content
  | i, r :: rs, content => replaceCy (i + 1) rs (replaceAll (t!"CyReplace" ++ twoDigits (i + 1)) r content)

/-- The generated file: `include.py` 49-54. -/
def instantiate (cppClass cythonClass pythonClass includeString : Text) (cy_replace : List Text) (content : Text) : Text :=
  let content := replaceAll t!"C++ClassName" (t!"\"" ++ cppClass ++ t!"\"") content
  let content := replaceAll t!"CythonClassName" cythonClass content
  let content := replaceAll t!"PythonClassName" pythonClass content
  let content := replaceAll t!"IncludeFiles" includeString content
  replaceCy 0 cy_replace content

/-- How the commands of a call of `include` end: all succeed; or the process stops after writing the own code, after writing the `.pxd` file, or Cython, the compiler or
the linker fails (without writing the shared object). -/
inductive Fate where
  | done
  | ownCode
  | pxd
  | cython
  | compile
  | link
deriving DecidableEq

/-- Files written by someone else. -/
def World.edits (w : World) (l : List (Text × Text)) : World := l.foldl (fun w e => w.write e.1 e.2) w

/-- The compilation: `include.py` 43-64.  `during` are the files written by someone else while the compiler runs, after it has read them. -/
def build (P : Platform) (w : World) (conf : Config) (options : Options) (include_files cy_replace : List Text) (fate : Fate) (during : List (Text × Text)) :
    World × Option Unit :=
  let name := module_name P conf
  let cpp_inc := if conf.cpp_code.isEmpty then [] else own_path name
  let gen := instantiate (cpp_class conf) (cython_class P conf) name (include_string include_files cpp_inc) cy_replace
  if fate = .ownCode then (w, none)
  else
    match w.files.look (template conf t!"pxd") with
    | none => (w, none)
    | some pxd =>
      let w := w.write (t!"build/cython_files/" ++ name ++ t!".pxd") (gen pxd.content)
      if fate = .pxd then (w, none)
      else
        match w.files.look (template conf t!"pyx") with
        | none => (w, none)
        | some pyx =>
          let w := w.write (t!"build/cython_files/" ++ name ++ t!".pyx") (gen pyx.content)
          if fate = .cython || fate = .compile then (w, none)
          else
            let object : Object := ⟨gen pxd.content, gen pyx.content, !conf.debug_mode, options, w.files⟩
            let w := w.edits during
            if fate = .link then (w, none) else (w.writeShared name object, some ())

/-- `importlib.import_module`: `include.py` 66-70.  A module is loaded once per process. -/
def importModule (w : World) (name : Text) : World × Option Object :=
  match w.loaded name with
  | some o => (w, some o)
  | none =>
    match w.so name with
    | none => (w, none)
    | some (o, _) => ({ w with modules := (name, o) :: w.modules }, some o)

/-- `include`: `include.py` 11-78.  The returned class is described by the shared object it comes from. -/
def includeClass (P : Platform) (w : World) (conf : Config) (fate : Fate) (during : List (Text × Text)) : World × Option Object :=
  if !consistent conf then (w, none)
  else
    match P.options ((w.files.look t!"build/cmake_cython.cfg").map (·.content)) with
    | none => (w, none)
    | some options =>
      match generate_cy_replace P w.files conf with
      | none => (w, none)
      | some cy_replace =>
        match collect_includes P w.files conf with
        | none => (w, none)
        | some include_files =>
          match need_compile w conf include_files (module_name P conf) with
          | (w, none) => (w, none)
          | (w, some false) => importModule w (module_name P conf)
          | (w, some true) =>
            match build P w conf options include_files cy_replace fate during with
            | (w, none) => (w, none)
            | (w, some ()) => importModule w (module_name P conf)

/-! ## Histories -/

/-- What can happen: someone writes a file, a file is put in place with a modification time of its own (`cp -p`, `tar`), a new Python process starts, a class is
included. -/
inductive Event where
  | edit (path content : Text)
  | restore (path content : Text) (mtime : Nat)
  | newProcess
  | includes (conf : Config) (fate : Fate) (during : List (Text × Text))

/-- The state after an event. -/
def step (P : Platform) (w : World) : Event → World
  | .edit path content => w.write path content
  | .restore path content mtime => { w with clock := w.clock + 1, files := (path, ⟨content, mtime⟩) :: w.files }
  | .newProcess => { w with modules := [] }
  | .includes conf fate during => (includeClass P w conf fate during).1

/-- The state after a sequence of events. -/
def run (P : Platform) (w : World) (h : List Event) : World := h.foldl (step P) w

end HyperHDG.Import

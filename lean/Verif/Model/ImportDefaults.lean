import Verif.Model.Import

/-!
# Configuration objects in one Python process

`config.py` 7-16: `include_files = []` is an attribute of the class `config`; an object has a list of its own only after an assignment to `conf.include_files`.
`extract_includes` appends to the list it finds (`config.py` 50-64).
-/

namespace HyperHDG.Import

/-- The headers looked for, in this order: `config.py` 50-62. -/
def wanted (conf : Config) : List (Text × Text) :=
  [(t!"geometry", conf.geometry), (t!"node_descriptor", conf.node_descriptor), (t!"topology", conf.topology),
    (t!"global_loop", conf.global_loop), (t!"local_solver", conf.local_solver)]

/-- The list after `extract_includes`, also if this stops with a failed `assert` in between: `config.py` 50-64. -/
def appended (P : Platform) (fs : Files) : List (Text × Text) → List Text → List Text
  | [], l => l
  | (folder, fullname) :: rest, l =>
    match find_definition P fs folder (extract_classname fullname) with
    | none => l
    | some helper => appended P fs rest (addFile l helper)

/-- An object of class `config`; `own` says that it has a list `include_files` of its own. -/
structure PyConfig where
  conf : Config
  own : Bool

/-- The object as it is seen by `include` when `config.include_files` is `shared`. -/
def PyConfig.seen (pc : PyConfig) (shared : List Text) : Config := if pc.own then pc.conf else { pc.conf with include_files := shared }

/-- `extract_includes` is reached: `include.py` 14-37. -/
def reachesIncludes (P : Platform) (w : World) (conf : Config) : Bool :=
  consistent conf && (P.options ((w.files.look t!"build/cmake_cython.cfg").map (·.content))).isSome && (generate_cy_replace P w.files conf).isSome

/-- The list `config.include_files` of the class after a call of `include`. -/
def sharedAfter (P : Platform) (w : World) (shared : List Text) (pc : PyConfig) : List Text :=
  if pc.own then shared else if reachesIncludes P w (pc.seen shared) then appended P w.files (wanted pc.conf) shared else shared

/-- `include` in a process: the state of the computer, `config.include_files`, and the result. -/
def includePy (P : Platform) (w : World) (shared : List Text) (pc : PyConfig) (fate : Fate) (during : List (Text × Text)) : World × List Text × Option Object :=
  let r := includeClass P w (pc.seen shared) fate during
  (r.1, sharedAfter P w shared pc, r.2)

/-- One process which includes several classes, one after the other. -/
def runPy (P : Platform) : World → List Text → List (PyConfig × Fate × List (Text × Text)) → World × List Text
  | w, shared, [] => (w, shared)
  | w, shared, (pc, fate, during) :: rest =>
    let r := includePy P w shared pc fate during
    runPy P r.1 r.2.1 rest

end HyperHDG.Import

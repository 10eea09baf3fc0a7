import Mathlib.Algebra.Field.Defs
import Verif.Model.EpsilonGraph
import Verif.Model.GlobalLoop
import Verif.Model.Hypercube
import Verif.Model.LocalSolver

/-!
# Model of `include/HyperHDG/plot.hxx`

Strings are lists of characters.  `std::stof` and `std::to_string(float)` are parameters.  The contents of a vtu file is modelled as a structure `Vtu` whose components are the
attributes and the data arrays in the order in which they are written; the constant XML text around them and the format of the numbers are not modelled.
-/

namespace HyperHDG

/-! ## Options -/

/-- `PlotOptions::fileType`: `plot.hxx` 36-39. -/
inductive FileType where
  | vtu
deriving DecidableEq, Repr

/-- `struct PlotOptions`: `plot.hxx` 20-117. -/
structure PlotOptions (K : Type) where
  outputDir : List Char
  fileName : List Char
  fileEnding : FileType
  fileNumber : Nat
  printFileNumber : Bool
  incrementFileNumber : Bool
  plot_edge_boundaries : Bool
  plot_edges : Bool
  n_subintervals : Nat
  scale : K
  boundary_scale : K
  numbers : Bool
deriving DecidableEq

/-- The default values: `plot.hxx` 27-116. -/
def PlotOptions.default {K : Type} [One K] : PlotOptions K where
  outputDir := "output".toList
  fileName := "example".toList
  fileEnding := .vtu
  fileNumber := 0
  printFileNumber := true
  incrementFileNumber := true
  plot_edge_boundaries := false
  plot_edges := true
  n_subintervals := 1
  scale := 1
  boundary_scale := 1
  numbers := false

/-- The digits at the beginning of a string as a number; without digits `std::invalid_argument` is thrown. -/
def leadingNumber (l : List Char) : Res Nat := if l.takeWhile Char.isDigit = [] then .throw .invalidArgument else .ok (digitsValue (l.takeWhile Char.isDigit))

/-- `std::stoi(value)`: white space, a sign, decimal digits; what follows is ignored.  Numbers which are not representable as (32 bit) `int` throw `std::out_of_range`. -/
def stoi (value : List Char) : Res Int :=
  match value.dropWhile isSpace with
  | '-' :: l => do
      let n ← leadingNumber l
      if n ≤ 2147483648 then Res.ok (-(n : Int)) else .throw .outOfRange
  | '+' :: l => do
      let n ← leadingNumber l
      if n < 2147483648 then Res.ok (n : Int) else .throw .outOfRange
  | l => do
      let n ← leadingNumber l
      if n < 2147483648 then Res.ok (n : Int) else .throw .outOfRange

/-- Conversion of an `int` to `unsigned int`. -/
def toUnsigned (x : Int) : Nat := (x % (U32 : Int)).toNat

/-- `value == "true" || value == "1"`. -/
def isTrue (value : List Char) : Bool := value == "true".toList || value == "1".toList

/-- `std::to_string` of a `bool` (as `int`). -/
def boolText (b : Bool) : List Char := if b then ['1'] else ['0']

section
variable {K : Type} (m : Mode) (stof : List Char → Res K) (ftos : K → List Char)

/-- Setting the option: `plot.hxx` 126-158. -/
def assignOption (P : PlotOptions K) (option value : List Char) : Res (PlotOptions K) :=
  if value = [] then .ok P
  else if option = "outputDir".toList then .ok { P with outputDir := value }
  else if option = "fileName".toList then .ok { P with fileName := value }
  else if option = "fileEnding".toList then
    if value = "vtu".toList then .ok { P with fileEnding := .vtu }
    else do
      hyAssert m False
      .ok P
  else if option = "fileNumber".toList then do
    let n ← stoi value
    .ok { P with fileNumber := toUnsigned n }
  else if option = "printFileNumber".toList then .ok { P with printFileNumber := isTrue value }
  else if option = "incrementFileNumber".toList then .ok { P with incrementFileNumber := isTrue value }
  else if option = "plotEdges".toList then .ok { P with plot_edges := isTrue value }
  else if option = "plotEdgeBoundaries".toList then .ok { P with plot_edge_boundaries := isTrue value }
  else if option = "boundaryScale".toList then do
    let x ← stof value
    .ok { P with boundary_scale := x }
  else if option = "scale".toList then do
    let x ← stof value
    .ok { P with scale := x }
  else do
    hyAssert m False
    .ok P

/-- The returned string: `plot.hxx` 160-184.  In line 166 the enumerator is converted to `char` (the character with number 0). -/
def optionValue (P : PlotOptions K) (option : List Char) : Res (List Char) :=
  if option = "outputDir".toList then .ok P.outputDir
  else if option = "fileName".toList then .ok P.fileName
  else if option = "fileEnding".toList then
    match P.fileEnding with
    | .vtu => .ok [Char.ofNat 0]
  else if option = "fileNumber".toList then .ok (showNat P.fileNumber)
  else if option = "printFileNumber".toList then .ok (boolText P.printFileNumber)
  else if option = "incrementFileNumber".toList then .ok (boolText P.incrementFileNumber)
  else if option = "plotEdges".toList then .ok (boolText P.plot_edges)
  else if option = "plotEdgeBoundaries".toList then .ok (boolText P.plot_edge_boundaries)
  else if option = "scale".toList then .ok (ftos P.scale)
  else if option = "boundaryScale".toList then .ok (ftos P.boundary_scale)
  else do
    hyAssert m False
    .ok []

/-- `set_plot_option`: `plot.hxx` 122-185.  Returns the changed options and the returned string. -/
def set_plot_option (P : PlotOptions K) (option value : List Char) : Res (PlotOptions K × List Char) := do
  let P ← assignOption m stof P option value
  let text ← optionValue m ftos P option
  .ok (P, text)

end

/-! ## Files -/

/-- `fileType_to_string`: `plot.hxx` 238-247. -/
def fileType_to_string (type : FileType) : List Char :=
  match type with
  | .vtu => "vtu".toList

/-- The name of the file: `plot.hxx` 255-258. -/
def plotFile {K : Type} (P : PlotOptions K) : List Char :=
  let filename := P.outputDir ++ "/".toList ++ P.fileName
  let filename := if P.printFileNumber then filename ++ ".".toList ++ showNat P.fileNumber else filename
  filename ++ ".".toList ++ fileType_to_string P.fileEnding

/-- The contents of a vtu file. -/
structure Vtu (K : Type) where
  /-- attribute `NumberOfPoints` -/
  n_points : Nat
  /-- attribute `NumberOfCells` -/
  n_cells : Nat
  /-- data of `Points`: the coordinates in each line -/
  points : List (List K)
  /-- data of `connectivity`: the entries of each line -/
  connectivity : List (List Nat)
  /-- data of `offsets` -/
  offsets : List Nat
  /-- data of `types` -/
  types : List Nat
  /-- the cell data `index`, if written -/
  index : Option (List Nat)
  /-- the point data `values`, if written: attribute `NumberOfComponents` and the entries of each line -/
  values : Option (Nat × List (List K))
deriving DecidableEq

/-- `for (i = 0; i < n; ++i) output << f(i);`. -/
def collect {α : Type} (n : Nat) (f : Nat → Res α) : Res (List α) :=
  forUp n (fun i out => do
    let x ← f i
    .ok (out ++ [x])) []

/-- `vtu_sub_cube_connectivity<dim>(output, n, offset)` with `n = q + 1`: `plot.hxx` 291-318.  All sums are `unsigned int`. -/
def vtu_sub_cube_connectivity (dim q offset : Nat) : List (List Nat) :=
  match dim with
  | 0 => (List.range q).map fun i => [u32 (offset + i)]
  | 1 => (List.range q).map fun i => [u32 (offset + i), u32 (offset + i + 1)]
  | 2 => (List.range q).flatMap fun i => (List.range q).map fun j =>
      [u32 (offset + i * (q + 1) + j), u32 (offset + i * (q + 1) + j + 1), u32 (offset + i * (q + 1) + j + (q + 1)), u32 (offset + i * (q + 1) + j + (q + 1) + 1)]
  | 3 => (List.range q).flatMap fun i => (List.range q).flatMap fun j => (List.range q).map fun k =>
      [u32 (offset + (i * (q + 1) + j) * (q + 1) + k), u32 (offset + (i * (q + 1) + j) * (q + 1) + k + 1),
        u32 (offset + (i * (q + 1) + j) * (q + 1) + k + (q + 1)), u32 (offset + (i * (q + 1) + j) * (q + 1) + k + (q + 1) + 1),
        u32 (offset + (i * (q + 1) + j) * (q + 1) + k + (q + 1) * (q + 1)), u32 (offset + (i * (q + 1) + j) * (q + 1) + k + (q + 1) * (q + 1) + 1),
        u32 (offset + (i * (q + 1) + j) * (q + 1) + k + (q + 1) * (q + 1) + (q + 1)),
        u32 (offset + (i * (q + 1) + j) * (q + 1) + k + (q + 1) * (q + 1) + (q + 1) + 1)]
  | _ => []

/-- `element_id`: `plot.hxx` 371-377.  (Not set for `edge_dim = 0`.) -/
def element_id (edge_dim : Nat) : Nat :=
  match edge_dim with
  | 1 => 3
  | 2 => 8
  | _ => 11

/-- `boundary_element_id`: `plot.hxx` 378-384. -/
def boundary_element_id (edge_dim : Nat) : Nat :=
  match edge_dim with
  | 1 => 1
  | 2 => 3
  | 3 => 8
  | _ => 0

/-- What is plotted: the hypergraph (dimension `d + 1` of the hyperedges, `n` unknowns per hypernode), the points of its geometry (`n_subpoints = q + 1`) and the values of
the local solver, `sys = system_dimension()` and `node_sys = node_system_dimension()`. -/
structure PlotInput (d s n q sys : Nat) (K : Type) where
  graph : HyGraph (d + 1) n
  /-- `hyper_graph.hyEdge_geometry(he_number).lexicographic<n_subpoints>(pt_number, sub_points)` -/
  lexicographic : Nat → Nat → (Fin (q + 1) → K) → Res (Fin s → K)
  /-- `hyper_graph.hyEdge_geometry(he_number).boundary_lexicographic<n_subpoints>(pt_number, boundary, boundary_scale, sub_points)` -/
  boundary_lexicographic : Nat → Nat → Nat → K → (Fin (q + 1) → K) → Res (Fin s → K)
  /-- `local_solver.bulk_values(abscissas.data(), hyEdge_dofs, hyper_graph[he_number], time)` (or without the geometry) -/
  bulk_values : Nat → (Fin (q + 1) → K) → LocDofs (d + 1) n K → Res (Fin sys → Fin (Hypercube.pow (d + 1) (q + 1)) → K)

section
variable {d s n q sys : Nat} {K : Type}

/-- A line of `Points`: the coordinates, filled up with zeros. -/
def pointLine [Zero K] (point : Fin s → K) : List K := List.ofFn point ++ List.replicate (3 - s) 0

namespace PlotInput

/-- `n_plot_edges`: `plot.hxx` 350. -/
def n_plot_edges (I : PlotInput d s n q sys K) : Nat := u32 (I.graph.n_hyEdges * Hypercube.pow (d + 1) q)

/-- `points_per_edge`: `plot.hxx` 351. -/
def points_per_edge (_ : PlotInput d s n q sys K) : Nat := Hypercube.pow (d + 1) (q + 1)

/-- `n_edge_boundaries`: `plot.hxx` 353-354. -/
def n_edge_boundaries (I : PlotInput d s n q sys K) : Nat := u32 (I.graph.n_hyEdges * (2 * (d + 1)))

/-- `points_per_boundary`: `plot.hxx` 355. -/
def points_per_boundary (_ : PlotInput d s n q sys K) : Nat := Hypercube.pow d (q + 1)

/-- `n_plot_boundaries`: `plot.hxx` 356-357. -/
def n_plot_boundaries (I : PlotInput d s n q sys K) : Nat := u32 (I.n_edge_boundaries * Hypercube.pow d q)

/-- `n_plot_points`: `plot.hxx` 363-365. -/
def n_plot_points (I : PlotInput d s n q sys K) (P : PlotOptions K) : Nat :=
  u32 ((if P.plot_edges then u32 (I.points_per_edge * I.graph.n_hyEdges) else 0) +
    (if P.plot_edge_boundaries then u32 (I.points_per_boundary * I.n_edge_boundaries) else 0))

/-- `n_plot_cells`: `plot.hxx` 366-367. -/
def n_plot_cells (I : PlotInput d s n q sys K) (P : PlotOptions K) : Nat :=
  u32 ((if P.plot_edges then I.n_plot_edges else 0) + (if P.plot_edge_boundaries then I.n_plot_boundaries else 0))

/-- The points of the hyperedges: `plot.hxx` 391-410. -/
def edgePoints [Zero K] (I : PlotInput d s n q sys K) (P : PlotOptions K) (sub_points : Fin (q + 1) → K) : Res (List (List K)) :=
  if P.plot_edges then do
    let l ← collect I.graph.n_hyEdges fun he_number => collect I.points_per_edge fun pt_number => do
      let point ← I.lexicographic he_number pt_number sub_points
      .ok (pointLine point)
    .ok l.flatten
  else .ok []

/-- The points of the boundaries: `plot.hxx` 411-441. -/
def boundaryPoints [Zero K] (I : PlotInput d s n q sys K) (P : PlotOptions K) (boundary_sub_points : Fin (q + 1) → K) : Res (List (List K)) :=
  if P.plot_edge_boundaries then do
    let l ← collect I.graph.n_hyEdges fun he_number => do
      let l ← collect (2 * (d + 1)) fun boundary => collect I.points_per_boundary fun pt_number => do
        let point ← I.boundary_lexicographic he_number pt_number boundary P.boundary_scale boundary_sub_points
        .ok (pointLine point)
      .ok l.flatten
    .ok l.flatten
  else .ok []

/-- One of the loops which write the connectivity of `count` cubes; returns the lines and the next offset. -/
def cubes (dim q per_cube : Nat) (count offset : Nat) : List (List Nat) × Nat :=
  forUpP count (fun _ st => (st.1 ++ vtu_sub_cube_connectivity dim q st.2, u32 (st.2 + per_cube))) ([], offset)

/-- The connectivity of the hyperedges: `plot.hxx` 449-455. -/
def edgeCubes (I : PlotInput d s n q sys K) (P : PlotOptions K) : List (List Nat) × Nat :=
  if P.plot_edges then cubes (d + 1) q I.points_per_edge I.graph.n_hyEdges 0 else ([], 0)

/-- The connectivity of the boundaries: `plot.hxx` 456-461. -/
def boundaryCubes (I : PlotInput d s n q sys K) (P : PlotOptions K) (offset : Nat) : List (List Nat) × Nat :=
  if P.plot_edge_boundaries then cubes d q I.points_per_boundary I.n_edge_boundaries offset else ([], offset)

/-- The offsets of the hyperedges: `plot.hxx` 469-476. -/
def edgeOffsets (I : PlotInput d s n q sys K) (P : PlotOptions K) : List Nat :=
  if P.plot_edges then (List.range I.n_plot_edges).map fun k => u32 (Hypercube.n_vertices (d + 1) * (k + 1)) else []

/-- `start_number`: `plot.hxx` 468, 474.  (An `int`, added to an `unsigned int` later.) -/
def start_number (I : PlotInput d s n q sys K) (P : PlotOptions K) : Nat :=
  if P.plot_edges then u32 (Hypercube.n_vertices (d + 1) * I.n_plot_edges) else 0

/-- The offsets of the boundaries: `plot.hxx` 477-481. -/
def boundaryOffsets (I : PlotInput d s n q sys K) (P : PlotOptions K) : List Nat :=
  if P.plot_edge_boundaries then (List.range I.n_plot_boundaries).map fun k => u32 (Hypercube.n_vertices d * (k + 1) + I.start_number P) else []

/-- The types: `plot.hxx` 487-496. -/
def types (I : PlotInput d s n q sys K) (P : PlotOptions K) : List Nat :=
  (if P.plot_edges then List.replicate I.n_plot_edges (element_id (d + 1)) else []) ++
    (if P.plot_edge_boundaries then List.replicate I.n_plot_boundaries (boundary_element_id (d + 1)) else [])

/-- `get_edge_dof_values`: `plot.hxx` 508-523.  (The array is not initialised, but all its entries are set.) -/
def get_edge_dof_values [Zero K] (m : Mode) (I : PlotInput d s n q sys K) (lambda : List K) (edge_index : Nat) : Res (LocDofs (d + 1) n K) :=
  forFin (2 * (d + 1)) (fun hyNode (dofs : LocDofs (d + 1) n K) => do
    let row ← onArray (dofs hyNode) (I.graph.factory.get_dof_values m (I.graph.hyNodes edge_index hyNode) lambda)
    .ok (arrSet dofs hyNode row)) (fun _ _ => 0)

/-- The line of `plot_edge_values` for a hyperedge: `plot.hxx` 570-581. -/
def edgeLine [Zero K] (node_sys : Nat) (local_values : Fin sys → Fin (Hypercube.pow (d + 1) (q + 1)) → K) : Res (List K) := do
  let l ← collect (Hypercube.n_vertices (d + 1)) fun corner => do
    let v ← collect sys fun e => arrGet2 local_values e corner
    .ok (v ++ List.replicate (node_sys - sys) 0)
  .ok l.flatten

/-- `plot_edge_values`: `plot.hxx` 534-583. -/
def plot_edge_values [Zero K] (m : Mode) (I : PlotInput d s n q sys K) (node_sys : Nat) (lambda : List K) (abscissas : Fin (q + 1) → K) : Res (List (List K)) :=
  collect I.graph.n_hyEdges fun he_number => do
    let hyEdge_dofs ← I.get_edge_dof_values m lambda he_number
    let local_values ← I.bulk_values he_number abscissas hyEdge_dofs
    edgeLine node_sys local_values

/-- `plot_boundary_values`: `plot.hxx` 643-685.  `fancy_recursion` (609-637) does nothing, so that `local_values` stays zero; evaluating `tensorial_pt(lval, abscissas)` for the
argument may violate an assertion. -/
def plot_boundary_values [Zero K] (m : Mode) (I : PlotInput d s n q sys K) (node_sys : Nat) (lambda : List K) (abscissas : Fin (q + 1) → K) : Res (List (List K)) := do
  let l ← collect I.graph.n_hyEdges fun edge_index => do
    let _ ← I.get_edge_dof_values m lambda edge_index
    collect (2 * (d + 1)) fun _ => do
      let _ ← collect node_sys fun lval => Hypercube.tensorial_pt m d lval (List.ofFn abscissas)
      let l ← collect (Hypercube.n_vertices d) fun corner =>
        collect node_sys fun e => arrGet2 (fun (_ : Fin node_sys) (_ : Fin (Hypercube.pow d (q + 1))) => (0 : K)) e corner
      .ok (l.flatten ++ List.replicate (sys - node_sys) 0)
  .ok l.flatten

/-- The cell data: `plot.hxx` 731-749. -/
def cellIndex (I : PlotInput d s n q sys K) (P : PlotOptions K) : Option (List Nat) :=
  if P.numbers then some
    ((if P.plot_edges then (List.range I.graph.n_hyEdges).flatMap fun he_number => List.replicate (Hypercube.pow (d + 1) q) he_number else []) ++
      (if P.plot_edge_boundaries then (List.range I.n_edge_boundaries).flatMap fun bdr => List.replicate (Hypercube.pow (d + 1) q) (bdr + 1) else []))
  else none

/-- The values on the hyperedges, if plotted: `plot.hxx` 757-761. -/
def edgeData [Zero K] (m : Mode) (I : PlotInput d s n q sys K) (node_sys : Nat) (lambda : List K) (P : PlotOptions K) (abscissas : Fin (q + 1) → K) :
    Res (List (List K)) :=
  if P.plot_edges then I.plot_edge_values m node_sys lambda abscissas else .ok []

/-- The values on the boundaries, if plotted: `plot.hxx` 762-766. -/
def boundaryData [Zero K] (m : Mode) (I : PlotInput d s n q sys K) (node_sys : Nat) (lambda : List K) (P : PlotOptions K) (abscissas : Fin (q + 1) → K) :
    Res (List (List K)) :=
  if P.plot_edge_boundaries then I.plot_boundary_values m node_sys lambda abscissas else .ok []

/-- The point data: `plot.hxx` 751-768. -/
def pointData [Zero K] (m : Mode) (I : PlotInput d s n q sys K) (node_sys : Nat) (lambda : List K) (P : PlotOptions K)
    (abscissas boundary_abscissas : Fin (q + 1) → K) : Res (Option (Nat × List (List K))) :=
  if sys = 0 then .ok none
  else do
    let l ← I.edgeData m node_sys lambda P abscissas
    let l' ← I.boundaryData m node_sys lambda P boundary_abscissas
    .ok (some (max sys node_sys, l ++ l'))

end PlotInput

/-- The abscissas: `plot.hxx` 711-717; `factor` is the scale or the product of the scales. -/
def plotAbscissas [Field K] (q : Nat) (factor : K) : Fin (q + 1) → K := fun i => factor * ((i.val : K) / (q : K) - 1 / 2) + 1 / 2

/-- `plot_vtu<..., n_subdivisions>`: `plot.hxx` 696-776, the contents of the file.  `q` is `n_subdivisions`. -/
def plot_vtu [Field K] (m : Mode) (I : PlotInput d s n q sys K) (node_sys : Nat) (lambda : List K) (P : PlotOptions K) : Res (Vtu K) := do
  let abscissas := plotAbscissas q P.scale
  let boundary_abscissas := plotAbscissas q (P.scale * P.boundary_scale)
  let edge_points ← I.edgePoints P abscissas
  let boundary_points ← I.boundaryPoints P boundary_abscissas
  hyAssert m ((I.boundaryCubes P (I.edgeCubes P).2).2 = I.n_plot_points P)
  let values ← I.pointData m node_sys lambda P abscissas boundary_abscissas
  .ok ⟨I.n_plot_points P, I.n_plot_cells P, edge_points ++ boundary_points, (I.edgeCubes P).1 ++ (I.boundaryCubes P (I.edgeCubes P).2).1,
    I.edgeOffsets P ++ I.boundaryOffsets P, I.types P, I.cellIndex P, values⟩

/-- The plots on the disk, by their names. -/
abbrev Plots (K : Type) := List Char → Option (Vtu K)

/-- What is needed of the operating system: `std::filesystem::create_directory` (which may throw) and whether a file can be opened for writing. -/
structure PlotEnv where
  create_directory : List Char → Res Bool
  is_open : List Char → Bool

/-- `plot`: `plot.hxx` 783-797 with `open_ofstream` (251-273).  Here `n_subdivisions = 1` (the default argument of `plot_vtu`).  A file which cannot be opened is not
written. -/
def plot [Field K] (m : Mode) (env : PlotEnv) (I : PlotInput d s n 1 sys K) (node_sys : Nat) (lambda : List K) (disk : Plots K) (P : PlotOptions K) :
    Res (Plots K × PlotOptions K) := do
  hyAssert m (P.fileEnding = .vtu)
  hyAssert m (P.fileName ≠ [])
  hyAssert m (P.outputDir ≠ [])
  let _ ← env.create_directory P.outputDir
  hyAssert m (env.is_open (plotFile P) = true)
  let contents ← plot_vtu m I node_sys lambda P
  let disk := if env.is_open (plotFile P) then Function.update disk (plotFile P) (some contents) else disk
  .ok (disk, if P.incrementFileNumber then { P with fileNumber := u32 (P.fileNumber + 1) } else P)

end

end HyperHDG

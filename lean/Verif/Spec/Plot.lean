import Verif.Model.Plot
import Verif.Spec.Digits

/-!
# Specification of plot files and plot options
-/

namespace HyperHDG.Spec

/-! ## The VTK unstructured grid format -/

/-- The number of points of a cell of the given VTK type: vertex, line, pixel, voxel. -/
def cellSize (type : Nat) : Option Nat :=
  if type = 1 then some 1 else if type = 3 then some 2 else if type = 8 then some 4 else if type = 11 then some 8 else none

/-- Where the `k`th cell begins in the connectivity array: at the offset of its predecessor. -/
def cellBegin (V : Vtu K) (k : Nat) : Nat := if k = 0 then 0 else V.offsets.getD (k - 1) 0

/-- The points of the `k`th cell, as VTK reads them: the entries of the connectivity array from the offset of its predecessor to its own. -/
def cell (V : Vtu K) (k : Nat) : List Nat := (V.connectivity.flatten.take (V.offsets.getD k 0)).drop (cellBegin V k)

/-- The mesh in a vtu file is consistent. -/
structure MeshConsistent (V : Vtu K) : Prop where
  /-- as many points as announced … -/
  n_points : V.points.length = V.n_points
  /-- … with three coordinates each -/
  coordinates : ∀ p ∈ V.points, p.length = 3
  /-- as many offsets and types as announced cells -/
  n_offsets : V.offsets.length = V.n_cells
  n_types : V.types.length = V.n_cells
  /-- the last offset is the length of the connectivity array -/
  complete : V.connectivity.flatten.length = if V.n_cells = 0 then 0 else V.offsets.getD (V.n_cells - 1) 0
  /-- every cell refers to existing, pairwise different points, and has as many of them as its type requires -/
  cells : ∀ k < V.n_cells, (∀ p ∈ cell V k, p < V.n_points) ∧ (cell V k).Nodup ∧ cellSize (V.types.getD k 0) = some (cell V k).length

/-- One index per cell, if there are indices. -/
def IndexConsistent (V : Vtu K) : Prop := ∀ l, V.index = some l → l.length = V.n_cells

/-- As many values as points times components, if there are values. -/
def ValuesConsistent (V : Vtu K) : Prop := ∀ comp l, V.values = some (comp, l) → l.flatten.length = V.n_points * comp

/-- The number of points of a plot: a grid of `(q + 1)^(d + 1)` points for each of the `N` hyperedges, and one of `(q + 1)^d` points for each of their `2 (d + 1)` faces. -/
def pointCount (d q N : Nat) (P : PlotOptions K) : Nat :=
  (if P.plot_edges then N * (q + 1) ^ (d + 1) else 0) + (if P.plot_edge_boundaries then N * (2 * (d + 1)) * (q + 1) ^ d else 0)

/-- The number of cells of a plot. -/
def cellCount (d q N : Nat) (P : PlotOptions K) : Nat :=
  (if P.plot_edges then N * q ^ (d + 1) else 0) + (if P.plot_edge_boundaries then N * (2 * (d + 1)) * q ^ d else 0)

/-- The number of entries of the connectivity array of a plot. -/
def entryCount (d q N : Nat) (P : PlotOptions K) : Nat :=
  (if P.plot_edges then N * q ^ (d + 1) * 2 ^ (d + 1) else 0) + (if P.plot_edge_boundaries then N * (2 * (d + 1)) * q ^ d * 2 ^ d else 0)

/-- The plot is small enough for 32 bit indices. -/
structure PlotFits (d q N : Nat) (P : PlotOptions K) : Prop where
  grid : (q + 1) ^ (d + 1) < U32
  points : pointCount d q N P < U32
  entries : entryCount d q N P < U32

/-! ## Options -/

/-- The documented names of options. -/
inductive OptName where
  | outputDir | fileName | fileEnding | fileNumber | printFileNumber | incrementFileNumber | plotEdges | plotEdgeBoundaries | scale | boundaryScale
deriving DecidableEq, Repr

/-- The name as a string. -/
def OptName.text : OptName → List Char
  | outputDir => "outputDir".toList
  | fileName => "fileName".toList
  | fileEnding => "fileEnding".toList
  | fileNumber => "fileNumber".toList
  | printFileNumber => "printFileNumber".toList
  | incrementFileNumber => "incrementFileNumber".toList
  | plotEdges => "plotEdges".toList
  | plotEdgeBoundaries => "plotEdgeBoundaries".toList
  | scale => "scale".toList
  | boundaryScale => "boundaryScale".toList

/-- All options except `o` are the same. -/
structure OnlyChanges {K : Type} (o : OptName) (P P' : PlotOptions K) : Prop where
  outputDir : o ≠ .outputDir → P'.outputDir = P.outputDir
  fileName : o ≠ .fileName → P'.fileName = P.fileName
  fileEnding : o ≠ .fileEnding → P'.fileEnding = P.fileEnding
  fileNumber : o ≠ .fileNumber → P'.fileNumber = P.fileNumber
  printFileNumber : o ≠ .printFileNumber → P'.printFileNumber = P.printFileNumber
  incrementFileNumber : o ≠ .incrementFileNumber → P'.incrementFileNumber = P.incrementFileNumber
  plotEdges : o ≠ .plotEdges → P'.plot_edges = P.plot_edges
  plotEdgeBoundaries : o ≠ .plotEdgeBoundaries → P'.plot_edge_boundaries = P.plot_edge_boundaries
  scale : o ≠ .scale → P'.scale = P.scale
  boundaryScale : o ≠ .boundaryScale → P'.boundary_scale = P.boundary_scale
  n_subintervals : P'.n_subintervals = P.n_subintervals
  numbers : P'.numbers = P.numbers

/-! ## Files -/

/-- The last component of a path: what follows the last `/`. -/
def baseName (path : List Char) : List Char := (path.reverse.takeWhile (· ≠ '/')).reverse

end HyperHDG.Spec

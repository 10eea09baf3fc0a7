import Verif.Model.ReadDomain

/-!
# Model of `epsilon_neighborhood_graph.hxx` and of `read_domain`

The output operator of floating point numbers is a parameter `print`, the square root a parameter `sqrt`.  The dimension of the space is `s + 1`.
The index type is `unsigned int` (as in `read_domain`); there are fewer than `2^32` points.
-/

namespace HyperHDG

variable {d s : Nat} {K : Type}

/-! ## Writing `.geo` files -/

/-- `operator<<` for `unsigned int`. -/
def showNat (n : Nat) : List Char := Nat.toDigits 10 n

/-- `outfile << "keyword   = " << n << ";"`: `epsilon_neighborhood_graph.hxx` 132-136. -/
def headerText (kw pad : String) (n : Nat) : List Char := kw.toList ++ (pad.toList ++ ('=' :: ' ' :: (showNat n ++ [';'])))

/-- `operator<<` for points, without the end of the line: `dense_la.hxx` 946-951. -/
def pointText (print : K → List Char) (p : SmallVec s K) : List Char := (List.ofFn p).flatMap (fun x => ' ' :: (print x ++ [' ']))

/-- `outfile << left << " " << right`: `epsilon_neighborhood_graph.hxx` 142 and the like, for any number of entries. -/
def rowText : List (List Char) → List Char
  | [] => []
  | [w] => w
  | w :: ws => w ++ ' ' :: rowText ws

@[inherit_doc rowText] def arrayText {k : Nat} (a : Fin k → Nat) : List Char := rowText ((List.ofFn a).map showNat)

/-- The lines of the file which are written: `epsilon_neighborhood_graph.hxx` 132-148 (there with `hyEdge_dim = 1` and three times the same arrays). -/
def writeGeo (print : K → List Char) (points : List (SmallVec s K)) (n_hyNodes : Nat) (hyNodes hyFaces : List (Fin (2 * (d + 1)) → Nat))
    (pts : List (Fin (2 ^ (d + 1)) → Nat)) : List (List Char) :=
  [headerText "Space_Dim" "     " s, headerText "HyperEdge_Dim" " " (d + 1), [], headerText "N_Points" "      " points.length,
    headerText "N_HyperNodes" "  " n_hyNodes, headerText "N_HyperEdges" "  " hyNodes.length, [], "POINTS:".toList] ++
  (points.map (pointText print) ++ ([] :: "HYPERNODES_OF_HYPEREDGES:".toList ::
    (hyNodes.map arrayText ++ ([] :: "TYPES_OF_HYPERFACES:".toList ::
      (hyFaces.map arrayText ++ ([] :: "POINTS_OF_HYPEREDGES:".toList :: pts.map arrayText))))))

/-- Lines, each followed by `std::endl`. -/
def unlines (lines : List (List Char)) : List Char := lines.flatMap (fun l => l ++ ['\n'])

/-! ## The graph -/

/-- The local variables `search`, `bool_vec` and `connections`. -/
structure Search where
  search : List Nat
  visited : List Bool
  connections : List (Nat × Nat)
deriving DecidableEq, Repr

/-- The first coordinate of the point with the given index. -/
def coord0 [Zero K] (points : List (SmallVec (s + 1) K)) (i : Nat) : K := (points.getD i (fun _ => 0)) ⟨0, by omega⟩

section
variable [Field K] [LinearOrder K] (m : Mode) (sqrt : K → K) (eps : K) (points : List (SmallVec (s + 1) K))

/-- The condition of the two `for` loops: `epsilon_neighborhood_graph.hxx` 105 and 116. -/
def inWindow (index ind : Nat) : Bool := decide (ind < points.length) && decide (max (coord0 points index - coord0 points ind) (-(coord0 points index - coord0 points ind)) < eps)

/-- `norm_2(points[index] - points[ind]) < epsilon`. -/
def closeTo (index ind : Nat) : Res Bool := do
  let p ← vget points index
  let q ← vget points ind
  let diff ← SmallMat.sub_mat p q
  let n ← SmallMat.norm_2 sqrt m diff
  .ok (decide (n < eps))

/-- The body of the two `for` loops: `epsilon_neighborhood_graph.hxx` 107-114 and 118-125. -/
def visit (index : Nat) (g : Search) (ind : Nat) : Res Search := do
  let c ← closeTo m sqrt eps points index ind
  if c && decide (ind ≠ index) then
    let v ← vget g.visited ind
    if !v || decide (ind ∈ g.search) then
      .ok ⟨if !v then g.search ++ [ind] else g.search, g.visited.set ind true, g.connections ++ [(index, ind)]⟩
    else .ok g
  else .ok g

/-- The indices of the first `for` loop: `epsilon_neighborhood_graph.hxx` 104-106 (`--ind` of 0 yields the largest number, which ends the loop). -/
def downIndices (index : Nat) : List Nat := (List.range (index + 1)).reverse.takeWhile (inWindow eps points index)

/-- The indices of the second `for` loop: `epsilon_neighborhood_graph.hxx` 115-117. -/
def upIndices (index : Nat) : List Nat := (List.range' index (points.length - index)).takeWhile (inWindow eps points index)

/-- One round of the `while` loop for the front `index` of the queue: `epsilon_neighborhood_graph.hxx` 102-125. -/
def searchRound (index : Nat) (g : Search) : Res Search := do
  let _ ← vget points index
  let g ← (downIndices eps points index).foldlM (visit m sqrt eps points index) g
  (upIndices eps points index).foldlM (visit m sqrt eps points index) g

/-- The `while` loop: `epsilon_neighborhood_graph.hxx` 100-126, at most `fuel` rounds. -/
def searchLoop : Nat → Search → Res Search
  | 0, g => .ok g
  | fuel + 1, g =>
      match g.search with
      | [] => .ok g
      | index :: search => do
          let g ← searchRound m sqrt eps points index { g with search := search }
          searchLoop fuel g

/-- The search: `epsilon_neighborhood_graph.hxx` 96-126.  Every point is put into the queue at most once, thus the number of points bounds the number of rounds. -/
def searchGraph : Res Search := do
  let visited ← vset (List.replicate points.length false) 0 true
  searchLoop m sqrt eps points points.length ⟨[0], visited, []⟩

end

/-- The rows of the file: a hyperedge for each connection. -/
def connectionArray {k : Nat} (c : Nat × Nat) : Fin k → Nat := fun i => if i.val = 0 then c.1 else c.2

/-- `linestream >> equal_sign >> epsilon` after looking for the keyword: `epsilon_neighborhood_graph.hxx` 63-68. -/
def GeoReader.headerReal [Zero K] (scan : Scan K) (kw : List Char) (equal_sign : List Char) (r : GeoReader) : GeoReader × List Char × Option K :=
  let r := r.seek kw
  let e := r.linestream.string
  let n := e.1.real scan
  ({ r with linestream := n.1 }, e.2.getD equal_sign, n.2)

/-- Read the points: `epsilon_neighborhood_graph.hxx` 84-90. -/
def readAllPoints [Zero K] (scan : Scan K) : List (List Char) → SmallVec s K → List (SmallVec s K) → List (SmallVec s K)
  | [], _, points => points
  | line :: infile, pt, points =>
      let pt := (extractAll (LineStream.real scan) ⟨line, true⟩ pt).2
      readAllPoints scan infile pt (points ++ [pt])

/-- Read epsilon and the points: `epsilon_neighborhood_graph.hxx` 50-90. -/
def readPts (m : Mode) [Zero K] [LT K] [DecidableLT K] (scan : Scan K) (s : Nat) (content : List Char) : Res (K × List (SmallVec s K)) := do
  let r ← readDimension m "Space_Dim" s ⟨linesOf content, [], ⟨[], true⟩⟩ []
  let e := r.1.headerReal scan "Epsilon".toList r.2
  hyAssert m (e.1.keyword = "Epsilon".toList)
  hyAssert m (e.2.1 = "=".toList)
  match e.2.2 with
  | none => .ub
  | some epsilon => do
      hyAssert m (0 < epsilon)
      let r := e.1.seek "POINTS:".toList
      hyAssert m (r.keyword = "POINTS:".toList)
      .ok (epsilon, readAllPoints scan r.infile (SmallMat.fill s 1 0) [])

/-- `make_epsilon_neighborhood_graph`: `epsilon_neighborhood_graph.hxx` 24-154, as a function from the contents of the `.pts` file to the contents of the `.geo` file.
The file is written before the last assertion. -/
def make_epsilon_neighborhood_graph [Field K] [LinearOrder K] (m : Mode) (sort : StdSort) (scan : Scan K) (print : K → List Char) (sqrt : K → K) (s : Nat)
    (content : List Char) : Res (List Char) := do
  let r ← readPts m scan (s + 1) content
  let points := sort _ SmallMat.lt r.2
  hyAssert m (noAdjacent SmallMat.eq points = true)
  let g ← searchGraph m sqrt r.1 points
  let arrays {k : Nat} : List (Fin k → Nat) := g.connections.map connectionArray
  let out := unlines (writeGeo (d := 0) print points points.length arrays arrays arrays)
  hyAssert m (g.visited.all id = true)
  .ok out

/-! ## `read_domain` -/

/-- `filename.substr(filename.size() - 4, filename.size())`; for short names the position is a huge number. -/
def lastFour (filename : List Char) : Res (List Char) := if filename.length < 4 then .throw .outOfRange else .ok (filename.drop (filename.length - 4))

/-- The contents of the files, by their names. -/
abbrev FileSystem := List Char → Option (List Char)

/-- The conversion of a `.pts` file: `read_domain.hxx` 408-414.  The name of the file is changed (a file which does not exist is read as an empty file). -/
def convertPts [Field K] [LinearOrder K] (m : Mode) (sort : StdSort) (scan : Scan K) (print : K → List Char) (sqrt : K → K) (d s : Nat) (fs : FileSystem)
    (filename ending : List Char) : Res (FileSystem × List Char) :=
  if ending = ".pts".toList then do
    hyAssert m (d + 1 = 1)
    let out ← make_epsilon_neighborhood_graph m sort scan print sqrt s ((fs filename).getD [])
    .ok (Function.update fs (filename ++ ".geo".toList) (some out), filename ++ ".geo".toList)
  else .ok (fs, filename)

/-- `hy_assert(filename.substr(...) == ".geo", ...)`: `read_domain.hxx` 416-417. -/
def assertGeo (m : Mode) (filename : List Char) : Res Unit :=
  match m with
  | .debug => do
      let ending ← lastFour filename
      hyAssert .debug (ending = ".geo".toList)
  | .release => .ok ()

/-- `hy_assert(domain_info.check_consistency(), ...)`: `read_domain.hxx` 422-424. -/
def assertConsistent [LinearOrder K] (m : Mode) (sort : StdSort) {d s : Nat} (D : DomainInfo d s K) : Res Unit :=
  match m with
  | .debug => do
      let c ← D.check_consistency .debug sort
      hyAssert .debug (c = true)
  | .release => .ok ()

/-- `read_domain`: `read_domain.hxx` 402-427.  Returns the files and the domain. -/
def read_domain [Field K] [LinearOrder K] (m : Mode) (sort : StdSort) (scan : Scan K) (print : K → List Char) (sqrt : K → K) (d s : Nat) (fs : FileSystem)
    (filename : List Char) : Res (FileSystem × DomainInfo d (s + 1) K) := do
  hyAssert m ((fs filename).isSome = true)
  let ending ← lastFour filename
  let r ← convertPts m sort scan print sqrt d s fs filename ending
  assertGeo m r.2
  let domain_info ← read_domain_geo m scan d (s + 1) ((r.1 r.2).getD [])
  assertConsistent m sort domain_info
  .ok (r.1, domain_info)

end HyperHDG

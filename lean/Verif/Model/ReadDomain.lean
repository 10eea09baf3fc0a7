import Verif.Model.DenseLA
import Verif.Model.Topology
import Verif.Model.FileGeometry

/-!
# Reading domains

Model of `include/HyperHDG/read_domain.hxx` (but for the choice of the file, see `Verif/Model/EpsilonGraph.lean`).

A file is the list of its characters.  Of the C++ standard library the streams are modelled here: `std::getline`, and `operator>>` for `std::string` and
`unsigned int` in the "C" locale; `operator>>` for `double` is the parameter `scan`.  `std::sort` is the parameter `sort`.  All index types are
`unsigned int` (the default).  Memory is unlimited.
-/

namespace HyperHDG

variable {d s : Nat} {K : Type}

/-- `std::sort` with `operator<`. -/
abbrev StdSort := ∀ (α : Type), (α → α → Bool) → List α → List α

/-- `std::adjacent_find(x.begin(), x.end()) == x.end()`. -/
def noAdjacent {α : Type} (eq : α → α → Bool) : List α → Bool
  | a :: b :: l => !eq a b && noAdjacent eq (b :: l)
  | _ => true

/-- `is_unique`: `read_domain.hxx` 25-31.  The argument is copied. -/
def is_unique (sort : StdSort) {α : Type} (lt eq : α → α → Bool) (vec : List α) : Bool :=
  let x := sort α lt vec
  noAdjacent eq x

/-- `operator<` of `unsigned int`. -/
def ltNat (a b : Nat) : Bool := decide (a < b)

/-- `operator==` of `unsigned int`. -/
def eqNat (a b : Nat) : Bool := decide (a = b)

/-- `std::lexicographical_compare` of sequences of indices. -/
def lexLt : List Nat → List Nat → Bool
  | _, [] => false
  | [], _ :: _ => true
  | a :: as, b :: bs => if a < b then true else if b < a then false else lexLt as bs

/-- `operator<` of `std::array`. -/
def ltArr {n : Nat} (a b : Fin n → Nat) : Bool := lexLt (List.ofFn a) (List.ofFn b)

/-- `operator==` of `std::array`. -/
def eqArr {n : Nat} (a b : Fin n → Nat) : Bool := decide (a = b)

/-- `DomainInfo`: `read_domain.hxx` 51-90. -/
structure DomainInfo (d s : Nat) (K : Type) where
  n_hyEdges : Nat
  n_hyNodes : Nat
  n_points : Nat
  n_properties : Nat
  points : List (SmallVec s K)
  hyNodes_hyEdge : List (FaceArr d)
  hyFaces_hyEdge : List (FaceArr d)
  points_hyEdge : List (Fin (2 ^ (d + 1)) → Nat)
  hyEdge_properties : List (List K)
deriving DecidableEq

namespace DomainInfo

/-- What the topology uses. -/
def topo (D : DomainInfo d s K) : DomainTopo d := ⟨D.n_hyEdges, D.n_hyNodes, D.hyNodes_hyEdge, D.hyFaces_hyEdge⟩

/-- What the geometry uses. -/
def geo (D : DomainInfo d s K) : DomainGeo d s K := ⟨D.n_hyEdges, D.points, D.points_hyEdge⟩

/-- Constructor: `read_domain.hxx` 94-107; points and arrays are filled with zeros. -/
def make [Zero K] (n_points n_hyEdge n_hyNode n_point : Nat) : DomainInfo d s K where
  n_hyEdges := n_hyEdge
  n_hyNodes := n_hyNode
  n_points := n_point
  n_properties := 0
  points := List.replicate n_points (SmallMat.fill s 1 0)
  hyNodes_hyEdge := List.replicate n_hyEdge (fun _ => 0)
  hyFaces_hyEdge := List.replicate n_hyEdge (fun _ => 0)
  points_hyEdge := List.replicate n_hyEdge (fun _ => 0)
  hyEdge_properties := []

/-- The body of the inner loops of `check_consistency`: `read_domain.hxx` 121-122 and 132-133; `consistent` is overwritten.  The comparison with 0 is always true. -/
def checkIndex (m : Mode) (bound : Nat) (_consistent : Bool) (x : Nat) : Res Bool := do
  hyAssert m (x < bound)
  .ok (decide (x < bound))

/-- The body of the two loops over hyperedges in `check_consistency`: `read_domain.hxx` 118-123 and 129-134. -/
def checkEdge (m : Mode) (sort : StdSort) {n : Nat} (bound : Nat) (consistent : Bool) (hyEdge : Fin n → Nat) : Res Bool := do
  hyAssert m (is_unique sort ltNat eqNat (List.ofFn hyEdge) = true)
  (List.ofFn hyEdge).foldlM (checkIndex m bound) consistent

/-- `check_consistency`: `read_domain.hxx` 111-153. -/
def check_consistency (m : Mode) (sort : StdSort) [DecidableEq K] [LT K] [DecidableLT K] (D : DomainInfo d s K) : Res Bool := do
  let consistent ← D.hyNodes_hyEdge.foldlM (checkEdge m sort D.n_hyNodes) true
  let _ ← D.points_hyEdge.foldlM (checkEdge m sort D.n_points) consistent
  let consistent := is_unique sort SmallMat.lt SmallMat.eq D.points
  hyAssert m (consistent = true)
  if !consistent then
    .ok false
  else
    let consistent := is_unique sort ltArr eqArr D.hyNodes_hyEdge
    hyAssert m (consistent = true)
    if !consistent then
      .ok false
    else
      let consistent := is_unique sort ltArr eqArr D.points_hyEdge
      hyAssert m (consistent = true)
      if !consistent then
        .ok false
      else
        .ok true

end DomainInfo

/-! ## Streams -/

/-- `std::isspace` in the "C" locale. -/
def isSpace (c : Char) : Bool := c == ' ' || c == '\t' || c == '\n' || c == '\x0b' || c == '\x0c' || c == '\r'

/-- The lines which successive calls of `std::getline` return for a file with the given characters. -/
def linesOf : List Char → List (List Char)
  | [] => []
  | c :: cs =>
      if c = '\n' then [] :: linesOf cs
      else
        match linesOf cs with
        | [] => [[c]]
        | l :: ls => (c :: l) :: ls

/-- `std::istringstream`: the characters not yet extracted, and whether `failbit` is not set. -/
structure LineStream where
  rest : List Char
  good : Bool

/-- `operator>>(std::string&)`: the new value, none if the string is not changed. -/
def LineStream.string (st : LineStream) : LineStream × Option (List Char) :=
  if st.good then
    match st.rest.dropWhile isSpace with
    | [] => (⟨[], false⟩, none)
    | c :: cs => (⟨(c :: cs).dropWhile (fun c => !isSpace c), true⟩, some ((c :: cs).takeWhile (fun c => !isSpace c)))
  else (st, none)

/-- The number with the given decimal digits. -/
def digitsValue (ds : List Char) : Nat := ds.foldl (fun v c => 10 * v + (c.toNat - '0'.toNat)) 0

/-- `operator>>(unsigned int&)` (`std::num_get`): optional sign and decimal digits; the value is 0 if there are no digits, the largest number if the number is too large,
and reduced modulo `2^32` if the sign is negative.  None if the variable is not changed. -/
def LineStream.unsigned (st : LineStream) : LineStream × Option Nat :=
  if st.good then
    match st.rest.dropWhile isSpace with
    | [] => (⟨[], false⟩, none)
    | c :: cs =>
        let negative : Bool := c == '-'
        let l := if c == '-' || c == '+' then cs else c :: cs
        let ds := l.takeWhile Char.isDigit
        let rest := l.dropWhile Char.isDigit
        if ds = [] then (⟨rest, false⟩, some 0)
        else if digitsValue ds < U32 then (⟨rest, true⟩, some (if negative then u32 (U32 - digitsValue ds) else digitsValue ds))
        else (⟨rest, false⟩, some (U32 - 1))
  else (st, none)

/-- `std::num_get` for `double`, from the first character which is not a space: the number (none if there is no number) and the remaining characters. -/
abbrev Scan (K : Type) := List Char → Option K × List Char

/-- `operator>>(double&)`; a failed conversion sets the variable to 0.  None if the variable is not changed. -/
def LineStream.real [Zero K] (scan : Scan K) (st : LineStream) : LineStream × Option K :=
  if st.good then
    match st.rest.dropWhile isSpace with
    | [] => (⟨[], false⟩, none)
    | c :: cs =>
        match scan (c :: cs) with
        | (some x, rest) => (⟨rest, true⟩, some x)
        | (none, rest) => (⟨rest, false⟩, some 0)
  else (st, none)

/-- `linestream >> values[i];`. -/
def extractAt {α : Type} (extract : LineStream → LineStream × Option α) {n : Nat} (p : LineStream × (Fin n → α)) (i : Fin n) : LineStream × (Fin n → α) :=
  match extract p.1 with
  | (st, none) => (st, p.2)
  | (st, some x) => (st, arrSet p.2 i x)

/-- `for (i = 0; i < size; ++i) linestream >> values[i];`. -/
def extractAll {α : Type} (extract : LineStream → LineStream × Option α) {n : Nat} (st : LineStream) (values : Fin n → α) : LineStream × (Fin n → α) :=
  (List.finRange n).foldl (extractAt extract) (st, values)

/-! ## `read_domain_geo` -/

/-- The local variables `infile` (the lines not yet read), `keyword` and `linestream`. -/
structure GeoReader where
  infile : List (List Char)
  keyword : List Char
  linestream : LineStream

/-- `while (keyword != kw && std::getline(infile, line)) { linestream = std::istringstream(line); linestream >> keyword; }`: `read_domain.hxx` 199-203 and
the like. -/
def seek (kw : List Char) : List (List Char) → List Char → LineStream → GeoReader
  | [], keyword, linestream => ⟨[], keyword, linestream⟩
  | line :: infile, keyword, linestream =>
      if keyword = kw then ⟨line :: infile, keyword, linestream⟩
      else
        let e := LineStream.string ⟨line, true⟩
        seek kw infile (e.2.getD keyword) e.1

@[inherit_doc seek] def GeoReader.seek (kw : List Char) (r : GeoReader) : GeoReader := HyperHDG.seek kw r.infile r.keyword r.linestream

/-- A line `keyword = number` of the header: `read_domain.hxx` 199-261.  The value is none if the variable is not changed. -/
def GeoReader.header (kw : List Char) (equal_sign : List Char) (r : GeoReader) : GeoReader × List Char × Option Nat :=
  let r := r.seek kw
  let e := r.linestream.string
  let n := e.1.unsigned
  ({ r with linestream := n.1 }, e.2.getD equal_sign, n.2)

/-- `for (iter = 0; iter < n && std::getline(infile, line); ++iter)`: `read_domain.hxx` 274-280 and the like. -/
def rows {σ : Type} (n : Nat) (body : Nat → List Char → σ → σ) : Nat → List (List Char) → σ → Nat × List (List Char) × σ
  | iter, [], t => (iter, [], t)
  | iter, line :: infile, t => if iter < n then rows n body (iter + 1) infile (body iter line t) else (iter, line :: infile, t)

/-- Read the points: `read_domain.hxx` 274-280.  The variable `pt` keeps its coordinates from line to line. -/
def GeoReader.points [Zero K] (scan : Scan K) (n : Nat) (r : GeoReader) (points : List (SmallVec s K)) : Nat × GeoReader × List (SmallVec s K) :=
  let e := rows n (fun iter line (t : SmallVec s K × List (SmallVec s K) × LineStream) =>
    let x := extractAll (LineStream.real scan) ⟨line, true⟩ t.1
    (x.2, t.2.1.set iter x.2, x.1)) 0 r.infile (SmallMat.fill s 1 0, points, r.linestream)
  (e.1, { r with infile := e.2.1, linestream := e.2.2.2.2 }, e.2.2.2.1)

/-- Read an array of indices for each hyperedge: `read_domain.hxx` 294-299, 313-318, 332-337. -/
def GeoReader.arrays {k : Nat} (n : Nat) (r : GeoReader) (arrays : List (Fin k → Nat)) : Nat × GeoReader × List (Fin k → Nat) :=
  let e := rows n (fun iter line (t : List (Fin k → Nat) × LineStream) =>
    let x := extractAll LineStream.unsigned ⟨line, true⟩ (t.1.getD iter (fun _ => 0))
    (t.1.set iter x.2, x.1)) 0 r.infile (arrays, r.linestream)
  (e.1, { r with infile := e.2.1, linestream := e.2.2.2 }, e.2.2.1)

/-- Read the properties of the hyperedges: `read_domain.hxx` 360-366. -/
def GeoReader.properties [Zero K] (scan : Scan K) (n n_properties : Nat) (r : GeoReader) (props : List (List K)) : Nat × List (List K) :=
  let e := rows n (fun iter line (t : List (List K)) =>
    t.set iter (List.ofFn (extractAll (n := n_properties) (LineStream.real scan) ⟨line, true⟩ (fun _ => 0)).2)) 0 r.infile props
  (e.1, e.2.2)

/-- The value of a variable that is not initialised when it is declared; reading it before it is set is undefined. -/
def initialised (x : Option Nat) : Res Nat :=
  match x with
  | none => .ub
  | some n => .ok n

/-- `hy_assert(x == value, ...)` for such a variable; without assertions the variable is not read. -/
def assertValue (m : Mode) (x : Option Nat) (value : Nat) : Res Unit :=
  match m with
  | .release => .ok ()
  | .debug => do
      let n ← initialised x
      hyAssert .debug (n = value)

/-- Read a dimension and compare it with the template parameter: `read_domain.hxx` 199-223. -/
def readDimension (m : Mode) (kw : String) (value : Nat) (r : GeoReader) (equal_sign : List Char) : Res (GeoReader × List Char) :=
  let h := r.header kw.toList equal_sign
  do
    hyAssert m (h.1.keyword = kw.toList)
    hyAssert m (h.2.1 = "=".toList)
    assertValue m h.2.2 value
    .ok (h.1, h.2.1)

/-- Read a number (initially zero): `read_domain.hxx` 225-261. -/
def readCount (m : Mode) (kw : String) (r : GeoReader) (equal_sign : List Char) : Res (GeoReader × List Char × Nat) :=
  let h := r.header kw.toList equal_sign
  do
    hyAssert m (h.1.keyword = kw.toList)
    hyAssert m (h.2.1 = "=".toList)
    hyAssert m (h.2.2.getD 0 ≠ 0)
    .ok (h.1, h.2.1, h.2.2.getD 0)

/-- The section with the points: `read_domain.hxx` 266-283. -/
def readPoints (m : Mode) [Zero K] (scan : Scan K) (n : Nat) (points : List (SmallVec s K)) (r : GeoReader) : Res (GeoReader × List (SmallVec s K)) :=
  let r := r.seek "POINTS:".toList
  let e := r.points scan n points
  do
    hyAssert m (r.keyword = "POINTS:".toList)
    hyAssert m (e.1 = n)
    .ok e.2

/-- A section with index arrays: `read_domain.hxx` 285-301, 303-320, 322-339. -/
def readArrays {k : Nat} (m : Mode) (kw : String) (n : Nat) (arrays : List (Fin k → Nat)) (r : GeoReader) : Res (GeoReader × List (Fin k → Nat)) :=
  let r := r.seek kw.toList
  let e := r.arrays n arrays
  do
    hyAssert m (r.keyword = kw.toList)
    hyAssert m (e.1 = n)
    .ok e.2

/-- The optional section with properties: `read_domain.hxx` 341-369.  Returns the number of properties and the properties. -/
def readProperties (m : Mode) [Zero K] (scan : Scan K) (n n_properties : Nat) (r : GeoReader) : Res (Nat × List (List K)) :=
  let r := r.seek "HYPEREDGE_PROPERTIES:".toList
  if r.keyword ≠ "HYPEREDGE_PROPERTIES:".toList then .ok (n_properties, [])
  else
    let n_properties := r.linestream.unsigned.2.getD n_properties
    let e := r.properties scan n n_properties (List.replicate n [])
    do
      hyAssert m (e.1 = n)
      .ok (n_properties, e.2)

/-- `read_domain_geo`: `read_domain.hxx` 184-372, from the contents of the file (the empty list if the file cannot be opened).  The check of the file name is
in `read_domain`. -/
def read_domain_geo (m : Mode) [Zero K] (scan : Scan K) (d s : Nat) (content : List Char) : Res (DomainInfo d s K) := do
  let r ← readDimension m "Space_Dim" s ⟨linesOf content, [], ⟨[], true⟩⟩ []
  let r ← readDimension m "HyperEdge_Dim" (d + 1) r.1 r.2
  let np ← readCount m "N_Points" r.1 r.2
  let nn ← readCount m "N_HyperNodes" np.1 np.2.1
  let ne ← readCount m "N_HyperEdges" nn.1 nn.2.1
  let domain_info : DomainInfo d s K := .make np.2.2 ne.2.2 nn.2.2 np.2.2
  let p ← readPoints m scan np.2.2 domain_info.points ne.1
  let a ← readArrays m "HYPERNODES_OF_HYPEREDGES:" ne.2.2 domain_info.hyNodes_hyEdge p.1
  let b ← readArrays m "TYPES_OF_HYPERFACES:" ne.2.2 domain_info.hyFaces_hyEdge a.1
  let c ← readArrays m "POINTS_OF_HYPEREDGES:" ne.2.2 domain_info.points_hyEdge b.1
  let q ← readProperties m scan ne.2.2 domain_info.n_properties c.1
  .ok { domain_info with
        points := p.2, hyNodes_hyEdge := a.2, hyFaces_hyEdge := b.2, points_hyEdge := c.2, n_properties := q.1, hyEdge_properties := q.2 }

end HyperHDG

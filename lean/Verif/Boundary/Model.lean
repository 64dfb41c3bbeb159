import Verif.Geometry.Model
import Verif.Utils.Model
import Verif.Container.Model

/-!
# Model of `src/algorithm/EdgeList.h` and `src/algorithm/Boundary.h`

Vertices are identified by natural numbers (their address in the code); `pos` gives their
coordinates.  The `std::list` of edges is a `List`.  Lookups of edges in the quad tree of the
container are the exact filters justified by `TQ.C02_queries_exact`.
-/

set_option linter.unusedSectionVars false

namespace TQ

/-- An edge of an edge list (src/algorithm/Edge.h:264-284): end vertices, color, properties.
Adjacent facets, sub-vertex and twin edge play no role in the functions of this file. -/
structure BEdge where
  v1 : Nat
  v2 : Nat
  color : Int
  props : BitVec 8 := 0
deriving DecidableEq, Repr

/-- `EdgeList` (src/algorithm/EdgeList.h:583-585): `oriented` is `orient_ != Orientation::NONE`. -/
structure EList (K : Type*) where
  oriented : Bool
  edges : List BEdge
  area : K
deriving DecidableEq, Repr

section
variable {K : Type*} [Field K] [LinearOrder K]

/-- The summation loop of `compute_area` (src/algorithm/EdgeList.h:517-525). -/
def areaLoop (pos : Nat → Pt K) (ref : Pt K) : K → List BEdge → K
  | acc, [] => acc
  | acc, e :: es => areaLoop pos ref (acc + Pt.cross (pos e.v1 - ref) (pos e.v2 - ref)) es

/-- `compute_area` (src/algorithm/EdgeList.h:507-530): the new value of `area_`. -/
def computeArea (pos : Nat → Pt K) (old : K) (es : List BEdge) : K :=
  if es.length < 3 then old
  else match es with
    | [] => old
    | e :: rest => 1 / 2 * areaLoop pos (pos e.v1) 0 rest

namespace EList

/-- `insert_edge` (src/algorithm/EdgeList.h:114-126): insertion before the position `k`.
`none` is the failing `ASSERT( length_ > 0.0 )` of the constructor of `Edge`
(src/algorithm/Edge.h:110-111; in exact arithmetic the length vanishes iff the coordinates of the
two end points are equal). -/
def insertEdge (pos : Nat → Pt K) (L : EList K) (k : Nat) (e : BEdge) : Option (EList K) :=
  if pos e.v1 = pos e.v2 then none
  else
    let es := L.edges.take k ++ e :: L.edges.drop k
    some { L with edges := es, area := if L.oriented then computeArea pos L.area es else L.area }

/-- Outcome of `EdgeList::add_edge`. -/
inductive AddRes (K : Type*) where
  | throws
  | abort
  | ok (L : EList K)
deriving DecidableEq, Repr

/-- `EdgeList::add_edge` (src/algorithm/EdgeList.h:139-154). -/
def addEdge (pos : Nat → Pt K) (L : EList K) (v1 v2 : Nat) (color : Int) : AddRes K :=
  let ins := match insertEdge pos L L.edges.length ⟨v1, v2, color, 0⟩ with
    | none => .abort
    | some L' => .ok L'
  if L.oriented = false ∨ L.edges.length < 1 then ins
  else match L.edges.getLast? with
    | none => ins
    | some e => if v1 ≠ e.v2 then .throws else ins

/-- `Boundary::insert_edge` (src/algorithm/Boundary.h:175-187): additional assertion on the color and
the property `on_boundary`. -/
def bInsertEdge (pos : Nat → Pt K) (L : EList K) (k : Nat) (v1 v2 : Nat) (color : Int) :
    Option (EList K) :=
  if color ≥ 0 then insertEdge pos L k ⟨v1, v2, color, Flags.add 0 Flags.eOnBoundary⟩ else none

/-- `Boundary::add_edge` (src/algorithm/Boundary.h:194-195): no connectivity check. -/
def bAddEdge (pos : Nat → Pt K) (L : EList K) (v1 v2 : Nat) (color : Int) : Option (EList K) :=
  bInsertEdge pos L L.edges.length v1 v2 color

/-- The vertex placed by `split_edge` (src/algorithm/EdgeList.h:192-197). -/
def splitPoint (s : K) (p1 p2 : Pt K) : Pt K := Pt.smul s p1 + Pt.smul (1 - s) p2

/-- `split_edge` (src/algorithm/EdgeList.h:183-225) of the edge at position `k` of the list, with the
new vertex `vn` (a fresh identifier).  `none`: the pair of null pointers is returned or a zero length
edge aborts.  Both new edges are inserted before the old edge, which is removed afterwards;
`remove` does not touch `area_`.  The properties of the vertices and the
position of the new vertex in the vertex list are not part of this definition. -/
def splitEdge (pos : Nat → Pt K) (L : EList K) (k vn : Nat) (s : K) :
    Option ((Nat → Pt K) × EList K) :=
  if s ≥ 1 ∨ s ≤ 0 then none
  else match L.edges[k]? with
    | none => none
    | some e =>
      let pos' := fun i => if i = vn then splitPoint s (pos e.v1) (pos e.v2) else pos i
      match insertEdge pos' L k ⟨e.v1, vn, e.color, e.props⟩ with
      | none => none
      | some L1 =>
        match insertEdge pos' L1 (k + 1) ⟨vn, e.v2, e.color, e.props⟩ with
        | none => none
        | some L2 => some (pos', { L2 with edges := L2.edges.eraseIdx (k + 2) })

end EList

/-- The loop of `EdgeList::is_inside` (src/algorithm/EdgeList.h:240-265). `tol` is the factor of
`VecND::operator==`, `mn`, `mr` the tolerances of `EQ`, `eps` the tolerance of `orientation`. -/
def insideLoop (tol mn mr eps : K) (pos : Nat → Pt K) (o : Pt K) : Nat → List BEdge → Bool
  | count, [] => count % 2 == 1
  | count, e :: es =>
    let v1 := pos e.v1
    let v2 := pos e.v2
    if vecEq tol o v1 || vecEq tol o v2 then true
    else if cppEQ o.y v2.y mn mr && cppEQ o.y v1.y mn mr && inOnSegment eps v1 v2 o then true
    else if (o.y > v2.y ∧ o.y ≤ v1.y) ∨ (o.y > v1.y ∧ o.y ≤ v2.y) then
      let dx := v1.x - v2.x
      let m := (o.y - v2.y) / (v1.y - v2.y)
      let x := v2.x + m * dx
      insideLoop tol mn mr eps pos o (if x < o.x then count + 1 else count) es
    else insideLoop tol mn mr eps pos o count es

/-- `EdgeList::is_inside` (src/algorithm/EdgeList.h:233-267). -/
def isInside (tol mn mr eps : K) (pos : Nat → Pt K) (es : List BEdge) (o : Pt K) : Bool :=
  if es.length < 3 then false else insideLoop tol mn mr eps pos o 0 es

/-- Lower left and upper right corner of an edge (src/algorithm/EdgeList.h:412-413, 446-447). -/
def edgeLL (p q : Pt K) : Pt K := ⟨cppMIN p.x q.x, cppMIN p.y q.y⟩
def edgeUR (p q : Pt K) : Pt K := ⟨cppMAX p.x q.x, cppMAX p.y q.y⟩

/-- Location of an edge in the quad tree (src/algorithm/Edge.h:99). -/
def edgeCentroid (pos : Nat → Pt K) (e : BEdge) : Pt K :=
  Pt.smul (1 / 2) (pos e.v1 + pos e.v2)

/-- `get_next_edge` (src/algorithm/Edge.h:175-193) among the edges of one list in the order in which
they were attached to the vertices. Edges are compared by their index in that list. -/
def nextIdx (es : List BEdge) (i : Nat) (e : BEdge) : Option Nat :=
  (List.range es.length).find? fun j => decide (j ≠ i) && (es[j]?.any fun f => f.v1 == e.v2)

/-- `get_prev_edge` (src/algorithm/Edge.h:203-221). -/
def prevIdx (es : List BEdge) (i : Nat) (e : BEdge) : Option Nat :=
  (List.range es.length).find? fun j => decide (j ≠ i) && (es[j]?.any fun f => f.v2 == e.v1)

/-- `intersects_self` (src/algorithm/EdgeList.h:402-433): candidates are the edges whose centroid lies
in the bounding box of the edge. -/
def intersectsSelf (eps : K) (pos : Nat → Pt K) (es : List BEdge) : Bool :=
  es.zipIdx.any fun (e, i) =>
    es.zipIdx.any fun (f, j) =>
      inOnRect (edgeCentroid pos f) (edgeLL (pos e.v1) (pos e.v2)) (edgeUR (pos e.v1) (pos e.v2)) &&
      decide (j ≠ i) && decide (prevIdx es i e ≠ some j) && decide (nextIdx es i e ≠ some j) &&
      lineLineIntersection eps (pos e.v1) (pos e.v2) (pos f.v1) (pos f.v2)

/-- `intersects_edgelist` (src/algorithm/EdgeList.h:439-463). -/
def intersectsEdgelist (eps : K) (pos : Nat → Pt K) (es fs : List BEdge) : Bool :=
  es.any fun e => fs.any fun f =>
    inOnRect (edgeCentroid pos f) (edgeLL (pos e.v1) (pos e.v2)) (edgeUR (pos e.v1) (pos e.v2)) &&
    lineLineIntersection eps (pos e.v1) (pos e.v2) (pos f.v1) (pos f.v2)

/-! ## Boundary shapes -/

/-- `enum class BdryType` (src/algorithm/Boundary.h:26-30) -/
inductive BdryType | exterior | interior
deriving DecidableEq, Repr

/-- A vertex of the domain: coordinates, mesh size, size range (src/algorithm/Vertex.h:69-75). -/
structure BVert (K : Type*) where
  xy : Pt K
  size : K
  range : K
deriving DecidableEq, Repr

/-- The vertex used for the coordinate `xy` and the vertices afterwards, given the result of
`get_nearest` (src/algorithm/Boundary.h:336-347).  `EQ0` of the squared
distance is taken as equality of the coordinates (exact arithmetic, `DBL_MIN` replaced by 0). -/
def pickVert (st : List (BVert K)) (r : Option Nat) (xy pr : Pt K) : Nat × List (BVert K) :=
  match r with
  | some j => match st[j]? with
    | some v => if v.xy = xy then (j, st) else (st.length, st ++ [⟨xy, pr.x, pr.y⟩])
    | none => (st.length, st ++ [⟨xy, pr.x, pr.y⟩])
  | none => (st.length, st ++ [⟨xy, pr.x, pr.y⟩])

/-- The vertex loop of `create_boundary_shape` (src/algorithm/Boundary.h:331-348).  `nearest` is
`get_nearest` of the vertex container (`ub`: null dereference, see `TQ.C06_outside_ub_violated`);
a vertex is identified by its index in the list of vertices created so far.
Reading `v_properties[i]` beyond its end is undefined. -/
def gatherVerts (nearest : List (BVert K) → Pt K → Out (Option Nat)) :
    List (Pt K) → List (Pt K) → List (BVert K) → Out (List Nat × List (BVert K))
  | [], _, st => .ok ([], st)
  | _ :: _, [], _ => .ub
  | xy :: cs, pr :: ps, st =>
    match nearest st xy with
    | .ub => .ub
    | .abort => .abort
    | .ok r =>
      match gatherVerts nearest cs ps (pickVert st r xy pr).2 with
      | .ok (is, st') => .ok ((pickVert st r xy pr).1 :: is, st')
      | .ub => .ub
      | .abort => .abort

/-- Coordinates of a vertex identifier. -/
def storePos (st : List (BVert K)) (i : Nat) : Pt K := ((st[i]?).map (·.xy)).getD 0

/-- The calls `add_edge(v1, v2, color)` of `create_boundary_shape` in order
(src/algorithm/Boundary.h:352-368).  Entries are `none` if a `std::vector` is read out of bounds. -/
def shapeCalls (bt : BdryType) (ccw : Bool) (vs : List Nat) (colors : List Int) :
    List (Option (Nat × Nat × Int)) :=
  let n := vs.length
  let j (i : Nat) : Nat := (cppMOD ((i : Int) + 1) (n : Int)).toNat
  let call (a b c : Nat) : Option (Nat × Nat × Int) :=
    match vs[a]?, vs[b]?, colors[c]? with
    | some x, some y, some z => some (x, y, z)
    | _, _, _ => none
  if (bt = .exterior ∧ ccw = true) ∨ (bt = .interior ∧ ccw = false) then
    (List.range n).map fun i => call i (j i) i
  else
    (List.range n).reverse.map fun i => call (j i) i (j i)

/-- Execution of the calls on the boundary. -/
def runCalls (pos : Nat → Pt K) : List (Option (Nat × Nat × Int)) → EList K → Out (EList K)
  | [], L => .ok L
  | none :: _, _ => .ub
  | some (a, b, c) :: cs, L =>
    match L.bAddEdge pos a b c with
    | none => .abort
    | some L' => runCalls pos cs L'

/-- `create_boundary_shape` (src/algorithm/Boundary.h:315-369), the common tail of
`set_shape_from_coordinates`, `set_shape_from_csv`, `set_shape_rectangle`, `set_shape_circle`. -/
def createShape (nearest : List (BVert K) → Pt K → Out (Option Nat)) (bt : BdryType)
    (st : List (BVert K)) (L : EList K) (coords props : List (Pt K)) (colors : List Int) :
    Out (List (BVert K) × EList K) :=
  if L.edges.length > 0 then .ok (st, L)
  else
    let ccw := decide (polygonArea coords > 0)
    match gatherVerts nearest coords props st with
    | .ub => .ub
    | .abort => .abort
    | .ok (vs, st') =>
      match runCalls (storePos st') (shapeCalls bt ccw vs colors) L with
      | .ok L' => .ok (st', L')
      | .ub => .ub
      | .abort => .abort

/-- An empty boundary (src/algorithm/Boundary.h:155-160). -/
def emptyBoundary : EList K := ⟨true, [], 0⟩

/-- Coordinates of `set_shape_rectangle` (src/algorithm/Boundary.h:252-277). -/
def rectangleCoords (xy : Pt K) (w h : K) : List (Pt K) :=
  let hw := 1 / 2 * w
  let hh := 1 / 2 * h
  [⟨xy.x - hw, xy.y - hh⟩, ⟨xy.x + hw, xy.y - hh⟩, ⟨xy.x + hw, xy.y + hh⟩, ⟨xy.x - hw, xy.y + hh⟩]

end

/-! ## CSV boundary files -/

/-- One line of the file: coordinates, properties, color. -/
structure CsvRow (K : Type*) where
  coords : Pt K
  props : Pt K
  color : Int
deriving DecidableEq, Repr

/-- Reasons for `throw_error` (src/algorithm/Boundary.h:104, 109, 117, 121). -/
inductive CsvErr | invalid | missing | color
deriving DecidableEq, Repr

section
variable {K : Type*} [Zero K]

/-- Loop over the cells (src/algorithm/Boundary.h:87-114). `stod`, `stoi` return `none` if the C++
functions throw `invalid_argument` or `out_of_range`. -/
def csvCells (stod : List Char → Option K) (stoi : List Char → Option Int) :
    Nat → CsvRow K → List (List Char) → Option (Nat × CsvRow K)
  | i, r, [] => some (i, r)
  | i, r, c :: cs =>
    let r' : Option (CsvRow K) :=
      if i = 0 then (stod c).map fun v => { r with coords := { r.coords with x := v } }
      else if i = 1 then (stod c).map fun v => { r with coords := { r.coords with y := v } }
      else if i = 2 then (stoi c).map fun v => { r with color := v }
      else if i = 3 then (stod c).map fun v => { r with props := { r.props with x := v } }
      else if i = 4 then (stod c).map fun v => { r with props := { r.props with y := v } }
      else some r
    match r' with
    | none => none
    | some r'' => csvCells stod stoi (i + 1) r'' cs

/-- Body of the line loop (src/algorithm/Boundary.h:78-126). -/
def csvLine (stod : List Char → Option K) (stoi : List Char → Option Int) (line : List Char) :
    Except CsvErr (CsvRow K) :=
  match csvCells stod stoi 0 ⟨⟨0, 0⟩, ⟨0, 0⟩, -1⟩ (splitLoop ',' [] line) with
  | none => .error .invalid
  | some (n, r) =>
    if n < 2 then .error .missing
    else if r.color < 0 then .error .color
    else .ok r

/-- Line loop (src/algorithm/Boundary.h:74-128): the vectors filled so far, or the reason and the
number of the offending line. -/
def csvLoop (stod : List Char → Option K) (stoi : List Char → Option Int) :
    Nat → List (CsvRow K) → List (List Char) → Except (CsvErr × Nat) (List (CsvRow K))
  | _, acc, [] => .ok acc
  | i, acc, l :: ls =>
    match csvLine stod stoi l with
    | .error e => .error (e, i)
    | .ok r => csvLoop stod stoi (i + 1) (acc ++ [r]) ls

/-- `read_csv_file` (src/algorithm/Boundary.h:61-130) on the characters of an opened file. -/
def csvRead (stod : List Char → Option K) (stoi : List Char → Option Int) (file : List Char) :
    Except (CsvErr × Nat) (List (CsvRow K)) :=
  csvLoop stod stoi 1 [] (splitLoop '\n' [] file)

end

end TQ

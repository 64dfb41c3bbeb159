import Verif.Cleanup.Model
import Verif.Refinement.Model
import Verif.QuadTree.Model

/-!
# Model of the smoothing of meshes: `src/algorithm/SmoothingStrategy.h`

Coordinates are exact.  `Domain::is_inside` is a function of points (the domain has its own vertices, which
the smoothing does not touch).  A displacement rule may fail: `none` stands for the NaN displacement of a
vertex without facets (src/algorithm/SmoothingStrategy.h:474, 580 divide by zero), for which `is_inside`
answers false in a domain with an exterior boundary, so the vertex keeps its place.  Reading behind the end
of `bdry_direction_` is undefined behaviour: the outcome `none` of an iteration.
-/

set_option linter.unusedSectionVars false

namespace TQ
namespace MS
open MC
variable {K : Type*} [Field K] [LinearOrder K]
namespace St

/-- `MeshCleanup::set_vertex_coordinates` (src/algorithm/MeshCleanup.h:39-48); the metrics of edges and facets
are functions of the coordinates in this model, the move inside the quad trees is `TQ.C03`. -/
def setPos (s : St K) (v : Nat) (p : Pt K) : St K :=
  { s with V := upd s.V v fun d => { d with xy := p } }

/-- What the smoothing takes from its surroundings: `CPPUTILS_SMALL`, `Domain::is_inside`
(src/algorithm/Domain.h:341-354), the order in which `std::sort` puts the neighbours of a vertex by
`atan2` (src/algorithm/SmoothingStrategy.h:142-156) and `quad_layer_smoothing_`. -/
structure SmoothCfg (K : Type*) where
  eps : K
  inside : Pt K → Bool
  order : St K → Nat → List Nat → List Nat
  layers : Bool

/-- `compute_displacement` (src/algorithm/SmoothingStrategy.h:60): a rule gets the mesh, the vertex and its
sorted neighbours. -/
abbrev Rule (K : Type*) := St K → Nat → List Nat → Option (Pt K)

/-- Neighbours gathered for a vertex (src/algorithm/SmoothingStrategy.h:128-140): the other corners of its
facets, once per facet. -/
def starNbrs (s : St K) (v : Nat) : List Nat :=
  (s.V v).facets.flatMap fun f => (s.F f).corners.filter (· ≠ v)

/-- `init_vertex_connectivity` (src/algorithm/SmoothingStrategy.h:115-160). -/
def vertexConn (c : SmoothCfg K) (s : St K) : List (Nat × List Nat) :=
  s.verts.map fun v => (v, c.order s v (s.starNbrs v))

/-- Direction from a vertex to the closest point of an edge (src/algorithm/SmoothingStrategy.h:90-104); `norm`
is the Euclidean norm.  For a vertex on the edge the code appends NaN and the model zero; no appended entry is
ever read (`TQ.C61_unused`). -/
def towardsEdge (norm : Pt K → K) (s : St K) (v e : Nat) : Pt K :=
  let p1 := s.pos (s.E e).v1
  let de := s.pos (s.E e).v2 - p1
  let t := stdClamp (Pt.dot (s.pos v - p1) de / Pt.normSq de) 0 1
  let dp := p1 + Pt.smul t de - s.pos v
  Pt.smul (1 / norm dp) dp

/-- `collect_dispalcement_directions` (src/algorithm/SmoothingStrategy.h:68-109); `nearest` is
`get_nearest_edge` of the boundary edges (src/algorithm/EdgeList.h:87-88). -/
def layerDirs (nearest : St K → Pt K → Option Nat) (norm : Pt K → K) (c : SmoothCfg K) (s : St K) : List (Pt K) :=
  List.replicate s.verts.length 0 ++
    if c.layers then
      s.verts.filterMap fun v =>
        if Flags.has (s.V v).props Flags.vInQuadLayer then (nearest s (s.pos v)).map (s.towardsEdge norm v) else none
    else []

/-- Squared lengths of the sides of a facet (src/algorithm/FacetGeometry.h:81-82, 405-406). -/
def sideSqrs (s : St K) (f : FRef) : List K :=
  match (s.F f).corners with
  | [a, b, c] => [Pt.normSq (s.pos b - s.pos a), Pt.normSq (s.pos c - s.pos b), Pt.normSq (s.pos a - s.pos c)]
  | [a, b, c, d] => [Pt.normSq (s.pos b - s.pos a), Pt.normSq (s.pos c - s.pos b), Pt.normSq (s.pos d - s.pos c),
      Pt.normSq (s.pos a - s.pos d)]
  | _ => []

/-- Square of the search radius (src/algorithm/SmoothingStrategy.h:254-256). -/
def searchSqr (s : St K) (v : Nat) : K :=
  ((s.V v).facets.flatMap s.sideSqrs).foldl max 0

/-- `get_edges` around a vertex (src/algorithm/EdgeList.h:81-82), the exact filter of `TQ.C02_queries_exact`. -/
def edgesNear (s : St K) (l : EL) (v : Nat) : List Nat :=
  (s.es l).filter (QT.circQuery s.edgeMid (s.pos v) (s.searchSqr v))

/-- Orientation checks of one facet (src/algorithm/SmoothingStrategy.h:226-249): all of a triangle, two corners
of a quad. -/
def facetOriented (eps : K) (s : St K) (f : FRef) : Bool :=
  match (s.F f).corners with
  | [a, b, c] => orientation eps (s.pos a) (s.pos b) (s.pos c) == .CCW
  | [a, b, c, d] => orientation eps (s.pos a) (s.pos b) (s.pos c) == .CCW &&
      orientation eps (s.pos b) (s.pos c) (s.pos d) == .CCW
  | _ => true

/-- `line_line_crossing` of two mesh edges (src/algorithm/SmoothingStrategy.h:277, 286). -/
def edgesCross (eps : K) (s : St K) (e f : Nat) : Bool :=
  lineLineCrossing eps (s.pos (s.E e).v1) (s.pos (s.E e).v2) (s.pos (s.E f).v1) (s.pos (s.E f).v2)

/-- Crossing checks around a vertex (src/algorithm/SmoothingStrategy.h:258-289). -/
def crossFree (eps : K) (s : St K) (v : Nat) : Bool :=
  (s.edgesNear .intr v).all fun e =>
    ((s.edgesNear .intr v).all fun f => decide (e = f) || !s.edgesCross eps e f) &&
      (s.edgesNear .bdry v).all fun f => !s.edgesCross eps e f

/-- `new_vertex_position_is_valid` (src/algorithm/SmoothingStrategy.h:218-326). -/
def placeValid (c : SmoothCfg K) (s : St K) (v : Nat) : Bool :=
  c.inside (s.pos v) && ((s.V v).facets.all (s.facetOriented c.eps) && s.crossFree c.eps v)

/-- Vertices the smoothing passes over (src/algorithm/SmoothingStrategy.h:337-347). -/
def keeps (c : SmoothCfg K) (s : St K) (v : Nat) : Bool :=
  Flags.has (s.V v).props Flags.vIsFixed || Flags.has (s.V v).props Flags.vOnBoundary ||
    (!c.layers && Flags.has (s.V v).props Flags.vInQuadLayer)

/-- One turn of `smoothing_iteration` (src/algorithm/SmoothingStrategy.h:333-375) for the vertex with index `i`. -/
def smoothVertex (c : SmoothCfg K) (rule : Rule K) (dirs : List (Pt K)) (step : K) (s : St K)
    (x : (Nat × List Nat) × Nat) : Option (St K) :=
  let v := x.1.1
  if s.keeps c v then some s
  else
    match (if Flags.has (s.V v).props Flags.vInQuadLayer then dirs[x.2]? else some 0) with
    | none => none
    | some d =>
      match rule s v x.1.2 with
      | none => some s
      | some delta =>
        let delta := delta - Pt.smul (Pt.dot delta d) d
        let old := s.pos v
        let new := old + Pt.smul step delta
        if c.inside new then
          let t := s.setPos v new
          if t.placeValid c v then some t else some (t.setPos v old)
        else some s

/-- `smoothing_iteration` (src/algorithm/SmoothingStrategy.h:331-377). -/
def smoothIter (c : SmoothCfg K) (rule : Rule K) (dirs : List (Pt K)) (step : K) (conn : List (Nat × List Nat))
    (s : St K) : Option (St K) :=
  loopM (smoothVertex c rule dirs step) s conn.zipIdx

/-- `smoothing_loop` (src/algorithm/SmoothingStrategy.h:382-390) with the relaxation factor `eps_`; a negative
number of iterations counts as zero. -/
def smoothLoop (c : SmoothCfg K) (rule : Rule K) (dirs : List (Pt K)) (decay : K) (conn : List (Nat × List Nat)) :
    Nat → St K × K → Option (St K × K)
  | 0, r => some r
  | n + 1, r =>
    match smoothIter c rule dirs r.2 conn r.1 with
    | none => none
    | some t => smoothLoop c rule dirs decay conn n (t, r.2 * (-decay))

/-- `LaplaceSmoothing::smooth` and `TorsionSmoothing::smooth` (src/algorithm/SmoothingStrategy.h:440-452,
525-537), which differ in the rule only. -/
def smooth (nearest : St K → Pt K → Option Nat) (norm : Pt K → K) (c : SmoothCfg K) (rule : Rule K) (decay : K)
    (n : Nat) (r : St K × K) : Option (St K × K) :=
  let s := setupConnectivity c.eps r.1
  smoothLoop c rule (layerDirs nearest norm c s) decay (vertexConn c s) n (s, r.2)

/-- The loop of `MixedSmoothing::smooth` (src/algorithm/SmoothingStrategy.h:644-653). -/
def mixedLoop (c : SmoothCfg K) (torsion laplace : Rule K) (dirs : List (Pt K)) (decay : K)
    (conn : List (Nat × List Nat)) : Nat → St K × K → Option (St K × K)
  | 0, r => some r
  | n + 1, r =>
    match smoothIter c torsion dirs r.2 conn r.1 with
    | none => none
    | some t =>
      match smoothIter c laplace dirs r.2 conn t with
      | none => none
      | some u => mixedLoop c torsion laplace dirs decay conn n (u, r.2 * decay)

/-- `MixedSmoothing::smooth` (src/algorithm/SmoothingStrategy.h:623-655). -/
def smoothMixed (nearest : St K → Pt K → Option Nat) (norm : Pt K → K) (c : SmoothCfg K) (torsion laplace : Rule K)
    (decay : K) (n : Nat) (r : St K × K) : Option (St K × K) :=
  let s := setupConnectivity c.eps r.1
  mixedLoop c torsion laplace (layerDirs nearest norm c s) decay (vertexConn c s) n (s, r.2)

/-- `LaplaceSmoothing::compute_displacement` (src/algorithm/SmoothingStrategy.h:459-478). -/
def laplaceRule : Rule K := fun s v ns =>
  if ns = [] then none
  else some (Pt.smul (1 / (ns.length : K)) (ns.foldl (fun p w => p + s.pos w) 0) - s.pos v)

/-- One neighbour in `TorsionSmoothing::compute_displacement` (src/algorithm/SmoothingStrategy.h:553-577): the
place of the vertex turned around the neighbour `j`; `MOD` (src/utils/MathUtility.h:49-50) gives the neighbours
before and after it, `sn` and `cs` are sine and cosine, `angle` is the angle between two vectors (src/utils/VecND.h:512). -/
def torsionTerm (sn cs : K → K) (angle : Pt K → Pt K → K) (af : K) (s : St K) (v : Nat) (ns : List Nat) (j w : Nat) :
    Pt K :=
  let n := ns.length
  let vi := s.pos v - s.pos (ns.getD ((j + n - 1) % n) w)
  let vj := s.pos v - s.pos w
  let vk := s.pos v - s.pos (ns.getD ((j + 1) % n) w)
  let b := af * (angle vj vi - angle vj vk)
  ⟨(s.pos w).x + cs b * vj.x - sn b * vj.y, (s.pos w).y + sn b * vj.x + cs b * vj.y⟩

/-- `TorsionSmoothing::compute_displacement` (src/algorithm/SmoothingStrategy.h:544-584). -/
def torsionRule (sn cs : K → K) (angle : Pt K → Pt K → K) (af : K) : Rule K := fun s v ns =>
  if ns = [] then none
  else some (Pt.smul (1 / (ns.length : K))
    (ns.zipIdx.foldl (fun p x => p + torsionTerm sn cs angle af s v ns x.2 x.1) 0) - s.pos v)

end St
end MS
end TQ

import Verif.Domain.Model

/-!
# Model of `src/algorithm/FrontInitData.h` and `src/algorithm/Front.h`

Vertices of the mesh are identified by their index in the list of vertices in order of creation
(the order inside the container is not modelled: `insert(e.v2().pos(), ..)`, Front.h:515, places new
vertices in front of the end vertex of the refined edge).
-/

set_option linter.unusedSectionVars false

namespace TQ
namespace Fr
variable {K : Type*} [Field K] [LinearOrder K]

/-! ## FrontInitData -/

/-- An edge of a domain boundary, of a neighbour mesh or a fixed edge, as read by `FrontInitData`:
coordinates of the end vertices, color, `is_fixed` of the edge and of its vertices. -/
structure SrcEdge (K : Type*) where
  p1 : Pt K
  p2 : Pt K
  color : Int
  fixed : Bool
  fix1 : Bool
  fix2 : Bool
deriving DecidableEq, Repr

/-- `FrontInitData` (src/algorithm/FrontInitData.h:250-256). A vertex is represented by its coordinates
and its flag `is_fixed`; the map is an association list. -/
structure FID (K : Type*) where
  verts : List (Pt K × Bool)
  ids : List (Nat × Nat)
  vmap : List (Pt K × Nat)
  edges : List (SrcEdge K)
  colors : List Int
  twins : List Bool
deriving DecidableEq, Repr

namespace FID

/-- All containers empty (src/algorithm/FrontInitData.h:250-256). -/
def empty : FID K := ⟨[], [], [], [], [], []⟩

/-- Lookup in `vertex_map_` (lexicographic comparison of the coordinates: equal keys are equal
coordinates). -/
def find (m : List (Pt K × Nat)) (p : Pt K) : Option Nat :=
  (m.find? fun e => decide (e.1 = p)).map (·.2)

/-- `add_edge_vertex` (src/algorithm/FrontInitData.h:231-245). -/
def addVertex (F : FID K) (p : Pt K) (fx : Bool) : FID K × Nat :=
  match find F.vmap p with
  | some i => (F, i)
  | none =>
    ({ F with vmap := (p, F.verts.length) :: F.vmap, verts := F.verts ++ [(p, fx)] }, F.verts.length)

/-- `add_edge_data` (src/algorithm/FrontInitData.h:213-226). -/
def addEdge (F : FID K) (e : SrcEdge K) (twin : Bool) : FID K :=
  let r1 := F.addVertex e.p1 e.fix1
  let r2 := r1.1.addVertex e.p2 e.fix2
  { r2.1 with
    ids := r2.1.ids ++ [if twin then (r2.2, r1.2) else (r1.2, r2.2)]
    edges := r2.1.edges ++ [e]
    twins := r2.1.twins ++ [twin]
    colors := r2.1.colors ++ [e.color] }

end FID

/-- `Edge::xy()` (src/algorithm/Edge.h:99). -/
def srcMid (e : SrcEdge K) : Pt K := Pt.smul (1 / 2) (e.p1 + e.p2)

/-- The loop body over the meshes in `get_neighbor_mesh_edges`
(src/algorithm/FrontInitData.h:177-204): the candidates of one mesh (boundary edges whose centroid is
closer than 1.5 times the edge length, `9/4` in squares) are appended, then everything found so far is
sorted by the distance of the centroids from the start vertex.  `std::sort` is not stable; a stable sort
is used here. -/
def nbrStep (eps : K) (e : SrcEdge K) (found bdry : List (SrcEdge K)) : List (SrcEdge K) :=
  let near := bdry.filter fun n =>
    decide (Pt.normSq (srcMid n - srcMid e) < 9 / 4 * Pt.normSq (e.p2 - e.p1))
  let onEdge := near.filter fun n => inOnSegment eps e.p1 e.p2 n.p1 && inOnSegment eps e.p1 e.p2 n.p2
  (found ++ onEdge).mergeSort fun a b =>
    !decide (Pt.normSq (srcMid b - e.p1) < Pt.normSq (srcMid a - e.p1))

/-- `get_neighbor_mesh_edges` (src/algorithm/FrontInitData.h:165-208); a mesh is the list of its
boundary edges. -/
def nbrEdges (eps : K) (meshes : List (List (SrcEdge K))) (e : SrcEdge K) : List (SrcEdge K) :=
  meshes.foldl (nbrStep eps e) []

/-- The calls of `add_edge_data` made by `collect_front_edges`
(src/algorithm/FrontInitData.h:116-144). -/
def collectCalls (nbr : SrcEdge K → List (SrcEdge K)) (bdries : List (List (SrcEdge K)))
    (fixed : List (SrcEdge K)) : List (SrcEdge K × Bool) :=
  (bdries.flatMap fun b => b.flatMap fun e =>
    if (nbr e).length > 0 then (nbr e).map fun n => (n, true) else [(e, false)]) ++
  fixed.map fun e => (e, false)

/-- `collect_front_edges` (src/algorithm/FrontInitData.h:116-144). -/
def collect (nbr : SrcEdge K → List (SrcEdge K)) (bdries : List (List (SrcEdge K)))
    (fixed : List (SrcEdge K)) : FID K :=
  (collectCalls nbr bdries fixed).foldl (fun F c => F.addEdge c.1 c.2) .empty

/-- The move constructor (src/algorithm/FrontInitData.h:70-74): the data of the new object. -/
def FID.moved (F : FID K) : FID K :=
  { FID.empty with edges := F.edges, colors := F.colors, twins := F.twins }

/-! ## The front -/

/-- A vertex of the mesh: coordinates and property byte (src/algorithm/Vertex.h:96-116). -/
structure MVert (K : Type*) where
  xy : Pt K
  props : BitVec 8
deriving DecidableEq, Repr

/-- An edge of the front; `twin` is `twin_edge() != nullptr`. -/
structure FEdge where
  v1 : Nat
  v2 : Nat
  color : Int
  props : BitVec 8
  twin : Bool
deriving DecidableEq, Repr

/-- `is_fixed()` (src/algorithm/Edge.h:165) -/
def FEdge.isFixed (e : FEdge) : Bool := Flags.has e.props Flags.eIsFixed

/-- Body of the loop in `init_mesh_vertices` (src/algorithm/Front.h:271-276). -/
def newVert (v : Pt K × Bool) : MVert K :=
  let p := Flags.add (Flags.add 0 Flags.vOnFront) Flags.vOnBoundary
  ⟨v.1, if v.2 then Flags.add p Flags.vIsFixed else p⟩

/-- `init_mesh_vertices` (src/algorithm/Front.h:262-283): the mesh vertices afterwards; the `i`-th
pointer of the result is the vertex number `st.length + i`. -/
def initVerts (st : List (MVert K)) (F : FID K) : List (MVert K) := st ++ F.verts.map newVert

/-- Properties of a new edge (src/algorithm/Front.h:312-315, 528-531, 539-542). -/
def edgeProps (fixed : Bool) : BitVec 8 :=
  if fixed then Flags.add 0 Flags.eIsFixed else Flags.add 0 Flags.eOnBoundary

/-- `init_front_edges` and `mark_twin_edges` (src/algorithm/Front.h:290-345): one iteration. `off` is
the number of mesh vertices before; `none`: a vector is read out of bounds. -/
def initEdge (off nv : Nat) (F : FID K) (i : Nat) : Option FEdge :=
  match F.ids[i]?, F.colors[i]?, F.edges[i]?, F.twins[i]? with
  | some (i1, i2), some c, some e, some t =>
    if i1 < nv ∧ i2 < nv then some ⟨off + i1, off + i2, c, edgeProps e.fixed, t⟩ else none
  | _, _, _, _ => none

/-- All new front edges. -/
def initEdges (off : Nat) (F : FID K) : Option (List FEdge) :=
  (List.range F.edges.length).mapM fun i => initEdge off F.verts.length F i

/-! ### Refinement -/

/-- The loop of `create_sub_vertex_coords` (src/algorithm/Front.h:421-443) with fuel; `rho` is the size
function of the domain and `norm` the length of a vector.  Result: the points pushed and `s_last`;
`none`: not finished. -/
def subLoop (norm : Pt K → K) (rho : Pt K → K) (a tang : Pt K) (len sEnd : K) :
    Nat → Pt K → Option (List (Pt K) × K)
  | 0, _ => none
  | n + 1, xy =>
    let r := rho xy
    let xyp := xy + Pt.smul r tang
    let rp := rho xyp
    let xyc := xy + Pt.smul (1 / 2 * (r + rp)) tang
    let s := norm (xyc - a) / len
    if s > sEnd then some ([xyc], s)
    else match subLoop norm rho a tang len sEnd n xyc with
      | none => none
      | some (l, sl) => some (xyc :: l, sl)

/-- The points after the loop (src/algorithm/Front.h:445-467): last point replaced by the end point, the
cropped distance distributed among the others. -/
def subFinish (rho : Pt K → K) (a b tang : Pt K) (len : K) (l : List (Pt K)) (sLast : K) :
    List (Pt K) :=
  let inner := l.dropLast
  let dcr := Pt.smul ((1 - sLast) * len) tang
  let tot := (inner.map rho).foldl (· + ·) 0
  a :: inner.map (fun p => p + Pt.smul (rho p / tot) dcr) ++ [b]

/-- `s_end` (src/algorithm/Front.h:417-418). -/
def subEnd (rho1 rho2 len : K) : K := 1 - 1 / 2 * cppMIN 1 (1 / 2 * (rho1 + rho2) / len)

/-- `create_sub_vertex_coords` (src/algorithm/Front.h:396-497) for the edge from `p1` to `p2` without
the debug checks (see `subChecks`). -/
def subCoords (norm : Pt K → K) (rho : Pt K → K) (fuel : Nat) (p1 p2 : Pt K) :
    Option (List (Pt K)) :=
  let len := norm (p2 - p1)
  let tang := Pt.smul (1 / len) (p2 - p1)
  if rho p1 < rho p2 then
    match subLoop norm rho p1 tang len (subEnd (rho p1) (rho p2) len) fuel p1 with
    | none => none
    | some (l, sl) => some (subFinish rho p1 p2 tang len l sl)
  else
    match subLoop norm rho p2 (-tang) len (subEnd (rho p1) (rho p2) len) fuel p2 with
    | none => none
    | some (l, sl) => some (subFinish rho p2 p1 (-tang) len l sl).reverse

/-- First debug check (src/algorithm/Front.h:471-478): distances from the first point increase. -/
def subCheckLoop (norm : Pt K → K) (x0 : Pt K) : K → List (Pt K) → Bool
  | _, [] => true
  | prev, p :: ps => decide (norm (p - x0) > prev) && subCheckLoop norm x0 (norm (p - x0)) ps

/-- Second debug check (src/algorithm/Front.h:480-488): interior points are closer to the first point
than the last one. -/
def subCheckEnd (xs : List (Pt K)) : Bool :=
  match xs with
  | [] => true
  | x0 :: rest =>
    rest.dropLast.all fun p => decide (Pt.normSq (p - x0) < Pt.normSq (x0 - rest.getLastD x0))

/-- Both debug checks (src/algorithm/Front.h:470-489), on the points before they are reversed. -/
def subChecks (norm : Pt K → K) (xs : List (Pt K)) : Bool :=
  match xs with
  | [] => true
  | x0 :: rest => subCheckLoop norm x0 0 rest && subCheckEnd (x0 :: rest)

/-- `create_sub_edges` (src/algorithm/Front.h:506-544) for the edge `e` and the interior points:
new vertices and the edges inserted in front of `e`. -/
def subEdges (e : FEdge) : List (MVert K) → Nat → List (Pt K) → List (MVert K) × List FEdge
  | st, cur, [] => (st, [⟨cur, e.v2, e.color, edgeProps e.isFixed, false⟩])
  | st, cur, p :: ps =>
    let pr := Flags.add 0 Flags.vOnFront
    let v : MVert K := ⟨p, if e.isFixed then Flags.add pr Flags.vIsFixed else Flags.add pr Flags.vOnBoundary⟩
    let r := subEdges e (st ++ [v]) st.length ps
    (r.1, ⟨cur, st.length, e.color, edgeProps e.isFixed, false⟩ :: r.2)

/-- `refine_edge` (src/algorithm/Front.h:367-385) for an edge without twin, given the result of
`create_sub_vertex_coords`; the old edge is replaced (it is removed from the list at 250-251). -/
def refineEdge (coords : List (Pt K)) (st : List (MVert K)) (e : FEdge) :
    List (MVert K) × List FEdge :=
  if coords.length < 3 then (st, [e]) else subEdges e st e.v1 (coords.drop 1).dropLast

/-- `refine_front_edges` (src/algorithm/Front.h:231-255, 350-361): `sub` is the function
`create_sub_vertex_coords` for a front edge (its end points do not change). -/
def refineEdges (sub : FEdge → Option (List (Pt K))) :
    List (MVert K) → List FEdge → Option (List (MVert K) × List FEdge)
  | st, [] => some (st, [])
  | st, e :: es =>
    if e.twin then
      match refineEdges sub st es with
      | none => none
      | some (st', l) => some (st', e :: l)
    else match sub e with
      | none => none
      | some coords =>
        match refineEdges sub (refineEdge coords st e).1 es with
        | none => none
        | some (st', l) => some (st', (refineEdge coords st e).2 ++ l)

/-- Ghost edges (src/algorithm/Front.h:93-109): inserted in front of each fixed edge. -/
def addGhosts (es : List FEdge) : List FEdge :=
  es.flatMap fun e =>
    if e.isFixed then
      [⟨e.v2, e.v1, e.color, Flags.add (Flags.add 0 Flags.eIsFixed) Flags.eIsGhost, false⟩, e]
    else [e]

/-- Coordinates of a mesh vertex (never read out of range, see `TQ.C30_front_balanced`). -/
def vpos (st : List (MVert K)) (i : Nat) : Pt K := ((st[i]?).map (·.xy)).getD 0

/-- `compute_area` of the front (src/algorithm/EdgeList.h:507-530). -/
def frontArea (st : List (MVert K)) (old : K) (es : List FEdge) : K :=
  computeArea (vpos st) old (es.map fun e => ⟨e.v1, e.v2, e.color, e.props⟩)

/-- `init_front(domain, front_init_data, mesh_vertices)` (src/algorithm/Front.h:67-114) of an empty
front: vertices of the mesh, edges of the front and its area.  The assertion on zero edge lengths in the
constructor of `Edge` is not part of this definition. -/
def initFront (sub : List (MVert K) → FEdge → Option (List (Pt K))) (st : List (MVert K)) (F : FID K) :
    Option (List (MVert K) × List FEdge × K) :=
  match initEdges st.length F with
  | none => none
  | some es =>
    match refineEdges (sub (initVerts st F)) (initVerts st F) es with
    | none => none
    | some (st', es') => some (st', addGhosts es', frontArea st' 0 (addGhosts es'))

/-! ### Sorting and the base edge -/

/-- `edges_.sort` with the comparison of a key, ascending (src/algorithm/Front.h:171-179, 198-208).
`std::list::sort` is stable, hence determined by `List.mergeSort`. -/
def sortAsc {α : Type*} (key : α → K) (es : List α) : List α :=
  es.mergeSort fun a b => !decide (key b < key a)

/-- Descending (src/algorithm/Front.h:181-186, 210-217). -/
def sortDesc {α : Type*} (key : α → K) (es : List α) : List α :=
  es.mergeSort fun a b => !decide (key b > key a)

/-- `sort_edges` (src/algorithm/Front.h:171-222): the new list and the new base (index 0, `none` for a
null pointer returned by `set_base_first`). -/
def sortEdges {α : Type*} (key : α → K) (asc : Bool) (es : List α) : List α × Option Nat :=
  let l := if asc then sortAsc key es else sortDesc key es
  (l, if l.length < 1 then none else some 0)

/-- `set_base_next` (src/algorithm/Front.h:154-165) on positions: `n` edges, base at position `i`. -/
def baseNext (n i : Nat) : Option Nat :=
  if n < 1 then none else some (if i + 1 = n then 0 else i + 1)

end Fr
end TQ

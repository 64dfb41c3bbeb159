import Verif.Front.Model

/-!
# Model of the mesh: `src/algorithm/Mesh.h`, `Vertex.h`, `Edge.h`, `Triangle.h`, `Quad.h`, `Facet.h`

A heap model.  Every vertex, edge, triangle and quad has an address (a natural number); addresses are
handed out in increasing order and never reused (in the code an address may be reused after
`clear_waste`).  The containers are lists of addresses in list order.  Spatial queries are the exact
filters justified by `TQ.C02_queries_exact` or parameters.  Failing `ASSERT`s of the constructors (zero
edge lengths) are not part of the operations; they are preconditions of the theorems.
-/

set_option linter.unusedSectionVars false

namespace TQ
namespace MS
variable {K : Type*} [Field K] [LinearOrder K]

/-- `Facet*`: the null facet (src/algorithm/Facet.h:87-105), a triangle or a quad. -/
inductive FRef where
  | null
  | tri (i : Nat)
  | quad (i : Nat)
deriving DecidableEq, Repr

/-- The edge lists: interior edges and boundary edges of the mesh (src/algorithm/Mesh.h:371-372) and the
advancing front. `Edge::edgelist()` (src/algorithm/Edge.h:122) is one of them. -/
inductive EL where
  | intr
  | bdry
  | front
deriving DecidableEq, Repr

/-- Data of a vertex (src/algorithm/Vertex.h:236-242). -/
structure VData (K : Type*) where
  xy : Pt K
  props : BitVec 8
  edges : List Nat
  facets : List FRef

/-- Data of an edge (src/algorithm/Edge.h:264-284); `twin` is the number of a mesh and an edge of it. -/
structure EData where
  v1 : Nat
  v2 : Nat
  color : Int
  props : BitVec 8
  list : EL
  fl : FRef
  fr : FRef
  twin : Option (Nat × Nat)

/-- Data of a triangle or quad (src/algorithm/Triangle.h:309-329, src/algorithm/Quad.h:337-357); metric
quantities are functions of the coordinates. -/
structure FData where
  corners : List Nat
  nbrs : List FRef
  color : Int
  active : Bool

/-- The state of a mesh together with its advancing front. -/
structure St (K : Type*) where
  verts : List Nat
  V : Nat → VData K
  es : EL → List Nat
  E : Nat → EData
  tris : List Nat
  quads : List Nat
  F : FRef → FData
  nxt : Nat
  area : K
  color : Int

/-- Change of one entry. -/
def upd {α β : Type*} [DecidableEq α] (f : α → β) (i : α) (g : β → β) : α → β :=
  fun j => if j = i then g (f j) else f j

namespace St

/-- The empty mesh (src/algorithm/Mesh.h:39-49). -/
def empty (color : Int) : St K :=
  ⟨[], fun _ => ⟨0, 0, [], []⟩, fun _ => [], fun _ => ⟨0, 0, 0, 0, .intr, .null, .null, none⟩, [], [],
    fun _ => ⟨[], [], 0, false⟩, 0, 0, color⟩

/-- `add_vertex` (src/algorithm/Mesh.h:260-264): the new address is `s.nxt`. -/
def addVertex (s : St K) (p : Pt K) : St K :=
  { s with verts := s.verts ++ [s.nxt], V := upd s.V s.nxt fun _ => ⟨p, 0, [], []⟩, nxt := s.nxt + 1 }

/-- `remove_vertex` (src/algorithm/Mesh.h:323-327). -/
def removeVertex (s : St K) (v : Nat) : St K := { s with verts := s.verts.filter (· ≠ v) }

/-- `Vertex::add_edge` (src/algorithm/Vertex.h:161). -/
def vAddEdge (e : Nat) (d : VData K) : VData K := { d with edges := d.edges ++ [e] }
/-- `Vertex::remove_edge` (src/algorithm/Vertex.h:162). -/
def vRemEdge (e : Nat) (d : VData K) : VData K := { d with edges := d.edges.filter (· ≠ e) }
/-- `Vertex::add_facet` (src/algorithm/Vertex.h:164). -/
def vAddFacet (f : FRef) (d : VData K) : VData K := { d with facets := d.facets ++ [f] }
/-- `Vertex::remove_facet` (src/algorithm/Vertex.h:165). -/
def vRemFacet (f : FRef) (d : VData K) : VData K := { d with facets := d.facets.filter (· ≠ f) }

/-- `EdgeList::add_edge` of a list without orientation and the constructor of `Edge`
(src/algorithm/EdgeList.h:139-143, 114-126; src/algorithm/Edge.h:98-115); the new address is `s.nxt`. -/
def addEdge (s : St K) (l : EL) (a b : Nat) (color : Int) (props : BitVec 8) : St K :=
  { s with
    es := upd s.es l (· ++ [s.nxt])
    E := upd s.E s.nxt fun _ => ⟨a, b, color, props, l, .null, .null, none⟩
    V := upd (upd s.V a (vAddEdge s.nxt)) b (vAddEdge s.nxt)
    nxt := s.nxt + 1 }

/-- `add_interior_edge` (src/algorithm/Mesh.h:303-307); `INTERIOR_EDGE_COLOR` is -1
(src/algorithm/utils.h). -/
def addIntr (s : St K) (a b : Nat) : St K := s.addEdge .intr a b (-1) 0

/-- `add_boundary_edge` (src/algorithm/Mesh.h:312-317). -/
def addBdry (s : St K) (a b : Nat) (color : Int) : St K :=
  s.addEdge .bdry a b color (Flags.add 0 Flags.eOnBoundary)

/-- `EdgeList::remove` with `Edge::container_destructor` (src/algorithm/EdgeList.h:159,
src/algorithm/Edge.h:250-257). -/
def removeEdge (s : St K) (e : Nat) : St K :=
  { s with
    es := upd s.es (s.E e).list (·.filter (· ≠ e))
    V := upd (upd s.V (s.E e).v1 (vRemEdge e)) (s.E e).v2 (vRemEdge e) }

/-- `remove_interior_edge` (src/algorithm/Mesh.h:341-348). -/
def removeIntr (s : St K) (e : Nat) : St K := if (s.E e).list ≠ .intr then s else s.removeEdge e

/-- `remove_boundary_edge` (src/algorithm/Mesh.h:350-357). -/
def removeBdry (s : St K) (e : Nat) : St K := if (s.E e).list ≠ .bdry then s else s.removeEdge e

/-- Registration of a facet with its corners (src/algorithm/Triangle.h:83-85, src/algorithm/Quad.h:91-94). -/
def regFacet (V : Nat → VData K) (f : FRef) (cs : List Nat) : Nat → VData K :=
  cs.foldl (fun V c => upd V c (vAddFacet f)) V

/-- Deregistration (src/algorithm/Triangle.h:95-104, src/algorithm/Quad.h:103-114). -/
def unregFacet (V : Nat → VData K) (f : FRef) (cs : List Nat) : Nat → VData K :=
  cs.foldl (fun V c => upd V c (vRemFacet f)) V

/-- Color of a new element (src/algorithm/Mesh.h:274-277, 291-294). -/
def newColor (s : St K) (color : Int) : Int := if color < 0 then s.color else color

/-- `add_triangle` (src/algorithm/Mesh.h:286-298); the new triangle is `FRef.tri s.nxt`. -/
def addTri (s : St K) (a b c : Nat) (color : Int) : St K :=
  { s with
    tris := s.tris ++ [s.nxt]
    F := upd s.F (.tri s.nxt) fun _ => ⟨[a, b, c], [.null, .null, .null], s.newColor color, false⟩
    V := regFacet s.V (.tri s.nxt) [a, b, c]
    nxt := s.nxt + 1 }

/-- `add_quad` (src/algorithm/Mesh.h:269-281); the new quad is `FRef.quad s.nxt`. -/
def addQuad (s : St K) (a b c d : Nat) (color : Int) : St K :=
  { s with
    quads := s.quads ++ [s.nxt]
    F := upd s.F (.quad s.nxt) fun _ =>
      ⟨[a, b, c, d], [.null, .null, .null, .null], s.newColor color, false⟩
    V := regFacet s.V (.quad s.nxt) [a, b, c, d]
    nxt := s.nxt + 1 }

/-- `remove_triangle` (src/algorithm/Mesh.h:335-339). -/
def removeTri (s : St K) (t : Nat) : St K :=
  { s with
    tris := s.tris.filter (· ≠ t)
    V := unregFacet s.V (.tri t) (s.F (.tri t)).corners }

/-- `remove_quad` (src/algorithm/Mesh.h:329-333). -/
def removeQuad (s : St K) (q : Nat) : St K :=
  { s with
    quads := s.quads.filter (· ≠ q)
    V := unregFacet s.V (.quad q) (s.F (.quad q)).corners }

/-- Change of the properties of a vertex. -/
def setProps (s : St K) (v : Nat) (g : BitVec 8 → BitVec 8) : St K :=
  { s with V := upd s.V v fun d => { d with props := g d.props } }

/-- `is_active(true)` (src/algorithm/Triangle.h:154). -/
def activate (s : St K) (f : FRef) : St K := { s with F := upd s.F f fun d => { d with active := true } }

/-- `add_area` (src/algorithm/Mesh.h:73). -/
def addArea (s : St K) (a : K) : St K := { s with area := s.area + a }

/-- Coordinates of a vertex. -/
def pos (s : St K) (v : Nat) : Pt K := (s.V v).xy

/-! ### Lookups -/

/-- `get_edge_nodir` (src/algorithm/EdgeList.h:489-500). -/
def getEdge (s : St K) (l : EL) (a b : Nat) : Option Nat :=
  (s.V a).edges.find? fun e =>
    decide ((s.E e).list = l) &&
      decide (((s.E e).v1 = a ∧ (s.E e).v2 = b) ∨ ((s.E e).v2 = a ∧ (s.E e).v1 = b))

/-- `get_edge_dir` (src/algorithm/EdgeList.h:472-482). -/
def getEdgeDir (s : St K) (l : EL) (a b : Nat) : Option Nat :=
  (s.V a).edges.find? fun e =>
    decide ((s.E e).list = l) && decide ((s.E e).v1 = a ∧ (s.E e).v2 = b)

/-- `Edge::get_next_edge` (src/algorithm/Edge.h:175-193). -/
def nextEdge (s : St K) (e : Nat) : Option Nat :=
  (s.V (s.E e).v2).edges.find? fun f =>
    decide (f ≠ e) && decide ((s.E f).list = (s.E e).list) && decide ((s.E f).v1 = (s.E e).v2)

/-- `Edge::get_prev_edge` (src/algorithm/Edge.h:203-221). -/
def prevEdge (s : St K) (e : Nat) : Option Nat :=
  (s.V (s.E e).v1).edges.find? fun f =>
    decide (f ≠ e) && decide ((s.E f).list = (s.E e).list) && decide ((s.E f).v2 = (s.E e).v1)

/-- `is_interior()` (src/algorithm/Edge.h:162-163). -/
def isInterior (s : St K) (e : Nat) : Bool := !Flags.has (s.E e).props Flags.eOnBoundary
/-- `is_ghost()` (src/algorithm/Edge.h:164). -/
def isGhost (s : St K) (e : Nat) : Bool := Flags.has (s.E e).props Flags.eIsGhost

/-- `Mesh::get_edge` (src/algorithm/Mesh.h:242-254). -/
def meshEdge (s : St K) (a b : Nat) : Option Nat :=
  match s.getEdge .intr a b with
  | some e => some e
  | none => s.getEdge .bdry a b

/-- `get_vertex_index` (src/algorithm/Triangle.h:160-166, src/algorithm/Quad.h:176-183); `none` is -1. -/
def vertexIndex (d : FData) (v : Nat) : Option Nat := d.corners.idxOf? v

/-- `Triangle::get_edge_index` (src/algorithm/Triangle.h:186-201); `none` is -1. -/
def triEdgeIndex (c0 c1 c2 v1 v2 : Nat) : Option Nat :=
  if (v1 = c0 ∧ v2 = c1) ∨ (v1 = c1 ∧ v2 = c0) then some 2
  else if (v1 = c1 ∧ v2 = c2) ∨ (v1 = c2 ∧ v2 = c1) then some 0
  else if (v1 = c2 ∧ v2 = c0) ∨ (v1 = c0 ∧ v2 = c2) then some 1
  else none

/-- `Quad::get_edge_index` (src/algorithm/Quad.h:203-222); `none` is -1. -/
def quadEdgeIndex (c0 c1 c2 c3 v1 v2 : Nat) : Option Nat :=
  if (v1 = c0 ∧ v2 = c1) ∨ (v1 = c1 ∧ v2 = c0) then some 3
  else if (v1 = c1 ∧ v2 = c2) ∨ (v1 = c2 ∧ v2 = c1) then some 0
  else if (v1 = c2 ∧ v2 = c3) ∨ (v1 = c3 ∧ v2 = c2) then some 1
  else if (v1 = c3 ∧ v2 = c0) ∨ (v1 = c0 ∧ v2 = c3) then some 2
  else none

/-- `Facet::get_edge_index` (src/algorithm/Facet.h:71). -/
def edgeIndex (d : FData) (v1 v2 : Nat) : Option Nat :=
  match d.corners with
  | [c0, c1, c2] => triEdgeIndex c0 c1 c2 v1 v2
  | [c0, c1, c2, c3] => quadEdgeIndex c0 c1 c2 c3 v1 v2
  | _ => none

/-! ### Geometry of facets -/

/-- `TriangleGeometry::calc_area` (src/algorithm/FacetGeometry.h:39-45). -/
def triArea (p q r : Pt K) : K := 1 / 2 * Pt.cross (q - p) (r - p)

/-- `TriangleGeometry::calc_centroid` (src/algorithm/FacetGeometry.h:32-34). -/
def triCentroid (p q r : Pt K) : Pt K := Pt.smul (1 / 3) (p + q + r)

/-- `TriangleGeometry::calc_circumcenter` (src/algorithm/FacetGeometry.h:50-64); needs a non-zero area. -/
def circumcenter (p q r : Pt K) : Pt K :=
  let B := q - p
  let C := r - p
  let D := 2 * Pt.cross B C
  let ux := (C.y * (B.x * B.x + B.y * B.y) - B.y * (C.x * C.x + C.y * C.y)) / D
  let uy := (B.x * (C.x * C.x + C.y * C.y) - C.x * (B.x * B.x + B.y * B.y)) / D
  ⟨ux + p.x, uy + p.y⟩

/-- `QuadGeometry::calc_area` (src/algorithm/FacetGeometry.h:365-375). -/
def quadArea (p q r s : Pt K) : K :=
  1 / 2 * Pt.cross (q - p) (r - p) + 1 / 2 * Pt.cross (r - p) (s - p)

/-- `QuadGeometry::calc_centroid` (src/algorithm/FacetGeometry.h:357-360). -/
def quadCentroid (p q r s : Pt K) : Pt K := Pt.smul (1 / 4) (p + q + r + s)

/-- `Facet::area()`. -/
def fArea (s : St K) (f : FRef) : K :=
  match (s.F f).corners with
  | [a, b, c] => triArea (s.pos a) (s.pos b) (s.pos c)
  | [a, b, c, d] => quadArea (s.pos a) (s.pos b) (s.pos c) (s.pos d)
  | _ => 0

/-- `Facet::xy()`. -/
def fCentroid (s : St K) (f : FRef) : Pt K :=
  match (s.F f).corners with
  | [a, b, c] => triCentroid (s.pos a) (s.pos b) (s.pos c)
  | [a, b, c, d] => quadCentroid (s.pos a) (s.pos b) (s.pos c) (s.pos d)
  | _ => 0

end St
end MS
end TQ

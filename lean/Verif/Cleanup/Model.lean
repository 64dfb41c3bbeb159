import Verif.Mesh.Model

/-!
# Model of `src/algorithm/MeshCleanup.h`, `ModificationStrategy.h`, parts of `MeshingStrategy.h` and
`EntityChecks.h`

Works on the heap model of the mesh.  The release semantics of `ASSERT` (no effect) is used in
`setupConnectivity`; `bdryAssert` is the asserted condition.  Dereferencing a null pointer or reading a
facet at index -1 is the outcome `none`.  `eps` stands for `CPPUTILS_SMALL`.
-/

set_option linter.unusedSectionVars false

namespace TQ
namespace MC
open MS MS.St
variable {K : Type*} [Field K] [LinearOrder K]

/-! ### Indices -/

/-- A loop `for (x : l) x.index(counter++)`; returns the indices and the counter. -/
def number {α : Type*} [DecidableEq α] : List α → Nat → (α → Nat) → (α → Nat) × Nat
  | [], n, ix => (ix, n)
  | x :: l, n, ix => number l (n + 1) (upd ix x fun _ => n)

/-- `assign_mesh_indices` (src/algorithm/MeshCleanup.h:58-75): indices of the vertices and of the facets,
starting from the old indices. -/
def assignIndices (s : St K) (ixV : Nat → Nat) (ixF : FRef → Nat) : (Nat → Nat) × (FRef → Nat) :=
  let q := number (s.quads.map FRef.quad) 0 ixF
  ((number s.verts 0 ixV).1, (number (s.tris.map FRef.tri) q.2 q.1).1)

/-- Rows of vertex indices of the elements, in the order of the export
(src/algorithm/MeshWriter.h:134-139, 155-159). -/
def exportRows (s : St K) (ixV : Nat → Nat) : List (List Nat) :=
  (s.quads.map fun q => (s.F (.quad q)).corners.map ixV) ++ s.tris.map fun t => (s.F (.tri t)).corners.map ixV

/-! ### Connectivity -/

/-- The facets of `v1` that have the side `v1 v2`, with the index of the side, in order
(src/algorithm/MeshCleanup.h:109-126). -/
def sharing (s : St K) (a b : Nat) : List (FRef × Nat) :=
  (s.V a).facets.filterMap fun f => (edgeIndex (s.F f) a b).map fun i => (f, i)

/-- `Facet::neighbor(i, f)` (src/algorithm/Triangle.h, src/algorithm/Quad.h). -/
def setNbr (s : St K) (f : FRef) (i : Nat) (g : FRef) : St K :=
  { s with F := upd s.F f fun d => { d with nbrs := d.nbrs.set i g } }

/-- `if (is_left(v1, v2, f.xy())) e.facet_l(f) else e.facet_r(f)` (src/algorithm/MeshCleanup.h:132-135,
142-145). -/
def setSide (eps : K) (s : St K) (e : Nat) (f : FRef) : St K :=
  if isLeft eps (s.pos (s.E e).v1) (s.pos (s.E e).v2) (s.fCentroid f) then
    { s with E := upd s.E e fun d => { d with fl := f } }
  else { s with E := upd s.E e fun d => { d with fr := f } }

/-- One turn of the loop over the interior edges (src/algorithm/MeshCleanup.h:98-147). -/
def connIntr (eps : K) (s : St K) (e : Nat) : St K :=
  match sharing s (s.E e).v1 (s.E e).v2 with
  | [] => s
  | [(f1, i1)] => setSide eps (setNbr s f1 i1 .null) e f1
  | (f1, i1) :: (f2, i2) :: _ => setSide eps (setNbr (setSide eps (setNbr s f1 i1 f2) e f1) f2 i2 f1) e f2

/-- One turn of the loop over the boundary edges (src/algorithm/MeshCleanup.h:150-178). -/
def connBdry (eps : K) (s : St K) (e : Nat) : St K :=
  match sharing s (s.E e).v1 (s.E e).v2 with
  | [] => s
  | (f1, _) :: _ =>
    if isLeft eps (s.pos (s.E e).v1) (s.pos (s.E e).v2) (s.fCentroid f1) then
      { s with E := upd s.E e fun d => { d with fl := f1 } }
    else s

/-- The condition asserted for a boundary edge (src/algorithm/MeshCleanup.h:174-177). -/
def bdryAssert (eps : K) (s : St K) (e : Nat) : Bool :=
  match sharing s (s.E e).v1 (s.E e).v2 with
  | [] => true
  | (f1, _) :: _ => isLeft eps (s.pos (s.E e).v1) (s.pos (s.E e).v2) (s.fCentroid f1)

/-- `setup_facet_connectivity` (src/algorithm/MeshCleanup.h:94-180). -/
def setupConnectivity (eps : K) (s : St K) : St K :=
  (s.es .bdry).foldl (connBdry eps) ((s.es .intr).foldl (connIntr eps) s)

/-- `check_mesh_validity` (src/algorithm/EntityChecks.h:105-173). -/
def checkMeshValidity (s : St K) : Bool :=
  let ok := fun e =>
    (s.V (s.E e).v1).facets.any (fun f => (edgeIndex (s.F f) (s.E e).v1 (s.E e).v2).isSome) &&
    (s.V (s.E e).v2).facets.any (fun f => (edgeIndex (s.F f) (s.E e).v1 (s.E e).v2).isSome)
  (s.es .intr).all ok && (s.es .bdry).all ok

/-! ### Front of a mesh, resuming -/

/-- `get_front_edges` (src/algorithm/Mesh.h:208-222). -/
def frontEdges (s : St K) : List Nat :=
  (s.es .intr).filter (fun e => decide ((s.E e).fl = .null ∨ (s.E e).fr = .null)) ++
    (s.es .bdry).filter fun e => decide ((s.E e).fl = .null)

/-- One turn of `init_front` (src/algorithm/Front.h:124-135). -/
def addFrontEdge (s : St K) (e : Nat) : St K :=
  ((s.setProps (s.E e).v1 (Flags.add · Flags.vOnFront)).setProps (s.E e).v2 (Flags.add · Flags.vOnFront)).addEdge
    .front (s.E e).v1 (s.E e).v2 (s.E e).color (s.E e).props

/-- `Front::init_front(mesh)` (src/algorithm/Front.h:117-137) for an empty front. -/
def initFront (s : St K) : St K := (frontEdges s).foldl addFrontEdge s

/-- `remove_invalid_mesh_edges` (src/algorithm/MeshingStrategy.h:78-83). -/
def removeInvalid (s : St K) : St K := (frontEdges s).foldl removeIntr s

/-- One turn of `add_remaining_front_edges_to_mesh` (src/algorithm/MeshingStrategy.h:93-108). -/
def addRemaining1 (s : St K) (e : Nat) : St K :=
  let a := (s.E e).v1
  let b := (s.E e).v2
  let s1 := (s.setProps a (Flags.remove · Flags.vOnFront)).setProps b (Flags.remove · Flags.vOnFront)
  if (s1.getEdge .intr a b).isSome then s1
  else if (s1.getEdge .bdry a b).isSome then s1
  else s1.addIntr a b

/-- `add_remaining_front_edges_to_mesh` (src/algorithm/MeshingStrategy.h:90-109). -/
def addRemaining (s : St K) : St K := (s.es .front).foldl addRemaining1 s

/-- `clear_edges` of the front (src/algorithm/EdgeList.h:161-169): every edge is removed. -/
def clearFront (s : St K) : St K := (s.es .front).foldl removeEdge s

/-- The end of a meshing step (src/algorithm/Triangulation.h:102-106). -/
def finishStep (s : St K) : St K := clearFront (addRemaining s)

/-- The start of a meshing step (src/algorithm/Triangulation.h:82-89), without sorting. -/
def startStep (eps : K) (s : St K) : St K := removeInvalid (initFront (setupConnectivity eps s))

/-! ### Merging of elements -/

/-- `n_vertices()` of a facet. -/
def nVerts (s : St K) (f : FRef) : Nat := (s.F f).corners.length

/-- The edges collected by `collect_triangle_edges` (src/algorithm/ModificationStrategy.h:108-116), before
sorting. -/
def triEdges (s : St K) : List Nat :=
  (s.es .intr).filter fun e =>
    decide ((s.E e).fl ≠ .null ∧ nVerts s (s.E e).fl = 3) && decide ((s.E e).fr ≠ .null ∧ nVerts s (s.E e).fr = 3)

/-- Redirection of the facet pointers of the interior edge between `a` and `b`
(src/algorithm/ModificationStrategy.h:180-199). -/
def redirect (fl fr q : FRef) (s : St K) (ab : Nat × Nat) : St K :=
  match s.getEdge .intr ab.1 ab.2 with
  | none => s
  | some e =>
    { s with E := upd s.E e fun d => { d with
        fl := if d.fl = fl ∨ d.fl = fr then q else d.fl
        fr := if d.fr = fl ∨ d.fr = fr then q else d.fr } }

/-- Address of a triangle pointer. -/
def removeTriRef (s : St K) : FRef → St K
  | .tri t => s.removeTri t
  | _ => s

/-- One turn of `merge_triangles_to_quads` (src/algorithm/ModificationStrategy.h:150-205).  `col` is the
colour handed to `add_quad`: the colour of the left facet; the variant in `MeshCleanup`
(src/algorithm/MeshCleanup.h:743-798) passes none (-1). -/
def mergeEdge (col : FData → Int) (s : St K) (e : Nat) : Option (St K) :=
  let fl := (s.E e).fl
  let fr := (s.E e).fr
  if nVerts s fl > 3 ∨ nVerts s fr > 3 then some s
  else
    let v1 := (s.E e).v1
    let v2 := (s.E e).v2
    match edgeIndex (s.F fl) v1 v2, edgeIndex (s.F fr) v1 v2 with
    | some il, some ir =>
      match (s.F fl).corners[il]?, (s.F fr).corners[ir]? with
      | some ql, some qr =>
        let s1 := s.removeIntr e
        let q := s1.nxt
        let s2 := (s1.addQuad ql v1 qr v2 (col (s.F fl))).activate (.quad q)
        let s3 := [(ql, v1), (v1, qr), (qr, v2), (v2, ql)].foldl (redirect fl fr (.quad q)) s2
        some (removeTriRef (removeTriRef s3 fl) fr)
      | _, _ => none
    | _, _ => none

/-- The loop over the sorted edges (src/algorithm/ModificationStrategy.h:148-207); the order of the edges is
a parameter. -/
def mergeTriangles (col : FData → Int) : List Nat → St K → Option (St K)
  | [], s => some s
  | e :: l, s => (mergeEdge col s e).bind (mergeTriangles col l)

/-! ### Double edges -/

/-- Entities of a scheduled merge (src/algorithm/MeshCleanup.h:219-222). -/
structure Merge where
  q : Nat
  nbr : FRef
  e1 : Nat
  e2 : Nat
  v2 : Nat
  o1 : Nat
  o2 : Nat
deriving DecidableEq, Repr

/-- Corner `i` modulo 4. -/
def corner (s : St K) (q i : Nat) : Option Nat := (s.F (.quad q)).corners[i % 4]?

/-- The sides `i` and `i + 1` of the quad `q` have the same neighbour, which is a quad (`isQ`) or a
triangle, and is not marked (src/algorithm/MeshCleanup.h:237-275): the neighbour. -/
def doubleNbr (s : St K) (isQ : Bool) (marked : FRef → Bool) (q i : Nat) : Option FRef :=
  match corner s q i, corner s q (i + 1), corner s q (i + 2) with
  | some v1, some v2, some v3 =>
    match edgeIndex (s.F (.quad q)) v1 v2, edgeIndex (s.F (.quad q)) v2 v3 with
    | some i1, some i2 =>
      match (s.F (.quad q)).nbrs[i1]?, (s.F (.quad q)).nbrs[i2]? with
      | some n1, some n2 =>
        if n1 = .null ∨ n2 = .null then none
        else if n1 ≠ n2 then none
        else if marked n1 then none
        else if isQ && decide (nVerts s n1 < 4) then none
        else if !isQ && decide (nVerts s n1 > 3) then none
        else some n1
      | _, _ => none
    | _, _ => none
  | _, _, _ => none

/-- First position 0..3 with a double neighbour (the loop with `break`,
src/algorithm/MeshCleanup.h:237-329). -/
def findDouble (s : St K) (isQ : Bool) (marked : FRef → Bool) (q : Nat) : Option (Nat × FRef) :=
  [0, 1, 2, 3].findSome? fun i => (doubleNbr s isQ marked q i).map fun f => (i, f)

/-- Data stored for the merge (src/algorithm/MeshCleanup.h:281-324, 490-517); `none` if an edge or a vertex
does not exist (null pointer or index -1). -/
def mkMerge (s : St K) (isQ : Bool) (q i : Nat) (nbr : FRef) : Option Merge :=
  match corner s q i, corner s q (i + 1), corner s q (i + 2), corner s q (i + 3) with
  | some v1, some v2, some v3, some v4 =>
    match s.getEdge .intr v1 v2, s.getEdge .intr v2 v3 with
    | some e1, some e2 =>
      if isQ then
        match edgeIndex (s.F nbr) v2 v3 with
        | some io =>
          match (s.F nbr).corners[io]? with
          | some vo => some ⟨q, nbr, e1, e2, v2, v4, vo⟩
          | none => none
        | none => none
      else some ⟨q, nbr, e1, e2, v2, v4, v4⟩
    | _, _ => none
  | _, _, _, _ => none

/-- State of the scan: marks, counter `i_quad`, scheduled merges, quads that were examined. -/
structure Scan where
  marked : Nat → Bool
  iq : Nat
  out : List Merge
  seen : List Nat

/-- One turn of the scan over the quads (src/algorithm/MeshCleanup.h:230-330, 442-530): `continue` before
`++i_quad` if the mark at the counter is set.  `ixF` are the indices of the facets. -/
def scanQuad (s : St K) (isQ : Bool) (ixF : FRef → Nat) (c : Scan) (q : Nat) : Option Scan :=
  if c.marked c.iq then some c
  else
    let c1 := { c with iq := c.iq + 1, seen := c.seen ++ [q] }
    match findDouble s isQ (fun f => c.marked (ixF f)) q with
    | none => some c1
    | some (i, nbr) =>
      match mkMerge s isQ q i nbr with
      | some m =>
        some { c1 with marked := upd (upd c.marked (ixF (.quad q)) fun _ => true) (ixF nbr) fun _ => true
                       out := c.out ++ [m] }
      | none => none

/-- The scan over all quads. -/
def scan (s : St K) (isQ : Bool) (ixF : FRef → Nat) : Option Scan :=
  s.quads.foldl (fun o q => o.bind fun c => scanQuad s isQ ixF c q) (some ⟨fun _ => false, 0, [], []⟩)

/-- Creation of the new quad (src/algorithm/MeshCleanup.h:334-355). -/
def newQuad (s : St K) (m : Merge) : St K :=
  let v1 := if (s.E m.e1).v2 = m.v2 then (s.E m.e1).v1 else (s.E m.e1).v2
  let v3 := if (s.E m.e2).v1 = m.v2 then (s.E m.e2).v2 else (s.E m.e2).v1
  (s.addQuad m.o1 v1 m.o2 v3 (-1)).activate (.quad s.nxt)

/-- Creation of the new triangle (src/algorithm/MeshCleanup.h:533-552). -/
def newTri (s : St K) (m : Merge) : Option (St K) :=
  match vertexIndex (s.F (.quad m.q)) m.v2 with
  | none => none
  | some i =>
    match corner s m.q (i + 1), corner s m.q (i + 2), corner s m.q (i + 3) with
    | some a, some b, some c => some ((s.addTri a b c (-1)).activate (.tri s.nxt))
    | _, _, _ => none

/-- Removal of a facet. -/
def removeFacet (s : St K) : FRef → St K
  | .tri t => s.removeTri t
  | .quad q => s.removeQuad q
  | .null => s

/-- Removal of the old elements, edges and vertices (src/algorithm/MeshCleanup.h:357-384, 554-582). -/
def removeOld (ms : List Merge) (s : St K) : St K :=
  let s1 := ms.foldl (fun s m => removeFacet (s.removeQuad m.q) m.nbr) s
  let s2 := ms.foldl (fun s m => (s.removeIntr m.e1).removeIntr m.e2) s1
  ms.foldl (fun s m => s.removeVertex m.v2) s2

/-- `clear_double_quad_edges` with `init` (src/algorithm/MeshCleanup.h:210-389); `ix0` are the indices before
the call. -/
def clearDoubleQuads (eps : K) (ix0 : FRef → Nat) (s : St K) : Option (St K) :=
  let s1 := setupConnectivity eps s
  match scan s1 true (assignIndices s1 (fun _ => 0) ix0).2 with
  | none => none
  | some c => some (setupConnectivity eps (removeOld c.out (c.out.foldl newQuad s1)))

/-- `clear_double_triangle_edges` with `init` (src/algorithm/MeshCleanup.h:423-587). -/
def clearDoubleTris (eps : K) (ix0 : FRef → Nat) (s : St K) : Option (St K) :=
  let s1 := setupConnectivity eps s
  match scan s1 false (assignIndices s1 (fun _ => 0) ix0).2 with
  | none => none
  | some c =>
    (c.out.foldl (fun o m => o.bind fun s => newTri s m) (some s1)).map fun s2 =>
      setupConnectivity eps (removeOld c.out s2)

/-! ### Vertices of degree three -/

/-- A vertex that is to be removed (src/algorithm/MeshCleanup.h:596-621). -/
def isBad (s : St K) (v : Nat) : Bool :=
  !Flags.has (s.V v).props Flags.vIsFixed &&
  match (s.V v).facets, (s.V v).edges with
  | [f0, f1, f2], [_, _, _] =>
    decide (nVerts s f0 = 3) && decide (nVerts s f1 = 3) && decide (nVerts s f2 = 3) &&
    decide ((s.F f1).color = (s.F f0).color) && decide ((s.F f2).color = (s.F f0).color)
  | _, _ => false

/-- The corner after `v` in a triangle (src/algorithm/MeshCleanup.h:641-647). -/
def succCorner (d : FData) (v : Nat) : Option Nat :=
  match vertexIndex d v with
  | none => none
  | some i => d.corners[(i + 1) % 3]?

/-- One turn of the loop over the collected vertices (src/algorithm/MeshCleanup.h:625-681).  Reading a facet
that does not exist, a facet without the vertex or a missing edge is the outcome `none`. -/
def mergeBad (eps : K) (s : St K) (v : Nat) : Option (St K) :=
  match (s.V v).facets with
  | f0 :: f1 :: f2 :: _ =>
    match succCorner (s.F f0) v, succCorner (s.F f1) v, succCorner (s.F f2) v with
    | some v0, some v1, some v2 =>
      match s.getEdge .intr v v0, s.getEdge .intr v v1, s.getEdge .intr v v2 with
      | some e0, some e1, some e2 =>
        let col := (s.F f0).color
        let s1 := ((s.removeIntr e0).removeIntr e1).removeIntr e2
        let s2 := removeFacet (removeFacet (removeFacet s1 f0) f1) f2
        let s3 := s2.removeVertex v
        if orientation eps (s.pos v0) (s.pos v1) (s.pos v2) = .CCW then some (s3.addTri v0 v1 v2 col)
        else some (s3.addTri v0 v2 v1 col)
      | _, _, _ => none
    | _, _, _ => none
  | _ => none

/-- The loop over the collected vertices. -/
def mergeBads (eps : K) : List Nat → St K → Option (St K)
  | [], s => some s
  | v :: l, s => (mergeBad eps s v).bind (mergeBads eps l)

/-- `merge_degenerate_triangles` (src/algorithm/MeshCleanup.h:589-684). -/
def mergeDegenerate (eps : K) (s : St K) : Option (St K) :=
  (mergeBads eps (s.verts.filter (isBad s)) s).map (setupConnectivity eps)

end MC
end TQ

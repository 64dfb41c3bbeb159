import Mathlib.Data.List.Basic
import Mathlib.Data.List.Nodup
import Mathlib.Logic.Function.Basic

/-!
# Editing a domain: `src/algorithm/Domain.h`

Vertices and edges are numbered in the order of their creation.  Coordinates, sizes and colours play no role
here and are left out; the search trees are taken to contain all their items (see C01, C04, C136 for the
trees themselves), so that `Container::remove` succeeds for the items of the container.
-/

set_option linter.unusedSectionVars false

namespace TQ
namespace DE

/-- A domain (src/algorithm/Domain.h:478-488) with the vertices and edges that its members own or point to. -/
structure St where
  /-- `verts_`: the vertices in the order of the list -/
  verts : List Nat := []
  /-- `VertexProperty::is_fixed` of a vertex -/
  fixedFlag : Nat → Bool := fun _ => false
  /-- `Vertex::edges_` (src/algorithm/Vertex.h:236): the edges that a vertex points to -/
  inc : Nat → List Nat := fun _ => []
  /-- `v1_`, `v2_` of an edge (src/algorithm/Edge.h:263-264) -/
  ends : Nat → Nat × Nat := fun _ => (0, 0)
  /-- `boundaries_`: the edges of each boundary -/
  bdrys : List (List Nat) := []
  /-- `fixed_verts_` -/
  fixedV : List Nat := []
  /-- `fixed_edges_` -/
  fixedE : List Nat := []
  /-- number of the next vertex -/
  nv : Nat := 0
  /-- number of the next edge -/
  ne : Nat := 0

/-- `Vertices::push_back` (src/utils/Container.h:141-173) as used by `add_vertex` and `add_fixed_vertex`. -/
def pushVertex (s : St) (fixed : Bool) : St :=
  { s with
    verts := s.verts ++ [s.nv]
    fixedFlag := Function.update s.fixedFlag s.nv fixed
    inc := Function.update s.inc s.nv []
    nv := s.nv + 1 }

/-- `Domain::add_vertex` (src/algorithm/Domain.h:395-403). -/
def addVertex (s : St) : St := pushVertex s false

/-- `Domain::remove_vertex` (src/algorithm/Domain.h:408-409).  A vertex has no container destructor
(src/utils/Container.h:320), so its edges stay as they are. -/
def removeVertex (s : St) (v : Nat) : St := { s with verts := s.verts.filter (· ≠ v) }

/-- `Domain::add_fixed_vertex` (src/algorithm/Domain.h:414-424). -/
def addFixedVertex (s : St) : St :=
  { pushVertex s true with fixedV := s.fixedV ++ [s.nv] }

/-- `Domain::remove_fixed_vertex` (src/algorithm/Domain.h:429-440); vertices are compared by address
(src/algorithm/Vertex.h:262-263). -/
def removeFixedVertex (s : St) (v : Nat) : St :=
  removeVertex { s with fixedV := s.fixedV.filter (· ≠ v) } v

/-- Constructor of an edge (src/algorithm/Edge.h:96-116): it enters itself at both ends. -/
def newEdge (s : St) (v w : Nat) : St :=
  let inc1 := Function.update s.inc v (s.inc v ++ [s.ne])
  { s with
    ends := Function.update s.ends s.ne (v, w)
    inc := Function.update inc1 w (inc1 w ++ [s.ne])
    ne := s.ne + 1 }

/-- `Container<Edge>::remove` (src/utils/Container.h:174-190) and the container destructor of the edge
(src/algorithm/Edge.h:250-257) as far as the ends are concerned. -/
def detach (s : St) (e : Nat) : St :=
  let v := (s.ends e).1
  let w := (s.ends e).2
  let inc1 := Function.update s.inc v ((s.inc v).filter (· ≠ e))
  { s with inc := Function.update inc1 w ((inc1 w).filter (· ≠ e)) }

/-- `Domain::insert_boundary` (src/algorithm/Domain.h:287-300), also `add_boundary` (305-307) with the end
as position, `add_exterior_boundary` and `add_interior_boundary` (312-319). -/
def insertBoundary (s : St) (pos : Nat) : St :=
  { s with bdrys := s.bdrys.take pos ++ [] :: s.bdrys.drop pos }

/-- `Domain::remove_boundary` (src/algorithm/Domain.h:324-325): the boundary is destroyed together with its
edges.  The destructor of an edge list does nothing (src/algorithm/EdgeList.h:50), the container destructors
of the edges are not called: the ends of the edges go on pointing to them. -/
def removeBoundary (s : St) (pos : Nat) : St := { s with bdrys := s.bdrys.eraseIdx pos }

/-- `Boundary::add_edge` (src/algorithm/Boundary.h:191-192, 171-184) for boundary number `b`. -/
def addBdryEdge (s : St) (b v w : Nat) : St :=
  { newEdge s v w with bdrys := s.bdrys.modify b (· ++ [s.ne]) }

/-- `EdgeList::remove` (src/algorithm/EdgeList.h:158) for boundary number `b`. -/
def removeBdryEdge (s : St) (b e : Nat) : St :=
  { detach s e with bdrys := s.bdrys.modify b (·.filter (· ≠ e)) }

/-- `Domain::add_fixed_edge` (src/algorithm/Domain.h:445-453). -/
def addFixedEdge (s : St) (v w : Nat) : St :=
  { newEdge s v w with fixedE := s.fixedE ++ [s.ne] }

/-- `Domain::remove_fixed_edge` (src/algorithm/Domain.h:458). -/
def removeFixedEdge (s : St) (e : Nat) : St :=
  { detach s e with fixedE := s.fixedE.filter (· ≠ e) }

/-- The calls that edit a domain. -/
inductive Op where
  | addVertex
  | removeVertex (v : Nat)
  | addFixedVertex
  | removeFixedVertex (v : Nat)
  | insertBoundary (pos : Nat)
  | removeBoundary (pos : Nat)
  | addBdryEdge (b v w : Nat)
  | removeBdryEdge (b e : Nat)
  | addFixedEdge (v w : Nat)
  | removeFixedEdge (e : Nat)
deriving DecidableEq, Repr

/-- One call.  `none`: the arguments are no references to objects of the domain, the position of a boundary
is out of range (undefined behaviour in all these cases), or the ends of a new edge coincide (the `ASSERT` in
src/algorithm/Edge.h:111-112 fails). -/
def step (s : St) : Op → Option St
  | .addVertex => some (addVertex s)
  | .removeVertex v => if v ∈ s.verts then some (removeVertex s v) else none
  | .addFixedVertex => some (addFixedVertex s)
  | .removeFixedVertex v => if v ∈ s.verts then some (removeFixedVertex s v) else none
  | .insertBoundary pos => if pos ≤ s.bdrys.length then some (insertBoundary s pos) else none
  | .removeBoundary pos => if pos < s.bdrys.length then some (removeBoundary s pos) else none
  | .addBdryEdge b v w =>
    if b < s.bdrys.length ∧ v ∈ s.verts ∧ w ∈ s.verts ∧ v ≠ w then some (addBdryEdge s b v w) else none
  | .removeBdryEdge b e =>
    match s.bdrys[b]? with
    | some es => if e ∈ es then some (removeBdryEdge s b e) else none
    | none => none
  | .addFixedEdge v w =>
    if v ∈ s.verts ∧ w ∈ s.verts ∧ v ≠ w then some (addFixedEdge s v w) else none
  | .removeFixedEdge e => if e ∈ s.fixedE then some (removeFixedEdge s e) else none

/-- A history of calls. -/
def run (s : St) : List Op → Option St
  | [] => some s
  | o :: os =>
    match step s o with
    | some t => run t os
    | none => none

/-- The edges that exist: those of the boundaries and the fixed ones. -/
def edges (s : St) : List Nat := s.bdrys.flatten ++ s.fixedE

/-- Both edges have the same `edgelist_` (src/algorithm/Edge.h:265). -/
def sameList (s : St) (e f : Nat) : Bool :=
  s.bdrys.any (fun b => b.contains e && b.contains f) || (s.fixedE.contains e && s.fixedE.contains f)

/-- The loop of `Edge::get_next_edge` (src/algorithm/Edge.h:175-193) over the edges of `v2_`.  Outer `none`: an
edge is dereferenced that has been destroyed. -/
def nextLoop (s : St) (e : Nat) : List Nat → Option (Option Nat)
  | [] => some none
  | f :: fs =>
    if f = e then nextLoop s e fs
    else if f ∉ edges s then none
    else if sameList s e f = false then nextLoop s e fs
    else if (s.ends f).1 ≠ (s.ends e).2 then nextLoop s e fs
    else some (some f)

/-- `Edge::get_next_edge`. -/
def nextEdge (s : St) (e : Nat) : Option (Option Nat) := nextLoop s e (s.inc (s.ends e).2)

end DE
end TQ

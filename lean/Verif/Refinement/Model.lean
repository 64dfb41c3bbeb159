import Verif.Mesh.Model

/-!
# Model of the refinement of meshes: `src/algorithm/RefinementStrategy.h`

`sub_vertex_` of an edge (src/algorithm/Edge.h:279) is a separate map from edges to vertices, empty at
the start of a refinement (it is set for coarse edges only, and these are removed at the end).  Reading the
sub vertex of a missing edge or a missing sub vertex is undefined behaviour: the outcome `none`.
-/

set_option linter.unusedSectionVars false

namespace TQ
namespace MS
variable {K : Type*} [Field K] [LinearOrder K]
namespace St

/-- `Edge::xy()`: the midpoint of an edge (src/algorithm/Edge.h:99, 231). -/
def edgeMid (s : St K) (e : Nat) : Pt K := Pt.smul (1 / 2) (s.pos (s.E e).v1 + s.pos (s.E e).v2)

/-- `color(int)` of a facet (src/algorithm/Facet.h:55, src/algorithm/Quad.h:168). -/
def setColor (s : St K) (f : FRef) (c : Int) : St K := { s with F := upd s.F f fun d => { d with color := c } }

/-- `add_property` of the new vertex `v` with the properties of existing vertices
(src/algorithm/RefinementStrategy.h:166-167, 189-190, 219-221, 270-273). -/
def inheritProps (s : St K) (v : Nat) (ws : List Nat) : St K :=
  ws.foldl (fun t w => t.setProps v fun p => Flags.add p (t.V w).props) s

/-- Removal of `on_boundary` (src/algorithm/RefinementStrategy.h:170-171, 224-225, 276-277). -/
def clearBoundary (s : St K) (v : Nat) : St K :=
  s.setProps v fun p => if Flags.has p Flags.vOnBoundary then Flags.remove p Flags.vOnBoundary else p

/-- A mesh during the refinement, with the sub vertices of the coarse edges. -/
abbrev RS (K : Type*) := St K × (Nat → Option Nat)

/-- One step of `refine_interior_edges` (src/algorithm/RefinementStrategy.h:159-172). -/
def splitIntr (r : RS K) (e : Nat) : RS K :=
  let v := r.1.nxt
  let s := r.1.addVertex (r.1.edgeMid e)
  let s := (s.addEdge .intr (r.1.E e).v1 v (-1) 0).addEdge .intr v (r.1.E e).v2 (-1) 0
  ((s.inheritProps v [(r.1.E e).v1, (r.1.E e).v2]).clearBoundary v, upd r.2 e fun _ => some v)

/-- One step of `refine_boundary_edges` (src/algorithm/RefinementStrategy.h:180-197). -/
def splitBdry (r : RS K) (e : Nat) : RS K :=
  let v := r.1.nxt
  let c := (r.1.E e).color
  let p := Flags.add 0 Flags.eOnBoundary
  let s := r.1.addVertex (r.1.edgeMid e)
  let s := (s.addEdge .bdry (r.1.E e).v1 v c p).addEdge .bdry v (r.1.E e).v2 c p
  (s.inheritProps v [(r.1.E e).v1, (r.1.E e).v2], upd r.2 e fun _ => some v)

/-- `mesh_->get_edge( a, b )->sub_vertex()` (src/algorithm/RefinementStrategy.h:209-215, 257-265). -/
def subVertex (r : RS K) (a b : Nat) : Option Nat :=
  match r.1.meshEdge a b with
  | none => none
  | some e => r.2 e

/-- `add_quad` and `color( c )` (src/algorithm/RefinementStrategy.h:228-235, 280-289). -/
def addSub (s : St K) (c : Int) (q : Nat × Nat × Nat × Nat) : St K :=
  (s.addQuad q.1 q.2.1 q.2.2.1 q.2.2.2 (-1)).setColor (.quad s.nxt) c

/-- The new vertex, the sub quads and the new edges of an element with corners `vs`, all of colour `c`
(src/algorithm/RefinementStrategy.h:218-241, 268-296); the new vertex is `s.nxt`. -/
def splitFacet (s : St K) (p : Pt K) (vs : List Nat) (c : Int) (qs : List (Nat × Nat × Nat × Nat))
    (mids : List Nat) : St K :=
  let z := s.nxt
  let s := ((s.addVertex p).inheritProps z vs).clearBoundary z
  let s := qs.foldl (fun t q => t.addSub c q) s
  mids.foldl (fun t m => t.addEdge .intr m z (-1) 0) s

/-- One step of `refine_triangles` (src/algorithm/RefinementStrategy.h:203-242). -/
def splitTri (r : RS K) (t : Nat) : Option (RS K) :=
  match (r.1.F (.tri t)).corners with
  | [v1, v3, v5] =>
    match subVertex r v1 v3, subVertex r v3 v5, subVertex r v5 v1 with
    | some v2, some v4, some v6 =>
      let v7 := r.1.nxt
      some (r.1.splitFacet (r.1.fCentroid (.tri t)) [v1, v3, v5] (r.1.F (.tri t)).color
        [(v1, v2, v7, v6), (v3, v4, v7, v2), (v5, v6, v7, v4)] [v2, v4, v6], r.2)
    | _, _, _ => none
  | _ => none

/-- One step of `refine_quads` (src/algorithm/RefinementStrategy.h:250-297). -/
def splitQuad (r : RS K) (q : Nat) : Option (RS K) :=
  match (r.1.F (.quad q)).corners with
  | [v1, v3, v5, v7] =>
    match subVertex r v1 v3, subVertex r v3 v5, subVertex r v5 v7, subVertex r v7 v1 with
    | some v2, some v4, some v6, some v8 =>
      let v9 := r.1.nxt
      some (r.1.splitFacet (r.1.fCentroid (.quad q)) [v1, v3, v5, v7] (r.1.F (.quad q)).color
        [(v1, v2, v9, v8), (v3, v4, v9, v2), (v5, v6, v9, v4), (v7, v8, v9, v6)] [v2, v4, v6, v8], r.2)
    | _, _, _, _ => none
  | _ => none

/-- A loop that stops at undefined behaviour. -/
def loopM {α β : Type*} (f : α → β → Option α) : α → List β → Option α
  | a, [] => some a
  | a, b :: l => match f a b with | none => none | some a' => loopM f a' l

/-- `remove_old_entities` (src/algorithm/RefinementStrategy.h:302-315). -/
def removeOld (s : St K) (ei eb ts qs : List Nat) : St K :=
  let s := ei.foldl (fun t e => t.removeIntr e) s
  let s := eb.foldl (fun t e => t.removeBdry e) s
  let s := ts.foldl (fun t x => t.removeTri x) s
  qs.foldl (fun t q => t.removeQuad q) s

/-- `QuadRefinement::refine` (src/algorithm/RefinementStrategy.h:102-132): `some (t, true)` is a refined mesh,
`some (s, false)` a refusal, `none` undefined behaviour. -/
def refine (s : St K) : Option (St K × Bool) :=
  if (s.es .bdry).any fun e => (s.E e).twin.isSome then some (s, false)
  else
    let ei := s.es .intr
    let eb := s.es .bdry
    let r : RS K := ei.foldl splitIntr (s, fun _ => none)
    let r := eb.foldl splitBdry r
    match loopM splitTri r s.tris with
    | none => none
    | some r =>
      match loopM splitQuad r s.quads with
      | none => none
      | some r => some (r.1.removeOld ei eb s.tris s.quads, true)

end St
end MS
end TQ

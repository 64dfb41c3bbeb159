import Verif.Mesh.Model
import Verif.Utils.Model

/-! # Model of the update of the advancing front (src/algorithm/FrontUpdate.h) -/

namespace TQ
namespace FU
open MS
variable {K : Type*} [Field K] [LinearOrder K]

/-- What the front update takes from outside: the tolerance of the orientation test, the size function and
the inside test of the domain, the domain's boundary edges near a point, the vector length, the largest
angle of a triangle (needs `acos`), the limits `min_cell_quality_` and `max_cell_angle_`, the factor
`norm_factor`, the container queries `get_items(xy, r)` of vertices, triangles, quads and front edges
(src/utils/Container.h, modelled in `Verif.QuadTree`) and `std::sort` (src/algorithm/FrontUpdate.h:304).
All are arbitrary functions here; what a theorem needs from them is among its hypotheses. -/
structure Env (K : Type*) where
  eps : K
  rho : Pt K → K
  inside : Pt K → Bool
  bdryEdges : Pt K → K → List (Pt K × Pt K)
  norm : Pt K → K
  maxAngle : Pt K → Pt K → Pt K → K
  minQuality : K
  maxCellAngle : K
  normFactor : K
  qVerts : St K → Pt K → K → List Nat
  qTris : St K → Pt K → K → List Nat
  qQuads : St K → Pt K → K → List Nat
  qFront : St K → Pt K → K → List Nat
  sort : (Nat → K) → List Nat → List Nat

/-! ### Triangle measures (src/algorithm/FacetGeometry.h, src/algorithm/Triangle.h) -/

/-- `edge_lengths_` (src/algorithm/Triangle.h:289-291, src/algorithm/FacetGeometry.h:80-82). -/
def edgeLength (env : Env K) (p q : Pt K) : K := env.norm (q - p)

/-- `max_edge_length_` (src/algorithm/Triangle.h:293). -/
def maxEdgeLength (env : Env K) (p q r : Pt K) : K :=
  max (max (edgeLength env p q) (edgeLength env q r)) (edgeLength env r p)

/-- `calc_shape_factor` (src/algorithm/FacetGeometry.h:109-125). -/
def shapeFactor (env : Env K) (p q r : Pt K) : K :=
  let s := edgeLength env p q * edgeLength env p q + edgeLength env q r * edgeLength env q r +
    edgeLength env r p * edgeLength env r p
  if 0 < s then env.normFactor * St.triArea p q r / s else 0

/-- `calc_quality` (src/algorithm/FacetGeometry.h:130-147). -/
def quality (env : Env K) (h : K) (p q r : Pt K) : K :=
  let q1 := cppMIN (edgeLength env p q / h) (h / edgeLength env p q)
  let q2 := cppMIN (edgeLength env q r / h) (h / edgeLength env q r)
  let q3 := cppMIN (edgeLength env r p / h) (h / edgeLength env r p)
  shapeFactor env p q r * q1 * q2 * q3

/-- `check_validity` (src/algorithm/FacetGeometry.h:152-169). -/
def checkValidity (env : Env K) (p q r : Pt K) : Bool :=
  if St.triArea p q r ≤ 0 then false
  else if edgeLength env p q ≤ 0 ∨ edgeLength env q r ≤ 0 ∨ edgeLength env r p ≤ 0 then false
  else true

/-! ### Intersection checks (src/algorithm/FacetGeometry.h:174-334) -/

/-- A facet contains a vertex that is not one of its corners (src/algorithm/FacetGeometry.h:174-181,
481-492). -/
def facetHasVertex (eps : K) (s : St K) (f : FRef) (v : Nat) : Bool :=
  if v ∈ (s.F f).corners then false
  else
    match (s.F f).corners with
    | [a, b, c] => inOnTriangle eps (s.pos v) (s.pos a) (s.pos b) (s.pos c)
    | [a, b, c, d] => inOnQuad eps (s.pos v) (s.pos a) (s.pos b) (s.pos c) (s.pos d)
    | _ => false

/-- Triangle and domain boundary (src/algorithm/FacetGeometry.h:186-207). -/
def hitsDomain (env : Env K) (p q r : Pt K) : Bool :=
  (env.bdryEdges (St.triCentroid p q r) (maxEdgeLength env p q r)).any fun e =>
    lineTriCrossing env.eps e.1 e.2 p q r

/-- Triangle `tri` (with corners `p q r`) and one other triangle (src/algorithm/FacetGeometry.h:219-243). -/
def hitsTri (eps : K) (s : St K) (tri : Nat) (p q r : Pt K) (t : Nat) : Bool :=
  if t = tri then false
  else if !(s.F (.tri t)).active then false
  else
    match (s.F (.tri t)).corners with
    | [a, b, c] =>
      triTriIntersection eps (s.pos a) (s.pos b) (s.pos c) p q r ||
        (inTriangle eps (s.fCentroid (.tri t)) p q r ||
          inTriangle eps (St.triCentroid p q r) (s.pos a) (s.pos b) (s.pos c))
    | _ => false

/-- Triangle and one quad (src/algorithm/FacetGeometry.h:258-280). -/
def hitsQuad (eps : K) (s : St K) (p q r : Pt K) (t : Nat) : Bool :=
  if !(s.F (.quad t)).active then false
  else
    match (s.F (.quad t)).corners with
    | [a, b, c, d] =>
      triQuadIntersection eps p q r (s.pos a) (s.pos b) (s.pos c) (s.pos d) ||
        (inTriangle eps (s.fCentroid (.quad t)) p q r ||
          inQuad eps (St.triCentroid p q r) (s.pos a) (s.pos b) (s.pos c) (s.pos d))
    | _ => false

/-- Triangle and one front edge (src/algorithm/FacetGeometry.h:299-303). -/
def hitsEdge (eps : K) (s : St K) (p q r : Pt K) (e : Nat) : Bool :=
  lineTriIntersection eps (s.pos (s.E e).v1) (s.pos (s.E e).v2) p q r

/-- Triangle and one vertex (src/algorithm/FacetGeometry.h:320-330). -/
def hitsVertex (eps : K) (s : St K) (a b c : Nat) (v : Nat) : Bool :=
  if v = a ∨ v = b ∨ v = c then false
  else inOnTriangle eps (s.pos v) (s.pos a) (s.pos b) (s.pos c)

/-- `triangle_is_valid` (src/algorithm/FrontUpdate.h:326-364) for the triangle `t` with corners `a b c`. -/
def triangleIsValid (env : Env K) (s : St K) (t a b c : Nat) : Bool :=
  let p := s.pos a
  let q := s.pos b
  let r := s.pos c
  let xy := St.triCentroid p q r
  let rho := env.rho xy
  let range := cppMAX (2 * rho) (maxEdgeLength env p q r)
  if !checkValidity env p q r then false
  else if (env.qFront s xy range).any (hitsEdge env.eps s p q r) then false
  else if hitsDomain env p q r then false
  else if (env.qVerts s xy range).any (hitsVertex env.eps s a b c) then false
  else if (env.qTris s xy range).any (hitsTri env.eps s t p q r) then false
  else if (env.qQuads s xy range).any (hitsQuad env.eps s p q r) then false
  else if quality env rho p q r < env.minQuality then false
  else if env.maxCellAngle < env.maxAngle p q r then false
  else true

/-- `vertex_is_valid` (src/algorithm/FrontUpdate.h:370-392). -/
def vertexIsValid (env : Env K) (s : St K) (v : Nat) : Bool :=
  let range := 2 * env.rho (s.pos v)
  if !env.inside (s.pos v) then false
  else if (env.qTris s (s.pos v) range).any (fun t => facetHasVertex env.eps s (.tri t) v) then false
  else if (env.qQuads s (s.pos v) range).any (fun q => facetHasVertex env.eps s (.quad q) v) then false
  else true

/-! ### Candidates -/

/-- One pass of the loop in `create_possible_triangles` (src/algorithm/FrontUpdate.h:266-283) for vertex
`v`: state and list of the valid new triangles. -/
def tryVertex (env : Env K) (b1 b2 : Nat) (acc : St K × List Nat) (v : Nat) : St K × List Nat :=
  let s := acc.1
  if !Flags.has (s.V v).props Flags.vOnFront then acc
  else if orientation env.eps (s.pos b1) (s.pos b2) (s.pos v) = .CL then acc
  else
    let t := s.nxt
    let s1 := s.addTri b1 b2 v (-1)
    if triangleIsValid env s1 t b1 b2 v then (s1, acc.2 ++ [t]) else (s1.removeTri t, acc.2)

/-- `create_possible_triangles` (src/algorithm/FrontUpdate.h:256-287). -/
def createPossible (env : Env K) (s : St K) (base : Nat) (xy : Pt K) (range : K) : St K × List Nat :=
  (env.qVerts s xy range).foldl (tryVertex env (s.E base).v1 (s.E base).v2) (s, [])

/-- The quality used for sorting (src/algorithm/FrontUpdate.h:307-310). -/
def sortKey (env : Env K) (s : St K) (t : Nat) : K :=
  match (s.F (.tri t)).corners with
  | [a, b, c] =>
    quality env (env.rho (s.fCentroid (.tri t))) (s.pos a) (s.pos b) (s.pos c)
  | _ => 0

/-- `choose_best_triangle` (src/algorithm/FrontUpdate.h:295-320); `none`: empty input (assertion). -/
def chooseBest (env : Env K) (s : St K) (ts : List Nat) : Option (St K × Nat) :=
  match env.sort (sortKey env s) ts with
  | [] => none
  | t :: rest => some (rest.foldl St.removeTri s, t)

/-! ### Advancing the front -/

/-- `update_front_state` (src/algorithm/FrontUpdate.h:398-415). -/
def updateFrontState (s : St K) (v : Nat) : St K :=
  if (s.V v).edges.any (fun e => decide ((s.E e).list = .front)) then
    s.setProps v (Flags.add · Flags.vOnFront)
  else s.setProps v (Flags.remove · Flags.vOnFront)

/-- Enter a consumed front edge into the interior edges unless it is on the boundary
(src/algorithm/FrontUpdate.h:75-78, 91-92, 105-106). -/
def keepEdge (s : St K) (e : Nat) : St K :=
  if s.isInterior e then s.addIntr (s.E e).v1 (s.E e).v2 else s

/-- A new front edge: `front_.add_edge(a, b)`. -/
def addFront (s : St K) (a b : Nat) : St K := s.addEdge .front a b (-1) 0

/-- The four cases of `advance_front` (src/algorithm/FrontUpdate.h:63-118). -/
def advanceEdges (s : St K) (b1 b2 v : Nat) : St K :=
  match s.getEdge .front v b1, s.getEdge .front v b2 with
  | some e1, some e2 => ((keepEdge (keepEdge s e1) e2).removeEdge e1).removeEdge e2
  | some e1, none => addFront ((keepEdge s e1).removeEdge e1) v b2
  | none, some e2 => addFront ((keepEdge s e2).removeEdge e2) b1 v
  | none, none => addFront (addFront s b1 v) v b2

/-- `advance_front` (src/algorithm/FrontUpdate.h:58-138). -/
def advanceFront (s : St K) (base v t : Nat) : St K :=
  let b1 := (s.E base).v1
  let b2 := (s.E base).v2
  let s1 := advanceEdges s b1 b2 v
  let s2 := updateFrontState (updateFrontState (updateFrontState s1 b1) b2) v
  let s3 := if s2.isInterior base && !s2.isGhost base then s2.addIntr b1 b2 else s2
  let s4 := (s3.removeEdge base).activate (.tri t)
  s4.addArea (s4.fArea (.tri t))

/-- `update_front` (src/algorithm/FrontUpdate.h:143-175): new state and the new triangle, if any.  The
third vertex of the chosen triangle is read from its corners. -/
def updateFront (env : Env K) (s : St K) (base : Nat) (newPos searchPos : Pt K) (range : K) :
    St K × Option Nat :=
  let r := createPossible env s base searchPos range
  match chooseBest env r.1 r.2 with
  | some (s1, t) =>
    match (s1.F (.tri t)).corners with
    | [_, _, v] => (advanceFront s1 base v t, some t)
    | _ => (s1, none)
  | none =>
    let b1 := (s.E base).v1
    let b2 := (s.E base).v2
    let v := r.1.nxt
    let s1 := r.1.addVertex newPos
    let t := s1.nxt
    let s2 := s1.addTri b1 b2 v (-1)
    if vertexIsValid env s2 v && triangleIsValid env s2 t b1 b2 v then (advanceFront s2 base v t, some t)
    else ((s2.removeTri t).removeVertex v, none)

/-- `update_front_exhaustive` (src/algorithm/FrontUpdate.h:180-202). -/
def updateFrontExhaustive (env : Env K) (s : St K) (base v : Nat) : St K × Option Nat :=
  if !Flags.has (s.V v).props Flags.vOnFront then (s, none)
  else if orientation env.eps (s.pos (s.E base).v1) (s.pos (s.E base).v2) (s.pos v) ≠ .CCW then (s, none)
  else
    let t := s.nxt
    let s1 := s.addTri (s.E base).v1 (s.E base).v2 v (-1)
    if triangleIsValid env s1 t (s.E base).v1 (s.E base).v2 v then (advanceFront s1 base v t, some t)
    else (s1.removeTri t, none)

end FU
end TQ

import Verif.FrontUpdate.Model
import Verif.Mesh.Spec
import Verif.Geometry.Spec

/-! # Specifications for the update of the front -/

namespace TQ.FUSpec
open TQ.MS TQ.MeshSpec TQ.FU
variable {K : Type*}

/-- The directed edges of a list of edges as pairs of vertices. -/
def pairs (s : St K) (l : EL) : List (Nat × Nat) := (s.es l).map fun e => ((s.E e).v1, (s.E e).v2)

/-- The corners of the triangles. -/
def triCorners (s : St K) : List (List Nat) := s.tris.map fun t => (s.F (.tri t)).corners

/-- Directed boundary of a facet with corners `cs`: every corner with the next one. -/
def bdryOf (cs : List Nat) : List (Nat × Nat) := cs.zip (cs.rotate 1)

/-- The side edges found for the base edge `b1 → b2` and the vertex `v` run along the front:
`v → b1` and `b2 → v`. -/
def Oriented (es : List (Nat × Nat)) (b1 b2 v : Nat) : Prop := (b1, v) ∉ es ∧ (v, b2) ∉ es

/-- Replacement of the base edge `b1 → b2` by the two other sides of the triangle `b1 b2 v`; a side that
is already in the front (in opposite direction) is removed, otherwise it is added. -/
def Replaced (old new : List (Nat × Nat)) (b1 b2 v : Nat) : Prop :=
  ∃ out inn rest, old.Perm ((b1, b2) :: (out ++ rest)) ∧ new.Perm (inn ++ rest) ∧
    ((out = [(v, b1), (b2, v)] ∧ inn = []) ∨ (out = [(v, b1)] ∧ inn = [(v, b2)] ∧ (b2, v) ∉ old) ∨
      (out = [(b2, v)] ∧ inn = [(b1, v)] ∧ (v, b1) ∉ old) ∨
      (out = [] ∧ inn = [(b1, v), (v, b2)] ∧ (b2, v) ∉ old ∧ (v, b1) ∉ old))

/-- Number of `a → b` minus number of `b → a`. -/
def chain (es : List (Nat × Nat)) (a b : Nat) : Int := (es.count (a, b) : Int) - es.count (b, a)

/-- As many edges end as start in every vertex. -/
def Balanced (es : List (Nat × Nat)) : Prop :=
  ∀ v, es.countP (fun e => decide (e.1 = v)) = es.countP (fun e => decide (e.2 = v))

/-- Signed area enclosed by directed edges (shoelace formula). -/
def enclosed [Field K] (pos : Nat → Pt K) (es : List (Nat × Nat)) : K :=
  (es.map fun e => 1 / 2 * Pt.cross (pos e.1) (pos e.2)).sum

/-- Everything a user can reach is the same: the vertices with their data, all edges with their data,
the elements with their data, the area. -/
structure SameMesh (s s' : St K) : Prop where
  verts : s'.verts = s.verts
  vdata : ∀ v ∈ s.verts, s'.V v = s.V v
  es : s'.es = s.es
  edata : s'.E = s.E
  tris : s'.tris = s.tris
  quads : s'.quads = s.quads
  fdata : ∀ f, Live s f → s'.F f = s.F f
  area : s'.area = s.area

variable [Field K] [LinearOrder K]

/-- The queries return live items. -/
structure QueryLive (env : Env K) : Prop where
  verts : ∀ s p r, ∀ v ∈ env.qVerts s p r, v ∈ s.verts
  tris : ∀ s p r, ∀ v ∈ env.qTris s p r, v ∈ s.tris
  quads : ∀ s p r, ∀ v ∈ env.qQuads s p r, v ∈ s.quads
  front : ∀ s p r, ∀ v ∈ env.qFront s p r, v ∈ s.es .front

/-- The queries return exactly the live items in the open disc (see C02 for the quad tree). -/
structure QueryExact (env : Env K) : Prop where
  verts : ∀ s p r v, v ∈ env.qVerts s p r ↔ v ∈ s.verts ∧ Pt.normSq (s.pos v - p) < r * r
  tris : ∀ s p r t, t ∈ env.qTris s p r ↔ t ∈ s.tris ∧ Pt.normSq (s.fCentroid (.tri t) - p) < r * r
  quads : ∀ s p r t, t ∈ env.qQuads s p r ↔ t ∈ s.quads ∧ Pt.normSq (s.fCentroid (.quad t) - p) < r * r
  front : ∀ s p r e, e ∈ env.qFront s p r ↔ e ∈ s.es .front ∧
    Pt.normSq (Pt.smul (1 / 2) (s.pos (s.E e).v1 + s.pos (s.E e).v2) - p) < r * r

/-- `std::sort` with the comparison `key t1 > key t2`. -/
def SortOK (env : Env K) : Prop :=
  ∀ (key : Nat → K) (l : List Nat), (env.sort key l).Perm l ∧ (env.sort key l).Pairwise fun a b => key b ≤ key a

/-- The front edges in another order (`sort_edges`, src/algorithm/Front.h:171-222). -/
def reorder (s : St K) (l : List Nat) : St K := { s with es := upd s.es .front fun _ => l }

/-- A successful step, as recorded in the history: the front before, the base edge and the third vertex. -/
structure Entry where
  front : List (Nat × Nat)
  b1 : Nat
  b2 : Nat
  v : Nat

/-- Histories of the meshing of a front: successful and failed updates and reordering, in any sequence.
The log holds the successful steps. -/
inductive Run (env : Env K) (s0 : St K) : List Entry → St K → Prop
  | start : Run env s0 [] s0
  | update {log s s' base np sp r t v} : Run env s0 log s → base ∈ s.es .front →
      updateFront env s base np sp r = (s', some t) → (s'.F (.tri t)).corners[2]? = some v →
      Run env s0 (log ++ [⟨pairs s .front, (s.E base).v1, (s.E base).v2, v⟩]) s'
  | exhaustive {log s s' base v t} : Run env s0 log s → base ∈ s.es .front → v ∈ s.verts →
      updateFrontExhaustive env s base v = (s', some t) →
      Run env s0 (log ++ [⟨pairs s .front, (s.E base).v1, (s.E base).v2, v⟩]) s'
  | updateFail {log s s' base np sp r} : Run env s0 log s → base ∈ s.es .front →
      updateFront env s base np sp r = (s', none) → Run env s0 log s'
  | exhaustiveFail {log s s' base v} : Run env s0 log s → base ∈ s.es .front → v ∈ s.verts →
      updateFrontExhaustive env s base v = (s', none) → Run env s0 log s'
  | reorder {log s l} : Run env s0 log s → l.Perm (s.es .front) → Run env s0 log (reorder s l)

/-- All steps used side edges that run along the front. -/
def AllOriented (log : List Entry) : Prop := ∀ e ∈ log, Oriented e.front e.b1 e.b2 e.v

/-- Number of directed edges that connect `a` and `b`, in either direction. -/
def connecting (es : List (Nat × Nat)) (a b : Nat) : Nat :=
  es.countP fun e => decide ((e.1 = a ∧ e.2 = b) ∨ (e.1 = b ∧ e.2 = a))

/-- Sides of the triangles. -/
def sides (s : St K) : List (Nat × Nat) := (triCorners s).flatMap bdryOf

/-- The front edges with a given interior/boundary state. -/
def frontOf (s : St K) (interior : Bool) : List (Nat × Nat) :=
  ((s.es .front).filter fun e => s.isInterior e == interior).map fun e => ((s.E e).v1, (s.E e).v2)

/-- A vertex of a front edge. -/
def OnFront (s : St K) (v : Nat) : Prop := ∃ e ∈ s.es .front, (s.E e).v1 = v ∨ (s.E e).v2 = v

/-- The flag `on_front`. -/
def flagged (s : St K) (v : Nat) : Prop := Flags.has (s.V v).props Flags.vOnFront = true

/-- No ghost edges in the front. -/
def NoGhost (s : St K) : Prop := ∀ e ∈ s.es .front, s.isGhost e = false

/-! ### Winding numbers -/

/-- Twice the signed area of `a b p`: positive if `p` is left of `a → b`. -/
def side (a b p : Pt K) : K := (b.x - a.x) * (p.y - a.y) - (b.y - a.y) * (p.x - a.x)

/-- The ray from `p` to the right is crossed upwards by `a → b`. -/
def UpCross (p a b : Pt K) : Prop := a.y ≤ p.y ∧ p.y < b.y ∧ 0 < side a b p

instance (p a b : Pt K) : Decidable (UpCross p a b) := inferInstanceAs (Decidable (_ ∧ _ ∧ _))

/-- Winding number of directed edges around `p` (signed number of crossings with the ray to the right). -/
def winding (pos : Nat → Pt K) (es : List (Nat × Nat)) (p : Pt K) : Int :=
  (es.countP fun e => decide (UpCross p (pos e.1) (pos e.2)) : Int) -
    es.countP fun e => decide (UpCross p (pos e.2) (pos e.1))

/-- `p` is strictly inside the counter-clockwise triangle `a b c`. -/
def StrictlyIn (p a b c : Pt K) : Prop := 0 < side a b p ∧ 0 < side b c p ∧ 0 < side c a p

instance (p a b c : Pt K) : Decidable (StrictlyIn p a b c) := inferInstanceAs (Decidable (_ ∧ _ ∧ _))

/-- `p` is strictly inside the facet `t`. -/
def Covers (s : St K) (p : Pt K) (t : Nat) : Bool :=
  match (s.F (.tri t)).corners with
  | [a, b, c] => decide (StrictlyIn p (s.pos a) (s.pos b) (s.pos c))
  | _ => false

/-- `p` lies on no line through a side of a triangle. -/
def Generic (s : St K) (p : Pt K) : Prop := ∀ e ∈ sides s, side (s.pos e.1) (s.pos e.2) p ≠ 0

/-! ### Simple fronts -/

/-- `x` lies on the closed segment `a b`. -/
def OnClosed (a b x : Pt K) : Prop := ∃ t, 0 ≤ t ∧ t ≤ 1 ∧ x = GeoSpec.onSeg a b t

/-- `x` lies in the closed counter-clockwise triangle `a b c`. -/
def InClosed (x a b c : Pt K) : Prop := 0 ≤ side a b x ∧ 0 ≤ side b c x ∧ 0 ≤ side c a x

/-- The edges meet at most in common end points. -/
def Apart (pos : Nat → Pt K) (e f : Nat × Nat) : Prop :=
  ∀ x, OnClosed (pos e.1) (pos e.2) x → OnClosed (pos f.1) (pos f.2) x →
    (x = pos e.1 ∨ x = pos e.2) ∧ (x = pos f.1 ∨ x = pos f.2)

/-- The front bounds a region on its left: it is closed, its edges have a length and meet only in end
points, and it winds once around the points of the region and not at all around the other points. -/
structure SimpleFront (pos : Nat → Pt K) (es : List (Nat × Nat)) : Prop where
  balanced : Balanced es
  proper : ∀ e ∈ es, pos e.1 ≠ pos e.2
  apart : es.Pairwise (Apart pos)
  once : ∀ p, winding pos es p = 0 ∨ winding pos es p = 1

/-- The triangle `b1 b2 v` meets the front only in front edges that are sides of the triangle, and
otherwise in points that are corners of the triangle and end points of the front edge. -/
def Free (pos : Nat → Pt K) (es : List (Nat × Nat)) (b1 b2 v : Nat) : Prop :=
  ∀ e ∈ es, (e = (b1, b2) ∨ e = (b2, b1)) ∨ (e = (b2, v) ∨ e = (v, b2)) ∨ (e = (v, b1) ∨ e = (b1, v)) ∨
    ∀ x, OnClosed (pos e.1) (pos e.2) x → InClosed x (pos b1) (pos b2) (pos v) →
      (x = pos e.1 ∨ x = pos e.2) ∧ (x = pos b1 ∨ x = pos b2 ∨ x = pos v)

/-- All new triangles met the front of their time only along sides and in corners. -/
def AllFree (pos : Nat → Pt K) (log : List Entry) : Prop := ∀ e ∈ log, Free pos e.front e.b1 e.b2 e.v

/-! ### Admissible triangles -/

/-- Within the open disc around `p` with radius `r`. -/
def Near (p : Pt K) (r : K) (q : Pt K) : Prop := Pt.normSq (q - p) < r * r

/-- The radius in which other entities are taken into account. -/
def checkRange (env : Env K) (p q r : Pt K) : K :=
  max (2 * env.rho (St.triCentroid p q r)) (max (max (env.norm (q - p)) (env.norm (r - q))) (env.norm (p - r)))

/-- The triangle `a b c` may be added to the mesh `s`: positive area and side lengths; no front edge (with
its midpoint in range) meets it, no domain edge in range crosses it, no other vertex in range lies in it,
no active triangle or quad (with its centroid in range) overlaps it in the sense of the checks; quality
and largest angle are within the limits. -/
structure ValidTriangle (env : Env K) (s : St K) (a b c : Nat) : Prop where
  area : 0 < GeoSpec.triArea (s.pos a) (s.pos b) (s.pos c)
  lengths : 0 < env.norm (s.pos b - s.pos a) ∧ 0 < env.norm (s.pos c - s.pos b) ∧ 0 < env.norm (s.pos a - s.pos c)
  front : ∀ e ∈ s.es .front,
    Near (St.triCentroid (s.pos a) (s.pos b) (s.pos c)) (checkRange env (s.pos a) (s.pos b) (s.pos c))
      (Pt.smul (1 / 2) (s.pos (s.E e).v1 + s.pos (s.E e).v2)) →
    lineTriIntersection env.eps (s.pos (s.E e).v1) (s.pos (s.E e).v2) (s.pos a) (s.pos b) (s.pos c) = false
  domain : ∀ x ∈ env.bdryEdges (St.triCentroid (s.pos a) (s.pos b) (s.pos c))
      (max (max (env.norm (s.pos b - s.pos a)) (env.norm (s.pos c - s.pos b))) (env.norm (s.pos a - s.pos c))),
    lineTriCrossing env.eps x.1 x.2 (s.pos a) (s.pos b) (s.pos c) = false
  verts : ∀ v ∈ s.verts, v ≠ a → v ≠ b → v ≠ c →
    Near (St.triCentroid (s.pos a) (s.pos b) (s.pos c)) (checkRange env (s.pos a) (s.pos b) (s.pos c)) (s.pos v) →
    inOnTriangle env.eps (s.pos v) (s.pos a) (s.pos b) (s.pos c) = false
  tris : ∀ t ∈ s.tris, ∀ x y z, (s.F (.tri t)).active = true → (s.F (.tri t)).corners = [x, y, z] →
    Near (St.triCentroid (s.pos a) (s.pos b) (s.pos c)) (checkRange env (s.pos a) (s.pos b) (s.pos c))
      (St.triCentroid (s.pos x) (s.pos y) (s.pos z)) →
    triTriIntersection env.eps (s.pos x) (s.pos y) (s.pos z) (s.pos a) (s.pos b) (s.pos c) = false ∧
    inTriangle env.eps (St.triCentroid (s.pos x) (s.pos y) (s.pos z)) (s.pos a) (s.pos b) (s.pos c) = false ∧
    inTriangle env.eps (St.triCentroid (s.pos a) (s.pos b) (s.pos c)) (s.pos x) (s.pos y) (s.pos z) = false
  quads : ∀ t ∈ s.quads, ∀ x y z w, (s.F (.quad t)).active = true → (s.F (.quad t)).corners = [x, y, z, w] →
    Near (St.triCentroid (s.pos a) (s.pos b) (s.pos c)) (checkRange env (s.pos a) (s.pos b) (s.pos c))
      (St.quadCentroid (s.pos x) (s.pos y) (s.pos z) (s.pos w)) →
    triQuadIntersection env.eps (s.pos a) (s.pos b) (s.pos c) (s.pos x) (s.pos y) (s.pos z) (s.pos w) = false ∧
    inTriangle env.eps (St.quadCentroid (s.pos x) (s.pos y) (s.pos z) (s.pos w)) (s.pos a) (s.pos b) (s.pos c) = false ∧
    inQuad env.eps (St.triCentroid (s.pos a) (s.pos b) (s.pos c)) (s.pos x) (s.pos y) (s.pos z) (s.pos w) = false
  qual : env.minQuality ≤
    quality env (env.rho (St.triCentroid (s.pos a) (s.pos b) (s.pos c))) (s.pos a) (s.pos b) (s.pos c)
  angle : env.maxAngle (s.pos a) (s.pos b) (s.pos c) ≤ env.maxCellAngle

/-- Three vertices that `orientation` takes for collinear are collinear: the tolerance is below the
resolution of the mesh. -/
def Resolved (eps : K) (s : St K) : Prop :=
  ∀ a ∈ s.verts, ∀ b ∈ s.verts, ∀ c ∈ s.verts,
    side (s.pos a) (s.pos b) (s.pos c) * side (s.pos a) (s.pos b) (s.pos c) < eps →
      side (s.pos a) (s.pos b) (s.pos c) = 0

/-- The front edges that meet the triangle have their midpoint in the range of the checks. -/
def Reach (env : Env K) (pos : Nat → Pt K) (es : List (Nat × Nat)) (b1 b2 v : Nat) : Prop :=
  ∀ e ∈ es, (∃ x, OnClosed (pos e.1) (pos e.2) x ∧ InClosed x (pos b1) (pos b2) (pos v)) →
    Near (St.triCentroid (pos b1) (pos b2) (pos v)) (checkRange env (pos b1) (pos b2) (pos v))
      (Pt.smul (1 / 2) (pos e.1 + pos e.2))

/-- The ranges of the checks of all new triangles were large enough. -/
def AllReach (env : Env K) (pos : Nat → Pt K) (log : List Entry) : Prop :=
  ∀ e ∈ log, Reach env pos e.front e.b1 e.b2 e.v

/-- The vertex `v` may become the third corner of a triangle on `b1 → b2` in a search around `xy`. -/
structure Candidate (env : Env K) (s : St K) (b1 b2 : Nat) (xy : Pt K) (range : K) (v : Nat) : Prop where
  mem : v ∈ s.verts
  near : Near xy range (s.pos v)
  flag : flagged s v
  off : orientation env.eps (s.pos b1) (s.pos b2) (s.pos v) ≠ .CL
  valid : ValidTriangle env s b1 b2 v

/-- Quality of the triangle `b1 b2 v`. -/
def quality3 (env : Env K) (s : St K) (b1 b2 v : Nat) : K :=
  quality env (env.rho (St.triCentroid (s.pos b1) (s.pos b2) (s.pos v))) (s.pos b1) (s.pos b2) (s.pos v)

end TQ.FUSpec

import Verif.Boundary.Model
import Verif.Geometry.Spec

/-!
# Specifications for edge lists and boundaries
-/

namespace TQ.BdSpec
variable {K : Type*} [Field K] [LinearOrder K]

/-- Consecutive edges share a vertex. -/
def Connected (es : List BEdge) : Prop :=
  ∀ (i : Nat) (h : i + 1 < es.length), (es[i]).v2 = (es[i + 1]).v1

/-- The end vertices are the start vertices one step ahead, cyclically: a closed loop. -/
def Loop (es : List BEdge) : Prop := es.map (·.v2) = (es.map (·.v1)).rotate 1

/-- The start points of the edges. -/
def corners (pos : Nat → Pt K) (es : List BEdge) : List (Pt K) := es.map fun e => pos e.v1

/-- Some edge joins the points `p`, `q` (in either direction) and carries the color `c`. -/
def HasSegment (pos : Nat → Pt K) (es : List BEdge) (p q : Pt K) (c : Int) : Prop :=
  ∃ e ∈ es, ((pos e.v1 = p ∧ pos e.v2 = q) ∨ (pos e.v1 = q ∧ pos e.v2 = p)) ∧ e.color = c

/-- `o` lies outside of the smallest axis-parallel box around the corners. -/
def OutsideBox (pos : Nat → Pt K) (es : List BEdge) (o : Pt K) : Prop :=
  (∀ e ∈ es, o.x < (pos e.v1).x) ∨ (∀ e ∈ es, (pos e.v1).x < o.x) ∨
  (∀ e ∈ es, o.y < (pos e.v1).y) ∨ (∀ e ∈ es, (pos e.v1).y < o.y)

/-- `r` is, up to the tolerance `eps` on the squared turn, on the open segment `p q`: its
projection onto the segment falls strictly between the end points. -/
def NearOpenSeg (eps : K) (p q r : Pt K) : Prop :=
  GeoSpec.turn p q r ^ 2 < eps ∧
  0 < (r.x - p.x) * (q.x - p.x) + (r.y - p.y) * (q.y - p.y) ∧
  (r.x - p.x) * (q.x - p.x) + (r.y - p.y) * (q.y - p.y) < (q.x - p.x) ^ 2 + (q.y - p.y) ^ 2

/-- Two segments meet: their interiors cross, or an end point of one is on the other (up to the
tolerance). -/
def SegmentsMeet (eps : K) (p1 q1 p2 q2 : Pt K) : Prop :=
  GeoSpec.OpenSegmentsMeet p1 q1 p2 q2 ∨ NearOpenSeg eps p1 q1 p2 ∨ NearOpenSeg eps p1 q1 q2 ∨
  NearOpenSeg eps p2 q2 p1 ∨ NearOpenSeg eps p2 q2 q1

/-- What a well-formed line of a boundary file says, given its comma separated cells. -/
inductive RowOf (stod : List Char → Option K) (stoi : List Char → Option Int) :
    List (List Char) → CsvRow K → Prop
  | three {a b c : List Char} {x y : K} {m : Int} : stod a = some x → stod b = some y →
      stoi c = some m → 0 ≤ m → RowOf stod stoi [a, b, c] ⟨⟨x, y⟩, ⟨0, 0⟩, m⟩
  | four {a b c d : List Char} {x y s : K} {m : Int} : stod a = some x → stod b = some y →
      stoi c = some m → 0 ≤ m → stod d = some s → RowOf stod stoi [a, b, c, d] ⟨⟨x, y⟩, ⟨s, 0⟩, m⟩
  | five {a b c d e : List Char} {x y s r : K} {m : Int} {more : List (List Char)} :
      stod a = some x → stod b = some y → stoi c = some m → 0 ≤ m → stod d = some s →
      stod e = some r → RowOf stod stoi (a :: b :: c :: d :: e :: more) ⟨⟨x, y⟩, ⟨s, r⟩, m⟩

/-- Text of one line for a row. -/
def renderRow (shw : K → List Char) (shi : Int → List Char) (r : CsvRow K) : List Char :=
  shw r.coords.x ++ [','] ++ shw r.coords.y ++ [','] ++ shi r.color ++ [','] ++
    shw r.props.x ++ [','] ++ shw r.props.y ++ ['\n']

end TQ.BdSpec

import Verif.Geometry.Model
import Mathlib.Data.List.Rotate
import Mathlib.Algebra.BigOperators.Group.List.Basic

/-!
# Specifications for planar geometry (independent of the code's formulas)
-/

namespace TQ.GeoSpec
variable {K : Type*} [Field K] [LinearOrder K]

/-- Turn of the path `p → q → r`: cross product of the two legs. -/
def turn (p q r : Pt K) : K := (q.x - p.x) * (r.y - q.y) - (q.y - p.y) * (r.x - q.x)

/-- Mirror image of an orientation. -/
def mirror : Orientation → Orientation
  | .CW => .CCW
  | .CCW => .CW
  | .CL => .CL

/-- The point at parameter `t` on the segment from `a` to `b`. -/
def onSeg (a b : Pt K) (t : K) : Pt K := ⟨a.x + t * (b.x - a.x), a.y + t * (b.y - a.y)⟩

/-- The open segments `(p1,q1)` and `(p2,q2)` have a common point. -/
def OpenSegmentsMeet (p1 q1 p2 q2 : Pt K) : Prop :=
  ∃ s t : K, 0 < s ∧ s < 1 ∧ 0 < t ∧ t < 1 ∧ onSeg p1 q1 s = onSeg p2 q2 t

/-- `v` is the combination of the points with the given weights. -/
def IsCombo (v : Pt K) (ws : List (K × Pt K)) : Prop :=
  (ws.map (·.1)).sum = 1 ∧ v.x = (ws.map fun w => w.1 * w.2.x).sum ∧
  v.y = (ws.map fun w => w.1 * w.2.y).sum

/-- squared distance -/
def distSq (a b : Pt K) : K := (a.x - b.x) ^ 2 + (a.y - b.y) ^ 2

/-- The cyclically consecutive pairs of a list. -/
def cyclicPairs {α : Type*} (l : List α) : List (α × α) := l.zip (l.rotate 1)

/-- Sum over the cyclically consecutive pairs. -/
def cyclicSum (f : Pt K → Pt K → K) (l : List (Pt K)) : K :=
  ((cyclicPairs l).map fun e => f e.1 e.2).sum

/-- Signed area of the triangle `o a b`. -/
def triArea (o a b : Pt K) : K := ((a.x - o.x) * (b.y - o.y) - (a.y - o.y) * (b.x - o.x)) / 2

/-- translation -/
def shift (d : Pt K) (p : Pt K) : Pt K := ⟨p.x + d.x, p.y + d.y⟩

end TQ.GeoSpec

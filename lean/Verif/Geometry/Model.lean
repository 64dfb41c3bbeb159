import Mathlib.Algebra.Order.Field.Basic
import Mathlib.Tactic.Ring
import Mathlib.Tactic.Linarith
import Mathlib.Tactic.FieldSimp
import Mathlib.Tactic.NormNum

/-!
# Model of `src/utils/Geometry.h`

`double` is replaced by a linearly ordered field `K` (exact arithmetic).  The tolerance
`CPPUTILS_SMALL` of `orientation` is the parameter `eps`.
-/

set_option linter.unusedSectionVars false

namespace TQ

/-- A two dimensional vector, `Vec2<T>` (src/utils/VecND.h:30-310, alias at 534). -/
structure Pt (K : Type*) where
  x : K
  y : K
deriving DecidableEq, Repr

namespace Pt
variable {K : Type*} [Field K]
/-- `operator+` (src/utils/VecND.h:352) -/
instance : Add (Pt K) := ⟨fun a b => ⟨a.x + b.x, a.y + b.y⟩⟩
/-- `operator-` (src/utils/VecND.h:364) -/
instance : Sub (Pt K) := ⟨fun a b => ⟨a.x - b.x, a.y - b.y⟩⟩
instance : Zero (Pt K) := ⟨⟨0, 0⟩⟩
/-- unary `operator-` (src/utils/VecND.h:143) -/
instance : Neg (Pt K) := ⟨fun a => ⟨-a.x, -a.y⟩⟩
/-- scalar times vector, `operator*` (src/utils/VecND.h:441, 449) -/
def smul (t : K) (a : Pt K) : Pt K := ⟨t * a.x, t * a.y⟩
/-- `dot` (src/utils/VecND.h:482), two dimensional case -/
def dot (a b : Pt K) : K := a.x * b.x + a.y * b.y
/-- `cross` (src/utils/VecND.h:491), two dimensional case -/
def cross (a b : Pt K) : K := a.x * b.y - a.y * b.x
/-- `norm_sqr` (src/utils/VecND.h:234) -/
def normSq (a : Pt K) : K := a.x * a.x + a.y * a.y
@[simp] theorem add_x (a b : Pt K) : (a + b).x = a.x + b.x := rfl
@[simp] theorem add_y (a b : Pt K) : (a + b).y = a.y + b.y := rfl
@[simp] theorem sub_x (a b : Pt K) : (a - b).x = a.x - b.x := rfl
@[simp] theorem sub_y (a b : Pt K) : (a - b).y = a.y - b.y := rfl
@[simp] theorem neg_x (a : Pt K) : (-a).x = -a.x := rfl
@[simp] theorem neg_y (a : Pt K) : (-a).y = -a.y := rfl
@[simp] theorem zero_x : (0 : Pt K).x = 0 := rfl
@[simp] theorem zero_y : (0 : Pt K).y = 0 := rfl
@[simp] theorem smul_x (t : K) (a : Pt K) : (smul t a).x = t * a.x := rfl
@[simp] theorem smul_y (t : K) (a : Pt K) : (smul t a).y = t * a.y := rfl
theorem ext' {a b : Pt K} (hx : a.x = b.x) (hy : a.y = b.y) : a = b := by
  cases a; cases b; simp_all
end Pt

/-- `enum class Orientation` (src/utils/Geometry.h:18-24; `NONE` is never produced). -/
inductive Orientation | CW | CCW | CL
deriving DecidableEq, Repr

section
variable {K : Type*} [Field K] [LinearOrder K]

/-- The doubled signed area computed in `orientation` (src/utils/Geometry.h:44-45). -/
def area2 (p q r : Pt K) : K := (p.x - r.x) * (q.y - r.y) - (q.x - r.x) * (p.y - r.y)

/-- `orientation` (src/utils/Geometry.h:40-54); `eps` stands for `CPPUTILS_SMALL`. -/
def orientation (eps : K) (p q r : Pt K) : Orientation :=
  let a := area2 p q r
  if a * a < eps then .CL else if 0 < a then .CCW else .CW

/-- `is_left` (src/utils/Geometry.h:60-67). -/
def isLeft (eps : K) (p q r : Pt K) : Bool := orientation eps p q r == .CCW

/-- `is_lefton` (src/utils/Geometry.h:74-82). -/
def isLefton (eps : K) (p q r : Pt K) : Bool := !(orientation eps p q r == .CW)

/-- `in_segment` (src/utils/Geometry.h:88-104). -/
def inSegment (eps : K) (p q r : Pt K) : Bool :=
  if orientation eps p q r ≠ .CL then false
  else decide (0 < Pt.dot (r - p) (q - p)) && decide (Pt.dot (r - p) (q - p) < Pt.normSq (q - p))

/-- `in_on_segment` (src/utils/Geometry.h:111-127). -/
def inOnSegment (eps : K) (p q r : Pt K) : Bool :=
  if orientation eps p q r ≠ .CL then false
  else decide (0 ≤ Pt.dot (r - p) (q - p)) && decide (Pt.dot (r - p) (q - p) ≤ Pt.normSq (q - p))

/-- "one is CCW and the other CW", the test repeated at src/utils/Geometry.h:149-152, 180-183. -/
def opposite (a b : Orientation) : Bool :=
  (a == .CCW && b == .CW) || (a == .CW && b == .CCW)

/-- `line_line_crossing` (src/utils/Geometry.h:139-158). -/
def lineLineCrossing (eps : K) (p1 q1 p2 q2 : Pt K) : Bool :=
  let o1 := orientation eps p1 q1 p2
  let o2 := orientation eps p1 q1 q2
  let o3 := orientation eps p2 q2 p1
  let o4 := orientation eps p2 q2 q1
  opposite o1 o2 && opposite o3 o4

/-- `line_line_intersection` (src/utils/Geometry.h:170-205). -/
def lineLineIntersection (eps : K) (p1 q1 p2 q2 : Pt K) : Bool :=
  let o1 := orientation eps p1 q1 p2
  let o2 := orientation eps p1 q1 q2
  let o3 := orientation eps p2 q2 p1
  let o4 := orientation eps p2 q2 q1
  if opposite o1 o2 && opposite o3 o4 then true
  else if o1 == .CL && inSegment eps p1 q1 p2 then true
  else if o2 == .CL && inSegment eps p1 q1 q2 then true
  else if o3 == .CL && inSegment eps p2 q2 p1 then true
  else if o4 == .CL && inSegment eps p2 q2 q1 then true
  else false

/-- `line_tri_intersection` (src/utils/Geometry.h:223-232). -/
def lineTriIntersection (eps : K) (a b p q r : Pt K) : Bool :=
  lineLineIntersection eps a b p q || lineLineIntersection eps a b q r ||
  lineLineIntersection eps a b r p

/-- `line_tri_crossing` (src/utils/Geometry.h:248-257). -/
def lineTriCrossing (eps : K) (a b p q r : Pt K) : Bool :=
  lineLineCrossing eps a b p q || lineLineCrossing eps a b q r || lineLineCrossing eps a b r p

/-- `line_quad_intersection` (src/utils/Geometry.h:273-284). -/
def lineQuadIntersection (eps : K) (a b p q r s : Pt K) : Bool :=
  lineLineIntersection eps a b p q || lineLineIntersection eps a b q r ||
  lineLineIntersection eps a b r s || lineLineIntersection eps a b s p

/-- `tri_tri_intersection` (src/utils/Geometry.h:299-310). -/
def triTriIntersection (eps : K) (p1 q1 r1 p2 q2 r2 : Pt K) : Bool :=
  lineTriIntersection eps p1 q1 p2 q2 r2 || lineTriIntersection eps q1 r1 p2 q2 r2 ||
  lineTriIntersection eps r1 p1 p2 q2 r2

/-- `quad_quad_intersection` (src/utils/Geometry.h:325-338). -/
def quadQuadIntersection (eps : K) (p1 q1 r1 s1 p2 q2 r2 s2 : Pt K) : Bool :=
  lineQuadIntersection eps p1 q1 p2 q2 r2 s2 || lineQuadIntersection eps q1 r1 p2 q2 r2 s2 ||
  lineQuadIntersection eps r1 s1 p2 q2 r2 s2 || lineQuadIntersection eps s1 p1 p2 q2 r2 s2

/-- `tri_quad_intersection` (src/utils/Geometry.h:353-364). -/
def triQuadIntersection (eps : K) (p1 q1 r1 p2 q2 r2 s2 : Pt K) : Bool :=
  lineQuadIntersection eps p1 q1 p2 q2 r2 s2 || lineQuadIntersection eps q1 r1 p2 q2 r2 s2 ||
  lineQuadIntersection eps r1 p1 p2 q2 r2 s2

/-- `rect_overlap` (src/utils/Geometry.h:373-383). -/
def rectOverlap (aLo aUp bLo bUp : Pt K) : Bool :=
  decide (aLo.x ≤ bUp.x) && decide (bLo.x ≤ aUp.x) &&
  decide (aLo.y ≤ bUp.y) && decide (bLo.y ≤ aUp.y)

/-- `in_on_rect` (src/utils/Geometry.h:391-397). -/
def inOnRect (v lo up : Pt K) : Bool :=
  decide (lo.x ≤ v.x) && decide (lo.y ≤ v.y) && decide (v.x ≤ up.x) && decide (v.y ≤ up.y)

/-- `in_rect` (src/utils/Geometry.h:405-411). -/
def inRect (v lo up : Pt K) : Bool :=
  decide (lo.x < v.x) && decide (lo.y < v.y) && decide (v.x < up.x) && decide (v.y < up.y)

/-- `in_on_triangle` (src/utils/Geometry.h:417-425). -/
def inOnTriangle (eps : K) (v p q r : Pt K) : Bool :=
  isLefton eps p q v && isLefton eps q r v && isLefton eps r p v

/-- `in_triangle` (src/utils/Geometry.h:432-440). -/
def inTriangle (eps : K) (v p q r : Pt K) : Bool :=
  isLeft eps p q v && isLeft eps q r v && isLeft eps r p v

/-- `in_on_quad` (src/utils/Geometry.h:446-454). -/
def inOnQuad (eps : K) (v p q r s : Pt K) : Bool :=
  isLefton eps p q v && isLefton eps q r v && isLefton eps r s v && isLefton eps s p v

/-- `in_quad` (src/utils/Geometry.h:461-469). -/
def inQuad (eps : K) (v p q r s : Pt K) : Bool :=
  isLeft eps p q v && isLeft eps q r v && isLeft eps r s v && isLeft eps s p v

/-- `std::clamp(v, lo, hi)` as used at src/utils/Geometry.h:494:
`(v < lo) ? lo : (hi < v) ? hi : v`. -/
def stdClamp (v lo hi : K) : K := if v < lo then lo else if hi < v then hi else v

/-- The clipped projection parameter `t` (src/utils/Geometry.h:484-494).  The division by
`delta_edge.norm_sqr()` is only meaningful for `e1 ≠ e2` (0/0 is NaN in the code). -/
def projParam (p e1 e2 : Pt K) : K :=
  stdClamp (Pt.dot (p - e1) (e2 - e1) / Pt.normSq (e2 - e1)) 0 1

/-- `distance_point_edge_sqr` (src/utils/Geometry.h:480-501), two dimensional case. -/
def distancePointEdgeSqr (p e1 e2 : Pt K) : K :=
  Pt.normSq (p - (e1 + Pt.smul (projParam p e1 e2) (e2 - e1)))

/-- `operator==` of vectors (src/utils/VecND.h:287-291, 341-342): `(a-b).norm_sqr()` is at most
`eps * ulp` times itself, `tol = eps * ulp`. -/
def vecEq (tol : K) (a b : Pt K) : Bool :=
  decide (Pt.normSq (a - b) ≤ tol * Pt.normSq (a - b))

/-- `segment_overlap` (src/utils/Geometry.h:508-518). -/
def segmentOverlap (tol : K) (v1 w1 v2 w2 : Pt K) : Bool :=
  if vecEq tol v1 v2 && vecEq tol w1 w2 then true
  else if vecEq tol v1 w2 && vecEq tol w1 v2 then true
  else false

/-- The summand of the shoelace formula (src/utils/Geometry.h:536-537). -/
def shoe (a b : Pt K) : K := (a.y + b.y) * (a.x - b.x)

/-- The loop of `polygon_area` started at index `i = k` for the vertex list `vs`
(src/utils/Geometry.h:533-538): `fuel` iterations, `j = MOD(i+1, n)`. -/
def polygonLoop (vs : List (Pt K)) (n : Nat) : (fuel i : Nat) → K → K
  | 0, _, acc => acc
  | f + 1, i, acc =>
    let j := ((i + 1) % n + n) % n
    polygonLoop vs n f (i + 1) (acc + shoe (vs.getD i 0) (vs.getD j 0))

/-- `polygon_area` (src/utils/Geometry.h:528-541).  All accesses are in range
(`i < n`, `j < n`), so the default of `getD` is never used. -/
def polygonArea (vs : List (Pt K)) : K := polygonLoop vs vs.length vs.length 0 0 / 2

end

end TQ

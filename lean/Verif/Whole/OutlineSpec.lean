import Verif.Whole.FinalSpec
import Verif.Whole.Props

/-! # Specification: outlines of domains

The outline of a domain is the list of its boundary edges as directed segments, before they are refined. -/

set_option linter.unusedSectionVars false

namespace TQ.OutlSpec
open TQ.FUSpec TQ.FrSpec
variable {K : Type*} [Field K] [LinearOrder K]

/-- The segments meet at most in common end points. -/
def SegApart (s t : Pt K × Pt K) : Prop :=
  ∀ x, OnClosed s.1 s.2 x → OnClosed t.1 t.2 x → (x = s.1 ∨ x = s.2) ∧ (x = t.1 ∨ x = t.2)

/-- Signed number of segments crossed by the ray from `p` to the right. -/
def segWinding (ss : List (Pt K × Pt K)) (p : Pt K) : Int :=
  (ss.countP fun s => decide (UpCross p s.1 s.2) : Int) - ss.countP fun s => decide (UpCross p s.2 s.1)

/-- The segments have a length, meet only in end points, and wind once around the points of a region on their left
and not at all around the other points. -/
structure SimpleOutline (ss : List (Pt K × Pt K)) : Prop where
  proper : ∀ s ∈ ss, s.1 ≠ s.2
  apart : ss.Pairwise SegApart
  once : ∀ p, segWinding ss p = 0 ∨ segWinding ss p = 1

/-- The outline of a domain: its boundary edges, and neighbour edges backwards in place of the edges they cover. -/
def outline (nbr : Fr.SrcEdge K → List (Fr.SrcEdge K)) (bd : List (List (Fr.SrcEdge K))) : List (Pt K × Pt K) :=
  bd.flatMap fun b => b.flatMap fun e => if nbr e = [] then [(e.p1, e.p2)] else (nbr e).map fun n => (n.p2, n.p1)

/-- The pieces of a segment from `p` to `q` cut at the points with the given parameters, from parameter `s` on. -/
def cut (p q : Pt K) : K → List K → List (Pt K × Pt K)
  | s, [] => [(onLine p q s, onLine p q 1)]
  | s, t :: ts => (onLine p q s, onLine p q t) :: cut p q t ts

/-- `l` is the segment `s` cut at points that are between its ends and in order. -/
def IsCut (s : Pt K × Pt K) (l : List (Pt K × Pt K)) : Prop :=
  ∃ ts : List K, (0 :: (ts ++ [1])).Pairwise (· < ·) ∧ l = cut s.1 s.2 0 ts

/-- The edges are divided at points that run monotonically from their start to their end. -/
def PartSub (sub : List (Fr.MVert K) → Fr.FEdge → Option (List (Pt K))) : Prop :=
  ∀ s e coords, Fr.vpos s e.v1 ≠ Fr.vpos s e.v2 → sub s e = some coords → Partition (Fr.vpos s e.v1) (Fr.vpos s e.v2) coords

/-- The segments along the points from `p` on and then to `z`. -/
def path (p : Pt K) : List (Pt K) → Pt K → List (Pt K × Pt K)
  | [], z => [(p, z)]
  | q :: qs, z => (p, q) :: path q qs z

/-- The closed polygon with the given corners. -/
def ring : List (Pt K) → List (Pt K × Pt K)
  | [] => []
  | p :: ps => path p ps p

/-- At least three corners, and every three corners in the order of the list turn to the left. -/
def ConvexCorners (ps : List (Pt K)) : Prop :=
  3 ≤ ps.length ∧ ∀ a b c, [a, b, c].Sublist ps → 0 < side a b c

/-- `p` is on the left of all segments. -/
def LeftOfAll (ss : List (Pt K × Pt K)) (p : Pt K) : Prop := ∀ s ∈ ss, 0 < side s.1 s.2 p

/-- The segments of a convex polygon, and of convex holes traversed backwards. -/
def withHoles (ps : List (Pt K)) (hs : List (List (Pt K))) : List (Pt K × Pt K) :=
  ring ps ++ hs.flatMap fun q => (ring q).map Prod.swap

/-- A convex polygon with convex holes: the corners of the holes are inside of the polygon, and between any two holes
there is a line. -/
structure ConvexHoles (ps : List (Pt K)) (hs : List (List (Pt K))) : Prop where
  outer : ConvexCorners ps
  holes : ∀ q ∈ hs, ConvexCorners q
  inside : ∀ q ∈ hs, ∀ c ∈ q, LeftOfAll (ring ps) c
  apart : hs.Pairwise fun q r => ∃ a b : Pt K, (∀ c ∈ q, 0 < side a b c) ∧ ∀ c ∈ r, side a b c < 0

/-- The elements of the mesh `t` cover the region of the outline `ss`: every piece of an element is inside of the
region, no two of them overlap, and every point of the region that is on no line through a side of a piece is in a
piece; the boundary edges of `t` enclose the region. -/
structure CoversOutline [IsStrictOrderedRing K] (ss : List (Pt K × Pt K)) (t : MS.St K) : Prop where
  apart : ∀ p, ∀ x ∈ WholeSpec.pieces t, WholeSpec.InPiece t p x → ∀ y ∈ WholeSpec.pieces t, WholeSpec.InPiece t p y → y = x
  within : ∀ p, ∀ x ∈ WholeSpec.pieces t, WholeSpec.InPiece t p x → segWinding ss p = 1
  full : ∀ p, segWinding ss p = 1 →
    (∀ x ∈ WholeSpec.pieces t, side (t.pos x.2.1) (t.pos x.2.2.1) p ≠ 0 ∧ side (t.pos x.2.2.1) (t.pos x.2.2.2) p ≠ 0 ∧
      side (t.pos x.2.2.2) (t.pos x.2.1) p ≠ 0) → ∃ x ∈ WholeSpec.pieces t, WholeSpec.InPiece t p x
  bdry : ∀ p, winding t.pos (FUSpec.pairs t .bdry) p = segWinding ss p

end TQ.OutlSpec

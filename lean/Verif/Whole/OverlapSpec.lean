import Verif.Whole.OutlineSpec

/-! # Specification: elements that overlap -/

set_option linter.unusedSectionVars false

namespace TQ.OvlSpec
open TQ.FUSpec TQ.OutlSpec TQ.GeoSpec
variable {K : Type*} [Field K] [LinearOrder K] [IsStrictOrderedRing K]

/-- Two convex polygons have an inner point in common. -/
def Overlap (A B : List (Pt K)) : Prop := ∃ p, LeftOfAll (ring A) p ∧ LeftOfAll (ring B) p

/-- `r` lies on the segment, between its ends. -/
def Between (e : Pt K × Pt K) (r : Pt K) : Prop := ∃ t, 0 < t ∧ t < 1 ∧ r = onSeg e.1 e.2 t

/-- A corner of one polygon lies on a side of the other one, between its ends (a hanging node). -/
def Hanging (A B : List (Pt K)) : Prop := (∃ e ∈ ring A, ∃ b ∈ B, Between e b) ∨ (∃ f ∈ ring B, ∃ a ∈ A, Between f a)

/-- Two corners that the polygons have in common are the ends of a side of both. -/
def Adjoin (A B : List (Pt K)) : Prop := ∀ u ∈ A, u ∈ B → ∀ v ∈ A, v ∈ B → u ≠ v →
  ((u, v) ∈ ring A ∨ (v, u) ∈ ring A) ∧ ((u, v) ∈ ring B ∨ (v, u) ∈ ring B)

/-- Three points that are taken for collinear are collinear. -/
def Clear (eps : K) (pts : List (Pt K)) : Prop := ∀ a ∈ pts, ∀ b ∈ pts, ∀ c ∈ pts, side a b c * side a b c < eps → side a b c = 0

end TQ.OvlSpec

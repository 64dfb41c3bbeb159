import Verif.Cleanup.Spec

/-! # Specification of the order of merging (C202) -/

set_option linter.unusedSectionVars false

namespace TQ.MCSpec
open TQ.MS TQ.MeshSpec
variable {K : Type*} [Field K] [LinearOrder K]

/-- The triangles `x` and `y` lie on both sides of the interior edge `e`. -/
structure Between (s : St K) (e x y : Nat) : Prop where
  edge : e ∈ s.es .intr
  left : x ∈ s.tris ∧ HasSide s (.tri x) (s.E e).v1 (s.E e).v2
  right : y ∈ s.tris ∧ HasSide s (.tri y) (s.E e).v2 (s.E e).v1

/-- `a` and `b` are the ends of a side of one of two triangles. -/
def SideOf (s : St K) (x y a b : Nat) : Prop := HasSide s (.tri x) a b ∨ HasSide s (.tri y) a b

/-- Some side of the first pair of triangles is at most as long as every side of the second pair. -/
def NoLonger (s : St K) (x' y' x y : Nat) : Prop :=
  ∃ a b, SideOf s x' y' a b ∧ ∀ c d, SideOf s x y c d → Pt.normSq (s.pos b - s.pos a) ≤ Pt.normSq (s.pos d - s.pos c)

/-- Every pair of adjacent triangles of `s` that did not become a quad of `u` lost one of its triangles to another
pair, which has a side at most as long as all of theirs. -/
def ShortestFirst (s u : St K) : Prop :=
  ∀ e x y, Between s e x y → e ∈ u.es .intr →
    ∃ e' x' y', Between s e' x' y' ∧ e' ∉ u.es .intr ∧ (x' = x ∨ x' = y ∨ y' = x ∨ y' = y) ∧ NoLonger s x' y' x y

end TQ.MCSpec

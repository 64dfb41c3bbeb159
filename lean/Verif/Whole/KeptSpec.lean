import Verif.Whole.BdrySpec

/-! # Specification: drawn sides are kept with their markers -/

set_option linter.unusedSectionVars false

namespace TQ.SevSpec
open TQ.MS TQ.OutlSpec TQ.FUSpec TQ.MeshSpec TQ.FlSpec TQ.Cf TQ.Fl
variable {K : Type} [Field K] [LinearOrder K] [IsStrictOrderedRing K]

/-- Some side that is drawn in the definition passes through the point. -/
def DrawnAt (D : DEnv K) (x : Drawn K) (z : Pt K) : Prop := ∃ b ∈ x.cfg.bdries, ∃ p q m, MarkedSide D (x.cfg.verts.map (·.xy)) b.2 p q m ∧ OnClosed p q z

/-- Each point of a drawn side is on a boundary edge with the marker of this side, unless a side of another definition passes through it. -/
def SidesKept (D : DEnv K) (xs : List (Drawn K)) (t : St K) : Prop :=
  ∀ l x l', xs = l ++ x :: l' → ∀ b ∈ x.cfg.bdries, ∀ p q m, MarkedSide D (x.cfg.verts.map (·.xy)) b.2 p q m → ∀ z, OnClosed p q z →
    (∃ y ∈ l ++ l', DrawnAt D y z) ∨ ∃ e ∈ t.es .bdry, (t.E e).color = m ∧ OnClosed (t.pos (t.E e).v1) (t.pos (t.E e).v2) z

end TQ.SevSpec

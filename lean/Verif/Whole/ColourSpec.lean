import Verif.Whole.SeveralSpec

/-! # Specification: the colours of the elements -/

set_option linter.unusedSectionVars false

namespace TQ.SevSpec
open TQ.MS TQ.OutlSpec TQ.FUSpec TQ.MeshSpec
variable {K : Type} [Field K] [LinearOrder K] [IsStrictOrderedRing K]

/-- The mesh shows the definitions in their colours: an element that covers a point has the colour of a definition whose region contains the point, and
a point in the region of a definition that is on no line through a side of a piece is covered by an element with the colour of the definition. -/
structure ColouredAs (xs : List (Drawn K)) (t : St K) : Prop where
  within : ∀ p, ∀ x ∈ WholeSpec.pieces t, WholeSpec.InPiece t p x → ∃ d ∈ xs, (t.F x.1).color = d.cfg.color ∧ segWinding d.segs p = 1
  full : ∀ d ∈ xs, ∀ p, segWinding d.segs p = 1 →
    (∀ x ∈ WholeSpec.pieces t, side (t.pos x.2.1) (t.pos x.2.2.1) p ≠ 0 ∧ side (t.pos x.2.2.1) (t.pos x.2.2.2) p ≠ 0 ∧
      side (t.pos x.2.2.2) (t.pos x.2.1) p ≠ 0) → ∃ x ∈ WholeSpec.pieces t, WholeSpec.InPiece t p x ∧ (t.F x.1).color = d.cfg.color

end TQ.SevSpec

import Verif.Mesh.Model
import Verif.Geometry.Spec

/-! # Specification of the check of new places (C203) -/

set_option linter.unusedSectionVars false

namespace TQ.SmoothSpec
open TQ.MS TQ.GeoSpec
variable {K : Type*} [Field K] [LinearOrder K]
/-- The point is a convex combination of the corners of the element. -/
def Holds (s : St K) (f : FRef) (p : Pt K) : Prop :=
  ∃ ws : List K, ws.length = (s.F f).corners.length ∧ (∀ w ∈ ws, 0 ≤ w) ∧ IsCombo p (ws.zip ((s.F f).corners.map s.pos))
/-- The centroid of the element is nearer than twice the displacement. -/
def InReach (s : St K) (v : Nat) (p : Pt K) (f : FRef) : Prop := distSq (s.fCentroid f) p < 4 * distSq p (s.pos v)
end TQ.SmoothSpec

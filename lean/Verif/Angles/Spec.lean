import Verif.Angles.Model
import Mathlib.Geometry.Euclidean.Triangle
import Mathlib.Analysis.InnerProductSpace.PiL2

/-!
# Specification of the measures of facets

Angles are those of Euclidean geometry (Mathlib's `EuclideanGeometry.angle`), the interior angle of a corner of a
polygon listed counter-clockwise is the angle or, at a re-entrant corner, its complement to a full turn.
-/

namespace TQ
namespace FGSpec
open EuclideanGeometry Real

/-- A point of the Euclidean plane. -/
noncomputable def emb (p : Pt ℝ) : EuclideanSpace ℝ (Fin 2) := !₂[p.x, p.y]

/-- The angle at `b` between the rays to `a` and `c`. -/
noncomputable def ang (a b c : Pt ℝ) : ℝ := ∠ (emb a) (emb b) (emb c)

/-- The corner `b` of a polygon listed counter-clockwise, between `a` and `c`, is re-entrant. -/
def Reflex (a b c : Pt ℝ) : Prop := Pt.cross (c - b) (a - b) < 0

open Classical in
/-- Interior angle at the corner `b`, between `a` and `c`, of a polygon listed counter-clockwise. -/
noncomputable def interior (a b c : Pt ℝ) : ℝ := if Reflex a b c then 2 * π - ang a b c else ang a b c

/-- The triangle is listed counter-clockwise. -/
def Ccw (p q r : Pt ℝ) : Prop := 0 < Pt.cross (q - p) (r - p)

/-- The quad falls into two counter-clockwise triangles along one of its diagonals (a simple quad listed
counter-clockwise without straight corners opposite to the diagonal). -/
def Simple4 (p q r s : Pt ℝ) : Prop := (Ccw p q r ∧ Ccw p r s) ∨ (Ccw q r s ∧ Ccw q s p)

/-- A square listed counter-clockwise. -/
def Square (p q r s : Pt ℝ) : Prop :=
  r - q = ⟨-(q - p).y, (q - p).x⟩ ∧ s - r = ⟨-(r - q).y, (r - q).x⟩ ∧ p - s = ⟨-(s - r).y, (s - r).x⟩

end FGSpec
end TQ

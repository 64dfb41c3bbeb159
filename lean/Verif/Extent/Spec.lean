import Verif.Geometry.Model

/-! # Specification: the extent of a domain -/

namespace TQ
namespace EMSpec

variable {K : Type*} [LinearOrder K]

/-- The point lies in the bounding box of the places. This holds for all points of the domain. -/
def InBox (vs : List (Pt K)) (p : Pt K) : Prop :=
  (∃ v ∈ vs, v.x ≤ p.x) ∧ (∃ v ∈ vs, p.x ≤ v.x) ∧ (∃ v ∈ vs, v.y ≤ p.y) ∧ ∃ v ∈ vs, p.y ≤ v.y

end EMSpec
end TQ

import Verif.QuadLayer.Model

/-! # Specification: the walks along the front come to an end -/

namespace TQ
namespace QLSpec
open MS MS.St QL
variable {K : Type*} [Field K] [LinearOrder K]

/-- In each of the layers that are begun, the walk from the start edge to the end edge comes to its end with this bound. -/
def AllWalked (L : LEnv K) (fuel : Nat) (growth : K) : Nat → St K → Pt K → Pt K → K → Prop
  | 0, _, _, _, _ => True
  | n + 1, s, xs, xe, ht =>
    (∀ es ee closed, findEdges L s xs xe = .yes es ee closed → ∃ base, walk s.nextEdge ee fuel es = .ok base) ∧
    ∀ s' xs' xe', layer L fuel s xs xe ht = .done s' xs' xe' → AllWalked L fuel growth n s' xs' xe' (ht * growth)

end QLSpec
end TQ

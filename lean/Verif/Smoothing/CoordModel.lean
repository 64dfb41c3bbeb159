import Verif.Smoothing.Model

/-! # Model of `SmoothingStrategy::check_coordinate`: `src/algorithm/SmoothingStrategy.h` -/

set_option linter.unusedSectionVars false

namespace TQ
namespace MS
variable {K : Type*} [Field K] [LinearOrder K]
namespace St

/-- One element in `check_coordinate` (src/algorithm/SmoothingStrategy.h:186-195, 200-209): elements with the vertex
are passed over; for a quad the code reads `v4` from `v3()`. -/
def blocks (eps : K) (s : St K) (v : Nat) (p : Pt K) (f : FRef) : Bool :=
  match (s.F f).corners with
  | [a, b, c] => !decide (v = a ∨ v = b ∨ v = c) && inOnTriangle eps p (s.pos a) (s.pos b) (s.pos c)
  | [a, b, c, _] => !decide (v = a ∨ v = b ∨ v = c ∨ v = c) && inOnQuad eps p (s.pos a) (s.pos b) (s.pos c) (s.pos c)
  | _ => false

/-- `check_coordinate` (src/algorithm/SmoothingStrategy.h:177-213; no caller in the library); `get_items` is the exact
filter of `TQ.C02_queries_exact`, the square of the range is four times the squared displacement. -/
def checkCoordinate (c : SmoothCfg K) (s : St K) (v : Nat) (p : Pt K) : Bool :=
  let near := QT.circQuery s.fCentroid p (4 * Pt.normSq (p - s.pos v))
  !((s.tris.map FRef.tri).filter near).any (s.blocks c.eps v p) &&
    (!((s.quads.map FRef.quad).filter near).any (s.blocks c.eps v p) && c.inside p)

end St
end MS
end TQ

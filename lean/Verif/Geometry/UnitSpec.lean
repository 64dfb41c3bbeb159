import Verif.Geometry.Spec
import Mathlib.Algebra.Order.Group.Abs

/-! # Specification: similarities of the plane, and tests that do not notice them -/

namespace TQ
namespace GeoSpec
variable {K : Type*} [Field K] [LinearOrder K]

/-- The map `x ↦ c·x + t` of complex numbers `x`, with `c = a + b i`: a turn, a change of the unit of length by the factor `√(a² + b²)` and a shift by `t`. -/
structure Similarity (K : Type*) where
  a : K
  b : K
  t : Pt K

/-- The image of a point. -/
def Similarity.at (f : Similarity K) (p : Pt K) : Pt K := ⟨f.a * p.x - f.b * p.y + f.t.x, f.b * p.x + f.a * p.y + f.t.y⟩

/-- Areas grow by this factor. -/
def Similarity.factor (f : Similarity K) : K := f.a ^ 2 + f.b ^ 2

/-- A turn and a shift, without a change of the unit. -/
def Similarity.Motion (f : Similarity K) : Prop := f.factor = 1

/-- A change of the unit of length by the factor `c`. -/
def unit (c : K) : Similarity K := ⟨c, 0, ⟨0, 0⟩⟩

/-- Three points are on a line or the triangle is large enough for the tolerance. -/
def Resolved (eps : K) (p q r : Pt K) : Prop := turn p q r = 0 ∨ eps ≤ turn p q r ^ 2

/-- The coordinates of two points differ by at most `L`. -/
def Near (L : K) (p q : Pt K) : Prop := |p.x - q.x| ≤ L ∧ |p.y - q.y| ≤ L

/-- The tests of the header give for the images of points of `S` and the tolerance `eps'` what they give for the points themselves and the tolerance `eps`. -/
structure SameTests (f : Pt K → Pt K) (S : Set (Pt K)) (eps' eps : K) : Prop where
  orient : ∀ p ∈ S, ∀ q ∈ S, ∀ r ∈ S, orientation eps' (f p) (f q) (f r) = orientation eps p q r
  left : ∀ p ∈ S, ∀ q ∈ S, ∀ r ∈ S, isLeft eps' (f p) (f q) (f r) = isLeft eps p q r ∧ isLefton eps' (f p) (f q) (f r) = isLefton eps p q r
  segment : ∀ p ∈ S, ∀ q ∈ S, ∀ r ∈ S, inSegment eps' (f p) (f q) (f r) = inSegment eps p q r ∧ inOnSegment eps' (f p) (f q) (f r) = inOnSegment eps p q r
  lines : ∀ p ∈ S, ∀ q ∈ S, ∀ r ∈ S, ∀ s ∈ S, lineLineCrossing eps' (f p) (f q) (f r) (f s) = lineLineCrossing eps p q r s ∧
    lineLineIntersection eps' (f p) (f q) (f r) (f s) = lineLineIntersection eps p q r s
  lineTri : ∀ a ∈ S, ∀ b ∈ S, ∀ p ∈ S, ∀ q ∈ S, ∀ r ∈ S, lineTriIntersection eps' (f a) (f b) (f p) (f q) (f r) = lineTriIntersection eps a b p q r ∧
    lineTriCrossing eps' (f a) (f b) (f p) (f q) (f r) = lineTriCrossing eps a b p q r
  lineQuad : ∀ a ∈ S, ∀ b ∈ S, ∀ p ∈ S, ∀ q ∈ S, ∀ r ∈ S, ∀ s ∈ S, lineQuadIntersection eps' (f a) (f b) (f p) (f q) (f r) (f s) = lineQuadIntersection eps a b p q r s
  triTri : ∀ a ∈ S, ∀ b ∈ S, ∀ c ∈ S, ∀ p ∈ S, ∀ q ∈ S, ∀ r ∈ S, triTriIntersection eps' (f a) (f b) (f c) (f p) (f q) (f r) = triTriIntersection eps a b c p q r
  triQuad : ∀ a ∈ S, ∀ b ∈ S, ∀ c ∈ S, ∀ p ∈ S, ∀ q ∈ S, ∀ r ∈ S, ∀ s ∈ S,
    triQuadIntersection eps' (f a) (f b) (f c) (f p) (f q) (f r) (f s) = triQuadIntersection eps a b c p q r s
  quadQuad : ∀ a ∈ S, ∀ b ∈ S, ∀ c ∈ S, ∀ d ∈ S, ∀ p ∈ S, ∀ q ∈ S, ∀ r ∈ S, ∀ s ∈ S,
    quadQuadIntersection eps' (f a) (f b) (f c) (f d) (f p) (f q) (f r) (f s) = quadQuadIntersection eps a b c d p q r s
  inTri : ∀ v ∈ S, ∀ p ∈ S, ∀ q ∈ S, ∀ r ∈ S, inTriangle eps' (f v) (f p) (f q) (f r) = inTriangle eps v p q r ∧
    inOnTriangle eps' (f v) (f p) (f q) (f r) = inOnTriangle eps v p q r
  inQd : ∀ v ∈ S, ∀ p ∈ S, ∀ q ∈ S, ∀ r ∈ S, ∀ s ∈ S, inQuad eps' (f v) (f p) (f q) (f r) (f s) = inQuad eps v p q r s ∧
    inOnQuad eps' (f v) (f p) (f q) (f r) (f s) = inOnQuad eps v p q r s

end GeoSpec
end TQ

import Verif.Geometry.UnitSpec
import Verif.Geometry.Lemmas
import Mathlib.Tactic.Positivity

/-! # C198: the tests of geometry in other places and other units of length -/

set_option linter.unusedSectionVars false

namespace TQ
open GeoSpec
variable {K : Type*} [Field K] [LinearOrder K] [IsStrictOrderedRing K]

theorem area2_at (f : Similarity K) (p q r : Pt K) : area2 (f.at p) (f.at q) (f.at r) = f.factor * area2 p q r := by
  simp only [area2, Similarity.at, Similarity.factor]; ring

theorem dot_at (f : Similarity K) (p q r s : Pt K) : Pt.dot (f.at p - f.at q) (f.at r - f.at s) = f.factor * Pt.dot (p - q) (r - s) := by
  simp only [Pt.dot, Similarity.at, Similarity.factor, Pt.sub_x, Pt.sub_y]; ring

theorem normSq_at (f : Similarity K) (p q : Pt K) : Pt.normSq (f.at p - f.at q) = f.factor * Pt.normSq (p - q) := dot_at f p q p q

theorem area2_turn (p q r : Pt K) : area2 p q r = turn p q r := by simp only [area2, turn]; ring

/-- If the orientations are the same, so are all tests. -/
theorem same_tests {f : Similarity K} (hf : 0 < f.factor) {S : Set (Pt K)} {eps' eps : K}
    (ho : ∀ p ∈ S, ∀ q ∈ S, ∀ r ∈ S, orientation eps' (f.at p) (f.at q) (f.at r) = orientation eps p q r) : SameTests f.at S eps' eps := by
  have hl : ∀ p ∈ S, ∀ q ∈ S, ∀ r ∈ S, isLeft eps' (f.at p) (f.at q) (f.at r) = isLeft eps p q r := fun p hp q hq r hr => by
    unfold isLeft; rw [ho p hp q hq r hr]
  have hlo : ∀ p ∈ S, ∀ q ∈ S, ∀ r ∈ S, isLefton eps' (f.at p) (f.at q) (f.at r) = isLefton eps p q r := fun p hp q hq r hr => by
    unfold isLefton; rw [ho p hp q hq r hr]
  have hs : ∀ p ∈ S, ∀ q ∈ S, ∀ r ∈ S, inSegment eps' (f.at p) (f.at q) (f.at r) = inSegment eps p q r := fun p hp q hq r hr => by
    unfold inSegment; rw [ho p hp q hq r hr, dot_at, normSq_at]
    simp only [mul_pos_iff_of_pos_left hf, mul_lt_mul_iff_right₀ hf]
  have hso : ∀ p ∈ S, ∀ q ∈ S, ∀ r ∈ S, inOnSegment eps' (f.at p) (f.at q) (f.at r) = inOnSegment eps p q r := fun p hp q hq r hr => by
    unfold inOnSegment; rw [ho p hp q hq r hr, dot_at, normSq_at]
    simp only [mul_nonneg_iff_of_pos_left hf, mul_le_mul_iff_right₀ hf]
  have hc : ∀ p ∈ S, ∀ q ∈ S, ∀ r ∈ S, ∀ s ∈ S, lineLineCrossing eps' (f.at p) (f.at q) (f.at r) (f.at s) = lineLineCrossing eps p q r s := fun p hp q hq r hr s hs' => by
    unfold lineLineCrossing; simp only [ho p hp q hq r hr, ho p hp q hq s hs', ho r hr s hs' p hp, ho r hr s hs' q hq]
  have hi : ∀ p ∈ S, ∀ q ∈ S, ∀ r ∈ S, ∀ s ∈ S, lineLineIntersection eps' (f.at p) (f.at q) (f.at r) (f.at s) = lineLineIntersection eps p q r s :=
    fun p hp q hq r hr s hs' => by
      unfold lineLineIntersection
      simp only [ho p hp q hq r hr, ho p hp q hq s hs', ho r hr s hs' p hp, ho r hr s hs' q hq, hs p hp q hq r hr, hs p hp q hq s hs', hs r hr s hs' p hp, hs r hr s hs' q hq]
  have hlt : ∀ a ∈ S, ∀ b ∈ S, ∀ p ∈ S, ∀ q ∈ S, ∀ r ∈ S, lineTriIntersection eps' (f.at a) (f.at b) (f.at p) (f.at q) (f.at r) = lineTriIntersection eps a b p q r :=
    fun a ha b hb p hp q hq r hr => by unfold lineTriIntersection; rw [hi a ha b hb p hp q hq, hi a ha b hb q hq r hr, hi a ha b hb r hr p hp]
  have hlq : ∀ a ∈ S, ∀ b ∈ S, ∀ p ∈ S, ∀ q ∈ S, ∀ r ∈ S, ∀ s ∈ S,
      lineQuadIntersection eps' (f.at a) (f.at b) (f.at p) (f.at q) (f.at r) (f.at s) = lineQuadIntersection eps a b p q r s :=
    fun a ha b hb p hp q hq r hr s hs' => by
      unfold lineQuadIntersection; rw [hi a ha b hb p hp q hq, hi a ha b hb q hq r hr, hi a ha b hb r hr s hs', hi a ha b hb s hs' p hp]
  refine ⟨ho, fun p hp q hq r hr => ⟨hl p hp q hq r hr, hlo p hp q hq r hr⟩, fun p hp q hq r hr => ⟨hs p hp q hq r hr, hso p hp q hq r hr⟩,
    fun p hp q hq r hr s hs' => ⟨hc p hp q hq r hr s hs', hi p hp q hq r hr s hs'⟩, fun a ha b hb p hp q hq r hr => ⟨hlt a ha b hb p hp q hq r hr, ?_⟩, hlq,
    fun a ha b hb c hc p hp q hq r hr => ?_, fun a ha b hb c hc p hp q hq r hr s hs' => ?_, fun a ha b hb c hc d hd p hp q hq r hr s hs' => ?_,
    fun v hv p hp q hq r hr => ⟨?_, ?_⟩, fun v hv p hp q hq r hr s hs' => ⟨?_, ?_⟩⟩
  · unfold lineTriCrossing; rw [hc a ha b hb p hp q hq, hc a ha b hb q hq r hr, hc a ha b hb r hr p hp]
  · unfold triTriIntersection; rw [hlt a ha b hb p hp q hq r hr, hlt b hb c hc p hp q hq r hr, hlt c hc a ha p hp q hq r hr]
  · unfold triQuadIntersection; rw [hlq a ha b hb p hp q hq r hr s hs', hlq b hb c hc p hp q hq r hr s hs', hlq c hc a ha p hp q hq r hr s hs']
  · unfold quadQuadIntersection
    rw [hlq a ha b hb p hp q hq r hr s hs', hlq b hb c hc p hp q hq r hr s hs', hlq c hc d hd p hp q hq r hr s hs', hlq d hd a ha p hp q hq r hr s hs']
  · unfold inTriangle; rw [hl p hp q hq v hv, hl q hq r hr v hv, hl r hr p hp v hv]
  · unfold inOnTriangle; rw [hlo p hp q hq v hv, hlo q hq r hr v hv, hlo r hr p hp v hv]
  · unfold inQuad; rw [hl p hp q hq v hv, hl q hq r hr v hv, hl r hr s hs' v hv, hl s hs' p hp v hv]
  · unfold inOnQuad; rw [hlo p hp q hq v hv, hlo q hq r hr v hv, hlo r hr s hs' v hv, hlo s hs' p hp v hv]

/-- **C198, the tolerance that would fit.** With a tolerance for squares of areas that grows with the square of the factor of the areas, all tests are the same in every unit, at every place and in every
direction. -/
theorem C198_fitting_partial (f : Similarity K) (hf : 0 < f.factor) (eps : K) : SameTests f.at Set.univ (f.factor ^ 2 * eps) eps := by
  refine same_tests hf fun p _ q _ r _ => ?_
  unfold orientation
  rw [area2_at]
  have h2 : (0 : K) < f.factor ^ 2 := by positivity
  dsimp only
  rw [show f.factor * area2 p q r * (f.factor * area2 p q r) = f.factor ^ 2 * (area2 p q r * area2 p q r) by ring]
  simp only [mul_lt_mul_iff_right₀ h2, mul_pos_iff_of_pos_left hf]

/-- **C198, place and direction.** No test notices a shift or a turn of the domain. -/
theorem C198_moved_partial (f : Similarity K) (hf : f.Motion) (eps : K) : SameTests f.at Set.univ eps eps := by
  have h := C198_fitting_partial f (by rw [hf]; exact one_pos) eps
  rw [show f.factor = 1 from hf] at h
  simpa using h

/-- **C198, unit of length.** In another unit the tests give the same if all triangles of the points are large enough for the tolerance in both units. -/
theorem C198_unit_partial (f : Similarity K) (hf : 0 < f.factor) {eps : K} (he : 0 < eps) (S : Set (Pt K))
    (hS : ∀ p ∈ S, ∀ q ∈ S, ∀ r ∈ S, Resolved eps p q r ∧ Resolved eps (f.at p) (f.at q) (f.at r)) : SameTests f.at S eps eps := by
  refine same_tests hf fun p hp q hq r hr => ?_
  obtain ⟨h1, h2⟩ := hS p hp q hq r hr
  unfold Resolved at h1 h2
  rw [← area2_turn] at h1 h2
  rw [area2_at] at h2
  unfold orientation
  rw [area2_at]
  by_cases h0 : area2 p q r = 0
  · simp only [h0, mul_zero]
  · have h3 : f.factor * area2 p q r ≠ 0 := mul_ne_zero hf.ne' h0
    have k1 : ¬ area2 p q r * area2 p q r < eps := by rw [← sq]; exact not_lt.mpr (h1.resolve_left h0)
    have k2 : ¬ f.factor * area2 p q r * (f.factor * area2 p q r) < eps := by rw [← sq]; exact not_lt.mpr (h2.resolve_left h3)
    dsimp only
    rw [if_neg k1, if_neg k2]
    simp only [mul_pos_iff_of_pos_left hf]

/-- **C198, distances and areas.** Distances from edges, areas of polygons and the comparison of points follow the unit. -/
theorem C198_measures (f : Similarity K) (hf : 0 < f.factor) :
    (∀ p e1 e2, distancePointEdgeSqr (f.at p) (f.at e1) (f.at e2) = f.factor * distancePointEdgeSqr p e1 e2) ∧
    (∀ vs : List (Pt K), polygonArea (vs.map f.at) = f.factor * polygonArea vs) ∧
    (∀ tol p q, vecEq tol (f.at p) (f.at q) = vecEq tol p q) ∧
    ∀ tol p q r s, segmentOverlap tol (f.at p) (f.at q) (f.at r) (f.at s) = segmentOverlap tol p q r s := by
  have hv : ∀ tol p q, vecEq tol (f.at p) (f.at q) = vecEq tol p q := fun tol p q => by
    unfold vecEq
    rw [normSq_at, show tol * (f.factor * Pt.normSq (p - q)) = f.factor * (tol * Pt.normSq (p - q)) by ring]
    simp only [mul_le_mul_iff_right₀ hf]
  refine ⟨fun p e1 e2 => ?_, fun vs => ?_, hv, fun tol p q r s => by unfold segmentOverlap; simp only [hv]⟩
  · have hp : projParam (f.at p) (f.at e1) (f.at e2) = projParam p e1 e2 := by
      unfold projParam
      rw [dot_at, normSq_at, mul_div_mul_left _ _ hf.ne']
    unfold distancePointEdgeSqr
    rw [hp]
    generalize projParam p e1 e2 = t
    simp only [Pt.normSq, Similarity.at, Similarity.factor, Pt.sub_x, Pt.sub_y, Pt.add_x, Pt.add_y, Pt.smul_x, Pt.smul_y]
    ring
  · rw [polygonArea_eq_cyclicSum, polygonArea_eq_cyclicSum]
    have h1 : cyclicSum shoe (vs.map f.at) = cyclicSum (fun a b => shoe (f.at a) (f.at b)) vs := by
      unfold cyclicSum cyclicPairs
      rw [← List.map_rotate, List.zip_map, List.map_map]
      rfl
    let g : Pt K → K := fun p => (f.at p).x * (f.at p).y - f.factor * (p.x * p.y) - (f.t.x * (f.b * p.x + f.a * p.y) - f.t.y * (f.a * p.x - f.b * p.y))
    have h2 : (fun a b => shoe (f.at a) (f.at b)) = fun a b : Pt K => f.factor * shoe a b + (g a - g b) := by
      funext a b
      simp only [g, shoe, Similarity.at, Similarity.factor]; ring
    rw [h1, h2, cyclicSum_add, cyclicSum_smul, cyclicSum_telescope]
    ring

theorem small_line {eps : K} (he : 0 < eps) (h1 : eps < 1) {p q r : Pt K} (ha : area2 p q r ^ 2 ≤ 1) : orientation eps ((unit eps).at p) ((unit eps).at q) ((unit eps).at r) = .CL := by
  unfold orientation
  rw [area2_at]
  have h2 : (unit eps).factor = eps ^ 2 := by simp [unit, Similarity.factor]
  rw [h2]
  refine if_pos ?_
  have h3 : eps ^ 4 < eps := by
    have h5 : eps ^ 3 < 1 := pow_lt_one₀ he.le h1 (by norm_num)
    calc eps ^ 4 = eps ^ 3 * eps := by ring
      _ < 1 * eps := mul_lt_mul_of_pos_right h5 he
      _ = eps := one_mul _
  calc eps ^ 2 * area2 p q r * (eps ^ 2 * area2 p q r) = eps ^ 4 * area2 p q r ^ 2 := by ring
    _ ≤ eps ^ 4 * 1 := mul_le_mul_of_nonneg_left ha (by positivity)
    _ < eps := by rw [mul_one]; exact h3

/-- **C198 is violated:** for every tolerance there is a unit of length in which the triangle with the corners (0,0), (1,0), (0,1) counts as a line, does not contain its points, does contain points beside it, and the
diagonals of the square do not cross. -/
theorem C198_unit_violated {eps : K} (he : 0 < eps) (h1 : eps ≤ 1 / 100) : ∃ c : K, 0 < c ∧
    (orientation eps (⟨0, 0⟩ : Pt K) ⟨1, 0⟩ ⟨0, 1⟩ = .CCW ∧ orientation eps ((unit c).at ⟨0, 0⟩) ((unit c).at ⟨1, 0⟩) ((unit c).at ⟨0, 1⟩) = .CL) ∧
    (inTriangle eps (⟨1/4, 1/4⟩ : Pt K) ⟨0, 0⟩ ⟨1, 0⟩ ⟨0, 1⟩ = true ∧ inTriangle eps ((unit c).at ⟨1/4, 1/4⟩) ((unit c).at ⟨0, 0⟩) ((unit c).at ⟨1, 0⟩) ((unit c).at ⟨0, 1⟩) = false) ∧
    (inOnTriangle eps (⟨1, 1⟩ : Pt K) ⟨0, 0⟩ ⟨1, 0⟩ ⟨0, 1⟩ = false ∧ inOnTriangle eps ((unit c).at ⟨1, 1⟩) ((unit c).at ⟨0, 0⟩) ((unit c).at ⟨1, 0⟩) ((unit c).at ⟨0, 1⟩) = true) ∧
    (lineLineCrossing eps (⟨0, 0⟩ : Pt K) ⟨1, 1⟩ ⟨1, 0⟩ ⟨0, 1⟩ = true ∧ lineLineCrossing eps ((unit c).at ⟨0, 0⟩) ((unit c).at ⟨1, 1⟩) ((unit c).at ⟨1, 0⟩) ((unit c).at ⟨0, 1⟩) = false) := by
  have hlt : eps < 1 := lt_of_le_of_lt h1 (by norm_num)
  have ccw : ∀ {p q r : Pt K}, 1 / 10 ≤ area2 p q r → orientation eps p q r = .CCW := fun {p q r} h => by
    unfold orientation
    have h2 : ¬ area2 p q r * area2 p q r < eps := not_lt.mpr (h1.trans (by nlinarith))
    dsimp only
    rw [if_neg h2, if_pos (by linarith)]
  have cw : ∀ {p q r : Pt K}, area2 p q r ≤ -(1 / 10) → orientation eps p q r = .CW := fun {p q r} h => by
    unfold orientation
    have h2 : ¬ area2 p q r * area2 p q r < eps := not_lt.mpr (h1.trans (by nlinarith))
    dsimp only
    rw [if_neg h2, if_neg (by linarith)]
  have cl : ∀ {p q r : Pt K}, area2 p q r ^ 2 ≤ 1 → orientation eps ((unit eps).at p) ((unit eps).at q) ((unit eps).at r) = .CL := small_line he hlt
  refine ⟨eps, he, ⟨ccw (by norm_num [area2]), cl (by norm_num [area2])⟩, ⟨?_, ?_⟩, ⟨?_, ?_⟩, ?_, ?_⟩
  · unfold inTriangle isLeft
    rw [ccw (by norm_num [area2]), ccw (by norm_num [area2]), ccw (by norm_num [area2])]; rfl
  · unfold inTriangle isLeft
    rw [cl (by norm_num [area2])]; rfl
  · unfold inOnTriangle isLefton
    rw [cw (p := ⟨1, 0⟩) (by norm_num [area2])]
    simp
  · unfold inOnTriangle isLefton
    rw [cl (by norm_num [area2]), cl (by norm_num [area2]), cl (by norm_num [area2])]; rfl
  · unfold lineLineCrossing
    rw [cw (p := ⟨0, 0⟩) (by norm_num [area2]), ccw (p := ⟨0, 0⟩) (by norm_num [area2]), ccw (p := ⟨1, 0⟩) (by norm_num [area2]), cw (p := ⟨1, 0⟩) (by norm_num [area2])]; rfl
  · unfold lineLineCrossing
    rw [cl (p := ⟨0, 0⟩) (by norm_num [area2])]; rfl

namespace UnitEx
/-- A quarter turn with a shift. -/
def quarter : Similarity ℚ := ⟨0, 1, ⟨5, 0⟩⟩
example : quarter.Motion ∧ quarter.at ⟨1, 0⟩ = ⟨5, 1⟩ := ⟨by norm_num [quarter, Similarity.Motion, Similarity.factor], by decide +kernel⟩
/-- From metres to centimetres, and the corners of a square: all triangles are large enough in both units. -/
example : ∀ p ∈ ({⟨0, 0⟩, ⟨1, 0⟩, ⟨1, 1⟩, ⟨0, 1⟩} : Set (Pt ℚ)), ∀ q ∈ ({⟨0, 0⟩, ⟨1, 0⟩, ⟨1, 1⟩, ⟨0, 1⟩} : Set (Pt ℚ)), ∀ r ∈ ({⟨0, 0⟩, ⟨1, 0⟩, ⟨1, 1⟩, ⟨0, 1⟩} : Set (Pt ℚ)),
    Resolved (1 / 2 ^ 52) p q r ∧ Resolved (1 / 2 ^ 52) ((unit 100).at p) ((unit 100).at q) ((unit 100).at r) := by
  intro p hp q hq r hr
  simp only [Set.mem_insert_iff, Set.mem_singleton_iff] at hp hq hr
  rcases hp with rfl | rfl | rfl | rfl <;> rcases hq with rfl | rfl | rfl | rfl <;> rcases hr with rfl | rfl | rfl | rfl <;> norm_num [Resolved, turn, unit, Similarity.at]
/-- The tolerance of the code. -/
example := C198_unit_violated (eps := (1 / 2 ^ 52 : ℚ)) (by norm_num) (by norm_num)
/-- With it, a triangle with sides of a tenth of a thousandth is a line. -/
example : orientation (1 / 2 ^ 52 : ℚ) ⟨0, 0⟩ ⟨1 / 10000, 0⟩ ⟨0, 1 / 10000⟩ = .CL := by decide +kernel
end UnitEx

end TQ

#print axioms TQ.C198_fitting_partial
#print axioms TQ.C198_moved_partial
#print axioms TQ.C198_unit_partial
#print axioms TQ.C198_measures
#print axioms TQ.C198_unit_violated

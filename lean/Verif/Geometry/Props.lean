import Verif.Geometry.Lemmas
import Mathlib.Data.Rat.Defs
import Mathlib.Algebra.Order.Ring.Rat

/-!
# Property theorems C11 - C15: planar predicates

The specifications (`turn`, `OpenSegmentsMeet`, `IsCombo`, `distSq`, `cyclicSum`, `triArea`) are in
`Verif.Geometry.Spec` and do not mention the code's formulas.
-/

namespace TQ
open GeoSpec
variable {K : Type*} [Field K] [LinearOrder K] [IsStrictOrderedRing K]

/-! ## C11 -/

/-- C11: `orientation` decides the sign of the turn `p → q → r`, up to the tolerance. -/
theorem C11_orientation_spec (eps : K) (he : 0 < eps) (p q r : Pt K) :
    (orientation eps p q r = .CL ↔ turn p q r ^ 2 < eps) ∧
    (orientation eps p q r = .CCW ↔ eps ≤ turn p q r ^ 2 ∧ 0 < turn p q r) ∧
    (orientation eps p q r = .CW ↔ eps ≤ turn p q r ^ 2 ∧ turn p q r < 0) := by
  have h : area2 p q r = turn p q r := by unfold area2 turn; ring
  rw [orientation_CL_iff, orientation_CCW_iff, orientation_CW_iff, h, ← sq]
  refine ⟨Iff.rfl, Iff.rfl, ⟨?_, ?_⟩⟩
  · rintro ⟨h1, h2⟩
    refine ⟨h1, lt_of_le_of_ne h2 ?_⟩
    intro h0; rw [h0] at h1; simp at h1; exact absurd he (not_lt.mpr h1)
  · rintro ⟨h1, h2⟩; exact ⟨h1, h2.le⟩

/-- C11: cyclic rotation does not matter, swapping two arguments mirrors the result, and
translations do not matter. -/
theorem C11_orientation_laws (eps : K) (he : 0 < eps) (p q r d : Pt K) :
    orientation eps q r p = orientation eps p q r ∧
    orientation eps r p q = orientation eps p q r ∧
    orientation eps q p r = mirror (orientation eps p q r) ∧
    orientation eps p r q = mirror (orientation eps p q r) ∧
    orientation eps r q p = mirror (orientation eps p q r) ∧
    orientation eps (shift d p) (shift d q) (shift d r) = orientation eps p q r := by
  refine ⟨orientation_rot _ _ _, ?_, orientation_swap he _ _ _, ?_, ?_, ?_⟩
  · rw [orientation_rot q r p, orientation_rot p q r]
  · rw [orientation_rot q p r, orientation_swap he]
  · rw [← orientation_rot r q p, orientation_swap he, orientation_rot]
  · unfold orientation area2 shift; dsimp only
    have e1 : p.x + d.x - (r.x + d.x) = p.x - r.x := by ring
    have e2 : q.y + d.y - (r.y + d.y) = q.y - r.y := by ring
    have e3 : q.x + d.x - (r.x + d.x) = q.x - r.x := by ring
    have e4 : p.y + d.y - (r.y + d.y) = p.y - r.y := by ring
    rw [e1, e2, e3, e4]

/-- C11: `is_left` and `is_lefton` are the two decisions on the turn. -/
theorem C11_is_left_lefton (eps : K) (he : 0 < eps) (p q r : Pt K) :
    (isLeft eps p q r = true ↔ eps ≤ turn p q r ^ 2 ∧ 0 < turn p q r) ∧
    (isLefton eps p q r = false ↔ eps ≤ turn p q r ^ 2 ∧ turn p q r < 0) ∧
    (isLeft eps p q r = true → isLefton eps p q r = true) := by
  obtain ⟨h1, h2, h3⟩ := C11_orientation_spec eps he p q r
  refine ⟨?_, ?_, ?_⟩
  · unfold isLeft; rw [beq_iff_eq]; exact h2
  · unfold isLefton; rw [Bool.not_eq_false', beq_iff_eq]; exact h3
  · unfold isLeft isLefton; cases orientation eps p q r <;> simp

/-- the hypotheses are met and all three outcomes occur (`eps` as in the code, 2^-52) -/
example : (0 : ℚ) < 1 / 2 ^ 52 ∧
    orientation (1 / 2 ^ 52 : ℚ) ⟨0, 0⟩ ⟨1, 0⟩ ⟨0, 1⟩ = .CCW ∧
    orientation (1 / 2 ^ 52 : ℚ) ⟨0, 0⟩ ⟨0, 1⟩ ⟨1, 0⟩ = .CW ∧
    orientation (1 / 2 ^ 52 : ℚ) ⟨0, 0⟩ ⟨1, 0⟩ ⟨2, 0⟩ = .CL := by decide +kernel

/-! ## C12 -/

/-- C12: neither test depends on the order of the segments or of their end points. -/
theorem C12_symmetric (eps : K) (he : 0 < eps) (p1 q1 p2 q2 : Pt K) :
    lineLineCrossing eps p2 q2 p1 q1 = lineLineCrossing eps p1 q1 p2 q2 ∧
    lineLineCrossing eps q1 p1 p2 q2 = lineLineCrossing eps p1 q1 p2 q2 ∧
    lineLineCrossing eps p1 q1 q2 p2 = lineLineCrossing eps p1 q1 p2 q2 ∧
    lineLineIntersection eps p2 q2 p1 q1 = lineLineIntersection eps p1 q1 p2 q2 ∧
    lineLineIntersection eps q1 p1 p2 q2 = lineLineIntersection eps p1 q1 p2 q2 ∧
    lineLineIntersection eps p1 q1 q2 p2 = lineLineIntersection eps p1 q1 p2 q2 := by
  have hs := fun p q r => orientation_swap (eps := eps) he p q r
  refine ⟨?_, ?_, ?_, ?_, ?_, ?_⟩
  · unfold lineLineCrossing; dsimp only; exact Bool.and_comm _ _
  · unfold lineLineCrossing; dsimp only
    rw [hs p1 q1 p2, hs p1 q1 q2, opposite_mirror, opposite_comm (orientation eps p2 q2 q1)]
  · unfold lineLineCrossing; dsimp only
    rw [hs p2 q2 p1, hs p2 q2 q1, opposite_mirror, opposite_comm (orientation eps p1 q1 q2)]
  · rw [lineLineIntersection_eq, lineLineIntersection_eq, Bool.and_comm]
    generalize (_ && _) = a
    generalize inSegment eps p2 q2 p1 = b
    generalize inSegment eps p2 q2 q1 = c
    generalize inSegment eps p1 q1 p2 = d
    generalize inSegment eps p1 q1 q2 = e
    cases a <;> cases b <;> cases c <;> cases d <;> cases e <;> rfl
  · rw [lineLineIntersection_eq, lineLineIntersection_eq, hs p1 q1 p2, hs p1 q1 q2,
      opposite_mirror, opposite_comm (orientation eps p2 q2 q1), inSegment_swap he p1 q1 p2,
      inSegment_swap he p1 q1 q2]
    generalize (_ && _) = a
    generalize inSegment eps p2 q2 p1 = b
    generalize inSegment eps p2 q2 q1 = c
    generalize inSegment eps p1 q1 p2 = d
    generalize inSegment eps p1 q1 q2 = e
    cases a <;> cases b <;> cases c <;> cases d <;> cases e <;> rfl
  · rw [lineLineIntersection_eq, lineLineIntersection_eq, hs p2 q2 p1, hs p2 q2 q1,
      opposite_mirror, opposite_comm (orientation eps p1 q1 q2), inSegment_swap he p2 q2 p1,
      inSegment_swap he p2 q2 q1]
    generalize (_ && _) = a
    generalize inSegment eps p2 q2 p1 = b
    generalize inSegment eps p2 q2 q1 = c
    generalize inSegment eps p1 q1 p2 = d
    generalize inSegment eps p1 q1 q2 = e
    cases a <;> cases b <;> cases c <;> cases d <;> cases e <;> rfl

/-- C12: a reported crossing is real, and away from the tolerance band every crossing is
reported. -/
theorem C12_crossing_iff (eps : K) (he : 0 < eps) (p1 q1 p2 q2 : Pt K) :
    (lineLineCrossing eps p1 q1 p2 q2 = true → OpenSegmentsMeet p1 q1 p2 q2) ∧
    (eps ≤ turn p1 q1 p2 ^ 2 → eps ≤ turn p1 q1 q2 ^ 2 → eps ≤ turn p2 q2 p1 ^ 2 →
      eps ≤ turn p2 q2 q1 ^ 2 → OpenSegmentsMeet p1 q1 p2 q2 →
      lineLineCrossing eps p1 q1 p2 q2 = true) := by
  constructor
  · intro h
    unfold lineLineCrossing at h; dsimp only at h
    rw [Bool.and_eq_true] at h
    have h1 := opposite_neg h.1 he
    have h2 := opposite_neg h.2 he
    obtain ⟨hd1, ht0, ht1⟩ := param_mem h1
    obtain ⟨hd2, hs0, hs1⟩ := param_mem h2
    refine ⟨_, _, hs0, hs1, ht0, ht1, ?_⟩
    apply Pt.ext'
    · unfold onSeg; simp only []
      rw [div_mul_eq_mul_div, div_mul_eq_mul_div, add_div' _ _ _ hd2, add_div' _ _ _ hd1,
        div_eq_div_iff hd2 hd1]
      unfold area2; ring
    · unfold onSeg; simp only []
      rw [div_mul_eq_mul_div, div_mul_eq_mul_div, add_div' _ _ _ hd2, add_div' _ _ _ hd1,
        div_eq_div_iff hd2 hd1]
      unfold area2; ring
  · rintro h1 h2 h3 h4 ⟨s, t, hs0, hs1, ht0, ht1, hst⟩
    have ha : ∀ p q r : Pt K, area2 p q r = turn p q r := by
      intro p q r; unfold area2 turn; ring
    have hne : ∀ x : K, eps ≤ x ^ 2 → x ≠ 0 := by
      intro x hx h0; subst h0; simp at hx; exact absurd he (not_lt.mpr hx)
    have hCL : ∀ p q r : Pt K, eps ≤ turn p q r ^ 2 → orientation eps p q r ≠ .CL := by
      intro p q r h; rw [Ne, orientation_CL_iff, not_lt, ha, ← sq]; exact h
    unfold lineLineCrossing; dsimp only
    rw [Bool.and_eq_true]
    have z : ∀ (a b : Pt K) (u : K), area2 a b (onSeg a b u) = 0 := by
      intro a b u; unfold area2 onSeg; simp only []; ring
    constructor
    · refine opposite_of_neg (hCL _ _ _ h1) (hCL _ _ _ h2) ?_
      refine neg_of_combo_zero ht0 ht1 ?_ (by rw [ha]; exact hne _ h1)
      rw [← area2_onSeg, ← hst, z]
    · refine opposite_of_neg (hCL _ _ _ h3) (hCL _ _ _ h4) ?_
      refine neg_of_combo_zero hs0 hs1 ?_ (by rw [ha]; exact hne _ h3)
      rw [← area2_onSeg, hst, z]

/-- C12: segments with a common end point never "cross". -/
theorem C12_adjacent_never_cross (eps : K) (he : 0 < eps) (p q r : Pt K) :
    lineLineCrossing eps p q q r = false ∧ lineLineCrossing eps p q r q = false ∧
    lineLineCrossing eps p q p r = false ∧ lineLineCrossing eps p q r p = false := by
  have h0 : ∀ a b : Pt K, orientation eps a b a = .CL ∧ orientation eps a b b = .CL := by
    intro a b
    rw [orientation_CL_iff, orientation_CL_iff]
    have h1 : area2 a b a = 0 := by unfold area2; ring
    have h2 : area2 a b b = 0 := by unfold area2; ring
    rw [h1, h2]; simpa using he
  refine ⟨?_, ?_, ?_, ?_⟩ <;> unfold lineLineCrossing <;> dsimp only <;>
    simp [(h0 p q).1, (h0 p q).2, opposite]

example : lineLineCrossing (1 / 2 ^ 52 : ℚ) ⟨0, 0⟩ ⟨2, 2⟩ ⟨0, 2⟩ ⟨2, 0⟩ = true ∧
    OpenSegmentsMeet (⟨0, 0⟩ : Pt ℚ) ⟨2, 2⟩ ⟨0, 2⟩ ⟨2, 0⟩ := by
  refine ⟨by decide +kernel, 1 / 2, 1 / 2, ?_⟩
  norm_num [onSeg]

/-! ## C13 -/

/-- C13: every convex combination of the corners of a counter-clockwise triangle is
accepted by `in_on_triangle`. -/
theorem C13_in_on_triangle_complete (eps : K) (he : 0 < eps) (p q r v : Pt K) (a b c : K)
    (hccw : 0 ≤ turn p q r) (ha : 0 ≤ a) (hb : 0 ≤ b) (hc : 0 ≤ c)
    (hv : IsCombo v [(a, p), (b, q), (c, r)]) : inOnTriangle eps v p q r = true := by
  obtain ⟨h1, hx, hy⟩ := hv
  simp only [List.map_cons, List.map_nil, List.sum_cons, List.sum_nil, add_zero] at h1 hx hy
  have key : ∀ s t : Pt K, 0 ≤ turn s t v → isLefton eps s t v = true := by
    intro s t h
    have := (C11_is_left_lefton eps he s t v).2.1
    by_contra hc; rw [Bool.not_eq_true] at hc
    exact absurd (this.mp hc).2 (not_lt.mpr h)
  have ea : a = 1 - b - c := by linarith
  have e1 : turn p q v = c * turn p q r := by
    unfold turn; rw [hx, hy, ea]; ring
  have e2 : turn q r v = a * turn p q r := by
    have : b = 1 - a - c := by linarith
    unfold turn; rw [hx, hy, this]; ring
  have e3 : turn r p v = b * turn p q r := by
    unfold turn; rw [hx, hy, ea]; ring
  unfold inOnTriangle
  rw [key p q (e1 ▸ mul_nonneg hc hccw), key q r (e2 ▸ mul_nonneg ha hccw),
    key r p (e3 ▸ mul_nonneg hb hccw)]
  rfl

/-- C13: every point accepted by `in_triangle` is a strictly positive combination of the
corners. -/
theorem C13_in_triangle_sound (eps : K) (he : 0 < eps) (p q r v : Pt K)
    (h : inTriangle eps v p q r = true) :
    ∃ a b c : K, 0 < a ∧ 0 < b ∧ 0 < c ∧ IsCombo v [(a, p), (b, q), (c, r)] := by
  unfold inTriangle at h
  simp only [Bool.and_eq_true] at h
  obtain ⟨⟨h1, h2⟩, h3⟩ := h
  have h1 := ((C11_is_left_lefton eps he p q v).1.mp h1).2
  have h2 := ((C11_is_left_lefton eps he q r v).1.mp h2).2
  have h3 := ((C11_is_left_lefton eps he r p v).1.mp h3).2
  have hs : 0 < turn p q v + turn q r v + turn r p v := by linarith
  refine ⟨turn q r v / (turn p q v + turn q r v + turn r p v),
    turn r p v / (turn p q v + turn q r v + turn r p v),
    turn p q v / (turn p q v + turn q r v + turn r p v), div_pos h2 hs, div_pos h3 hs,
    div_pos h1 hs, ?_⟩
  have hne := hs.ne'
  refine ⟨?_, ?_, ?_⟩ <;>
    simp only [List.map_cons, List.map_nil, List.sum_cons, List.sum_nil, add_zero]
  · rw [← add_div, ← add_div, div_eq_one_iff_eq hne]; ring
  · rw [div_mul_eq_mul_div, div_mul_eq_mul_div, div_mul_eq_mul_div, ← add_div, ← add_div,
      eq_div_iff hne]
    unfold turn; ring
  · rw [div_mul_eq_mul_div, div_mul_eq_mul_div, div_mul_eq_mul_div, ← add_div, ← add_div,
      eq_div_iff hne]
    unfold turn; ring

/-- C13: every convex combination of the corners of a convex counter-clockwise quad is accepted
by `in_on_quad`. -/
theorem C13_in_on_quad_complete (eps : K) (he : 0 < eps) (p q r s v : Pt K) (a b c d : K)
    (h1 : 0 ≤ turn p q r) (h2 : 0 ≤ turn q r s) (h3 : 0 ≤ turn r s p) (h4 : 0 ≤ turn s p q)
    (ha : 0 ≤ a) (hb : 0 ≤ b) (hc : 0 ≤ c) (hd : 0 ≤ d)
    (hv : IsCombo v [(a, p), (b, q), (c, r), (d, s)]) : inOnQuad eps v p q r s = true := by
  obtain ⟨hsum, hx, hy⟩ := hv
  simp only [List.map_cons, List.map_nil, List.sum_cons, List.sum_nil, add_zero] at hsum hx hy
  have key : ∀ s t : Pt K, 0 ≤ turn s t v → isLefton eps s t v = true := by
    intro s t h
    have := (C11_is_left_lefton eps he s t v).2.1
    by_contra hc; rw [Bool.not_eq_true] at hc
    exact absurd (this.mp hc).2 (not_lt.mpr h)
  have e1 : turn p q v = c * turn p q r + d * turn s p q := by
    have : a = 1 - b - c - d := by linarith
    unfold turn; rw [hx, hy, this]; ring
  have e2 : turn q r v = d * turn q r s + a * turn p q r := by
    have : b = 1 - a - c - d := by linarith
    unfold turn; rw [hx, hy, this]; ring
  have e3 : turn r s v = a * turn r s p + b * turn q r s := by
    have : c = 1 - a - b - d := by linarith
    unfold turn; rw [hx, hy, this]; ring
  have e4 : turn s p v = b * turn s p q + c * turn r s p := by
    have : d = 1 - a - b - c := by linarith
    unfold turn; rw [hx, hy, this]; ring
  unfold inOnQuad
  rw [key p q (e1 ▸ add_nonneg (mul_nonneg hc h1) (mul_nonneg hd h4)),
    key q r (e2 ▸ add_nonneg (mul_nonneg hd h2) (mul_nonneg ha h1)),
    key r s (e3 ▸ add_nonneg (mul_nonneg ha h3) (mul_nonneg hb h2)),
    key s p (e4 ▸ add_nonneg (mul_nonneg hb h4) (mul_nonneg hc h3))]
  rfl

/-- C13: every point accepted by `in_quad` is a convex combination of the corners
(whatever the shape of the quad). -/
theorem C13_in_quad_sound (eps : K) (he : 0 < eps) (p q r s v : Pt K)
    (h : inQuad eps v p q r s = true) :
    ∃ a b c d : K, 0 ≤ a ∧ 0 ≤ b ∧ 0 ≤ c ∧ 0 ≤ d ∧
      IsCombo v [(a, p), (b, q), (c, r), (d, s)] := by
  unfold inQuad at h
  simp only [Bool.and_eq_true] at h
  obtain ⟨⟨⟨h1, h2⟩, h3⟩, h4⟩ := h
  have h1 := ((C11_is_left_lefton eps he p q v).1.mp h1).2
  have h2 := ((C11_is_left_lefton eps he q r v).1.mp h2).2
  have h3 := ((C11_is_left_lefton eps he r s v).1.mp h3).2
  have h4 := ((C11_is_left_lefton eps he s p v).1.mp h4).2
  rcases le_or_gt 0 (turn r p v) with h5 | h5
  · have hs : 0 < turn q r v + turn r p v + turn p q v := by linarith
    have hne := hs.ne'
    refine ⟨turn q r v / (turn q r v + turn r p v + turn p q v),
      turn r p v / (turn q r v + turn r p v + turn p q v),
      turn p q v / (turn q r v + turn r p v + turn p q v), 0, div_nonneg h2.le hs.le,
      div_nonneg h5 hs.le, div_nonneg h1.le hs.le, le_refl _, ?_, ?_, ?_⟩ <;>
    simp only [List.map_cons, List.map_nil, List.sum_cons, List.sum_nil, add_zero, zero_mul]
    · rw [← add_assoc, ← add_div, ← add_div, div_self hne]
    · rw [div_mul_eq_mul_div, div_mul_eq_mul_div, div_mul_eq_mul_div, ← add_div, ← add_div,
        eq_div_iff hne]
      unfold turn; ring
    · rw [div_mul_eq_mul_div, div_mul_eq_mul_div, div_mul_eq_mul_div, ← add_div, ← add_div,
        eq_div_iff hne]
      unfold turn; ring
  · have h6 : 0 < turn p r v := by
      have : turn p r v = - turn r p v := by unfold turn; ring
      linarith
    have hs : 0 < turn r s v + turn s p v + turn p r v := by linarith
    have hne := hs.ne'
    refine ⟨turn r s v / (turn r s v + turn s p v + turn p r v), 0,
      turn s p v / (turn r s v + turn s p v + turn p r v),
      turn p r v / (turn r s v + turn s p v + turn p r v), div_nonneg h3.le hs.le, le_refl _,
      div_nonneg h4.le hs.le, div_nonneg h6.le hs.le, ?_, ?_, ?_⟩ <;>
    simp only [List.map_cons, List.map_nil, List.sum_cons, List.sum_nil, add_zero, zero_mul,
      zero_add]
    · rw [← add_div, ← add_div, div_eq_one_iff_eq hne]; ring
    · rw [div_mul_eq_mul_div, div_mul_eq_mul_div, div_mul_eq_mul_div, ← add_div, ← add_div,
        eq_div_iff hne]
      unfold turn; ring
    · rw [div_mul_eq_mul_div, div_mul_eq_mul_div, div_mul_eq_mul_div, ← add_div, ← add_div,
        eq_div_iff hne]
      unfold turn; ring

example : inTriangle (1 / 2 ^ 52 : ℚ) ⟨1, 1⟩ ⟨0, 0⟩ ⟨4, 0⟩ ⟨0, 4⟩ = true ∧
    0 ≤ turn (⟨0, 0⟩ : Pt ℚ) ⟨4, 0⟩ ⟨0, 4⟩ ∧
    IsCombo (⟨1, 1⟩ : Pt ℚ) [(1 / 2, ⟨0, 0⟩), (1 / 4, ⟨4, 0⟩), (1 / 4, ⟨0, 4⟩)] ∧
    inQuad (1 / 2 ^ 52 : ℚ) ⟨1, 1⟩ ⟨0, 0⟩ ⟨4, 0⟩ ⟨4, 4⟩ ⟨0, 4⟩ = true := by
  refine ⟨by decide +kernel, by norm_num [turn], ?_, by decide +kernel⟩
  norm_num [IsCombo]

/-! ## C14 -/

/-- C14: the value is the minimal squared distance to the points of the segment. -/
theorem C14_distance_minimal (p e1 e2 : Pt K) (hne : e1 ≠ e2) :
    (∃ t : K, 0 ≤ t ∧ t ≤ 1 ∧ distancePointEdgeSqr p e1 e2 = distSq p (onSeg e1 e2 t)) ∧
    ∀ t : K, 0 ≤ t → t ≤ 1 → distancePointEdgeSqr p e1 e2 ≤ distSq p (onSeg e1 e2 t) := by
  have hL : 0 < Pt.normSq (e2 - e1) := by
    unfold Pt.normSq; simp only [Pt.sub_x, Pt.sub_y]
    by_contra h
    have h1 : (e2.x - e1.x) * (e2.x - e1.x) = 0 := by nlinarith [mul_self_nonneg (e2.x - e1.x), mul_self_nonneg (e2.y - e1.y)]
    have h2 : (e2.y - e1.y) * (e2.y - e1.y) = 0 := by nlinarith [mul_self_nonneg (e2.x - e1.x), mul_self_nonneg (e2.y - e1.y)]
    apply hne
    exact Pt.ext' (by linarith [mul_self_eq_zero.mp h1]) (by linarith [mul_self_eq_zero.mp h2])
  have hform : ∀ t : K, Pt.normSq (p - (e1 + Pt.smul t (e2 - e1))) = distSq p (onSeg e1 e2 t) := by
    intro t; unfold Pt.normSq distSq onSeg
    simp only [Pt.sub_x, Pt.sub_y, Pt.add_x, Pt.add_y, Pt.smul_x, Pt.smul_y]; ring
  set d := Pt.dot (p - e1) (e2 - e1) with hd
  set L := Pt.normSq (e2 - e1) with hLdef
  have hexp : ∀ t : K, distSq p (onSeg e1 e2 t) = distSq p e1 - 2 * t * d + t ^ 2 * L := by
    intro t; rw [hd, hLdef]; unfold Pt.normSq Pt.dot distSq onSeg
    simp only [Pt.sub_x, Pt.sub_y]; ring
  have hT : 0 ≤ projParam p e1 e2 ∧ projParam p e1 e2 ≤ 1 ∧
      ∀ t : K, 0 ≤ t → t ≤ 1 →
        (d / L - projParam p e1 e2) * (t - projParam p e1 e2) ≤ 0 := by
    unfold projParam stdClamp
    rw [← hd, ← hLdef]
    split_ifs with h1 h2
    · refine ⟨le_refl _, zero_le_one, fun t h0 _ => ?_⟩
      nlinarith [mul_nonneg h0 (le_of_lt (neg_pos.mpr h1))]
    · refine ⟨zero_le_one, le_refl _, fun t _ h1' => ?_⟩
      nlinarith [mul_nonneg (sub_nonneg.mpr h1') (sub_nonneg.mpr h2.le)]
    · exact ⟨not_lt.mp h1, not_lt.mp h2, fun t _ _ => by rw [sub_self, zero_mul]⟩
  obtain ⟨hT0, hT1, hTm⟩ := hT
  refine ⟨⟨_, hT0, hT1, hform _⟩, fun t h0 h1 => ?_⟩
  unfold distancePointEdgeSqr
  rw [hform, hexp, hexp]
  have hm := hTm t h0 h1
  generalize projParam p e1 e2 = T at *
  have hd' : d = d / L * L := by field_simp
  have : (t ^ 2 * L - 2 * t * d) - (T ^ 2 * L - 2 * T * d)
      = L * ((t - T) ^ 2) + 2 * L * (-((d / L - T) * (t - T))) := by
    rw [hd']
    have : d / L * L / L = d / L := by field_simp
    rw [this]; ring
  have h2 : 0 ≤ L * ((t - T) ^ 2) := mul_nonneg hL.le (sq_nonneg _)
  have h3 : 0 ≤ 2 * L * (-((d / L - T) * (t - T))) :=
    mul_nonneg (by linarith) (by linarith)
  linarith

/-- C14: the end points may be exchanged. -/
theorem C14_distance_symmetric (p e1 e2 : Pt K) (hne : e1 ≠ e2) :
    distancePointEdgeSqr p e1 e2 = distancePointEdgeSqr p e2 e1 := by
  have flip : ∀ (a b : Pt K) (t : K), onSeg a b t = onSeg b a (1 - t) := by
    intro a b t; apply Pt.ext' <;> unfold onSeg <;> simp only [] <;> ring
  obtain ⟨⟨t, ht0, ht1, ht⟩, hmin⟩ := C14_distance_minimal p e1 e2 hne
  obtain ⟨⟨s, hs0, hs1, hs⟩, hmin'⟩ := C14_distance_minimal p e2 e1 hne.symm
  apply le_antisymm
  · rw [hs, flip]; exact hmin _ (by linarith) (by linarith)
  · rw [ht, flip]; exact hmin' _ (by linarith) (by linarith)

example : (⟨0, 0⟩ : Pt ℚ) ≠ ⟨2, 0⟩ ∧ distancePointEdgeSqr (⟨3, 1⟩ : Pt ℚ) ⟨0, 0⟩ ⟨2, 0⟩ = 2 ∧
    distancePointEdgeSqr (⟨1, 1⟩ : Pt ℚ) ⟨0, 0⟩ ⟨2, 0⟩ = 1 := by decide +kernel

/-! ## C15 -/

/-- C15: `polygon_area` is the sum of the signed areas of the fan of triangles from any point. -/
theorem C15_fan (vs : List (Pt K)) (o : Pt K) :
    polygonArea vs = cyclicSum (triArea o) vs := by
  rw [polygonArea_eq_cyclicSum]
  have e : (triArea o : Pt K → Pt K → K) = fun a b => (1 / 2) * shoe a b +
      ((-(a.x * a.y) / 2 + o.x * a.y / 2 - o.y * a.x / 2) -
       (-(b.x * b.y) / 2 + o.x * b.y / 2 - o.y * b.x / 2)) := by
    funext a b; unfold triArea shoe; ring
  rw [e, cyclicSum_add, cyclicSum_smul,
    cyclicSum_telescope (fun a : Pt K => -(a.x * a.y) / 2 + o.x * a.y / 2 - o.y * a.x / 2)]
  ring

/-- C15: the area changes sign under reversal, is independent of the starting vertex and
invariant under translation. -/
theorem C15_laws (vs : List (Pt K)) (n : Nat) (d : Pt K) :
    polygonArea vs.reverse = - polygonArea vs ∧
    polygonArea (vs.rotate n) = polygonArea vs ∧
    polygonArea (vs.map (shift d)) = polygonArea vs := by
  refine ⟨?_, ?_, ?_⟩
  · rw [C15_fan vs.reverse 0, C15_fan vs 0, cyclicSum_reverse]
    have e : (fun a b : Pt K => triArea 0 b a) = fun a b => (-1) * triArea 0 a b := by
      funext a b; unfold triArea; ring
    rw [e, cyclicSum_smul]; ring
  · rw [C15_fan _ 0, C15_fan vs 0, cyclicSum_rotate]
  · rw [C15_fan _ d, C15_fan vs 0, cyclicSum_map]
    congr 1
    funext a b; unfold triArea shift; simp only [Pt.zero_x, Pt.zero_y]; ring

example : polygonArea ([⟨0, 0⟩, ⟨2, 0⟩, ⟨2, 3⟩, ⟨0, 3⟩] : List (Pt ℚ)) = 6 ∧
    polygonArea ([⟨0, 0⟩, ⟨2, 0⟩, ⟨2, 3⟩, ⟨0, 3⟩] : List (Pt ℚ)).reverse = -6 := by
  decide +kernel

/-! ## C12, C13: facets and rectangles -/

/-- C12: two facets intersect iff some side of the first intersects some side of the second; a segment
intersects (crosses) a facet iff it intersects (crosses) one of its sides. -/
theorem C12_facets (eps : K) (a b p q r s p' q' r' s' : Pt K) :
    (lineTriIntersection eps a b p q r = true ↔
      ∃ t ∈ cyclicPairs [p, q, r], lineLineIntersection eps a b t.1 t.2 = true) ∧
    (lineTriCrossing eps a b p q r = true ↔
      ∃ t ∈ cyclicPairs [p, q, r], lineLineCrossing eps a b t.1 t.2 = true) ∧
    (lineQuadIntersection eps a b p q r s = true ↔
      ∃ t ∈ cyclicPairs [p, q, r, s], lineLineIntersection eps a b t.1 t.2 = true) ∧
    (triTriIntersection eps p q r p' q' r' = true ↔
      ∃ t ∈ cyclicPairs [p, q, r], ∃ u ∈ cyclicPairs [p', q', r'],
        lineLineIntersection eps t.1 t.2 u.1 u.2 = true) ∧
    (quadQuadIntersection eps p q r s p' q' r' s' = true ↔
      ∃ t ∈ cyclicPairs [p, q, r, s], ∃ u ∈ cyclicPairs [p', q', r', s'],
        lineLineIntersection eps t.1 t.2 u.1 u.2 = true) ∧
    (triQuadIntersection eps p q r p' q' r' s' = true ↔
      ∃ t ∈ cyclicPairs [p, q, r], ∃ u ∈ cyclicPairs [p', q', r', s'],
        lineLineIntersection eps t.1 t.2 u.1 u.2 = true) := by
  refine ⟨?_, ?_, ?_, ?_, ?_, ?_⟩ <;>
    simp [cyclicPairs, lineTriIntersection, lineTriCrossing, lineQuadIntersection, triTriIntersection,
      quadQuadIntersection, triQuadIntersection, or_assoc]

/-- C12: the intersection test of two triangles (two quads) does not depend on which facet comes first
nor on the corner a facet starts with. -/
theorem C12_facets_symmetric (eps : K) (he : 0 < eps) (p q r s p' q' r' s' : Pt K) :
    triTriIntersection eps p q r p' q' r' = triTriIntersection eps p' q' r' p q r ∧
    triTriIntersection eps p q r p' q' r' = triTriIntersection eps q r p p' q' r' ∧
    quadQuadIntersection eps p q r s p' q' r' s' = quadQuadIntersection eps p' q' r' s' p q r s ∧
    quadQuadIntersection eps p q r s p' q' r' s' = quadQuadIntersection eps q r s p p' q' r' s' := by
  have hsw : ∀ a b c d : Pt K, lineLineIntersection eps a b c d = lineLineIntersection eps c d a b :=
    fun a b c d => ((C12_symmetric eps he a b c d).2.2.2.1).symm
  refine ⟨?_, ?_, ?_, ?_⟩
  · unfold triTriIntersection lineTriIntersection
    rw [hsw p' q' p q, hsw p' q' q r, hsw p' q' r p, hsw q' r' p q, hsw q' r' q r, hsw q' r' r p,
      hsw r' p' p q, hsw r' p' q r, hsw r' p' r p]
    ac_rfl
  · unfold triTriIntersection; ac_rfl
  · unfold quadQuadIntersection lineQuadIntersection
    rw [hsw p' q' p q, hsw p' q' q r, hsw p' q' r s, hsw p' q' s p, hsw q' r' p q, hsw q' r' q r,
      hsw q' r' r s, hsw q' r' s p, hsw r' s' p q, hsw r' s' q r, hsw r' s' r s, hsw r' s' s p,
      hsw s' p' p q, hsw s' p' q r, hsw s' p' r s, hsw s' p' s p]
    ac_rfl
  · unfold quadQuadIntersection; ac_rfl

example : triTriIntersection (1 / 10 ^ 12) (⟨0, 0⟩ : Pt ℚ) ⟨4, 0⟩ ⟨0, 4⟩ ⟨-1, 1⟩ ⟨1 / 2, 1⟩ ⟨-1, 2⟩ = true ∧
    triTriIntersection (1 / 10 ^ 12) (⟨0, 0⟩ : Pt ℚ) ⟨4, 0⟩ ⟨0, 4⟩ ⟨5, 5⟩ ⟨6, 5⟩ ⟨5, 6⟩ = false ∧
    triQuadIntersection (1 / 10 ^ 12) (⟨0, 0⟩ : Pt ℚ) ⟨4, 0⟩ ⟨0, 4⟩ ⟨-1, 1⟩ ⟨1 / 2, 1⟩ ⟨1 / 2, 2⟩ ⟨-1, 2⟩ = true := by
  decide +kernel

/-- C13: `in_on_rect` and `in_rect` are the closed and the open rectangle; two non-empty closed
rectangles overlap iff they share a point. -/
theorem C13_rect (v lo up lo' up' : Pt K) :
    (inOnRect v lo up = true ↔ (lo.x ≤ v.x ∧ v.x ≤ up.x) ∧ (lo.y ≤ v.y ∧ v.y ≤ up.y)) ∧
    (inRect v lo up = true ↔ (lo.x < v.x ∧ v.x < up.x) ∧ (lo.y < v.y ∧ v.y < up.y)) ∧
    (lo.x ≤ up.x → lo.y ≤ up.y → lo'.x ≤ up'.x → lo'.y ≤ up'.y →
      (rectOverlap lo up lo' up' = true ↔
        ∃ w, inOnRect w lo up = true ∧ inOnRect w lo' up' = true)) := by
  refine ⟨?_, ?_, ?_⟩
  · simp only [inOnRect, Bool.and_eq_true, decide_eq_true_eq]; tauto
  · simp only [inRect, Bool.and_eq_true, decide_eq_true_eq]; tauto
  · intro h1 h2 h3 h4
    simp only [inOnRect, rectOverlap, Bool.and_eq_true, decide_eq_true_eq]
    constructor
    · rintro ⟨⟨⟨a, b⟩, c⟩, d⟩
      refine ⟨⟨max lo.x lo'.x, max lo.y lo'.y⟩, ?_, ?_⟩ <;>
        simp only [le_max_left, le_max_right, max_le_iff, true_and] <;> tauto
    · rintro ⟨w, ⟨⟨⟨a, b⟩, c⟩, d⟩, ⟨⟨e, f⟩, g⟩, h⟩
      exact ⟨⟨⟨a.trans g, e.trans c⟩, b.trans h⟩, f.trans d⟩

example : inRect (⟨1, 1⟩ : Pt ℚ) ⟨0, 0⟩ ⟨2, 2⟩ = true ∧ inRect (⟨2, 1⟩ : Pt ℚ) ⟨0, 0⟩ ⟨2, 2⟩ = false ∧
    rectOverlap (⟨0, 0⟩ : Pt ℚ) ⟨2, 2⟩ ⟨2, 1⟩ ⟨3, 4⟩ = true := by decide +kernel

end TQ

#print axioms TQ.C12_facets
#print axioms TQ.C12_facets_symmetric
#print axioms TQ.C13_rect
#print axioms TQ.C11_orientation_spec
#print axioms TQ.C11_orientation_laws
#print axioms TQ.C11_is_left_lefton
#print axioms TQ.C12_symmetric
#print axioms TQ.C12_crossing_iff
#print axioms TQ.C12_adjacent_never_cross
#print axioms TQ.C13_in_on_triangle_complete
#print axioms TQ.C13_in_triangle_sound
#print axioms TQ.C13_in_on_quad_complete
#print axioms TQ.C13_in_quad_sound
#print axioms TQ.C14_distance_minimal
#print axioms TQ.C14_distance_symmetric
#print axioms TQ.C15_fan
#print axioms TQ.C15_laws

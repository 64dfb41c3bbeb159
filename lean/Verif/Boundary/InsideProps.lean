import Verif.Boundary.Lemmas
import Mathlib.Data.Rat.Defs
import Mathlib.Algebra.Order.Ring.Rat

/-!
# Properties of the point and intersection tests of edge lists: C23, C24, C26
-/

set_option linter.unusedSectionVars false

namespace TQ
open GeoSpec BdSpec
variable {K : Type*} [Field K] [LinearOrder K] [IsStrictOrderedRing K]

/-- the early `return true` of the loop for one edge -/
def onEdgeHit (tol mn mr eps : K) (pos : Nat → Pt K) (o : Pt K) (e : BEdge) : Bool :=
  vecEq tol o (pos e.v1) || vecEq tol o (pos e.v2) ||
  (cppEQ o.y (pos e.v2).y mn mr && cppEQ o.y (pos e.v1).y mn mr &&
    inOnSegment eps (pos e.v1) (pos e.v2) o)

/-- the edge crosses the horizontal line through `o` -/
def straddles (pos : Nat → Pt K) (o : Pt K) (e : BEdge) : Bool :=
  decide ((o.y > (pos e.v2).y ∧ o.y ≤ (pos e.v1).y) ∨ (o.y > (pos e.v1).y ∧ o.y ≤ (pos e.v2).y))

/-- abscissa of the crossing -/
def crossX (pos : Nat → Pt K) (o : Pt K) (e : BEdge) : K :=
  (pos e.v2).x + (o.y - (pos e.v2).y) / ((pos e.v1).y - (pos e.v2).y) * ((pos e.v1).x - (pos e.v2).x)

/-- the edge is counted -/
def counted (pos : Nat → Pt K) (o : Pt K) (e : BEdge) : Bool :=
  straddles pos o e && decide (crossX pos o e < o.x)

theorem insideLoop_eq (tol mn mr eps : K) (pos : Nat → Pt K) (o : Pt K) (es : List BEdge) :
    ∀ n : Nat, insideLoop tol mn mr eps pos o n es =
      (es.any (onEdgeHit tol mn mr eps pos o) || (n + es.countP (counted pos o)) % 2 == 1) := by
  induction es with
  | nil => intro n; simp [insideLoop]
  | cons e es ih =>
    intro n
    rw [insideLoop]
    dsimp only
    rw [List.any_cons, List.countP_cons]
    by_cases h1 : (vecEq tol o (pos e.v1) || vecEq tol o (pos e.v2)) = true
    · rw [if_pos h1]
      have : onEdgeHit tol mn mr eps pos o e = true := by unfold onEdgeHit; rw [h1]; rfl
      rw [this]; simp
    · rw [if_neg h1]
      by_cases h2 : (cppEQ o.y (pos e.v2).y mn mr && cppEQ o.y (pos e.v1).y mn mr &&
          inOnSegment eps (pos e.v1) (pos e.v2) o) = true
      · rw [if_pos h2]
        have : onEdgeHit tol mn mr eps pos o e = true := by unfold onEdgeHit; rw [h2]; simp
        rw [this]; simp
      · rw [if_neg h2]
        have hf : onEdgeHit tol mn mr eps pos o e = false := by
          unfold onEdgeHit
          rw [Bool.not_eq_true] at h1 h2
          rw [h1, h2]; rfl
        rw [hf, Bool.false_or]
        by_cases h3 : (o.y > (pos e.v2).y ∧ o.y ≤ (pos e.v1).y) ∨
            (o.y > (pos e.v1).y ∧ o.y ≤ (pos e.v2).y)
        · rw [if_pos h3]
          have hs : straddles pos o e = true := by unfold straddles; exact decide_eq_true h3
          change insideLoop tol mn mr eps pos o (if crossX pos o e < o.x then n + 1 else n) es = _
          by_cases h4 : crossX pos o e < o.x
          · have : counted pos o e = true := by unfold counted; rw [hs]; simpa using h4
            rw [if_pos h4, ih, this, if_pos rfl]
            congr 3; omega
          · have : counted pos o e = false := by unfold counted; rw [hs]; simpa using h4
            rw [if_neg h4, ih, this, if_neg (by simp)]
            rfl
        · rw [if_neg h3, ih]
          have : counted pos o e = false := by
            unfold counted straddles; rw [decide_eq_false h3]; rfl
          rw [this, if_neg (by simp)]
          rfl

/-! ## C23 -/

/-- C23: the test does not depend on the order of the edges. -/
theorem C23_inside_reorder (tol mn mr eps : K) (pos : Nat → Pt K) (es fs : List BEdge) (o : Pt K)
    (h : es.Perm fs) : isInside tol mn mr eps pos es o = isInside tol mn mr eps pos fs o := by
  unfold isInside
  rw [insideLoop_eq, insideLoop_eq, h.length_eq, h.countP_eq]
  congr 2
  rw [Bool.eq_iff_iff, List.any_eq_true, List.any_eq_true]
  constructor
  · rintro ⟨x, h1, h2⟩; exact ⟨x, h.mem_iff.mp h1, h2⟩
  · rintro ⟨x, h1, h2⟩; exact ⟨x, h.mem_iff.mpr h1, h2⟩

theorem vecEq_eq {tol : K} (ht : tol < 1) {a b : Pt K} (h : vecEq tol a b = true) : a = b := by
  unfold vecEq at h
  have h := of_decide_eq_true h
  unfold Pt.normSq at h
  simp only [Pt.sub_x, Pt.sub_y] at h
  have h0 : (a.x - b.x) * (a.x - b.x) + (a.y - b.y) * (a.y - b.y) ≤ 0 := by
    by_contra hc
    rw [not_le] at hc
    nlinarith
  have hx : a.x - b.x = 0 := by
    by_contra hc
    nlinarith [mul_self_pos.mpr hc, mul_self_nonneg (a.y - b.y)]
  have hy : a.y - b.y = 0 := by
    by_contra hc
    nlinarith [mul_self_pos.mpr hc, mul_self_nonneg (a.x - b.x)]
  exact Pt.ext' (by linarith) (by linarith)

/-- the crossing of an edge lies between the abscissas of its end points -/
theorem crossX_between {pos : Nat → Pt K} {o : Pt K} {e : BEdge} (h : straddles pos o e = true) :
    ∃ t, 0 ≤ t ∧ t ≤ 1 ∧ crossX pos o e = (pos e.v2).x + t * ((pos e.v1).x - (pos e.v2).x) := by
  unfold straddles at h
  refine ⟨(o.y - (pos e.v2).y) / ((pos e.v1).y - (pos e.v2).y), ?_, ?_, rfl⟩
  · rcases of_decide_eq_true h with ⟨h1, h2⟩ | ⟨h1, h2⟩
    · apply div_nonneg <;> linarith
    · apply div_nonneg_of_nonpos <;> linarith
  · rcases of_decide_eq_true h with ⟨h1, h2⟩ | ⟨h1, h2⟩
    · rw [div_le_one (by linarith)]; linarith
    · rw [div_le_one_of_neg (by linarith)]; linarith

theorem combo_lt {a b c t : K} (t0 : 0 ≤ t) (t1 : t ≤ 1) (ha : a < c) (hb : b < c) :
    b + t * (a - b) < c := by
  rcases le_total a b with h | h
  · nlinarith
  · nlinarith

theorem lt_combo {a b c t : K} (t0 : 0 ≤ t) (t1 : t ≤ 1) (ha : c < a) (hb : c < b) :
    c < b + t * (a - b) := by
  rcases le_total a b with h | h
  · nlinarith
  · nlinarith

theorem countP_xor (es : List BEdge) (b : Nat → Bool) :
    es.countP (fun e => b e.v1 != b e.v2) + 2 * es.countP (fun e => b e.v1 && b e.v2) =
      es.countP (fun e => b e.v1) + es.countP (fun e => b e.v2) := by
  induction es with
  | nil => simp
  | cons e es ih =>
    simp only [List.countP_cons]
    cases b e.v1 <;> cases b e.v2 <;> simp <;> omega

/-- in a closed loop the number of edges that change sides is even -/
theorem loop_even (es : List BEdge) (h : Loop es) (b : Nat → Bool) :
    es.countP (fun e => b e.v1 != b e.v2) % 2 = 0 := by
  have h1 := countP_xor es b
  have h2 : es.countP (fun e => b e.v2) = es.countP (fun e => b e.v1) := by
    have : (es.map (·.v2)).countP b = (es.map (·.v1)).countP b := by
      rw [h]; exact (List.rotate_perm _ 1).countP_eq b
    rw [List.countP_map, List.countP_map] at this
    exact this
  omega

theorem loop_v2_mem {es : List BEdge} (h : Loop es) {e : BEdge} (he : e ∈ es) :
    ∃ f ∈ es, f.v1 = e.v2 := by
  have h1 : e.v2 ∈ es.map (·.v2) := List.mem_map_of_mem he
  rw [h, List.mem_rotate] at h1
  obtain ⟨f, hf, hfe⟩ := List.mem_map.mp h1
  exact ⟨f, hf, hfe⟩

/-- C23: points outside of the bounding box of a closed loop are not inside, provided that the
tolerance of `EQ` does not identify the ordinate of the point with the different ordinate of a
vertex. -/
theorem C23_outside_box (tol mn mr eps : K) (ht : tol < 1) (pos : Nat → Pt K) (es : List BEdge)
    (o : Pt K) (hl : Loop es) (hnd : ∀ e ∈ es, pos e.v1 ≠ pos e.v2)
    (hEQ : ∀ e ∈ es, cppEQ o.y (pos e.v1).y mn mr = true → o.y = (pos e.v1).y)
    (hout : OutsideBox pos es o) : isInside tol mn mr eps pos es o = false := by
  unfold isInside
  split_ifs with hlen
  · rfl
  rw [insideLoop_eq]
  -- facts about end points
  have hEQ2 : ∀ e ∈ es, cppEQ o.y (pos e.v2).y mn mr = true → o.y = (pos e.v2).y := by
    intro e he h
    obtain ⟨f, hf, hfe⟩ := loop_v2_mem hl he
    rw [← hfe] at h ⊢; exact hEQ f hf h
  have hboth : ∀ e ∈ es,
      (o.x < (pos e.v1).x ∧ o.x < (pos e.v2).x) ∨ ((pos e.v1).x < o.x ∧ (pos e.v2).x < o.x) ∨
      (o.y < (pos e.v1).y ∧ o.y < (pos e.v2).y) ∨ ((pos e.v1).y < o.y ∧ (pos e.v2).y < o.y) := by
    intro e he
    obtain ⟨f, hf, hfe⟩ := loop_v2_mem hl he
    rw [← hfe]
    rcases hout with h | h | h | h
    · exact Or.inl ⟨h e he, h f hf⟩
    · exact Or.inr (Or.inl ⟨h e he, h f hf⟩)
    · exact Or.inr (Or.inr (Or.inl ⟨h e he, h f hf⟩))
    · exact Or.inr (Or.inr (Or.inr ⟨h e he, h f hf⟩))
  have hhit : es.any (onEdgeHit tol mn mr eps pos o) = false := by
    rw [List.any_eq_false]
    intro e he hh
    unfold onEdgeHit at hh
    simp only [Bool.or_eq_true, Bool.and_eq_true] at hh
    rcases hh with (h | h) | ⟨⟨h1, h2⟩, h3⟩
    · have := vecEq_eq ht h
      rw [this] at hboth
      rcases hboth e he with h | h | h | h <;> exact absurd h.1 (lt_irrefl _)
    · have := vecEq_eq ht h
      rw [this] at hboth
      rcases hboth e he with h | h | h | h <;> exact absurd h.2 (lt_irrefl _)
    · have y2 := hEQ2 e he h1
      have y1 := hEQ e he h2
      unfold inOnSegment at h3
      split_ifs at h3
      rw [Bool.and_eq_true, decide_eq_true_eq, decide_eq_true_eq] at h3
      unfold Pt.dot Pt.normSq at h3
      simp only [Pt.sub_x, Pt.sub_y] at h3
      obtain ⟨h4, h5⟩ := h3
      rw [← y2, ← y1] at h4 h5
      simp only [sub_self, mul_zero, add_zero] at h4 h5
      have hd : (pos e.v2).x - (pos e.v1).x ≠ 0 := by
        intro h0
        exact hnd e he (Pt.ext' (by linarith) (by linarith))
      rcases hboth e he with h | h | h | h
      · rcases lt_or_gt_of_ne hd with h6 | h6
        · nlinarith [mul_pos_of_neg_of_neg (show (o.x - (pos e.v2).x) < 0 by linarith [h.2]) h6]
        · nlinarith [mul_neg_of_neg_of_pos (show (o.x - (pos e.v1).x) < 0 by linarith [h.1]) h6]
      · rcases lt_or_gt_of_ne hd with h6 | h6
        · nlinarith [mul_neg_of_pos_of_neg (show 0 < (o.x - (pos e.v1).x) by linarith [h.1]) h6]
        · nlinarith [mul_pos (show 0 < (o.x - (pos e.v2).x) by linarith [h.2]) h6]
      · linarith [h.1]
      · linarith [h.1]
  rw [hhit, Bool.false_or, Nat.zero_add]
  have hcount : es.countP (counted pos o) % 2 = 0 := by
    -- either nothing is counted, or everything that straddles
    rcases hout with h | h | h | h
    · have : es.countP (counted pos o) = 0 := by
        rw [List.countP_eq_zero]
        intro e he hc
        unfold counted at hc
        rw [Bool.and_eq_true, decide_eq_true_eq] at hc
        obtain ⟨t, t0, t1, tx⟩ := crossX_between hc.1
        obtain ⟨f, hf, hfe⟩ := loop_v2_mem hl he
        have a := h e he
        have b := h f hf
        rw [hfe] at b
        have c := hc.2
        rw [tx] at c
        exact absurd c (not_lt.mpr (lt_combo t0 t1 a b).le)
      rw [this]
    · have : es.countP (counted pos o) =
          es.countP (fun e => (fun v => decide ((pos v).y < o.y)) e.v1 !=
            (fun v => decide ((pos v).y < o.y)) e.v2) := by
        apply List.countP_congr
        intro e he
        obtain ⟨f, hf, hfe⟩ := loop_v2_mem hl he
        have a := h e he
        have b := h f hf
        rw [hfe] at b
        have hs : straddles pos o e = (decide ((pos e.v1).y < o.y) != decide ((pos e.v2).y < o.y)) := by
          unfold straddles
          by_cases h1 : (pos e.v1).y < o.y <;> by_cases h2 : (pos e.v2).y < o.y <;>
            simp [h1, h2, not_le.mpr, not_lt.mp]
        dsimp only
        rw [← hs]
        unfold counted
        rw [Bool.and_eq_true, decide_eq_true_eq]
        constructor
        · exact fun h => h.1
        · intro hst
          refine ⟨hst, ?_⟩
          obtain ⟨t, t0, t1, tx⟩ := crossX_between hst
          rw [tx]; exact combo_lt t0 t1 a b
      rw [this]
      exact loop_even es hl fun v => decide ((pos v).y < o.y)
    · have : es.countP (counted pos o) = 0 := by
        rw [List.countP_eq_zero]
        intro e he hc
        unfold counted straddles at hc
        rw [Bool.and_eq_true, decide_eq_true_eq] at hc
        obtain ⟨f, hf, hfe⟩ := loop_v2_mem hl he
        have a := h e he
        have b := h f hf
        rw [hfe] at b
        rcases hc.1 with h | h <;> linarith [h.1]
      rw [this]
    · have : es.countP (counted pos o) = 0 := by
        rw [List.countP_eq_zero]
        intro e he hc
        unfold counted straddles at hc
        rw [Bool.and_eq_true, decide_eq_true_eq] at hc
        obtain ⟨f, hf, hfe⟩ := loop_v2_mem hl he
        have a := h e he
        have b := h f hf
        rw [hfe] at b
        rcases hc.1 with h | h <;> linarith [h.2]
      rw [this]
  rw [hcount]; rfl

/-- unit square as vertex positions -/
def usq (i : Nat) : Pt ℚ :=
  match i with
  | 0 => ⟨0, 0⟩ | 1 => ⟨1, 0⟩ | 2 => ⟨1, 1⟩ | 3 => ⟨0, 1⟩ | _ => ⟨9, 9⟩
def usqEdges : List BEdge := [⟨0, 1, 1, 1⟩, ⟨1, 2, 1, 1⟩, ⟨2, 3, 1, 1⟩, ⟨3, 0, 1, 1⟩]

example : isInside 0 0 (1 / 2 ^ 52) (1 / 2 ^ 52) usq usqEdges ⟨1 / 2, 1 / 3⟩ = true ∧
    isInside 0 0 (1 / 2 ^ 52) (1 / 2 ^ 52) usq usqEdges ⟨3 / 2, 1 / 3⟩ = false ∧
    Loop usqEdges ∧ (∀ e ∈ usqEdges, usq e.v1 ≠ usq e.v2) ∧
    OutsideBox usq usqEdges ⟨3 / 2, 1 / 3⟩ := by
  refine ⟨by decide +kernel, by decide +kernel, by unfold Loop; decide, by decide +kernel, Or.inr (Or.inl ?_)⟩
  decide +kernel

/-! ## C24 -/

/-- C24 (refuted): the middle of the left side of the unit square is on an edge but not inside. -/
theorem C24_left_side_violated : ∃ (es : List BEdge) (pos : Nat → Pt ℚ) (o : Pt ℚ),
    Loop es ∧ 3 ≤ es.length ∧ (∃ e ∈ es, ∃ t : ℚ, 0 < t ∧ t < 1 ∧ o = onSeg (pos e.v1) (pos e.v2) t) ∧
    isInside 0 0 (1 / 2 ^ 52) (1 / 2 ^ 52) pos es o = false := by
  refine ⟨usqEdges, usq, ⟨0, 1 / 2⟩, by unfold Loop; decide, by decide,
    ⟨⟨3, 0, 1, 1⟩, by decide, 1 / 2, by norm_num, by norm_num, ?_⟩, by decide +kernel⟩
  decide +kernel

/-- C24, what holds: the vertices of the loop and the points of horizontal edges count as inside. -/
theorem C24_on_edge_partial (tol mn mr eps : K) (hmn : 0 ≤ mn) (he : 0 < eps)
    (pos : Nat → Pt K) (es : List BEdge) (h3 : 3 ≤ es.length) (e : BEdge) (hmem : e ∈ es) (o : Pt K)
    (h : o = pos e.v1 ∨ o = pos e.v2 ∨
      ((pos e.v1).y = (pos e.v2).y ∧ ∃ t : K, 0 ≤ t ∧ t ≤ 1 ∧ o = onSeg (pos e.v1) (pos e.v2) t)) :
    isInside tol mn mr eps pos es o = true := by
  unfold isInside
  rw [if_neg (by omega), insideLoop_eq]
  have : es.any (onEdgeHit tol mn mr eps pos o) = true := by
    rw [List.any_eq_true]
    refine ⟨e, hmem, ?_⟩
    unfold onEdgeHit
    rw [Bool.or_eq_true, Bool.or_eq_true]
    rcases h with h | h | ⟨hy, t, t0, t1, ht⟩
    · left; left; rw [h]; unfold vecEq Pt.normSq; simp
    · left; right; rw [h]; unfold vecEq Pt.normSq; simp
    · right
      have oy : o.y = (pos e.v1).y := by rw [ht]; unfold onSeg; simp only []; rw [hy]; ring
      have ox : o.x = (pos e.v1).x + t * ((pos e.v2).x - (pos e.v1).x) := by rw [ht]; rfl
      have hq : ∀ a : K, cppEQ a a mn mr = true := by
        intro a; unfold cppEQ cppABS; simp [hmn]
      rw [oy, ← hy, hq, Bool.true_and, Bool.true_and]
      unfold inOnSegment
      have ho : orientation eps (pos e.v1) (pos e.v2) o = .CL := by
        rw [orientation_CL_iff]
        have : area2 (pos e.v1) (pos e.v2) o = 0 := by
          unfold area2; rw [oy, ← hy]; ring
        rw [this]; simpa using he
      rw [ho, if_neg (by simp), Bool.and_eq_true, decide_eq_true_eq, decide_eq_true_eq]
      unfold Pt.dot Pt.normSq
      simp only [Pt.sub_x, Pt.sub_y]
      rw [ox, oy]
      have := mul_self_nonneg ((pos e.v2).x - (pos e.v1).x)
      have := mul_self_nonneg ((pos e.v2).y - (pos e.v1).y)
      constructor <;> nlinarith
  rw [this]; rfl

example : isInside 0 0 (1 / 2 ^ 52) (1 / 2 ^ 52) usq usqEdges ⟨1 / 2, 0⟩ = true := by decide +kernel

/-! ## C26 -/

theorem area2_turn (p q r : Pt K) : area2 p q r = turn p q r := by
  unfold area2 turn; ring

theorem inSegment_near {eps : K} {p q r : Pt K} (h : inSegment eps p q r = true) :
    NearOpenSeg eps p q r := by
  unfold inSegment at h
  split_ifs at h with h1
  rw [not_not, orientation_CL_iff] at h1
  rw [Bool.and_eq_true, decide_eq_true_eq, decide_eq_true_eq] at h
  unfold Pt.dot Pt.normSq at h
  simp only [Pt.sub_x, Pt.sub_y] at h
  refine ⟨?_, h.1, ?_⟩
  · rw [← area2_turn]; rw [pow_two]; exact h1
  · rw [pow_two, pow_two]; exact h.2

theorem intersection_meet {eps : K} (he : 0 < eps) {p1 q1 p2 q2 : Pt K}
    (h : lineLineIntersection eps p1 q1 p2 q2 = true) : SegmentsMeet eps p1 q1 p2 q2 := by
  rw [lineLineIntersection_eq] at h
  simp only [Bool.or_eq_true] at h
  rcases h with (((h | h) | h) | h) | h
  · left
    apply (C12_crossing_iff eps he p1 q1 p2 q2).1
    unfold lineLineCrossing; exact h
  · exact Or.inr (Or.inl (inSegment_near h))
  · exact Or.inr (Or.inr (Or.inl (inSegment_near h)))
  · exact Or.inr (Or.inr (Or.inr (Or.inl (inSegment_near h))))
  · exact Or.inr (Or.inr (Or.inr (Or.inr (inSegment_near h))))

theorem any_zipIdx {es : List BEdge} {p : BEdge × Nat → Bool} :
    es.zipIdx.any p = true ↔ ∃ i, ∃ h : i < es.length, p (es[i], i) = true := by
  rw [List.any_eq_true]
  constructor
  · rintro ⟨⟨e, i⟩, hm, hp⟩
    obtain ⟨h1, h2⟩ := List.mem_zipIdx' hm
    exact ⟨i, h1, by rw [← h2]; exact hp⟩
  · rintro ⟨i, h, hp⟩
    exact ⟨(es[i], i), List.mem_zipIdx_iff_getElem?.mpr (List.getElem?_eq_getElem h), hp⟩

/-- C26, no false alarm: if `intersects_self` reports an intersection, two different edges of the list
meet, and none is the chain neighbour of the other; same for two lists. -/
theorem C26_no_false_alarm_partial (eps : K) (he : 0 < eps) (pos : Nat → Pt K) :
    (∀ es, intersectsSelf eps pos es = true →
      ∃ i j, ∃ hi : i < es.length, ∃ hj : j < es.length, i ≠ j ∧
        nextIdx es i es[i] ≠ some j ∧ prevIdx es i es[i] ≠ some j ∧
        SegmentsMeet eps (pos (es[i]).v1) (pos (es[i]).v2) (pos (es[j]).v1) (pos (es[j]).v2)) ∧
    (∀ es fs, intersectsEdgelist eps pos es fs = true →
      ∃ e ∈ es, ∃ f ∈ fs, SegmentsMeet eps (pos e.v1) (pos e.v2) (pos f.v1) (pos f.v2)) := by
  constructor
  · intro es h
    unfold intersectsSelf at h
    obtain ⟨i, hi, h⟩ := any_zipIdx.mp h
    obtain ⟨j, hj, h⟩ := any_zipIdx.mp h
    simp only [Bool.and_eq_true, decide_eq_true_eq] at h
    obtain ⟨⟨⟨⟨_, h2⟩, h3⟩, h4⟩, h5⟩ := h
    exact ⟨i, j, hi, hj, fun hc => h2 hc.symm, h4, h3, intersection_meet he h5⟩
  · intro es fs h
    unfold intersectsEdgelist at h
    rw [List.any_eq_true] at h
    obtain ⟨e, h1, h⟩ := h
    rw [List.any_eq_true] at h
    obtain ⟨f, h2, h⟩ := h
    rw [Bool.and_eq_true] at h
    exact ⟨e, h1, f, h2, intersection_meet he h.2⟩

/-- a bow tie whose crossing edges are long -/
def bow (i : Nat) : Pt ℚ :=
  match i with
  | 0 => ⟨0, 0⟩ | 1 => ⟨10, 0⟩ | 2 => ⟨1, 3⟩ | 3 => ⟨1, -1⟩ | _ => ⟨9, 9⟩
def bowEdges : List BEdge := [⟨0, 1, 1, 1⟩, ⟨1, 2, 1, 1⟩, ⟨2, 3, 1, 1⟩, ⟨3, 0, 1, 1⟩]

/-- C26 (refuted, completeness): a closed loop two of whose opposite edges cross, not reported because
neither midpoint is in the bounding box of the other edge. -/
theorem C26_missed_violated : Loop bowEdges ∧
    OpenSegmentsMeet (bow 0) (bow 1) (bow 2) (bow 3) ∧
    lineLineIntersection (1 / 2 ^ 52) (bow 0) (bow 1) (bow 2) (bow 3) = true ∧
    intersectsSelf (1 / 2 ^ 52) bow bowEdges = false ∧
    intersectsEdgelist (1 / 2 ^ 52) bow [⟨0, 1, 1, 1⟩] [⟨2, 3, 1, 1⟩] = false := by
  refine ⟨by unfold Loop; decide, ⟨1 / 10, 3 / 4, ?_⟩, by decide +kernel, by decide +kernel,
    by decide +kernel⟩
  decide +kernel

/-- the test does detect a small bow tie -/
example : intersectsSelf (1 / 2 ^ 52) (fun i => if i = 0 then (⟨0, 0⟩ : Pt ℚ) else if i = 1 then ⟨2, 2⟩
    else if i = 2 then ⟨2, 0⟩ else ⟨0, 2⟩) bowEdges = true := by decide +kernel

end TQ

#print axioms TQ.C23_inside_reorder
#print axioms TQ.C23_outside_box
#print axioms TQ.C24_left_side_violated
#print axioms TQ.C24_on_edge_partial
#print axioms TQ.C26_no_false_alarm_partial
#print axioms TQ.C26_missed_violated

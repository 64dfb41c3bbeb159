import Verif.Angles.Quad

/-!
# Properties of the measures of facets (C146 to C149)
-/

namespace TQ
namespace FG
open MS FGSpec EuclideanGeometry Real

/-! ### Helper lemmas on the largest and smallest entry -/

theorem vmax_spec (a : ℝ) (l : List ℝ) : vmax (a :: l) ∈ a :: l ∧ ∀ x ∈ a :: l, x ≤ vmax (a :: l) := by
  unfold vmax
  induction l generalizing a with
  | nil => simp
  | cons b l ih =>
    simp only [List.foldl_cons]
    obtain ⟨h1, h2⟩ := ih (if a < b then b else a)
    dsimp only at h1 h2
    constructor
    · rcases List.mem_cons.mp h1 with h | h
      · rw [h]
        split_ifs <;> simp
      · simp [h]
    · intro x hx
      have hb := h2 (if a < b then b else a) (by simp)
      rcases List.mem_cons.mp hx with rfl | hx
      · refine le_trans ?_ hb
        split_ifs with hc
        · exact le_of_lt hc
        · exact le_refl _
      · rcases List.mem_cons.mp hx with rfl | hx
        · refine le_trans ?_ hb
          split_ifs with hc
          · exact le_refl _
          · exact not_lt.mp hc
        · exact h2 x (by simp [hx])

theorem vmin_spec (a : ℝ) (l : List ℝ) : vmin (a :: l) ∈ a :: l ∧ ∀ x ∈ a :: l, vmin (a :: l) ≤ x := by
  unfold vmin
  induction l generalizing a with
  | nil => simp
  | cons b l ih =>
    simp only [List.foldl_cons]
    obtain ⟨h1, h2⟩ := ih (if b < a then b else a)
    dsimp only at h1 h2
    constructor
    · rcases List.mem_cons.mp h1 with h | h
      · rw [h]
        split_ifs <;> simp
      · simp [h]
    · intro x hx
      have hb := h2 (if b < a then b else a) (by simp)
      rcases List.mem_cons.mp hx with rfl | hx
      · refine le_trans hb ?_
        split_ifs with hc
        · exact le_of_lt hc
        · exact le_refl _
      · rcases List.mem_cons.mp hx with rfl | hx
        · refine le_trans hb ?_
          split_ifs with hc
          · exact le_refl _
          · exact not_lt.mp hc
        · exact h2 x (by simp [hx])

/-! ### C146: the angles of a triangle -/

/-- **C146.** The angles stored for a counter-clockwise triangle are its interior angles in the order of its
corners; each lies strictly between 0 and π, they sum to π, and the smallest and the largest stored angle are
attained and enclose π/3. -/
theorem _root_.TQ.C146_triangle_angles {p q r : Pt ℝ} (h : Ccw p q r) :
    (triMetrics p q r).angles = [interior r p q, interior p q r, interior q r p] ∧
    (∀ a ∈ (triMetrics p q r).angles, 0 < a ∧ a < π) ∧
    (triMetrics p q r).angles.sum = π ∧
    vmax (triMetrics p q r).angles ∈ (triMetrics p q r).angles ∧
    vmin (triMetrics p q r).angles ∈ (triMetrics p q r).angles ∧
    vmin (triMetrics p q r).angles ≤ π / 3 ∧ π / 3 ≤ vmax (triMetrics p q r).angles := by
  have e : (triMetrics p q r).angles = [ang q p r, ang p q r, ang p r q] := triAngles_eq p q r
  have c1 := ccw_convex (ccw_rot (ccw_rot h))
  have c2 := ccw_convex h
  have c3 := ccw_convex (ccw_rot h)
  have k1 : Pt.cross (q - p) (r - p) ≠ 0 := ne_of_gt h
  have k2 : Pt.cross (r - q) (p - q) ≠ 0 := ne_of_gt (ccw_rot h)
  have k3 : Pt.cross (p - r) (q - r) ≠ 0 := ne_of_gt (ccw_rot (ccw_rot h))
  have hsum : ang q p r + (ang p q r + ang p r q) = π := by
    have := tri_sum r (ccw_ne h).1.symm
    rw [ang_comm q r p, ang_comm r p q] at this
    linarith
  have hm := vmax_spec (ang q p r) [ang p q r, ang p r q]
  have hn := vmin_spec (ang q p r) [ang p q r, ang p r q]
  rw [e]
  refine ⟨?_, ?_, ?_, hm.1, hn.1, ?_, ?_⟩
  · rw [interior_convex c1, interior_convex c2, interior_convex c3, ang_comm r p q, ang_comm q r p]
  · intro a ha
    simp only [List.mem_cons, List.not_mem_nil, or_false] at ha
    rcases ha with rfl | rfl | rfl
    · rw [ang_comm]
      exact ang_pos k1
    · exact ang_pos k2
    · rw [ang_comm]
      exact ang_pos k3
  · simpa using hsum
  · have a1 := hn.2 _ (List.mem_cons_self)
    have a2 := hn.2 (ang p q r) (by simp)
    have a3 := hn.2 (ang p r q) (by simp)
    linarith
  · have a1 := hm.2 _ (List.mem_cons_self)
    have a2 := hm.2 (ang p q r) (by simp)
    have a3 := hm.2 (ang p r q) (by simp)
    linarith

/-- A right triangle. -/
example : Ccw ⟨0, 0⟩ ⟨1, 0⟩ ⟨0, 1⟩ := by norm_num [Ccw, Pt.cross]

/-! ### C147: the angles of a quad -/

/-- **C147 (partial).** For every simple quad listed counter-clockwise the interior angles sum to a full turn; the
stored angles are at most the interior ones, with equality exactly at the corners that are not re-entrant; their
sum is `2π` iff the quad has no re-entrant corner, and only then is every stored angle right.  Missing: the
angle of a re-entrant corner (see `C147_reentrant_violated`). -/
theorem _root_.TQ.C147_quad_angles_partial {p q r s : Pt ℝ} (h : Simple4 p q r s) :
    ∃ a b c d, (quadMetrics p q r s).angles = [a, b, c, d] ∧
      interior s p q + interior p q r + interior q r s + interior r s p = 2 * π ∧
      (a ≤ interior s p q ∧ (a = interior s p q ↔ ¬ Reflex s p q)) ∧
      (b ≤ interior p q r ∧ (b = interior p q r ↔ ¬ Reflex p q r)) ∧
      (c ≤ interior q r s ∧ (c = interior q r s ↔ ¬ Reflex q r s)) ∧
      (d ≤ interior r s p ∧ (d = interior r s p ↔ ¬ Reflex r s p)) ∧
      (a + b + c + d = 2 * π ↔ ¬ Reflex s p q ∧ ¬ Reflex p q r ∧ ¬ Reflex q r s ∧ ¬ Reflex r s p) := by
  have e : (quadMetrics p q r s).angles = [ang q p s, ang p q r, ang s r q, ang r s p] := quadAngles_eq p q r s
  have hs : interior s p q + interior p q r + interior q r s + interior r s p = 2 * π := simple_sum h
  have h1 := reported_le s p q
  have h2 := reported_le p q r
  have h3 := reported_le q r s
  have h4 := reported_le r s p
  rw [ang_comm s p q] at h1
  rw [ang_comm q r s] at h3
  refine ⟨_, _, _, _, e, hs, h1, h2, h3, h4, ?_⟩
  rw [← h1.2, ← h2.2, ← h3.2, ← h4.2]
  constructor
  · intro hsum
    have a1 := h1.1
    have a2 := h2.1
    have a3 := h3.1
    have a4 := h4.1
    refine ⟨?_, ?_, ?_, ?_⟩ <;> linarith
  · rintro ⟨a1, a2, a3, a4⟩
    rw [a1, a2, a3, a4, hs]

/-- A trapezium meets the hypothesis. -/
example : Simple4 ⟨0, 0⟩ ⟨3, 0⟩ ⟨2, 1⟩ ⟨0, 1⟩ := by
  left
  constructor <;> norm_num [Ccw, Pt.cross]

/-- **C147.** No stored angle of a quad (or triangle) exceeds π, whatever the corners are: the exported
`max_angle` never exceeds 180 degrees. -/
theorem _root_.TQ.C147_bounded (p q r s : Pt ℝ) : vmax (quadMetrics p q r s).angles ≤ π ∧ vmax (triMetrics p q r).angles ≤ π := by
  constructor
  · have e : (quadMetrics p q r s).angles = [ang q p s, ang p q r, ang s r q, ang r s p] := quadAngles_eq p q r s
    rw [e]
    have hm := (vmax_spec (ang q p s) [ang p q r, ang s r q, ang r s p]).1
    simp only [List.mem_cons, List.not_mem_nil, or_false] at hm
    rcases hm with hm | hm | hm | hm <;> rw [hm] <;> exact EuclideanGeometry.angle_le_pi _ _ _
  · have e : (triMetrics p q r).angles = [ang q p r, ang p q r, ang p r q] := triAngles_eq p q r
    rw [e]
    have hm := (vmax_spec (ang q p r) [ang p q r, ang p r q]).1
    simp only [List.mem_cons, List.not_mem_nil, or_false] at hm
    rcases hm with hm | hm | hm <;> rw [hm] <;> exact EuclideanGeometry.angle_le_pi _ _ _

/-- The arrow head with corners `(-2,0) (1,-1) (0,0) (1,1)`. -/
def arrow : Pt ℝ × Pt ℝ × Pt ℝ × Pt ℝ := (⟨-2, 0⟩, ⟨1, -1⟩, ⟨0, 0⟩, ⟨1, 1⟩)

theorem arrow_simple : Simple4 arrow.1 arrow.2.1 arrow.2.2.1 arrow.2.2.2 := by
  left
  constructor <;> norm_num [Ccw, Pt.cross, arrow]

theorem arrow_reflex : Reflex arrow.2.1 arrow.2.2.1 arrow.2.2.2 := by norm_num [Reflex, Pt.cross, arrow]

theorem arrow_ang : ang arrow.2.1 arrow.2.2.1 arrow.2.2.2 = π / 2 := by
  rw [ang_eq]
  have : Pt.dot (arrow.2.1 - arrow.2.2.1) (arrow.2.2.2 - arrow.2.2.1) = 0 := by norm_num [Pt.dot, arrow]
  rw [this, zero_div, Real.arccos_zero]

/-- **C147 (violated).** The arrow head is accepted as valid and has an interior angle of 270 degrees, but the
largest angle stored for it (and exported) is 90 degrees, like that of a square. -/
theorem _root_.TQ.C147_reentrant_violated :
    ∃ p q r s, isValid (quadMetrics p q r s) = true ∧ Simple4 p q r s ∧ interior q r s = 3 * π / 2 ∧
      vmax (quadMetrics p q r s).angles = π / 2 := by
  refine ⟨arrow.1, arrow.2.1, arrow.2.2.1, arrow.2.2.2, ?_, arrow_simple, ?_, ?_⟩
  · unfold isValid
    have hA : ¬ (quadMetrics arrow.1 arrow.2.1 arrow.2.2.1 arrow.2.2.2).area ≤ 0 := by
      unfold quadMetrics St.quadArea
      norm_num [Pt.cross, arrow]
    have hl : ¬ ∃ l ∈ (quadMetrics arrow.1 arrow.2.1 arrow.2.2.1 arrow.2.2.2).lengths, l ≤ 0 := by
      rintro ⟨l, hl, h0⟩
      have : 0 < l := by
        unfold quadMetrics len at hl
        simp only [List.mem_cons, List.not_mem_nil, or_false] at hl
        rcases hl with rfl | rfl | rfl | rfl <;> refine Real.sqrt_pos.mpr ?_ <;> norm_num [Pt.normSq, arrow]
      linarith
    rw [if_neg hA, if_neg hl]
  · rw [interior_reflex arrow_reflex, arrow_ang]
    ring
  · have e : (quadMetrics arrow.1 arrow.2.1 arrow.2.2.1 arrow.2.2.2).angles =
        [ang arrow.2.1 arrow.1 arrow.2.2.2, ang arrow.1 arrow.2.1 arrow.2.2.1,
         ang arrow.2.2.2 arrow.2.2.1 arrow.2.1, ang arrow.2.2.1 arrow.2.2.2 arrow.1] := quadAngles_eq _ _ _ _
    have hr : ang arrow.2.2.2 arrow.2.2.1 arrow.2.1 = π / 2 := by rw [ang_comm, arrow_ang]
    have small : ∀ a b c : Pt ℝ, 0 ≤ Pt.dot (a - b) (c - b) → ang a b c ≤ π / 2 := by
      intro a b c h
      rw [ang_eq, Real.arccos_le_pi_div_two]
      refine div_nonneg h (mul_nonneg (Real.sqrt_nonneg _) (Real.sqrt_nonneg _))
    rw [e]
    have hm := vmax_spec (ang arrow.2.1 arrow.1 arrow.2.2.2) [ang arrow.1 arrow.2.1 arrow.2.2.1,
         ang arrow.2.2.2 arrow.2.2.1 arrow.2.1, ang arrow.2.2.1 arrow.2.2.2 arrow.1]
    apply le_antisymm
    · have h1 := hm.1
      simp only [List.mem_cons, List.not_mem_nil, or_false] at h1
      rcases h1 with h1 | h1 | h1 | h1 <;> rw [h1] <;> apply small <;> norm_num [Pt.dot, arrow]
    · have := hm.2 (ang arrow.2.2.2 arrow.2.2.1 arrow.2.1) (by simp)
      exact le_trans (le_of_eq hr.symm) this

/-! ### C148: shape factor and quality of a quad -/

theorem len_sq (p q : Pt ℝ) : len p q * len p q = Pt.normSq (q - p) := by
  unfold len
  exact Real.mul_self_sqrt (by unfold Pt.normSq; nlinarith [mul_self_nonneg (q - p).x, mul_self_nonneg (q - p).y])

/-- The sum of the squared sides of a quad exceeds four times its area by two squares. -/
theorem sides_area (p q r s : Pt ℝ) :
    len p q * len p q + (len q r * len q r + (len r s * len r s + len s p * len s p)) =
      4 * St.quadArea p q r s +
      (((r - q).x + (q - p).y) ^ 2 + ((r - q).y - (q - p).x) ^ 2) +
      (((p - s).x + (s - r).y) ^ 2 + ((p - s).y - (s - r).x) ^ 2) := by
  rw [len_sq, len_sq, len_sq, len_sq]
  unfold Pt.normSq St.quadArea Pt.cross
  simp only [Pt.sub_x, Pt.sub_y]
  ring

theorem square_iff (p q r s : Pt ℝ) :
    Square p q r s ↔ (((r - q).x + (q - p).y) ^ 2 + ((r - q).y - (q - p).x) ^ 2) +
      (((p - s).x + (s - r).y) ^ 2 + ((p - s).y - (s - r).x) ^ 2) = 0 := by
  constructor
  · rintro ⟨h1, h2, h3⟩
    have a1 := congrArg Pt.x h1
    have a2 := congrArg Pt.y h1
    have a3 := congrArg Pt.x h3
    have a4 := congrArg Pt.y h3
    simp only at a1 a2 a3 a4
    rw [a1, a2, a3, a4]
    ring
  · intro h
    have b1 : (r - q).x + (q - p).y = 0 := by
      nlinarith [sq_nonneg ((r - q).x + (q - p).y), sq_nonneg ((r - q).y - (q - p).x),
        sq_nonneg ((p - s).x + (s - r).y), sq_nonneg ((p - s).y - (s - r).x)]
    have b2 : (r - q).y - (q - p).x = 0 := by
      nlinarith [sq_nonneg ((r - q).x + (q - p).y), sq_nonneg ((r - q).y - (q - p).x),
        sq_nonneg ((p - s).x + (s - r).y), sq_nonneg ((p - s).y - (s - r).x)]
    have b3 : (p - s).x + (s - r).y = 0 := by
      nlinarith [sq_nonneg ((r - q).x + (q - p).y), sq_nonneg ((r - q).y - (q - p).x),
        sq_nonneg ((p - s).x + (s - r).y), sq_nonneg ((p - s).y - (s - r).x)]
    have b4 : (p - s).y - (s - r).x = 0 := by
      nlinarith [sq_nonneg ((r - q).x + (q - p).y), sq_nonneg ((r - q).y - (q - p).x),
        sq_nonneg ((p - s).x + (s - r).y), sq_nonneg ((p - s).y - (s - r).x)]
    simp only [Pt.sub_x, Pt.sub_y] at b1 b2 b3 b4
    refine ⟨?_, ?_, ?_⟩ <;> apply Pt.ext' <;> simp only [Pt.sub_x, Pt.sub_y] <;> linarith

theorem normFactor_pos : 0 < normFactor := by unfold normFactor; norm_num
theorem normFactor_lt : normFactor / 4 < 867 / 1000 := by unfold normFactor; norm_num

theorem ratio_le {l h : ℝ} (hl : 0 < l) (hh : 0 < h) :
    0 < (if l / h < h / l then l / h else h / l) ∧ (if l / h < h / l then l / h else h / l) ≤ 1 := by
  have h1 : 0 < l / h := div_pos hl hh
  have h2 : 0 < h / l := div_pos hh hl
  split_ifs with hc
  · refine ⟨h1, ?_⟩
    rcases le_total l h with h3 | h3
    · exact (div_le_one hh).mpr h3
    · exact le_trans (le_of_lt hc) ((div_le_one hl).mpr h3)
  · refine ⟨h2, ?_⟩
    rcases le_total l h with h3 | h3
    · exact le_trans (not_lt.mp hc) ((div_le_one hh).mpr h3)
    · exact (div_le_one hl).mpr h3

theorem quality_le {h : ℝ} (hh : 0 < h) (l : List ℝ) (hl : ∀ x ∈ l, 0 < x) (c : ℝ) (hc : 0 < c) :
    0 < quality l c h ∧ quality l c h ≤ c := by
  unfold quality
  induction l generalizing c with
  | nil => exact ⟨hc, le_refl _⟩
  | cons a l ih =>
    simp only [List.foldl_cons]
    have hr := ratio_le (hl a (by simp)) hh
    obtain ⟨h1, h2⟩ := ih (fun x hx => hl x (by simp [hx])) (c * (if a / h < h / a then a / h else h / a))
      (mul_pos hc hr.1)
    refine ⟨h1, le_trans h2 ?_⟩
    nlinarith [hr.2]

theorem len_pos {p q : Pt ℝ} (h : p ≠ q) : 0 < len p q := by
  unfold len
  refine Real.sqrt_pos.mpr ?_
  unfold Pt.normSq
  by_contra hc
  apply h
  have hx : (q - p).x = 0 := by nlinarith [mul_self_nonneg (q - p).x, mul_self_nonneg (q - p).y]
  have hy : (q - p).y = 0 := by nlinarith [mul_self_nonneg (q - p).x, mul_self_nonneg (q - p).y]
  simp only [Pt.sub_x, Pt.sub_y] at hx hy
  apply Pt.ext' <;> linarith

/-- **C148 (partial).** A quad of positive area with four proper sides has a shape factor in `(0, c/4]`, where
`c = 3.464…` is the factor of the code; the bound is attained exactly by the squares; the quality for any mesh
size lies in `(0, shape factor]`.  Missing: the documented best value 1 (see `C148_best_violated`). -/
theorem _root_.TQ.C148_quad_shape_partial {p q r s : Pt ℝ} (hA : 0 < St.quadArea p q r s)
    (h1 : p ≠ q) (h2 : q ≠ r) (h3 : r ≠ s) (h4 : s ≠ p) :
    0 < (quadMetrics p q r s).shape ∧ (quadMetrics p q r s).shape ≤ normFactor / 4 ∧
    ((quadMetrics p q r s).shape = normFactor / 4 ↔ Square p q r s) ∧
    ∀ h, 0 < h → 0 < quality (quadMetrics p q r s).lengths (quadMetrics p q r s).shape h ∧
      quality (quadMetrics p q r s).lengths (quadMetrics p q r s).shape h ≤ (quadMetrics p q r s).shape := by
  have hS := sides_area p q r s
  obtain ⟨D, eD⟩ : ∃ D, D = (((r - q).x + (q - p).y) ^ 2 + ((r - q).y - (q - p).x) ^ 2) +
      (((p - s).x + (s - r).y) ^ 2 + ((p - s).y - (s - r).x) ^ 2) := ⟨_, rfl⟩
  have hD : 0 ≤ D := by rw [eD]; positivity
  obtain ⟨S, eS⟩ : ∃ S, S = len p q * len p q + (len q r * len q r + (len r s * len r s + len s p * len s p)) :=
    ⟨_, rfl⟩
  rw [← eS, add_assoc, ← eD] at hS
  have hSpos : 0 < S := by rw [hS]; linarith
  have hshape : (quadMetrics p q r s).shape = normFactor * St.quadArea p q r s / S := by
    unfold quadMetrics shapeFactor
    simp only [List.map_cons, List.map_nil, List.sum_cons, List.sum_nil, add_zero]
    rw [← eS, if_pos hSpos]
  have hpos : 0 < (quadMetrics p q r s).shape := by
    rw [hshape]
    exact div_pos (mul_pos normFactor_pos hA) hSpos
  refine ⟨hpos, ?_, ?_, ?_⟩
  · rw [hshape, div_le_iff₀ hSpos, hS]
    nlinarith [normFactor_pos, mul_nonneg (le_of_lt normFactor_pos) hD]
  · rw [square_iff, ← eD, hshape, div_eq_iff (ne_of_gt hSpos), hS]
    constructor
    · intro h
      have : normFactor * D = 0 := by linarith
      exact (mul_eq_zero.mp this).resolve_left (ne_of_gt normFactor_pos)
    · intro h
      rw [h]
      ring
  · intro h hh
    refine quality_le hh _ ?_ _ hpos
    intro x hx
    unfold quadMetrics at hx
    simp only [List.mem_cons, List.not_mem_nil, or_false] at hx
    rcases hx with rfl | rfl | rfl | rfl
    · exact len_pos h1
    · exact len_pos h2
    · exact len_pos h3
    · exact len_pos h4

/-- The unit square. -/
example : 0 < St.quadArea (⟨0, 0⟩ : Pt ℝ) ⟨1, 0⟩ ⟨1, 1⟩ ⟨0, 1⟩ ∧ Square ⟨0, 0⟩ ⟨1, 0⟩ ⟨1, 1⟩ ⟨0, 1⟩ := by
  refine ⟨by norm_num [St.quadArea, Pt.cross], ?_, ?_, ?_⟩ <;> apply Pt.ext' <;> norm_num

/-- **C148 (violated).** The comment promises the value 1 for the best element; no quad of positive area, not
even a square of exactly the wanted size, has a shape factor or quality of 0.867 or more. -/
theorem _root_.TQ.C148_best_violated {p q r s : Pt ℝ} (hA : 0 < St.quadArea p q r s)
    (h1 : p ≠ q) (h2 : q ≠ r) (h3 : r ≠ s) (h4 : s ≠ p) :
    (quadMetrics p q r s).shape < 867 / 1000 ∧
    ∀ h, 0 < h → quality (quadMetrics p q r s).lengths (quadMetrics p q r s).shape h < 867 / 1000 := by
  obtain ⟨_, b, _, d⟩ := TQ.C148_quad_shape_partial hA h1 h2 h3 h4
  have := normFactor_lt
  refine ⟨by linarith, fun h hh => ?_⟩
  have := (d h hh).2
  linarith

/-! ### C149: the validity of a quad -/

/-- **C149 (partial).** `is_valid` accepts exactly the quads with positive signed area and four proper sides; every
simple quad listed counter-clockwise passes, none listed clockwise does.  Missing: a valid quad is simple (see
`C149_bowtie_violated`). -/
theorem _root_.TQ.C149_quad_valid_partial (p q r s : Pt ℝ) :
    (isValid (quadMetrics p q r s) = true ↔ 0 < St.quadArea p q r s ∧ p ≠ q ∧ q ≠ r ∧ r ≠ s ∧ s ≠ p) ∧
    (Simple4 p q r s → isValid (quadMetrics p q r s) = true) ∧
    (Simple4 s r q p → isValid (quadMetrics p q r s) = false) := by
  have key : isValid (quadMetrics p q r s) = true ↔ 0 < St.quadArea p q r s ∧ p ≠ q ∧ q ≠ r ∧ r ≠ s ∧ s ≠ p := by
    unfold isValid
    have z : ∀ a : Pt ℝ, len a a = 0 := by
      intro a
      unfold len Pt.normSq
      simp
    split_ifs with c1 c2
    · simp only [Bool.false_eq_true, false_iff]
      intro hh
      have : 0 < (quadMetrics p q r s).area := hh.1
      linarith
    · simp only [Bool.false_eq_true, false_iff]
      rintro ⟨_, h1, h2, h3, h4⟩
      obtain ⟨l, hl, h0⟩ := c2
      unfold quadMetrics at hl
      simp only [List.mem_cons, List.not_mem_nil, or_false] at hl
      rcases hl with rfl | rfl | rfl | rfl
      · exact absurd (len_pos h1) (not_lt.mpr h0)
      · exact absurd (len_pos h2) (not_lt.mpr h0)
      · exact absurd (len_pos h3) (not_lt.mpr h0)
      · exact absurd (len_pos h4) (not_lt.mpr h0)
    · simp only [true_iff]
      refine ⟨not_le.mp c1, ?_, ?_, ?_, ?_⟩
      · intro e
        exact c2 ⟨len p q, by simp [quadMetrics], by rw [e, z]⟩
      · intro e
        exact c2 ⟨len q r, by simp [quadMetrics], by rw [e, z]⟩
      · intro e
        exact c2 ⟨len r s, by simp [quadMetrics], by rw [e, z]⟩
      · intro e
        exact c2 ⟨len s p, by simp [quadMetrics], by rw [e, z]⟩
  refine ⟨key, ?_, ?_⟩
  · intro h
    rw [key]
    rcases h with ⟨a, b⟩ | ⟨a, b⟩
    · refine ⟨?_, (ccw_ne a).1, (ccw_ne a).2.1, (ccw_ne b).2.1, (ccw_ne b).2.2⟩
      unfold Ccw at a b
      unfold St.quadArea
      linarith
    · refine ⟨?_, (ccw_ne b).2.2, (ccw_ne a).1, (ccw_ne a).2.1, (ccw_ne b).2.1⟩
      unfold Ccw Pt.cross at a b
      unfold St.quadArea Pt.cross
      simp only [Pt.sub_x, Pt.sub_y] at a b ⊢
      linarith
  · intro h
    by_contra hc
    have hc' : isValid (quadMetrics p q r s) = true := by simpa using hc
    have hA := (key.mp hc').1
    rcases h with ⟨a, b⟩ | ⟨a, b⟩
    all_goals
      unfold Ccw Pt.cross at a b
      unfold St.quadArea Pt.cross at hA
      simp only [Pt.sub_x, Pt.sub_y] at a b hA
      linarith

example : Simple4 ⟨0, 0⟩ ⟨2, 0⟩ ⟨2, 1⟩ ⟨0, 1⟩ := by
  left
  constructor <;> norm_num [Ccw, Pt.cross]

/-- **C149 (violated).** The crossed quad `(0,0) (4,0) (0,1) (3,3)` passes `is_valid`, although its second and
fourth side cross in an interior point and neither diagonal splits it into counter-clockwise triangles. -/
theorem _root_.TQ.C149_bowtie_violated :
    ∃ p q r s : Pt ℝ, isValid (quadMetrics p q r s) = true ∧ ¬ Simple4 p q r s ∧
      ∃ t u : ℝ, 0 < t ∧ t < 1 ∧ 0 < u ∧ u < 1 ∧ q + Pt.smul t (r - q) = s + Pt.smul u (p - s) := by
  refine ⟨⟨0, 0⟩, ⟨4, 0⟩, ⟨0, 1⟩, ⟨3, 3⟩, ?_, ?_, 4 / 5, 11 / 15, ?_⟩
  · rw [(TQ.C149_quad_valid_partial _ _ _ _).1]
    norm_num [St.quadArea, Pt.cross]
  · rintro (⟨a, b⟩ | ⟨a, b⟩)
    · norm_num [Ccw, Pt.cross] at b
    · norm_num [Ccw, Pt.cross] at a
  · refine ⟨by norm_num, by norm_num, by norm_num, by norm_num, ?_⟩
    apply Pt.ext' <;> norm_num

/-- **C149.** The circle of a quad around the mean of its corners encloses all corners and passes through one. -/
theorem _root_.TQ.C149_circle (p q r s : Pt ℝ) :
    (∀ c ∈ [p, q, r, s], len c (St.quadCentroid p q r s) ≤ quadRadius p q r s) ∧
    ∃ c ∈ [p, q, r, s], len c (St.quadCentroid p q r s) = quadRadius p q r s := by
  have hm := vmax_spec (len p (St.quadCentroid p q r s)) [len q (St.quadCentroid p q r s),
    len r (St.quadCentroid p q r s), len s (St.quadCentroid p q r s)]
  constructor
  · intro c hc
    refine hm.2 _ ?_
    simp only [List.mem_cons, List.not_mem_nil, or_false] at hc ⊢
    rcases hc with rfl | rfl | rfl | rfl <;> simp
  · have h1 := hm.1
    simp only [List.mem_cons, List.not_mem_nil, or_false] at h1
    rcases h1 with h | h | h | h
    · exact ⟨p, by simp, h.symm⟩
    · exact ⟨q, by simp, h.symm⟩
    · exact ⟨r, by simp, h.symm⟩
    · exact ⟨s, by simp, h.symm⟩

end FG
end TQ

#print axioms TQ.C146_triangle_angles
#print axioms TQ.C147_quad_angles_partial
#print axioms TQ.C147_bounded
#print axioms TQ.C147_reentrant_violated
#print axioms TQ.C148_quad_shape_partial
#print axioms TQ.C148_best_violated
#print axioms TQ.C149_quad_valid_partial
#print axioms TQ.C149_bowtie_violated
#print axioms TQ.C149_circle

import Verif.FrontUpdate.Region
import Verif.FrontUpdate.Best
import Verif.Geometry.Props

/-! # Lemmas: the checks of a new triangle keep it apart from the front -/

set_option linter.unusedSectionVars false

namespace TQ.FU
open TQ.MS TQ.MeshSpec TQ.FUSpec TQ.MS.St TQ.GeoSpec
variable {K : Type*} [Field K] [LinearOrder K] [IsStrictOrderedRing K]

theorem area2_side (p q r : Pt K) : area2 p q r = side p q r := by unfold area2 side; ring

/-- `orientation` is exact for these three points. -/
def Exact (eps : K) (p q r : Pt K) : Prop := side p q r * side p q r < eps → side p q r = 0

theorem exact_ccw {eps : K} {p q r : Pt K} (h : Exact eps p q r) (hs : 0 < side p q r) : orientation eps p q r = .CCW := by
  rw [orientation_CCW_iff, area2_side]
  exact ⟨not_lt.mp fun hh => absurd (h hh) (ne_of_gt hs), hs⟩

theorem exact_cw {eps : K} {p q r : Pt K} (h : Exact eps p q r) (hs : side p q r < 0) : orientation eps p q r = .CW := by
  rw [orientation_CW_iff, area2_side]
  exact ⟨not_lt.mp fun hh => absurd (h hh) (ne_of_lt hs), hs.le⟩

theorem zero_cl {eps : K} (he : 0 < eps) {p q r : Pt K} (hs : side p q r = 0) : orientation eps p q r = .CL := by
  rw [orientation_CL_iff, area2_side, hs]; simpa using he

theorem inSegment_of {eps : K} (he : 0 < eps) {p q : Pt K} (hpq : p ≠ q) {t : K} (h0 : 0 < t) (h1 : t < 1) :
    inSegment eps p q (onSeg p q t) = true := by
  have hs : side p q (onSeg p q t) = 0 := by rw [side_onSeg, side_self_left, side_self_right]; ring
  have hL := normSq_pos' hpq
  unfold inSegment
  rw [if_neg (by rw [zero_cl he hs]; simp)]
  have e1 : Pt.dot (onSeg p q t - p) (q - p) = t * ((q.x - p.x) * (q.x - p.x) + (q.y - p.y) * (q.y - p.y)) := by
    unfold Pt.dot; simp only [Pt.sub_x, Pt.sub_y, onSeg_x, onSeg_y]; ring
  have e2 : Pt.normSq (q - p) = (q.x - p.x) * (q.x - p.x) + (q.y - p.y) * (q.y - p.y) := rfl
  rw [e1, e2]
  simp only [Bool.and_eq_true, decide_eq_true_eq]
  exact ⟨mul_pos h0 hL, by have := mul_lt_mul_of_pos_right h1 hL; linarith⟩

/-- A segment `x y` that leaves the triangle `p q r` through the side `p q` is reported. -/
theorem leaves_side {eps : K} (he : 0 < eps) {x y p q r z : Pt K} (hA : 0 < side p q r) {u : K} (u0 : 0 < u) (u1 : u < 1)
    (hz : z = onSeg x y u) (hy : side p q y < 0) (hz0 : side p q z = 0) (hz1 : 0 ≤ side q r z) (hz2 : 0 ≤ side r p z)
    (ex1 : Exact eps x y p) (ex2 : Exact eps x y q) (ex3 : Exact eps p q x) (ex4 : Exact eps p q y) :
    lineLineIntersection eps x y p q = true := by
  have hx : 0 < side p q x := by
    rw [hz, side_onSeg] at hz0
    have h1 := mul_neg_of_pos_of_neg u0 hy
    have h2 : 0 < (1 - u) * side p q x := by linarith
    exact (pos_iff_pos_of_mul_pos h2).mp (by linarith)
  have hxy : x ≠ y := by rintro rfl; linarith
  -- position of z on p q
  have hsum : side q r z + side r p z = side p q r := by
    have : side p q z + side q r z + side r p z = side p q r := by unfold side; ring
    linarith
  have hzpq : z = onSeg p q (side r p z / side p q r) := by
    apply Pt.ext'
    · rw [onSeg_x, div_mul_eq_mul_div, ← sub_eq_iff_eq_add', eq_div_iff (ne_of_gt hA)]
      unfold side at hz0 ⊢
      linear_combination (r.x - p.x) * hz0
    · rw [onSeg_y, div_mul_eq_mul_div, ← sub_eq_iff_eq_add', eq_div_iff (ne_of_gt hA)]
      unfold side at hz0 ⊢
      linear_combination (r.y - p.y) * hz0
  obtain ⟨t, ht⟩ : ∃ t, t = side r p z / side p q r := ⟨_, rfl⟩
  rw [← ht] at hzpq
  have t0 : 0 ≤ t := by rw [ht]; exact div_nonneg hz2 hA.le
  have t1 : t ≤ 1 := by rw [ht, div_le_one hA]; linarith
  have hin : inSegment eps x y z = true := by rw [hz]; exact inSegment_of he hxy u0 u1
  have hcl : side x y z = 0 := by rw [hz, side_onSeg, side_self_left, side_self_right]; ring
  rw [lineLineIntersection_eq]
  rcases eq_or_lt_of_le t0 with h0 | h0
  · have : z = p := by
      rw [hzpq, ← h0]; apply Pt.ext'
      · rw [onSeg_x]; ring
      · rw [onSeg_y]; ring
    rw [← this, hin]; simp
  rcases eq_or_lt_of_le t1 with h1 | h1
  · have : z = q := by
      rw [hzpq, h1]; apply Pt.ext'
      · rw [onSeg_x]; ring
      · rw [onSeg_y]; ring
    rw [← this, hin]; simp
  -- a proper crossing
  have hpqs : (1 - t) * side x y p + t * side x y q = 0 := by rw [← side_onSeg, ← hzpq]; exact hcl
  have hdiff : side x y q - side x y p = -(side p q y - side p q x) := by unfold side; ring
  have hop : opposite (orientation eps x y p) (orientation eps x y q) = true := by
    have hne : side x y p ≠ 0 := by
      intro h2
      rw [h2, mul_zero, zero_add] at hpqs
      rcases mul_eq_zero.mp hpqs with h3 | h3
      · linarith
      · rw [h2, h3] at hdiff; linarith
    rcases lt_or_gt_of_ne hne with h2 | h2
    · have h3 : 0 < side x y q := by
        have := mul_neg_of_pos_of_neg (by linarith : 0 < 1 - t) h2
        have h4 : 0 < t * side x y q := by linarith
        exact (pos_iff_pos_of_mul_pos h4).mp h0
      rw [exact_cw ex1 h2, exact_ccw ex2 h3]; rfl
    · have h3 : side x y q < 0 := by
        have := mul_pos (by linarith : 0 < 1 - t) h2
        have h4 : t * side x y q < 0 := by linarith
        by_contra h5
        have := mul_nonneg h0.le (not_lt.mp h5)
        linarith
      rw [exact_ccw ex1 h2, exact_cw ex2 h3]; rfl
  have hop2 : opposite (orientation eps p q x) (orientation eps p q y) = true := by
    rw [exact_ccw ex3 hx, exact_cw ex4 hy]; rfl
  rw [hop, hop2]; simp

/-- Where an affine function on a segment, nonnegative at its start and negative at its end, vanishes. -/
theorem vanish {a b : K} (ha : 0 ≤ a) (hb : b < 0) :
    ∃ t, 0 ≤ t ∧ t < 1 ∧ (1 - t) * a + t * b = 0 := by
  have hd : 0 < a - b := by linarith
  refine ⟨a / (a - b), div_nonneg ha hd.le, by rw [div_lt_one hd]; linarith, ?_⟩
  field_simp
  ring

theorem between {a b t u : K} (ha : 0 ≤ a) (h : 0 ≤ (1 - t) * a + t * b) (u0 : 0 ≤ u) (ut : u ≤ t) (t1 : t ≤ 1) :
    0 ≤ (1 - u) * a + u * b := by
  rcases eq_or_lt_of_le (u0.trans ut) with h0 | h0
  · have : u = 0 := by linarith
    subst this; linarith
  · rcases le_or_gt 0 b with hb | hb
    · have := mul_nonneg (by linarith : 0 ≤ 1 - u) ha
      have := mul_nonneg u0 hb
      linarith
    · have := mul_nonneg (by linarith : 0 ≤ t - u) (by linarith : 0 ≤ a - b)
      nlinarith

/-- The first of three affine functions to vanish. -/
theorem first_exit {a1 a2 a3 b1 b2 b3 : K} (h1 : 0 ≤ a1) (h2 : 0 ≤ a2) (h3 : 0 ≤ a3) (hb : ¬ (0 ≤ b1 ∧ 0 ≤ b2 ∧ 0 ≤ b3)) :
    ∃ t, 0 ≤ t ∧ t < 1 ∧ 0 ≤ (1 - t) * a1 + t * b1 ∧ 0 ≤ (1 - t) * a2 + t * b2 ∧ 0 ≤ (1 - t) * a3 + t * b3 ∧
      ((b1 < 0 ∧ (1 - t) * a1 + t * b1 = 0) ∨ (b2 < 0 ∧ (1 - t) * a2 + t * b2 = 0) ∨
        (b3 < 0 ∧ (1 - t) * a3 + t * b3 = 0)) := by
  -- two functions
  have two : ∀ {a1 a2 b1 b2 : K}, 0 ≤ a1 → 0 ≤ a2 → ¬ (0 ≤ b1 ∧ 0 ≤ b2) →
      ∃ t, 0 ≤ t ∧ t < 1 ∧ 0 ≤ (1 - t) * a1 + t * b1 ∧ 0 ≤ (1 - t) * a2 + t * b2 ∧
        ((b1 < 0 ∧ (1 - t) * a1 + t * b1 = 0) ∨ (b2 < 0 ∧ (1 - t) * a2 + t * b2 = 0)) := by
    intro a1 a2 b1 b2 h1 h2 hb
    rcases lt_or_ge b1 0 with n1 | n1
    · obtain ⟨t, t0, t1, ht⟩ := vanish h1 n1
      rcases le_or_gt 0 ((1 - t) * a2 + t * b2) with m | m
      · exact ⟨t, t0, t1, ht.ge, m, Or.inl ⟨n1, ht⟩⟩
      · have n2 : b2 < 0 := by
          by_contra hh
          have := mul_nonneg (by linarith : 0 ≤ 1 - t) h2
          have := mul_nonneg t0 (not_lt.mp hh)
          linarith
        obtain ⟨u, u0, u1, hu⟩ := vanish h2 n2
        have hut : u ≤ t := by
          by_contra hh
          have := between h2 hu.ge t0 (not_le.mp hh).le u1.le
          linarith
        exact ⟨u, u0, u1, between h1 ht.ge u0 hut t1.le, hu.ge, Or.inr ⟨n2, hu⟩⟩
    · have n2 : b2 < 0 := by
        by_contra hh; exact hb ⟨n1, not_lt.mp hh⟩
      obtain ⟨u, u0, u1, hu⟩ := vanish h2 n2
      refine ⟨u, u0, u1, ?_, hu.ge, Or.inr ⟨n2, hu⟩⟩
      have := mul_nonneg (by linarith : 0 ≤ 1 - u) h1
      have := mul_nonneg u0 n1
      linarith
  by_cases h12 : 0 ≤ b1 ∧ 0 ≤ b2
  · have n3 : b3 < 0 := by
      by_contra hh; exact hb ⟨h12.1, h12.2, not_lt.mp hh⟩
    obtain ⟨u, u0, u1, hu⟩ := vanish h3 n3
    have g : ∀ {a b : K}, 0 ≤ a → 0 ≤ b → 0 ≤ (1 - u) * a + u * b := by
      intro a b ha hb
      have := mul_nonneg (by linarith : 0 ≤ 1 - u) ha
      have := mul_nonneg u0 hb
      linarith
    exact ⟨u, u0, u1, g h1 h12.1, g h2 h12.2, hu.ge, Or.inr (Or.inr ⟨n3, hu⟩)⟩
  · obtain ⟨t, t0, t1, g1, g2, hd⟩ := two h1 h2 h12
    rcases le_or_gt 0 ((1 - t) * a3 + t * b3) with m | m
    · exact ⟨t, t0, t1, g1, g2, m, hd.elim Or.inl fun h => Or.inr (Or.inl h)⟩
    · have n3 : b3 < 0 := by
        by_contra hh
        have := mul_nonneg (by linarith : 0 ≤ 1 - t) h3
        have := mul_nonneg t0 (not_lt.mp hh)
        linarith
      obtain ⟨u, u0, u1, hu⟩ := vanish h3 n3
      have hut : u ≤ t := by
        by_contra hh
        have := between h3 hu.ge t0 (not_le.mp hh).le u1.le
        linarith
      exact ⟨u, u0, u1, between h1 g1 u0 hut t1.le, between h2 g2 u0 hut t1.le, hu.ge, Or.inr (Or.inr ⟨n3, hu⟩)⟩

/-- A segment that has a point other than `x` in the triangle and ends outside is reported. -/
theorem leaves_tri {eps : K} (he : 0 < eps) {x y a b c z : Pt K} (hA : 0 < side a b c) (hz : OnClosed x y z) (hzx : z ≠ x)
    (hin : InClosed z a b c) (hy : ¬ InClosed y a b c)
    (ex : ∀ p ∈ [x, y, a, b, c], ∀ q ∈ [x, y, a, b, c], ∀ r ∈ [x, y, a, b, c], Exact eps p q r) :
    lineTriIntersection eps x y a b c = true := by
  obtain ⟨w, w0, w1, rfl⟩ := hz
  have hw : 0 < w := by
    rcases eq_or_lt_of_le w0 with h | h
    · exfalso; apply hzx; rw [← h]; apply Pt.ext'
      · rw [onSeg_x]; ring
      · rw [onSeg_y]; ring
    · exact h
  have hw1 : w < 1 := by
    rcases eq_or_lt_of_le w1 with h | h
    · exfalso; apply hy
      have : onSeg x y w = y := by
        rw [h]; apply Pt.ext'
        · rw [onSeg_x]; ring
        · rw [onSeg_y]; ring
      rw [← this]; exact hin
    · exact h
  obtain ⟨t, t0, t1, g1, g2, g3, hd⟩ := first_exit hin.1 hin.2.1 hin.2.2 hy
  have hu0 : 0 < w + t * (1 - w) := by
    have := mul_nonneg t0 (by linarith : 0 ≤ 1 - w)
    linarith
  have hu1 : w + t * (1 - w) < 1 := by
    have := mul_lt_mul_of_pos_right t1 (by linarith : 0 < 1 - w)
    linarith
  have hpt : onSeg x y (w + t * (1 - w)) = onSeg (onSeg x y w) y t := by
    apply Pt.ext'
    · simp only [onSeg_x]; ring
    · simp only [onSeg_y]; ring
  rw [← side_onSeg, ← hpt] at g1 g2 g3
  rw [← side_onSeg, ← side_onSeg, ← side_onSeg, ← hpt] at hd
  have hA2 : 0 < side b c a := by rw [side_rot]; exact hA
  have hA3 : 0 < side c a b := by rw [side_rot, side_rot]; exact hA
  unfold lineTriIntersection
  rcases hd with ⟨n, hz⟩ | ⟨n, hz⟩ | ⟨n, hz⟩
  · rw [leaves_side he hA hu0 hu1 rfl n hz g2 g3 (ex _ (by simp) _ (by simp) _ (by simp)) (ex _ (by simp) _ (by simp) _ (by simp))
      (ex _ (by simp) _ (by simp) _ (by simp)) (ex _ (by simp) _ (by simp) _ (by simp))]; rfl
  · rw [leaves_side he hA2 hu0 hu1 rfl n hz g3 g1 (ex _ (by simp) _ (by simp) _ (by simp)) (ex _ (by simp) _ (by simp) _ (by simp))
      (ex _ (by simp) _ (by simp) _ (by simp)) (ex _ (by simp) _ (by simp) _ (by simp))]; simp
  · rw [leaves_side he hA3 hu0 hu1 rfl n hz g1 g2 (ex _ (by simp) _ (by simp) _ (by simp)) (ex _ (by simp) _ (by simp) _ (by simp))
      (ex _ (by simp) _ (by simp) _ (by simp)) (ex _ (by simp) _ (by simp) _ (by simp))]; simp

theorem lineTri_swap {eps : K} (he : 0 < eps) (x y a b c : Pt K) :
    lineTriIntersection eps y x a b c = lineTriIntersection eps x y a b c := by
  unfold lineTriIntersection
  rw [(C12_symmetric eps he x y a b).2.2.2.2.1, (C12_symmetric eps he x y b c).2.2.2.2.1,
    (C12_symmetric eps he x y c a).2.2.2.2.1]

/-- No vertex but the corners in an admissible triangle. -/
theorem valid_no_vertex {env : Env K} (he : 0 < env.eps) (hn : ∀ p, 0 ≤ env.norm p ∧ Pt.normSq p ≤ env.norm p * env.norm p)
    {s : St K} {b1 b2 v : Nat} (hv : ValidTriangle env s b1 b2 v) {w : Nat} (hw : w ∈ s.verts) (n1 : w ≠ b1) (n2 : w ≠ b2)
    (n3 : w ≠ v) : ¬ InClosed (s.pos w) (s.pos b1) (s.pos b2) (s.pos v) := by
  rintro ⟨d1, d2, d3⟩
  have hA : 0 < side (s.pos b1) (s.pos b2) (s.pos v) := by
    have := hv.area
    unfold GeoSpec.triArea at this
    unfold side
    linarith
  have hle : ∀ x y : Pt K, ∀ M, env.norm (y - x) ≤ M → Pt.normSq (y - x) ≤ M * M := by
    intro x y M hM
    obtain ⟨q1, q2⟩ := hn (y - x)
    exact le_trans q2 (mul_self_le_mul_self q1 hM)
  have hR := le_max_right (2 * env.rho (St.triCentroid (s.pos b1) (s.pos b2) (s.pos v)))
    (max (max (env.norm (s.pos b2 - s.pos b1)) (env.norm (s.pos v - s.pos b2))) (env.norm (s.pos b1 - s.pos v)))
  have hM : 0 < checkRange env (s.pos b1) (s.pos b2) (s.pos v) :=
    lt_of_lt_of_le (lt_of_lt_of_le hv.lengths.1 (le_trans (le_max_left _ _) (le_max_left _ _))) hR
  have hnear := inside_near hA d1 d2 d3 hM
    (hle _ _ _ (le_trans (le_trans (le_max_left _ _) (le_max_left _ _)) hR))
    (hle _ _ _ (le_trans (le_trans (le_max_right _ _) (le_max_left _ _)) hR))
    (hle _ _ _ (le_trans (le_max_right _ _) hR))
  have := hv.verts w hw n1 n2 n3 hnear
  rw [inOn_of_sides he d1 d2 d3] at this
  simp at this

/-- An admissible triangle meets the front only along sides and in corners. -/
theorem valid_free {env : Env K} (he : 0 < env.eps) (hn : ∀ p, 0 ≤ env.norm p ∧ Pt.normSq p ≤ env.norm p * env.norm p)
    {s : St K} {b1 b2 v : Nat} (hv : ValidTriangle env s b1 b2 v) (hres : Resolved env.eps s)
    (m1 : b1 ∈ s.verts) (m2 : b2 ∈ s.verts) (m3 : v ∈ s.verts)
    (hends : ∀ e ∈ s.es .front, (s.E e).v1 ∈ s.verts ∧ (s.E e).v2 ∈ s.verts ∧ (s.E e).v1 ≠ (s.E e).v2)
    (hreach : Reach env s.pos (pairs s .front) b1 b2 v) : Free s.pos (pairs s .front) b1 b2 v := by
  have hA : 0 < side (s.pos b1) (s.pos b2) (s.pos v) := by
    have := hv.area
    unfold GeoSpec.triArea at this
    unfold side
    linarith
  intro e hem
  obtain ⟨f, hf, rfl⟩ := List.mem_map.mp hem
  obtain ⟨mx, my, hne⟩ := hends f hf
  generalize hX : (s.E f).v1 = x at *
  generalize hY : (s.E f).v2 = y at *
  have hex : ∀ p ∈ [s.pos x, s.pos y, s.pos b1, s.pos b2, s.pos v], ∀ q ∈ [s.pos x, s.pos y, s.pos b1, s.pos b2, s.pos v],
      ∀ r ∈ [s.pos x, s.pos y, s.pos b1, s.pos b2, s.pos v], Exact env.eps p q r := by
    have hm : ∀ p ∈ [s.pos x, s.pos y, s.pos b1, s.pos b2, s.pos v], ∃ w ∈ s.verts, p = s.pos w := by
      intro p hp
      simp only [List.mem_cons, List.not_mem_nil, or_false] at hp
      rcases hp with rfl | rfl | rfl | rfl | rfl
      · exact ⟨x, mx, rfl⟩
      · exact ⟨y, my, rfl⟩
      · exact ⟨b1, m1, rfl⟩
      · exact ⟨b2, m2, rfl⟩
      · exact ⟨v, m3, rfl⟩
    intro p hp q hq r hr
    obtain ⟨p', hp', rfl⟩ := hm p hp
    obtain ⟨q', hq', rfl⟩ := hm q hq
    obtain ⟨r', hr', rfl⟩ := hm r hr
    exact hres _ hp' _ hq' _ hr'
  -- the check of the front edge
  have hchk : ∀ z, OnClosed (s.pos x) (s.pos y) z → InClosed z (s.pos b1) (s.pos b2) (s.pos v) →
      lineTriIntersection env.eps (s.pos x) (s.pos y) (s.pos b1) (s.pos b2) (s.pos v) = false := by
    intro z h1 h2
    have := hreach _ hem ⟨z, h1, h2⟩
    have h3 := hv.front f hf (by rw [hX, hY]; exact this)
    rw [hX, hY] at h3; exact h3
  -- both ends
  have toX : ¬ InClosed (s.pos y) (s.pos b1) (s.pos b2) (s.pos v) →
      ∀ z, OnClosed (s.pos x) (s.pos y) z → InClosed z (s.pos b1) (s.pos b2) (s.pos v) → z = s.pos x := by
    intro hy z h1 h2
    by_contra hne
    have := leaves_tri he hA h1 hne h2 hy hex
    rw [hchk z h1 h2] at this
    simp at this
  have toY : ¬ InClosed (s.pos x) (s.pos b1) (s.pos b2) (s.pos v) →
      ∀ z, OnClosed (s.pos x) (s.pos y) z → InClosed z (s.pos b1) (s.pos b2) (s.pos v) → z = s.pos y := by
    intro hx z h1 h2
    by_contra hne
    have hperm : ∀ p, p ∈ [s.pos y, s.pos x, s.pos b1, s.pos b2, s.pos v] → p ∈ [s.pos x, s.pos y, s.pos b1, s.pos b2, s.pos v] := by
      intro p hp
      simp only [List.mem_cons, List.not_mem_nil, or_false] at hp ⊢
      tauto
    have := leaves_tri he hA (onClosed_symm h1) hne h2 hx fun p hp q hq r hr => hex p (hperm p hp) q (hperm q hq) r (hperm r hr)
    rw [lineTri_swap he, hchk z h1 h2] at this
    simp at this
  have corner : ∀ w ∈ s.verts, InClosed (s.pos w) (s.pos b1) (s.pos b2) (s.pos v) → w = b1 ∨ w = b2 ∨ w = v := by
    intro w hw hin
    by_contra hh
    rw [not_or, not_or] at hh
    exact valid_no_vertex he hn hv hw hh.1 hh.2.1 hh.2.2 hin
  by_cases hx : x = b1 ∨ x = b2 ∨ x = v
  · by_cases hy : y = b1 ∨ y = b2 ∨ y = v
    · rcases hx with rfl | rfl | rfl <;> rcases hy with rfl | rfl | rfl
      · exact absurd rfl hne
      · exact Or.inl (Or.inl rfl)
      · exact Or.inr (Or.inr (Or.inl (Or.inr rfl)))
      · exact Or.inl (Or.inr rfl)
      · exact absurd rfl hne
      · exact Or.inr (Or.inl (Or.inl rfl))
      · exact Or.inr (Or.inr (Or.inl (Or.inl rfl)))
      · exact Or.inr (Or.inl (Or.inr rfl))
      · exact absurd rfl hne
    · right; right; right
      intro z h1 h2
      have hz := toX (fun hh => hy (corner y my hh)) z h1 h2
      refine ⟨Or.inl hz, ?_⟩
      rcases hx with rfl | rfl | rfl
      · exact Or.inl hz
      · exact Or.inr (Or.inl hz)
      · exact Or.inr (Or.inr hz)
  · right; right; right
    intro z h1 h2
    have hz := toY (fun hh => hx (corner x mx hh)) z h1 h2
    refine ⟨Or.inr hz, ?_⟩
    have h3 : InClosed (s.pos y) (s.pos b1) (s.pos b2) (s.pos v) := by
      have : z = s.pos y := hz
      rw [← this]; exact h2
    rcases corner y my h3 with rfl | rfl | rfl
    · exact Or.inl hz
    · exact Or.inr (Or.inl hz)
    · exact Or.inr (Or.inr hz)

end TQ.FU

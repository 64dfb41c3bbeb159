import Verif.FrontUpdate.Tiling
import Mathlib.Data.List.Perm.Basic
import Mathlib.Data.List.Count
import Mathlib.Tactic.FieldSimp
import Mathlib.Tactic.Positivity

/-! # Lemmas: winding numbers of closed chains

The winding number is the same at both ends of a segment that meets no edge of the chain, and it grows by
one when an edge is crossed from right to left. -/

set_option linter.unusedSectionVars false

namespace TQ.FU
open TQ.MS TQ.MeshSpec TQ.FUSpec TQ.MS.St TQ.GeoSpec
variable {K : Type*} [Field K] [LinearOrder K] [IsStrictOrderedRing K]

/-! ### Segments -/

theorem onSeg_x (a b : Pt K) (t : K) : (onSeg a b t).x = a.x + t * (b.x - a.x) := rfl
theorem onSeg_y (a b : Pt K) (t : K) : (onSeg a b t).y = a.y + t * (b.y - a.y) := rfl

/-- The closed segments have a common point. -/
def Meets (p q a b : Pt K) : Prop := ∃ x, OnClosed p q x ∧ OnClosed a b x

theorem onClosed_left (a b : Pt K) : OnClosed a b a :=
  ⟨0, le_refl _, zero_le_one, Pt.ext' (by rw [onSeg_x]; ring) (by rw [onSeg_y]; ring)⟩

theorem onClosed_right (a b : Pt K) : OnClosed a b b :=
  ⟨1, zero_le_one, le_refl _, Pt.ext' (by rw [onSeg_x]; ring) (by rw [onSeg_y]; ring)⟩

theorem onClosed_symm {a b x : Pt K} (h : OnClosed a b x) : OnClosed b a x := by
  obtain ⟨t, h0, h1, rfl⟩ := h
  exact ⟨1 - t, by linarith, by linarith, Pt.ext' (by rw [onSeg_x, onSeg_x]; ring) (by rw [onSeg_y, onSeg_y]; ring)⟩

theorem onClosed_sub {a b z w x : Pt K} (hz : OnClosed a b z) (hw : OnClosed a b w) (hx : OnClosed z w x) :
    OnClosed a b x := by
  obtain ⟨t, ht0, ht1, rfl⟩ := hz
  obtain ⟨u, hu0, hu1, rfl⟩ := hw
  obtain ⟨r, hr0, hr1, rfl⟩ := hx
  refine ⟨(1 - r) * t + r * u, ?_, ?_, ?_⟩
  · have := mul_nonneg (by linarith : 0 ≤ 1 - r) ht0
    have := mul_nonneg hr0 hu0
    linarith
  · have h1 := mul_le_mul_of_nonneg_left ht1 (by linarith : 0 ≤ 1 - r)
    have h2 := mul_le_mul_of_nonneg_left hu1 hr0
    linarith
  · apply Pt.ext'
    · simp only [onSeg_x]; ring
    · simp only [onSeg_y]; ring

theorem meets_symm {p q a b : Pt K} (h : Meets p q a b) : Meets p q b a := by
  obtain ⟨x, h1, h2⟩ := h
  exact ⟨x, h1, onClosed_symm h2⟩

theorem meets_comm {p q a b : Pt K} (h : Meets p q a b) : Meets a b p q := by
  obtain ⟨x, h1, h2⟩ := h
  exact ⟨x, h2, h1⟩

/-- The point of `a b` on the height `h`. -/
theorem clip {a b : Pt K} {h : K} (h1 : a.y ≤ h) (h2 : h ≤ b.y) (hlt : a.y < b.y) :
    ∃ z, OnClosed a b z ∧ z.y = h ∧ ∀ p : Pt K, p.y = h → side a b p = (b.y - a.y) * (z.x - p.x) := by
  have hd : 0 < b.y - a.y := by linarith
  refine ⟨onSeg a b ((h - a.y) / (b.y - a.y)), ⟨_, div_nonneg (by linarith) hd.le, ?_, rfl⟩, ?_, ?_⟩
  · rw [div_le_one hd]; linarith
  · rw [onSeg_y]; field_simp; ring
  · intro p hp
    rw [onSeg_x]; unfold side; rw [hp]; field_simp; ring

/-- Two points in the strip of heights of `p q`, on different sides. -/
theorem meets_of_sides {p q z w : Pt K} (hpq : p.y < q.y) (hz1 : p.y ≤ z.y) (hz2 : z.y ≤ q.y) (hw1 : p.y ≤ w.y)
    (hw2 : w.y ≤ q.y) (sz : side p q z ≤ 0) (sw : 0 ≤ side p q w) : Meets p q z w := by
  have hd : 0 < q.y - p.y := by linarith
  have key : ∀ x : Pt K, p.y ≤ x.y → x.y ≤ q.y → side p q x = 0 → OnClosed p q x := by
    intro x h1 h2 h3
    refine ⟨(x.y - p.y) / (q.y - p.y), div_nonneg (by linarith) hd.le, by rw [div_le_one hd]; linarith, ?_⟩
    apply Pt.ext'
    · rw [onSeg_x]
      unfold side at h3
      field_simp
      linarith
    · rw [onSeg_y]; field_simp; ring
  by_cases h0 : side p q z = 0
  · exact ⟨z, key z hz1 hz2 h0, onClosed_left _ _⟩
  have hz : side p q z < 0 := lt_of_le_of_ne sz h0
  have hD : 0 < side p q w - side p q z := by linarith
  have ht0 : 0 ≤ (-side p q z) / (side p q w - side p q z) := div_nonneg (by linarith) hD.le
  have ht1 : (-side p q z) / (side p q w - side p q z) ≤ 1 := by rw [div_le_one hD]; linarith
  refine ⟨onSeg z w ((-side p q z) / (side p q w - side p q z)), key _ ?_ ?_ ?_, ⟨_, ht0, ht1, rfl⟩⟩
  · rw [onSeg_y]
    have a1 := mul_nonneg ht0 (by linarith : 0 ≤ w.y - p.y)
    have a2 := mul_nonneg (by linarith : 0 ≤ 1 - (-side p q z) / (side p q w - side p q z)) (by linarith : 0 ≤ z.y - p.y)
    linarith
  · rw [onSeg_y]
    have a1 := mul_nonneg ht0 (by linarith : 0 ≤ q.y - w.y)
    have a2 := mul_nonneg (by linarith : 0 ≤ 1 - (-side p q z) / (side p q w - side p q z)) (by linarith : 0 ≤ q.y - z.y)
    linarith
  · have e : ∀ t : K, side p q (onSeg z w t) = side p q z + t * (side p q w - side p q z) := by
      intro t; unfold side; simp only [onSeg_x, onSeg_y]; ring
    rw [e]; field_simp; ring

/-! ### One edge -/

/-- The half strip to the right of `p q`. -/
def strip (p q x : Pt K) : Int := if p.y < x.y ∧ x.y ≤ q.y ∧ side p q x < 0 then 1 else 0

theorem side_low {p q z : Pt K} (h : z.y = p.y) : side p q z = (q.y - p.y) * (p.x - z.x) := by
  unfold side; rw [h]; ring

theorem side_high {p q z : Pt K} (h : z.y = q.y) : side p q z = (q.y - p.y) * (q.x - z.x) := by
  unfold side; rw [h]; ring

theorem crossing_up {p a b : Pt K} (h1 : a.y ≤ p.y) (h2 : p.y < b.y) :
    crossing p a b = if 0 < side a b p then 1 else 0 := by
  unfold crossing
  have : ¬ UpCross p b a := fun h => absurd h2 (not_lt.mpr h.1)
  rw [if_neg this]
  simp [UpCross, h1, h2]

theorem crossing_off {p a b : Pt K} (h : (a.y ≤ p.y ∧ b.y ≤ p.y) ∨ (p.y < a.y ∧ p.y < b.y)) : crossing p a b = 0 := by
  unfold crossing
  rcases h with ⟨u, v⟩ | ⟨u, v⟩
  · rw [if_neg (fun (h : UpCross _ _ _) => absurd h.2.1 (not_lt.mpr v)), if_neg (fun (h : UpCross _ _ _) => absurd h.2.1 (not_lt.mpr u))]; rfl
  · rw [if_neg (fun (h : UpCross _ _ _) => absurd h.1 (not_le.mpr u)), if_neg (fun (h : UpCross _ _ _) => absurd h.1 (not_le.mpr v))]; rfl

/-- A rising edge that does not meet `p q`. -/
theorem edge_up {p q a b : Pt K} (hpq : p.y ≤ q.y) (hab : a.y ≤ b.y) (hm : ¬ Meets p q a b) :
    crossing p a b - crossing q a b = strip p q b - strip p q a := by
  have hsub : ∀ z w, OnClosed a b z → OnClosed a b w → ¬ Meets p q z w := by
    rintro z w hz hw ⟨x, h1, h2⟩
    exact hm ⟨x, h1, onClosed_sub hz hw h2⟩
  have la := onClosed_left a b
  have lb := onClosed_right a b
  -- the heights
  rcases le_or_gt a.y p.y with a1 | a1
  · have sa : strip p q a = 0 := if_neg fun h => absurd h.1 (not_lt.mpr a1)
    rcases le_or_gt b.y p.y with b1 | b1
    · have sb : strip p q b = 0 := if_neg fun h => absurd h.1 (not_lt.mpr b1)
      rw [crossing_off (Or.inl ⟨a1, b1⟩), crossing_off (Or.inl ⟨a1.trans hpq, b1.trans hpq⟩), sa, sb]
    · obtain ⟨z, hz, hzy, hzs⟩ := clip a1 b1.le (lt_of_le_of_lt a1 b1)
      have hd : 0 < b.y - a.y := by linarith
      rw [crossing_up a1 b1]
      simp only [hzs p rfl, mul_pos_iff_of_pos_left hd, sub_pos]
      rcases le_or_gt b.y q.y with b2 | b2
      · have hpq' : p.y < q.y := lt_of_lt_of_le b1 b2
        have hd2 : 0 < q.y - p.y := by linarith
        rw [crossing_off (Or.inl ⟨a1.trans hpq, b2⟩), sa, sub_zero, sub_zero]
        unfold strip
        by_cases hx : p.x < z.x
        · rw [if_pos hx, if_pos]
          refine ⟨b1, b2, not_le.mp fun hs => ?_⟩
          refine hsub z b hz lb (meets_of_sides hpq' (by rw [hzy]) (by rw [hzy]; exact hpq) b1.le b2 ?_ hs)
          rw [side_low hzy]
          exact mul_nonpos_of_nonneg_of_nonpos hd2.le (by linarith)
        · rw [if_neg hx, if_neg]
          rintro ⟨-, -, hs⟩
          refine hsub b z lb hz (meets_of_sides hpq' b1.le b2 (by rw [hzy]) (by rw [hzy]; exact hpq) hs.le ?_)
          rw [side_low hzy]
          exact mul_nonneg hd2.le (by linarith)
      · have sb : strip p q b = 0 := if_neg fun h => absurd h.2.1 (not_le.mpr b2)
        obtain ⟨w, hw, hwy, hws⟩ := clip (a1.trans hpq) b2.le (lt_of_le_of_lt (a1.trans hpq) b2)
        rw [crossing_up (a1.trans hpq) b2]
        simp only [hws q rfl, mul_pos_iff_of_pos_left hd, sub_pos]
        rw [sa, sb, sub_zero]
        rcases lt_or_eq_of_le hpq with hpq' | heq
        · have hd2 : 0 < q.y - p.y := by linarith
          by_cases hx : p.x < z.x <;> by_cases hy : q.x < w.x
          · rw [if_pos hx, if_pos hy]; rfl
          · exfalso
            refine hsub z w hz hw (meets_of_sides hpq' (by rw [hzy]) (by rw [hzy]; exact hpq) (by rw [hwy]; exact hpq) (by rw [hwy]) ?_ ?_)
            · rw [side_low hzy]; exact mul_nonpos_of_nonneg_of_nonpos hd2.le (by linarith)
            · rw [side_high hwy]; exact mul_nonneg hd2.le (by linarith)
          · exfalso
            refine hsub w z hw hz (meets_of_sides hpq' (by rw [hwy]; exact hpq) (by rw [hwy]) (by rw [hzy]) (by rw [hzy]; exact hpq) ?_ ?_)
            · rw [side_high hwy]; exact mul_nonpos_of_nonneg_of_nonpos hd2.le (by linarith)
            · rw [side_low hzy]; exact mul_nonneg hd2.le (by linarith)
          · rw [if_neg hx, if_neg hy]; rfl
        · -- horizontal
          have e := hzs q heq.symm
          rw [hws q rfl] at e
          have hwz : w.x = z.x := by
            have := mul_left_cancel₀ (ne_of_gt hd) e
            linarith
          rw [hwz]
          have flat : ∀ lo hi : Pt K, OnClosed p q lo → OnClosed p q hi → lo.y = p.y → hi.y = p.y → lo.x ≤ z.x → z.x < hi.x → False := by
            intro lo hi hlo hhi y1 y2 x1 x2
            have hd3 : 0 < hi.x - lo.x := by linarith
            refine hm ⟨z, onClosed_sub hlo hhi ⟨(z.x - lo.x) / (hi.x - lo.x), div_nonneg (by linarith) hd3.le, ?_, ?_⟩, hz⟩
            · rw [div_le_one hd3]; linarith
            · apply Pt.ext'
              · rw [onSeg_x]; field_simp; ring
              · rw [onSeg_y, y1, y2, hzy]; ring
          have flat2 : ∀ lo hi : Pt K, OnClosed p q lo → OnClosed p q hi → lo.y = p.y → hi.y = p.y → lo.x < z.x → z.x ≤ hi.x → False := by
            intro lo hi hlo hhi y1 y2 x1 x2
            have hd3 : 0 < hi.x - lo.x := by linarith
            refine hm ⟨z, onClosed_sub hlo hhi ⟨(z.x - lo.x) / (hi.x - lo.x), div_nonneg (by linarith) hd3.le, ?_, ?_⟩, hz⟩
            · rw [div_le_one hd3]; linarith
            · apply Pt.ext'
              · rw [onSeg_x]; field_simp; ring
              · rw [onSeg_y, y1, y2, hzy]; ring
          by_cases hx : p.x < z.x <;> by_cases hy : q.x < z.x
          · rw [if_pos hx, if_pos hy]; rfl
          · exact absurd (flat2 p q (onClosed_left _ _) (onClosed_right _ _) rfl heq.symm hx (not_lt.mp hy)) id
          · exact absurd (flat2 q p (onClosed_right _ _) (onClosed_left _ _) heq.symm rfl hy (not_lt.mp hx)) id
          · rw [if_neg hx, if_neg hy]; rfl
  · rcases le_or_gt a.y q.y with a2 | a2
    · have hpq' : p.y < q.y := lt_of_lt_of_le a1 a2
      have hd2 : 0 < q.y - p.y := by linarith
      rw [crossing_off (Or.inr ⟨a1, lt_of_lt_of_le a1 hab⟩)]
      rcases le_or_gt b.y q.y with b2 | b2
      · rw [crossing_off (Or.inl ⟨a2, b2⟩)]
        have b1 := lt_of_lt_of_le a1 hab
        unfold strip
        by_cases hx : side p q a < 0 <;> by_cases hy : side p q b < 0
        · rw [if_pos ⟨b1, b2, hy⟩, if_pos ⟨a1, a2, hx⟩]; rfl
        · exact absurd (meets_of_sides hpq' a1.le a2 b1.le b2 hx.le (not_lt.mp hy)) hm
        · exact absurd (meets_of_sides hpq' b1.le b2 a1.le a2 hy.le (not_lt.mp hx)) (hsub b a lb la)
        · rw [if_neg fun h => hy h.2.2, if_neg fun h => hx h.2.2]
      · have sb : strip p q b = 0 := if_neg fun h => absurd h.2.1 (not_le.mpr b2)
        obtain ⟨w, hw, hwy, hws⟩ := clip a2 b2.le (lt_of_le_of_lt a2 b2)
        have hd : 0 < b.y - a.y := by linarith
        rw [crossing_up a2 b2]
        simp only [hws q rfl, mul_pos_iff_of_pos_left hd, sub_pos]
        rw [sb]
        unfold strip
        by_cases hx : side p q a < 0 <;> by_cases hy : q.x < w.x
        · rw [if_pos hy, if_pos ⟨a1, a2, hx⟩]
        · exfalso
          refine hsub a w la hw (meets_of_sides hpq' a1.le a2 (by rw [hwy]; exact hpq) (by rw [hwy]) hx.le ?_)
          rw [side_high hwy]; exact mul_nonneg hd2.le (by linarith)
        · exfalso
          refine hsub w a hw la (meets_of_sides hpq' (by rw [hwy]; exact hpq) (by rw [hwy]) a1.le a2 ?_ (not_lt.mp hx))
          rw [side_high hwy]; exact mul_nonpos_of_nonneg_of_nonpos hd2.le (by linarith)
        · rw [if_neg hy, if_neg fun h => hx h.2.2]
    · have sa : strip p q a = 0 := if_neg fun h => absurd h.2.1 (not_le.mpr a2)
      have sb : strip p q b = 0 := if_neg fun h => absurd h.2.1 (not_le.mpr (lt_of_lt_of_le a2 hab))
      rw [crossing_off (Or.inr ⟨a1, lt_of_lt_of_le a1 hab⟩), crossing_off (Or.inr ⟨a2, lt_of_lt_of_le a2 hab⟩), sa, sb]

theorem edge_no_meet {p q a b : Pt K} (hpq : p.y ≤ q.y) (hm : ¬ Meets p q a b) :
    crossing p a b - crossing q a b = strip p q b - strip p q a := by
  rcases le_total a.y b.y with h | h
  · exact edge_up hpq h hm
  · have := edge_up hpq h (fun h => hm (meets_symm h))
    rw [crossing_anti p, crossing_anti q]; omega

/-! ### Chains -/

/-- Crossing number of a chain of directed segments. -/
def wind (l : List (Pt K × Pt K)) (p : Pt K) : Int := (l.map fun e => crossing p e.1 e.2).sum

/-- As many segments end as start in every point. -/
def Closed (l : List (Pt K × Pt K)) : Prop := (l.map Prod.fst).Perm (l.map Prod.snd)

theorem wind_diff {l : List (Pt K × Pt K)} {p q : Pt K} (hpq : p.y ≤ q.y)
    (hm : ∀ e ∈ l, ¬ Meets p q e.1 e.2) :
    wind l p - wind l q = (l.map (strip p q ∘ Prod.snd)).sum - (l.map (strip p q ∘ Prod.fst)).sum := by
  unfold wind
  induction l with
  | nil => simp
  | cons e l ih =>
    simp only [List.map_cons, List.sum_cons, Function.comp_apply]
    have h1 := ih fun x hx => hm x (by simp [hx])
    have h2 := edge_no_meet hpq (hm e (by simp))
    omega

/-- The winding number of a closed chain does not change along a segment that meets no edge. -/
theorem wind_const {l : List (Pt K × Pt K)} (hc : Closed l) {p q : Pt K}
    (hm : ∀ e ∈ l, ¬ Meets p q e.1 e.2) : wind l p = wind l q := by
  have main : ∀ {p q : Pt K}, p.y ≤ q.y → (∀ e ∈ l, ¬ Meets p q e.1 e.2) → wind l p = wind l q := by
    intro p q hpq hm
    have h1 := wind_diff hpq hm
    have h3 := (hc.map (strip p q)).sum_eq
    rw [List.map_map, List.map_map] at h3
    omega
  rcases le_total p.y q.y with h | h
  · exact main h hm
  · refine (main h fun e he hme => hm e he ?_).symm
    obtain ⟨x, h1, h2⟩ := hme
    exact ⟨x, onClosed_symm h1, h2⟩

/-! ### Small numbers -/

/-- `P` holds for all sufficiently small positive numbers. -/
def Small (P : K → Prop) : Prop := ∃ d, 0 < d ∧ ∀ e, 0 < e → e < d → P e

theorem Small.and {P Q : K → Prop} (h1 : Small P) (h2 : Small Q) : Small fun e => P e ∧ Q e := by
  obtain ⟨d1, p1, k1⟩ := h1
  obtain ⟨d2, p2, k2⟩ := h2
  exact ⟨min d1 d2, lt_min p1 p2, fun e h0 h => ⟨k1 e h0 (lt_of_lt_of_le h (min_le_left _ _)), k2 e h0 (lt_of_lt_of_le h (min_le_right _ _))⟩⟩

theorem Small.mono {P Q : K → Prop} (h : Small P) (hi : ∀ e, 0 < e → P e → Q e) : Small Q := by
  obtain ⟨d, p, k⟩ := h
  exact ⟨d, p, fun e h0 h => hi e h0 (k e h0 h)⟩

theorem Small.of {P : K → Prop} (h : ∀ e, 0 < e → P e) : Small P := ⟨1, one_pos, fun e h0 _ => h e h0⟩

theorem Small.all {α : Type*} {P : α → K → Prop} (l : List α) (h : ∀ a ∈ l, Small (P a)) :
    Small fun e => ∀ a ∈ l, P a e := by
  induction l with
  | nil => exact Small.of fun e _ a ha => by simp at ha
  | cons a l ih =>
    refine ((h a (by simp)).and (ih fun b hb => h b (by simp [hb]))).mono ?_
    rintro e - ⟨h1, h2⟩ b hb
    rcases List.mem_cons.mp hb with rfl | hb
    · exact h1
    · exact h2 b hb

theorem Small.get {P : K → Prop} (h : Small P) : ∃ e, 0 < e ∧ P e := by
  obtain ⟨d, p, k⟩ := h
  exact ⟨d / 2, by linarith, k _ (by linarith) (by linarith)⟩

theorem small_pos {s : K} (hs : 0 < s) (u w : K) : Small fun e => 0 < s + e * u + e * e * w := by
  have hD : 0 < |u| + |w| + 1 := by positivity
  refine ⟨min 1 (s / (|u| + |w| + 1)), lt_min one_pos (div_pos hs hD), fun e h0 h => ?_⟩
  have h1 : e < 1 := lt_of_lt_of_le h (min_le_left _ _)
  have h2 : e * (|u| + |w| + 1) < s := by
    rw [← lt_div_iff₀ hD]; exact lt_of_lt_of_le h (min_le_right _ _)
  have e1 : -(e * |u|) ≤ e * u := by
    have := mul_le_mul_of_nonneg_left (neg_abs_le u) h0.le; linarith
  have e2 : -(e * |w|) ≤ e * e * w := by
    have a1 := mul_le_mul_of_nonneg_left (neg_abs_le w) (mul_pos h0 h0).le
    have a2 : e * e * |w| ≤ e * |w| := by
      have := mul_le_mul_of_nonneg_right (mul_le_of_le_one_left h0.le h1.le) (abs_nonneg w)
      exact this
    linarith
  nlinarith

theorem small_pos1 {s : K} (hs : 0 < s) (u : K) : Small fun e => 0 < s + e * u :=
  (small_pos hs u 0).mono fun e _ h => by simpa using h

/-- The sign of a quadratic polynomial near zero. -/
theorem small_sign (s u w : K) : (Small fun e => 0 < s + e * u + e * e * w) ∨ (Small fun e => s + e * u + e * e * w < 0) ∨
    (s = 0 ∧ u = 0 ∧ w = 0) := by
  rcases lt_trichotomy s 0 with h | h | h
  · exact Or.inr (Or.inl ((small_pos (neg_pos.mpr h) (-u) (-w)).mono fun e _ h => by linarith))
  · subst h
    rcases lt_trichotomy u 0 with h | h | h
    · refine Or.inr (Or.inl ((small_pos1 (neg_pos.mpr h) (-w)).mono fun e h0 h => ?_))
      have := mul_pos h0 h; linarith
    · subst h
      rcases lt_trichotomy w 0 with h | h | h
      · exact Or.inr (Or.inl (Small.of fun e h0 => by have := mul_neg_of_pos_of_neg (mul_pos h0 h0) h; linarith))
      · exact Or.inr (Or.inr ⟨rfl, rfl, h⟩)
      · exact Or.inl (Small.of fun e h0 => by have := mul_pos (mul_pos h0 h0) h; linarith)
    · refine Or.inl ((small_pos1 h w).mono fun e h0 h => ?_)
      have := mul_pos h0 h; linarith
  · exact Or.inl (small_pos h u w)

/-! ### Moving a point off all lines -/

/-- The point moved a little to the right and still less up. -/
def nudge (p : Pt K) (e : K) : Pt K := ⟨p.x + e, p.y + e * e⟩

theorem side_nudge (a b p : Pt K) (e : K) :
    side a b (nudge p e) = side a b p + e * (-(b.y - a.y)) + e * e * (b.x - a.x) := by
  unfold side nudge; simp only; ring

theorem nudge_side_ne {a b : Pt K} (hab : a ≠ b) (p : Pt K) : Small fun e => side a b (nudge p e) ≠ 0 := by
  rcases small_sign (side a b p) (-(b.y - a.y)) (b.x - a.x) with h | h | ⟨_, h2, h3⟩
  · exact h.mono fun e _ h => by rw [side_nudge]; exact ne_of_gt h
  · exact h.mono fun e _ h => by rw [side_nudge]; exact ne_of_lt h
  · exact absurd (Pt.ext' (by linarith) (by linarith)) hab

theorem nudge_upCross (a b p : Pt K) : Small fun e => UpCross (nudge p e) a b ↔ UpCross p a b := by
  have hy : ∀ h : K, Small fun e => p.y + e * e < h ↔ p.y < h := by
    intro h
    by_cases hh : p.y < h
    · refine (small_pos (by linarith : 0 < h - p.y) 0 (-1)).mono fun e _ he => ⟨fun _ => hh, fun _ => by linarith⟩
    · exact Small.of fun e h0 => ⟨fun h1 => by have := mul_pos h0 h0; linarith, fun h1 => absurd h1 hh⟩
  by_cases hlev : a.y ≤ p.y ∧ p.y < b.y
  · have hs : Small fun e => 0 < side a b (nudge p e) ↔ 0 < side a b p := by
      have hd : 0 < b.y - a.y := by linarith [hlev.1, hlev.2]
      rcases lt_trichotomy (side a b p) 0 with h | h | h
      · refine (small_pos (neg_pos.mpr h) (b.y - a.y) (-(b.x - a.x))).mono fun e _ he => ?_
        rw [side_nudge]; constructor <;> intro <;> linarith
      · refine (small_pos1 hd (-(b.x - a.x))).mono fun e h0 he => ?_
        have := mul_pos h0 he
        rw [side_nudge, h]; constructor <;> intro <;> linarith
      · refine (small_pos h (-(b.y - a.y)) (b.x - a.x)).mono fun e _ he => ?_
        rw [side_nudge]; exact ⟨fun _ => h, fun _ => he⟩
    refine ((hy a.y).and ((hy b.y).and hs)).mono ?_
    rintro e - ⟨h1, h2, h3⟩
    unfold UpCross
    rw [h3]
    constructor
    · rintro ⟨_, _, x⟩; exact ⟨hlev.1, hlev.2, x⟩
    · rintro ⟨_, _, x⟩; exact ⟨not_lt.mp fun h => absurd (h1.mp h) (not_lt.mpr hlev.1), h2.mpr hlev.2, x⟩
  · refine ((hy a.y).and (hy b.y)).mono ?_
    rintro e - ⟨h1, h2⟩
    constructor
    · rintro ⟨x, y, _⟩
      exact absurd ⟨not_lt.mp fun h => absurd (h1.mpr h) (not_lt.mpr x), h2.mp y⟩ hlev
    · rintro ⟨x, y, _⟩
      exact absurd ⟨x, y⟩ hlev

theorem nudge_crossing (a b p : Pt K) : Small fun e => crossing (nudge p e) a b = crossing p a b := by
  refine ((nudge_upCross a b p).and (nudge_upCross b a p)).mono ?_
  rintro e - ⟨h1, h2⟩
  unfold crossing
  simp only [h1, h2]

theorem nudge_wind (l : List (Pt K × Pt K)) (p : Pt K) : Small fun e => wind l (nudge p e) = wind l p := by
  refine (Small.all (P := fun (x : Pt K × Pt K) e => crossing (nudge p e) x.1 x.2 = crossing p x.1 x.2) l
    fun x _ => nudge_crossing x.1 x.2 p).mono ?_
  intro e _ h
  unfold wind
  congr 1
  exact List.map_congr_left h

/-! ### Crossing an edge -/

/-- A point off a segment is separated from it by a line. -/
theorem separate {a b m : Pt K} (h : ¬ OnClosed a b m) :
    ∃ α β γ : K, 0 < α * m.x + β * m.y + γ ∧ α * a.x + β * a.y + γ ≤ 0 ∧ α * b.x + β * b.y + γ ≤ 0 := by
  rcases lt_trichotomy (side a b m) 0 with hs | hs | hs
  · refine ⟨b.y - a.y, -(b.x - a.x), (b.x - a.x) * a.y - (b.y - a.y) * a.x, ?_, ?_, ?_⟩
    · unfold side at hs; linarith
    · have : (b.y - a.y) * a.x + -(b.x - a.x) * a.y + ((b.x - a.x) * a.y - (b.y - a.y) * a.x) = 0 := by ring
      linarith
    · have : (b.y - a.y) * b.x + -(b.x - a.x) * b.y + ((b.x - a.x) * a.y - (b.y - a.y) * a.x) = 0 := by ring
      linarith
  · by_cases hab : a = b
    · subst hab
      have hne : m ≠ a := fun h' => h (h' ▸ onClosed_left _ _)
      have : 0 < (m.x - a.x) * (m.x - a.x) + (m.y - a.y) * (m.y - a.y) := by
        rcases eq_or_ne (m.x) a.x with hx | hx
        · have hy : m.y ≠ a.y := fun hy => hne (Pt.ext' hx hy)
          have := mul_self_pos.mpr (sub_ne_zero.mpr hy)
          have := mul_self_nonneg (m.x - a.x)
          linarith
        · have := mul_self_pos.mpr (sub_ne_zero.mpr hx)
          have := mul_self_nonneg (m.y - a.y)
          linarith
      refine ⟨m.x - a.x, m.y - a.y, -((m.x - a.x) * a.x + (m.y - a.y) * a.y), by linarith, ?_, ?_⟩ <;> linarith
    · have hL : 0 < (b.x - a.x) * (b.x - a.x) + (b.y - a.y) * (b.y - a.y) := by
        rcases eq_or_ne (b.x) a.x with hx | hx
        · have hy : b.y ≠ a.y := fun hy => hab (Pt.ext' hx.symm hy.symm)
          have := mul_self_pos.mpr (sub_ne_zero.mpr hy)
          have := mul_self_nonneg (b.x - a.x)
          linarith
        · have := mul_self_pos.mpr (sub_ne_zero.mpr hx)
          have := mul_self_nonneg (b.y - a.y)
          linarith
      rcases lt_or_ge ((m.x - a.x) * (b.x - a.x) + (m.y - a.y) * (b.y - a.y)) 0 with h0 | h0
      · refine ⟨-(b.x - a.x), -(b.y - a.y), a.x * (b.x - a.x) + a.y * (b.y - a.y), ?_, ?_, ?_⟩ <;> linarith
      rcases lt_or_ge ((b.x - a.x) * (b.x - a.x) + (b.y - a.y) * (b.y - a.y)) ((m.x - a.x) * (b.x - a.x) + (m.y - a.y) * (b.y - a.y)) with h1 | h1
      · refine ⟨(b.x - a.x), (b.y - a.y), -(b.x * (b.x - a.x) + b.y * (b.y - a.y)), ?_, ?_, ?_⟩ <;> linarith
      exfalso
      refine h ⟨((m.x - a.x) * (b.x - a.x) + (m.y - a.y) * (b.y - a.y)) /
        ((b.x - a.x) * (b.x - a.x) + (b.y - a.y) * (b.y - a.y)), div_nonneg h0 hL.le, by rw [div_le_one hL]; exact h1, ?_⟩
      unfold side at hs
      apply Pt.ext'
      · rw [onSeg_x, div_mul_eq_mul_div, ← sub_eq_iff_eq_add', eq_div_iff (ne_of_gt hL)]
        linear_combination (-(b.y - a.y)) * hs
      · rw [onSeg_y, div_mul_eq_mul_div, ← sub_eq_iff_eq_add', eq_div_iff (ne_of_gt hL)]
        linear_combination ((b.x - a.x)) * hs
  · refine ⟨-(b.y - a.y), (b.x - a.x), -((b.x - a.x) * a.y - (b.y - a.y) * a.x), ?_, ?_, ?_⟩
    · unfold side at hs; linarith
    · have : -(b.y - a.y) * a.x + (b.x - a.x) * a.y + -((b.x - a.x) * a.y - (b.y - a.y) * a.x) = 0 := by ring
      linarith
    · have : -(b.y - a.y) * b.x + (b.x - a.x) * b.y + -((b.x - a.x) * a.y - (b.y - a.y) * a.x) = 0 := by ring
      linarith

/-- `m` moved by `e` times `n`. -/
def mov (m n : Pt K) (e : K) : Pt K := ⟨m.x + e * n.x, m.y + e * n.y⟩

theorem no_meet_of_func {p q a b : Pt K} {α β γ : K} (hp : 0 < α * p.x + β * p.y + γ) (hq : 0 < α * q.x + β * q.y + γ)
    (ha : α * a.x + β * a.y + γ ≤ 0) (hb : α * b.x + β * b.y + γ ≤ 0) : ¬ Meets p q a b := by
  rintro ⟨x, ⟨s, s0, s1, rfl⟩, ⟨t, t0, t1, hx⟩⟩
  have ex := congrArg Pt.x hx
  have ey := congrArg Pt.y hx
  simp only [onSeg_x, onSeg_y] at ex ey
  have e1 : (1 - s) * (α * p.x + β * p.y + γ) + s * (α * q.x + β * q.y + γ) =
      (1 - t) * (α * a.x + β * a.y + γ) + t * (α * b.x + β * b.y + γ) := by
    linear_combination α * ex + β * ey
  have h3 := mul_nonpos_of_nonneg_of_nonpos (by linarith : 0 ≤ 1 - t) ha
  have h4 := mul_nonpos_of_nonneg_of_nonpos t0 hb
  rcases eq_or_lt_of_le s0 with rfl | hs
  · linarith
  · have h1 := mul_nonneg (by linarith : 0 ≤ 1 - s) hp.le
    have h2 := mul_pos hs hq
    linarith

theorem small_no_meet {a b m : Pt K} (h : ¬ OnClosed a b m) (n : Pt K) :
    Small fun e => ¬ Meets (mov m n e) (mov m n (-e)) a b := by
  obtain ⟨α, β, γ, hm, ha, hb⟩ := separate h
  refine ((small_pos1 hm (α * n.x + β * n.y)).and (small_pos1 hm (-(α * n.x + β * n.y)))).mono ?_
  rintro e - ⟨h1, h2⟩
  refine no_meet_of_func (α := α) (β := β) (γ := γ) ?_ ?_ ha hb
  · unfold mov; simp only; linarith
  · unfold mov; simp only; linarith

/-- The midpoint. -/
def midp (a b : Pt K) : Pt K := ⟨(a.x + b.x) / 2, (a.y + b.y) / 2⟩

/-- The left normal. -/
def leftN (a b : Pt K) : Pt K := ⟨-(b.y - a.y), b.x - a.x⟩

theorem normSq_pos' {a b : Pt K} (h : a ≠ b) : 0 < (b.x - a.x) * (b.x - a.x) + (b.y - a.y) * (b.y - a.y) := by
  rcases eq_or_ne (b.x) a.x with hx | hx
  · have hy : b.y ≠ a.y := fun hy => h (Pt.ext' hx.symm hy.symm)
    have := mul_self_pos.mpr (sub_ne_zero.mpr hy)
    have := mul_self_nonneg (b.x - a.x)
    linarith
  · have := mul_self_pos.mpr (sub_ne_zero.mpr hx)
    have := mul_self_nonneg (b.y - a.y)
    linarith

/-- Crossing the edge `a → b` in its midpoint from right to left: the winding number grows by one. -/
theorem wind_cross {rest : List (Pt K × Pt K)} {a b : Pt K} (hc : Closed ((a, b) :: rest)) (hab : a ≠ b)
    (hm : ∀ e ∈ rest, ¬ OnClosed e.1 e.2 (midp a b)) :
    Small fun e => wind ((a, b) :: rest) (mov (midp a b) (leftN a b) e) =
      wind ((a, b) :: rest) (mov (midp a b) (leftN a b) (-e)) + 1 := by
  have hL := normSq_pos' hab
  refine (Small.all (P := fun (x : Pt K × Pt K) e => ¬ Meets (mov (midp a b) (leftN a b) e) (mov (midp a b) (leftN a b) (-e)) x.1 x.2) rest
    fun x hx => small_no_meet (hm x hx) _).mono ?_
  intro e h0 hrest
  set L := (b.x - a.x) * (b.x - a.x) + (b.y - a.y) * (b.y - a.y) with hLdef
  set c := mov (midp a b) (leftN a b) e with hcdef
  set q := mov (midp a b) (leftN a b) (-e) with hqdef
  set z := mov (midp a b) (leftN a b) (2 * e) with hzdef
  have heL : 0 < e * L := mul_pos h0 hL
  have s_abc : side a b c = e * L := by rw [hcdef, hLdef]; unfold side mov midp leftN; simp only; ring
  have s_abq : side a b q = -(e * L) := by rw [hqdef, hLdef]; unfold side mov midp leftN; simp only; ring
  have s_abz : side a b z = 2 * (e * L) := by rw [hzdef, hLdef]; unfold side mov midp leftN; simp only; ring
  have s_bzc : side b z c = e * L / 2 := by rw [hcdef, hzdef, hLdef]; unfold side mov midp leftN; simp only; ring
  have s_zac : side z a c = e * L / 2 := by rw [hcdef, hzdef, hLdef]; unfold side mov midp leftN; simp only; ring
  have s_bzq : side b z q = 3 * (e * L) / 2 := by rw [hqdef, hzdef, hLdef]; unfold side mov midp leftN; simp only; ring
  have s_zaq : side z a q = 3 * (e * L) / 2 := by rw [hqdef, hzdef, hLdef]; unfold side mov midp leftN; simp only; ring
  have t1 := triangle_winding (a := a) (b := b) (c := z) (p := c) (by linarith) (by linarith) (by linarith) (by linarith)
  have t2 := triangle_winding (a := a) (b := b) (c := z) (p := q) (by linarith) (by linarith) (by linarith) (by linarith)
  rw [if_pos ⟨by linarith, by linarith, by linarith⟩] at t1
  rw [if_neg (fun h => absurd h.1 (by linarith))] at t2
  have f1 : ∀ x : Pt K, side z a x = (-(a.y - z.y)) * x.x + (a.x - z.x) * x.y + (-((a.x - z.x) * z.y) + (a.y - z.y) * z.x) := by
    intro x; unfold side; ring
  have f2 : ∀ x : Pt K, side b z x = (-(z.y - b.y)) * x.x + (z.x - b.x) * x.y + (-((z.x - b.x) * b.y) + (z.y - b.y) * b.x) := by
    intro x; unfold side; ring
  have n1 : ¬ Meets c q a z := by
    refine no_meet_of_func (α := -(a.y - z.y)) (β := a.x - z.x) (γ := -((a.x - z.x) * z.y) + (a.y - z.y) * z.x) ?_ ?_ ?_ ?_
    · rw [← f1]; linarith
    · rw [← f1]; linarith
    · rw [← f1]; unfold side; apply le_of_eq; ring
    · rw [← f1]; unfold side; apply le_of_eq; ring
  have n2 : ¬ Meets c q z b := by
    refine no_meet_of_func (α := -(z.y - b.y)) (β := z.x - b.x) (γ := -((z.x - b.x) * b.y) + (z.y - b.y) * b.x) ?_ ?_ ?_ ?_
    · rw [← f2]; linarith
    · rw [← f2]; linarith
    · rw [← f2]; unfold side; apply le_of_eq; ring
    · rw [← f2]; unfold side; apply le_of_eq; ring
  have hc' : Closed ((a, z) :: (z, b) :: rest) := by
    unfold Closed at hc ⊢
    simp only [List.map_cons] at hc ⊢
    exact ((List.Perm.swap z a _).trans (hc.cons z))
  have hw := wind_const hc' (p := c) (q := q) (by
    intro x hx
    simp only [List.mem_cons] at hx
    rcases hx with rfl | rfl | hx
    · exact n1
    · exact n2
    · exact hrest x hx)
  unfold wind at hw ⊢
  simp only [List.map_cons, List.sum_cons] at hw ⊢
  rw [crossing_anti c b z, crossing_anti c z a] at t1
  rw [crossing_anti q b z, crossing_anti q z a] at t2
  omega

end TQ.FU

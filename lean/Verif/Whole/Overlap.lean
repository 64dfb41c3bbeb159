import Verif.Whole.OverlapSpec
import Verif.Whole.Convex
import Verif.Geometry.Lemmas
import Verif.FrontUpdate.Free
import Mathlib.Data.Finset.Max

/-! # Lemmas: convex polygons that overlap -/

set_option linter.unusedSectionVars false

namespace TQ.Ovl
open TQ.FUSpec TQ.OutlSpec TQ.FU TQ.GeoSpec TQ.OvlSpec TQ.Outl
variable {K : Type*} [Field K] [LinearOrder K] [IsStrictOrderedRing K]

/-- In the closed polygon. -/
def Cl (A : List (Pt K)) (p : Pt K) : Prop := ∀ e ∈ ring A, 0 ≤ side e.1 e.2 p

/-- The segments cross each other. -/
def Cross (e f : Pt K × Pt K) : Prop := side e.1 e.2 f.1 * side e.1 e.2 f.2 < 0 ∧ side f.1 f.2 e.1 * side f.1 f.2 e.2 < 0

theorem _root_.TQ.OutlSpec.LeftOfAll.cl {A : List (Pt K)} {p : Pt K} (h : LeftOfAll (ring A) p) : Cl A p := fun e he => (h e he).le

theorem onSeg_swap (a b : Pt K) (t : K) : onSeg b a t = onSeg a b (1 - t) := by unfold onSeg; apply Pt.ext' <;> ring
theorem onSeg_onSeg (a b : Pt K) (s t : K) : onSeg (onSeg a b s) b t = onSeg a b (s + t * (1 - s)) := by unfold onSeg; apply Pt.ext' <;> ring

/-- A point on the line through two points. -/
theorem on_line {a b z : Pt K} (h : a ≠ b) (hz : side a b z = 0) : ∃ t, z = onSeg a b t := by
  unfold side at hz
  by_cases hx : b.x - a.x = 0
  · have hy : b.y - a.y ≠ 0 := fun hy => h (Pt.ext' (by linarith) (by linarith))
    refine ⟨(z.y - a.y) / (b.y - a.y), Pt.ext' ?_ ?_⟩
    · rw [hx] at hz
      have : z.x - a.x = 0 := by
        rcases mul_eq_zero.mp (show (b.y - a.y) * (z.x - a.x) = 0 by linarith) with k | k
        · exact absurd k hy
        · exact k
      unfold onSeg; dsimp only; rw [hx]; linarith
    · unfold onSeg; dsimp only; rw [div_mul_cancel₀ _ hy]; ring
  · refine ⟨(z.x - a.x) / (b.x - a.x), Pt.ext' ?_ ?_⟩
    · unfold onSeg; dsimp only; rw [div_mul_cancel₀ _ hx]; ring
    · unfold onSeg; dsimp only
      have : (z.x - a.x) / (b.x - a.x) * (b.y - a.y) = z.y - a.y := by
        rw [div_mul_eq_mul_div, div_eq_iff hx]; linarith
      linarith

/-- Every side has a side before and one after it. -/
theorem side_before {A : List (Pt K)} {p : Pt K} (hp : p ∈ A) : ∃ d, (d, p) ∈ ring A := by
  obtain ⟨e, he, h⟩ := List.mem_map.mp ((ring_snd A).symm.subset hp)
  exact ⟨e.1, by rw [← h]; exact he⟩
theorem side_after {A : List (Pt K)} {p : Pt K} (hp : p ∈ A) : ∃ d, (p, d) ∈ ring A := by
  have : p ∈ (ring A).map Prod.fst := by rw [ring_fst]; exact hp
  obtain ⟨e, he, h⟩ := List.mem_map.mp this
  exact ⟨e.2, by rw [← h]; exact he⟩

/-- A convex polygon meets the line of a side in the side. -/
theorem on_side {A : List (Pt K)} (hA : ConvexCorners A) {e : Pt K × Pt K} (he : e ∈ ring A) {z : Pt K} (h0 : side e.1 e.2 z = 0) (hz : Cl A z) :
    ∃ r, 0 ≤ r ∧ r ≤ 1 ∧ z = onSeg e.1 e.2 r := by
  obtain ⟨m1, m2⟩ := ring_mem he
  have hne := convex_proper hA e he
  obtain ⟨t, rfl⟩ := on_line hne h0
  have no : ∀ x y : Pt K, (x, y) ∈ ring A → (y, x) ∈ ring A → False := by
    intro x y h1 h2
    obtain ⟨w, hw, w1, w2⟩ := convex_third hA x y
    have k1 := (convex_left hA h1 hw).2 w1 w2
    have k2 := (convex_left hA h2 hw).2 w2 w1
    rw [show side (y, x).1 (y, x).2 w = - side x y w from side_swap _ _ _] at k2
    exact absurd k1 (by simp only; linarith)
  obtain ⟨d, hd⟩ := side_before m1
  obtain ⟨g, hg⟩ := side_after m2
  refine ⟨t, ?_, ?_, rfl⟩
  · have k := hz _ hd
    simp only at k
    rw [FU.side_onSeg, show side d e.1 e.1 = 0 by unfold side; ring, mul_zero, zero_add] at k
    have hd2 : e.2 ≠ d := fun h => no e.1 e.2 he (by rw [h]; exact hd)
    have p := (convex_left hA hd m2).2 hd2 (Ne.symm hne)
    exact nonneg_of_mul_nonneg_left k p
  · have k := hz _ hg
    simp only at k
    rw [FU.side_onSeg, show side e.2 g e.2 = 0 by unfold side; ring, mul_zero, add_zero] at k
    have hg2 : e.1 ≠ g := fun h => no e.1 e.2 he (by rw [h]; exact hg)
    have p := (convex_left hA hg m1).2 hne hg2
    have := nonneg_of_mul_nonneg_left k p
    linarith

/-- The way from an inner point to a point outside leaves the polygon through a side. -/
theorem leaves {A : List (Pt K)} {x y : Pt K} (hx : LeftOfAll (ring A) x) (hy : ¬ Cl A y) :
    ∃ e ∈ ring A, ∃ t, 0 < t ∧ t < 1 ∧ side e.1 e.2 (onSeg x y t) = 0 ∧ side e.1 e.2 y < 0 ∧ Cl A (onSeg x y t) := by
  classical
  unfold Cl at hy
  push Not at hy
  obtain ⟨e0, he0, hy0⟩ := hy
  let S := ((ring A).filter fun e => decide (side e.1 e.2 y < 0)).toFinset
  have hS : S.Nonempty := ⟨e0, by simp [S, he0, hy0]⟩
  let f : Pt K × Pt K → K := fun e => side e.1 e.2 x / (side e.1 e.2 x - side e.1 e.2 y)
  obtain ⟨e, heS, hmin⟩ := S.exists_min_image f hS
  have he : e ∈ ring A ∧ side e.1 e.2 y < 0 := by simpa [S] using heS
  have px := hx e he.1
  have hd : 0 < side e.1 e.2 x - side e.1 e.2 y := by linarith [he.2]
  refine ⟨e, he.1, f e, div_pos px hd, (div_lt_one hd).mpr (by linarith [he.2]), ?_, he.2, ?_⟩
  · rw [FU.side_onSeg]
    have : f e * (side e.1 e.2 x - side e.1 e.2 y) = side e.1 e.2 x := div_mul_cancel₀ _ hd.ne'
    linarith
  · intro e' he'
    rw [FU.side_onSeg]
    have t0 : 0 < f e := div_pos px hd
    have t1 : f e < 1 := (div_lt_one hd).mpr (by linarith [he.2])
    have px' := hx e' he'
    by_cases hy' : side e'.1 e'.2 y < 0
    · have hm := hmin e' (by simp [S, he', hy'])
      have hd' : 0 < side e'.1 e'.2 x - side e'.1 e'.2 y := by linarith
      have : f e' * (side e'.1 e'.2 x - side e'.1 e'.2 y) = side e'.1 e'.2 x := div_mul_cancel₀ _ hd'.ne'
      nlinarith [mul_le_mul_of_nonneg_right hm hd'.le]
    · push Not at hy'
      nlinarith [mul_nonneg t0.le hy', mul_pos (sub_pos.mpr t1) px']

/-- A segment from a point in a polygon to a point outside crosses a side, or a corner is on it. -/
theorem crosses {A : List (Pt K)} (hA : ConvexCorners A) {b b' : Pt K} {s : K} (h0 : 0 ≤ s) (h1 : s < 1) (hx : LeftOfAll (ring A) (onSeg b b' s)) (hb : ¬ Cl A b') :
    (∃ e ∈ ring A, Cross e (b, b')) ∨ ∃ a ∈ A, Between (b, b') a := by
  obtain ⟨e, he, t, t0, t1, hz, hy, hcl⟩ := leaves hx hb
  obtain ⟨r, r0, r1, hr⟩ := on_side hA he hz hcl
  rw [onSeg_onSeg] at hr hz
  have u0 : 0 < s + t * (1 - s) := by have := mul_pos t0 (sub_pos.mpr h1); linarith
  have u1 : s + t * (1 - s) < 1 := by nlinarith [mul_pos (sub_pos.mpr t1) (sub_pos.mpr h1)]
  obtain ⟨m1, m2⟩ := ring_mem he
  rcases eq_or_lt_of_le r0 with rfl | r0
  · rw [onSeg_zero'] at hr
    exact Or.inr ⟨e.1, m1, _, u0, u1, hr.symm⟩
  rcases eq_or_lt_of_le r1 with rfl | r1
  · rw [onSeg_one'] at hr
    exact Or.inr ⟨e.2, m2, _, u0, u1, hr.symm⟩
  refine Or.inl ⟨e, he, ?_, ?_⟩
  · have := hx e he
    rw [FU.side_onSeg] at this
    have pb : 0 < side e.1 e.2 b := by
      by_contra hn
      push Not at hn
      nlinarith [mul_nonneg h0 (neg_nonneg.mpr hy.le), mul_nonneg (sub_pos.mpr h1).le (neg_nonneg.mpr hn)]
    exact mul_neg_of_pos_of_neg pb hy
  · have hne : b ≠ b' := by
      rintro rfl
      have := hx e he
      rw [FU.side_onSeg] at this
      linarith
    have hs : (1 - r) * side b b' e.1 + r * side b b' e.2 = 0 := by
      rw [← FU.side_onSeg, ← hr, FU.side_onSeg]
      unfold side; ring
    have hb0 : side e.1 e.2 b ≠ 0 := by
      intro hb0
      have := hx e he
      rw [FU.side_onSeg, hb0] at this
      nlinarith [mul_nonneg h0 (neg_nonneg.mpr hy.le)]
    have n1 : side b b' e.1 ≠ 0 := by
      intro hk
      rw [hk, mul_zero, zero_add] at hs
      have hk2 := (mul_eq_zero.mp hs).resolve_left r0.ne'
      obtain ⟨u, hu⟩ := on_line hne hk
      obtain ⟨v, hv⟩ := on_line hne hk2
      apply hb0
      rw [hu, hv]
      unfold side onSeg; ring
    simp only
    have : side b b' e.2 = - ((1 - r) / r) * side b b' e.1 := by field_simp; linarith
    rw [this]
    have hp : 0 < (1 - r) / r := div_pos (by linarith) r0
    have : 0 < side b b' e.1 * side b b' e.1 := mul_self_pos.mpr n1
    nlinarith [mul_pos hp this]

theorem Cross.swap {e f : Pt K × Pt K} (h : Cross e (f.2, f.1)) : Cross e f := by
  obtain ⟨h1, h2⟩ := h
  refine ⟨by simp only at h1; linarith, ?_⟩
  simp only at h2
  rw [side_swap f.1 f.2 e.1, side_swap f.1 f.2 e.2] at h2
  linarith

theorem _root_.TQ.OvlSpec.Between.swap {f : Pt K × Pt K} {a : Pt K} (h : Between (f.2, f.1) a) : Between f a := by
  obtain ⟨t, t0, t1, rfl⟩ := h
  exact ⟨1 - t, by linarith, by linarith, onSeg_swap _ _ _⟩

/-- No sides cross, and no corner is on a side of the other polygon. -/
def NoMeet (A B : List (Pt K)) : Prop := (∀ e ∈ ring A, ∀ f ∈ ring B, ¬ Cross e f) ∧ ¬ Hanging A B

/-- A side that has an inner point of the other polygon is in this polygon. -/
theorem side_in {A B : List (Pt K)} (hA : ConvexCorners A) (hN : NoMeet A B) {f : Pt K × Pt K} (hf : f ∈ ring B) {s : K} (h0 : 0 ≤ s) (h1 : s ≤ 1)
    (hx : LeftOfAll (ring A) (onSeg f.1 f.2 s)) : Cl A f.1 ∧ Cl A f.2 := by
  constructor
  · by_contra hc
    rcases eq_or_lt_of_le h0 with rfl | h0
    · rw [onSeg_zero'] at hx
      exact hc hx.cl
    rw [show onSeg f.1 f.2 s = onSeg f.2 f.1 (1 - s) by rw [onSeg_swap]] at hx
    rcases crosses hA (by linarith) (by linarith) hx hc with ⟨e, he, h⟩ | ⟨a, ha, h⟩
    · exact hN.1 e he f hf h.swap
    · exact hN.2 (Or.inr ⟨f, hf, a, ha, h.swap⟩)
  · by_contra hc
    rcases eq_or_lt_of_le h1 with rfl | h1
    · rw [onSeg_one'] at hx
      exact hc hx.cl
    rcases crosses hA h0 h1 hx hc with ⟨e, he, h⟩ | ⟨a, ha, h⟩
    · exact hN.1 e he f hf h
    · exact hN.2 (Or.inr ⟨f, hf, a, ha, h⟩)

/-- A corner in the closed polygon is an inner point or a corner of it. -/
theorem corner_in {A B : List (Pt K)} (hA : ConvexCorners A) (hN : NoMeet A B) {b : Pt K} (hb : b ∈ B) (hc : Cl A b) : LeftOfAll (ring A) b ∨ b ∈ A := by
  by_contra h
  push Not at h
  obtain ⟨h1, h2⟩ := h
  unfold LeftOfAll at h1
  push Not at h1
  obtain ⟨e, he, h1⟩ := h1
  obtain ⟨r, r0, r1, hr⟩ := on_side hA he (le_antisymm h1 (hc e he)) hc
  obtain ⟨m1, m2⟩ := ring_mem he
  rcases eq_or_lt_of_le r0 with rfl | r0
  · rw [onSeg_zero'] at hr; rw [hr] at h2; exact h2 m1
  rcases eq_or_lt_of_le r1 with rfl | r1
  · rw [onSeg_one'] at hr; rw [hr] at h2; exact h2 m2
  exact hN.2 (Or.inl ⟨e, he, b, hb, r, r0, r1, hr⟩)

/-- A corner that is an inner point: the corners before and after it are in the polygon. -/
theorem next_in {A B : List (Pt K)} (hA : ConvexCorners A) (hN : NoMeet A B) {f : Pt K × Pt K} (hf : f ∈ ring B) :
    (LeftOfAll (ring A) f.1 → Cl A f.2) ∧ (LeftOfAll (ring A) f.2 → Cl A f.1) :=
  ⟨fun h => (side_in hA hN hf le_rfl zero_le_one (by rw [onSeg_zero']; exact h)).2, fun h => (side_in hA hN hf zero_le_one le_rfl (by rw [onSeg_one']; exact h)).1⟩

/-- If a corner of `A` is outside of `B`, a side of `B` has an inner point of `A`. -/
theorem some_side {A B : List (Pt K)} (hA : ConvexCorners A) (hB : ConvexCorners B) {q a : Pt K} (hq : LeftOfAll (ring A) q) (hq' : LeftOfAll (ring B) q) (ha : a ∈ A) (hn : ¬ Cl B a) :
    ∃ f ∈ ring B, ∃ s, 0 ≤ s ∧ s ≤ 1 ∧ LeftOfAll (ring A) (onSeg f.1 f.2 s) := by
  obtain ⟨f, hf, t, t0, t1, hz, -, hcl⟩ := leaves hq' hn
  obtain ⟨s, s0, s1, hs⟩ := on_side hB hf hz hcl
  refine ⟨f, hf, s, s0, s1, ?_⟩
  rw [← hs]
  intro e he
  rw [FU.side_onSeg]
  nlinarith [mul_pos (sub_pos.mpr t1) (hq e he), mul_nonneg t0.le (convex_left hA he ha).1]

/-- A side of a polygon has no inner points. -/
theorem side_outer {A : List (Pt K)} {u v : Pt K} (h : (u, v) ∈ ring A ∨ (v, u) ∈ ring A) (s : K) : ¬ LeftOfAll (ring A) (onSeg u v s) := by
  intro hx
  rcases h with h | h
  · have := hx _ h
    simp only [FU.side_onSeg] at this
    unfold side at this; ring_nf at this; exact lt_irrefl _ this
  · have := hx _ h
    simp only [FU.side_onSeg] at this
    unfold side at this; ring_nf at this; exact lt_irrefl _ this

/-- No side is passed in both directions. -/
theorem no_back {A : List (Pt K)} (hA : ConvexCorners A) {x y : Pt K} (h1 : (x, y) ∈ ring A) (h2 : (y, x) ∈ ring A) : False := by
  obtain ⟨w, hw, w1, w2⟩ := convex_third hA x y
  have k1 := (convex_left hA h1 hw).2 w1 w2
  have k2 := (convex_left hA h2 hw).2 w2 w1
  rw [show side (y, x).1 (y, x).2 w = - side x y w from side_swap _ _ _] at k2
  exact absurd k1 (by simp only; linarith)

theorem three_or_four {B : List (Pt K)} (hB : ConvexCorners B) (hl : B.length ≤ 4) : (∃ p q r, B = [p, q, r]) ∨ ∃ p q r s, B = [p, q, r, s] := by
  have := hB.1
  match B, hl, this with
  | [p, q, r], _, _ => exact Or.inl ⟨p, q, r, rfl⟩
  | [p, q, r, s], _, _ => exact Or.inr ⟨p, q, r, s, rfl⟩

theorem four_step {Pb Pn Pm Qb Qn Qm Qo An Am : Prop} (hb : Pb) (h0 : Pb → Qb) (h1 : Pb → Qn) (h2 : Pb → Qm) (k1 : Qn → Pn ∨ An) (k2 : Qm → Pm ∨ Am) (no : An → Am → False)
    (g1 : Pn → Qo) (g2 : Pm → Qo) : Qb ∧ Qn ∧ Qm ∧ Qo := by
  refine ⟨h0 hb, h1 hb, h2 hb, ?_⟩
  rcases k1 (h1 hb) with h | h
  · exact g1 h
  · rcases k2 (h2 hb) with h' | h'
    · exact g2 h'
    · exact (no h h').elim

/-- If two elements overlap and no sides meet, one of them is in the other one. -/
theorem contained {A B : List (Pt K)} (hA : ConvexCorners A) (hB : ConvexCorners B) (hl : B.length ≤ 4) (hj : Adjoin A B) (ho : Overlap A B) (hN : NoMeet A B) :
    (∀ b ∈ B, Cl A b) ∨ ∀ a ∈ A, Cl B a := by
  by_cases hc : ∀ a ∈ A, Cl B a
  · exact Or.inr hc
  left
  push Not at hc
  obtain ⟨a, ha, hn⟩ := hc
  obtain ⟨q, hq, hq'⟩ := ho
  obtain ⟨f, hf, s, s0, s1, hs⟩ := some_side hA hB hq hq' ha hn
  obtain ⟨c1, c2⟩ := side_in hA hN hf s0 s1 hs
  obtain ⟨m1, m2⟩ := ring_mem hf
  have hin : ∃ b ∈ B, LeftOfAll (ring A) b := by
    by_contra hno
    push Not at hno
    have k1 := (corner_in hA hN m1 c1).resolve_left (hno _ m1)
    have k2 := (corner_in hA hN m2 c2).resolve_left (hno _ m2)
    exact side_outer (hj _ k1 m1 _ k2 m2 (convex_proper hB f hf)).1 s hs
  have hcl : ∀ b ∈ B, LeftOfAll (ring A) b → Cl A b := fun b _ h => h.cl
  have hst : ∀ f ∈ ring B, (LeftOfAll (ring A) f.1 → Cl A f.2) ∧ (LeftOfAll (ring A) f.2 → Cl A f.1) := fun f hf => next_in hA hN hf
  have hco : ∀ b ∈ B, Cl A b → LeftOfAll (ring A) b ∨ b ∈ A := fun b hb h => corner_in hA hN hb h
  have hnd := turns_nodup hB
  have hdg : ∀ u ∈ B, ∀ v ∈ B, u ≠ v → (u, v) ∉ ring B → (v, u) ∉ ring B → u ∈ A → v ∈ A → False := fun u hu v hv hne h1 h2 ku kv => by
    rcases (hj u ku hu v kv hv hne).2 with h | h
    · exact h1 h
    · exact h2 h
  have h3 := hB.1
  clear hj hN hs c1 c2 hf m1 m2 hq' hn hB
  rcases hl' : B with _ | ⟨p, _ | ⟨q, _ | ⟨r, _ | ⟨w, _ | ⟨_, _⟩⟩⟩⟩⟩
  · subst hl'; simp at h3
  · subst hl'; simp at h3
  · subst hl'; simp at h3
  · subst hl'
    simp only [ring, path, List.mem_cons, List.not_mem_nil, or_false, forall_eq_or_imp, forall_eq, exists_eq_or_imp, exists_eq_left] at hin hcl hst ⊢
    obtain ⟨s1, s2, s3⟩ := hst
    obtain ⟨l1, l2, l3⟩ := hcl
    rcases hin with h | h | h
    · exact ⟨l1 h, s1.1 h, s3.2 h⟩
    · exact ⟨s1.2 h, l2 h, s2.1 h⟩
    · exact ⟨s3.1 h, s2.2 h, l3 h⟩
  · subst hl'
    have n1 : p ∈ A → r ∈ A → False := hdg p (by simp) r (by simp) (by simp at hnd; tauto) (by simp [ring, path] at hnd ⊢; tauto) (by simp [ring, path] at hnd ⊢; tauto)
    have n2 : q ∈ A → w ∈ A → False := hdg q (by simp) w (by simp) (by simp at hnd; tauto) (by simp [ring, path] at hnd ⊢; tauto) (by simp [ring, path] at hnd ⊢; tauto)
    simp only [ring, path, List.mem_cons, List.not_mem_nil, or_false, forall_eq_or_imp, forall_eq, exists_eq_or_imp, exists_eq_left] at hin hcl hst hco ⊢
    obtain ⟨s1, s2, s3, s4⟩ := hst
    obtain ⟨l1, l2, l3, l4⟩ := hcl
    obtain ⟨c1, c2, c3, c4⟩ := hco
    rcases hin with h | h | h | h
    · obtain ⟨a, b, c, d⟩ := four_step h l1 s1.1 s4.2 c2 c4 n2 s2.1 s3.2; exact ⟨a, b, d, c⟩
    · obtain ⟨a, b, c, d⟩ := four_step h l2 s1.2 s2.1 c1 c3 n1 s4.2 s3.1; exact ⟨b, a, c, d⟩
    · obtain ⟨a, b, c, d⟩ := four_step h l3 s2.2 s3.1 c2 c4 n2 s1.2 s4.1; exact ⟨d, b, a, c⟩
    · obtain ⟨a, b, c, d⟩ := four_step h l4 s4.1 s3.2 c1 c3 n1 s1.1 s2.2; exact ⟨b, d, c, a⟩
  · subst hl'; simp at hl; omega

/-- The same if no corner of the polygon is in the triangle. -/
theorem contained_tri {A B : List (Pt K)} (hA : ConvexCorners A) (h3 : A.length = 3) (hB : ConvexCorners B) (hv : ∀ b ∈ B, b ∉ A → ¬ Cl A b) (ho : Overlap A B) (hN : NoMeet A B) :
    ∀ a ∈ A, Cl B a := by
  by_contra hc
  push Not at hc
  obtain ⟨a, ha, hn⟩ := hc
  obtain ⟨q, hq, hq'⟩ := ho
  obtain ⟨f, hf, s, s0, s1, hs⟩ := some_side hA hB hq hq' ha hn
  obtain ⟨c1, c2⟩ := side_in hA hN hf s0 s1 hs
  obtain ⟨m1, m2⟩ := ring_mem hf
  have k1 : f.1 ∈ A := by by_contra h; exact hv _ m1 h c1
  have k2 : f.2 ∈ A := by by_contra h; exact hv _ m2 h c2
  have hne := convex_proper hB f hf
  refine side_outer ?_ s hs
  match A, h3 with
  | [p, q, r], _ =>
    simp only [List.mem_cons, List.not_mem_nil, or_false] at k1 k2
    simp only [ring, path, List.mem_cons, List.not_mem_nil, or_false, Prod.mk.injEq]
    rcases k1 with h | h | h <;> rcases k2 with k | k | k <;> rw [h, k] at hne ⊢ <;> simp_all

/-- Two triangles have only sides in common. -/
theorem adjoin_tri {A B : List (Pt K)} (hA : A.length = 3) (hB : B.length = 3) : Adjoin A B := by
  have key : ∀ C : List (Pt K), C.length = 3 → ∀ u ∈ C, ∀ v ∈ C, u ≠ v → (u, v) ∈ ring C ∨ (v, u) ∈ ring C := by
    intro C hC u hu v hv hne
    match C, hC with
    | [p, q, r], _ =>
      simp only [List.mem_cons, List.not_mem_nil, or_false] at hu hv
      simp only [ring, path, List.mem_cons, List.not_mem_nil, or_false, Prod.mk.injEq]
      rcases hu with rfl | rfl | rfl <;> rcases hv with rfl | rfl | rfl <;> simp_all
  exact fun u hu hu' v hv hv' hne => ⟨key A hA u hu v hv hne, key B hB u hu' v hv' hne⟩

/-- `c` is the mean of the corners. -/
def Mean (A : List (Pt K)) (c : Pt K) : Prop := ∀ u v : Pt K, side u v c * A.length = (A.map (side u v)).sum

theorem mean_tri (p q r : Pt K) : Mean [p, q, r] (MS.St.triCentroid p q r) := by
  intro u v
  simp only [MS.St.triCentroid, side, List.map_cons, List.map_nil, List.sum_cons, List.sum_nil, List.length_cons, List.length_nil, Pt.smul_x, Pt.smul_y, Pt.add_x, Pt.add_y]
  push_cast; ring
theorem mean_quad (p q r s : Pt K) : Mean [p, q, r, s] (MS.St.quadCentroid p q r s) := by
  intro u v
  simp only [MS.St.quadCentroid, side, List.map_cons, List.map_nil, List.sum_cons, List.sum_nil, List.length_cons, List.length_nil, Pt.smul_x, Pt.smul_y, Pt.add_x, Pt.add_y]
  push_cast; ring

theorem flat {a b p q r : Pt K} (h : a ≠ b) (hp : side a b p = 0) (hq : side a b q = 0) (hr : side a b r = 0) : side p q r = 0 := by
  obtain ⟨t, rfl⟩ := on_line h hp
  obtain ⟨u, rfl⟩ := on_line h hq
  obtain ⟨v, rfl⟩ := on_line h hr
  unfold side onSeg; ring

/-- The mean of the corners of a polygon that is in another one is an inner point of that one. -/
theorem mean_in {A B : List (Pt K)} (hA : ConvexCorners A) (hB : ConvexCorners B) {c : Pt K} (hm : Mean B c) (h : ∀ b ∈ B, Cl A b) : LeftOfAll (ring A) c := by
  intro e he
  have hl : (0 : K) < B.length := by have := hB.1; exact_mod_cast (by omega : 0 < B.length)
  have hs : 0 < (B.map (side e.1 e.2)).sum := by
    have hnn : ∀ x ∈ B.map (side e.1 e.2), 0 ≤ x := by
      intro x hx
      obtain ⟨b, hb, rfl⟩ := List.mem_map.mp hx
      exact h b hb e he
    rcases (List.sum_nonneg hnn).eq_or_lt with h0 | h0
    · exfalso
      have hz : ∀ b ∈ B, side e.1 e.2 b = 0 := by
        intro b hb
        exact List.all_zero_of_le_zero_le_of_sum_eq_zero hnn h0.symm (List.mem_map_of_mem hb)
      obtain ⟨h3, ht⟩ := hB
      match B, h3 with
      | p :: q :: r :: l, _ =>
        have := ht p q r (by simp)
        rw [flat (convex_proper hA e he) (hz p (by simp)) (hz q (by simp)) (hz r (by simp))] at this
        exact lt_irrefl _ this
    · exact h0
  rw [← hm] at hs
  exact (pos_iff_pos_of_mul_pos hs).mpr hl

theorem cl_self {A : List (Pt K)} (hA : ConvexCorners A) : ∀ a ∈ A, Cl A a := fun _ ha _ he => (convex_left hA he ha).1

/-- A point of a side is on no other side. -/
theorem strict_on {A : List (Pt K)} (hA : ConvexCorners A) {e g : Pt K × Pt K} (he : e ∈ ring A) (hg : g ∈ ring A) {r : K} (r0 : 0 < r) (r1 : r < 1) :
    0 < side g.1 g.2 (onSeg e.1 e.2 r) ∨ g = e := by
  obtain ⟨m1, m2⟩ := ring_mem he
  have k1 := convex_left hA hg m1
  have k2 := convex_left hA hg m2
  rw [FU.side_onSeg]
  have q1 : 0 < 1 - r := by linarith
  by_cases h1 : 0 < side g.1 g.2 e.1
  · left; nlinarith [mul_pos q1 h1, mul_nonneg r0.le k2.1]
  by_cases h2 : 0 < side g.1 g.2 e.2
  · left; nlinarith [mul_pos r0 h2, mul_nonneg q1.le k1.1]
  right
  have hne := convex_proper hA e he
  by_cases a1 : e.1 = g.1
  · by_cases b1 : e.2 = g.2
    · exact (Prod.ext a1 b1).symm
    · exact absurd (k2.2 (fun h => hne (a1.trans h.symm)) b1) h2
  · by_cases a2 : e.1 = g.2
    · by_cases b1 : e.2 = g.1
      · exfalso
        have h' : (e.2, e.1) ∈ ring A := by rw [a2, b1]; exact hg
        exact no_back hA he h'
      · exact absurd (k2.2 b1 (fun h => hne (a2.trans h.symm))) h2
    · exact absurd (k1.2 a1 a2) h1

/-- Polygons with sides that cross overlap. -/
theorem cross_overlap {A B : List (Pt K)} (hA : ConvexCorners A) (hB : ConvexCorners B) {e f : Pt K × Pt K} (he : e ∈ ring A) (hf : f ∈ ring B) (h : Cross e f) : Overlap A B := by
  obtain ⟨h1, h2⟩ := h
  -- the ends on the left
  have hl : ∀ e f : Pt K × Pt K, side e.1 e.2 f.1 * side e.1 e.2 f.2 < 0 → ∃ p, side f.1 f.2 p = 0 ∧ 0 < side e.1 e.2 p := by
    intro e f h
    rcases mul_neg_iff.mp h with h | h
    · exact ⟨f.1, by unfold side; ring, h.1⟩
    · exact ⟨f.2, by unfold side; ring, h.2⟩
  obtain ⟨p, p0, p1⟩ := hl e f h1
  obtain ⟨q, q0, q1⟩ := hl f e h2
  -- the crossing point
  have hd : side f.1 f.2 e.1 - side f.1 f.2 e.2 ≠ 0 := by
    intro hd
    rw [sub_eq_zero.mp hd] at h2
    nlinarith [mul_self_nonneg (side f.1 f.2 e.2)]
  have hd' : side e.1 e.2 f.1 - side e.1 e.2 f.2 ≠ 0 := by
    intro hd
    rw [sub_eq_zero.mp hd] at h1
    nlinarith [mul_self_nonneg (side e.1 e.2 f.2)]
  have hpar : ∀ a b : K, a * b < 0 → 0 < a / (a - b) ∧ a / (a - b) < 1 := by
    intro a b h
    rcases mul_neg_iff.mp h with h | h
    · have : 0 < a - b := by linarith [h.1, h.2]
      exact ⟨div_pos h.1 this, (div_lt_one this).mpr (by linarith [h.2])⟩
    · have : 0 < b - a := by linarith [h.1, h.2]
      rw [← neg_div_neg_eq, neg_sub]
      exact ⟨div_pos (by linarith [h.1]) this, (div_lt_one this).mpr (by linarith [h.2])⟩
  obtain ⟨r0, r1⟩ := hpar _ _ h2
  obtain ⟨u0, u1⟩ := hpar _ _ h1
  have hz : onSeg e.1 e.2 (side f.1 f.2 e.1 / (side f.1 f.2 e.1 - side f.1 f.2 e.2)) = onSeg f.1 f.2 (side e.1 e.2 f.1 / (side e.1 e.2 f.1 - side e.1 e.2 f.2)) := by
    have hx : side e.1 e.2 f.1 - side e.1 e.2 f.2 = - (side f.1 f.2 e.1 - side f.1 f.2 e.2) := by unfold side; ring
    rw [hx] at hd' ⊢
    unfold onSeg
    apply Pt.ext' <;> simp only <;> field_simp <;> unfold side <;> ring
  generalize side f.1 f.2 e.1 / (side f.1 f.2 e.1 - side f.1 f.2 e.2) = r at *
  generalize side e.1 e.2 f.1 / (side e.1 e.2 f.1 - side e.1 e.2 f.2) = u at *
  have em : 0 < side e.1 e.2 (onSeg p q (1 / 2)) := by
    rw [FU.side_onSeg, q0]; linarith
  have fm : 0 < side f.1 f.2 (onSeg p q (1 / 2)) := by
    rw [FU.side_onSeg, p0]; linarith
  have hsm : ∀ (z m : Pt K) (g : Pt K × Pt K), (0 < side g.1 g.2 z ∨ (side g.1 g.2 z = 0 ∧ 0 < side g.1 g.2 m)) → Small fun d => 0 < side g.1 g.2 (onSeg z m d) := by
    intro z m g h
    rcases h with h | ⟨h, h'⟩
    · exact (small_pos1 h (side g.1 g.2 m - side g.1 g.2 z)).mono fun d _ k => by rw [FU.side_onSeg]; linarith
    · exact Small.of fun d hd => by rw [FU.side_onSeg, h]; have := mul_pos hd h'; linarith
  have z0 : ∀ (a b : Pt K) (t : K), side a b (onSeg a b t) = 0 := by intro a b t; unfold side onSeg; ring
  have sA : Small fun d => ∀ g ∈ ring A, 0 < side g.1 g.2 (onSeg (onSeg e.1 e.2 r) (onSeg p q (1 / 2)) d) := by
    apply Small.all
    intro g hg
    apply hsm
    rcases strict_on hA he hg r0 r1 with h | rfl
    · exact Or.inl h
    · exact Or.inr ⟨z0 _ _ _, em⟩
  have sB : Small fun d => ∀ g ∈ ring B, 0 < side g.1 g.2 (onSeg (onSeg f.1 f.2 u) (onSeg p q (1 / 2)) d) := by
    apply Small.all
    intro g hg
    apply hsm
    rcases strict_on hB hf hg u0 u1 with h | rfl
    · exact Or.inl h
    · exact Or.inr ⟨z0 _ _ _, fm⟩
  obtain ⟨d, -, k1, k2⟩ := (sA.and sB).get
  exact ⟨_, k1, by rw [hz]; exact k2⟩

/-! ### The tests -/

theorem or_ccw {eps : K} (he : 0 < eps) {a b c : Pt K} (h : side a b c * side a b c < eps → side a b c = 0) : orientation eps a b c = .CCW ↔ 0 < side a b c := by
  rw [orientation_CCW_iff, area2_side]
  constructor
  · exact fun h => h.2
  · refine fun hp => ⟨?_, hp⟩
    by_contra hc
    push Not at hc
    exact hp.ne' (h (by linarith))
theorem or_cw {eps : K} (he : 0 < eps) {a b c : Pt K} (h : side a b c * side a b c < eps → side a b c = 0) : orientation eps a b c = .CW ↔ side a b c < 0 := by
  rw [orientation_CW_iff, area2_side]
  constructor
  · rintro ⟨h1, h2⟩
    refine lt_of_le_of_ne (by linarith) fun h0 => ?_
    rw [h0] at h1; linarith
  · refine fun hp => ⟨?_, by linarith⟩
    by_contra hc
    push Not at hc
    exact hp.ne (h (by linarith))
theorem or_cl {eps : K} (he : 0 < eps) {a b c : Pt K} (h : side a b c * side a b c < eps → side a b c = 0) : orientation eps a b c = .CL ↔ side a b c = 0 := by
  rw [orientation_CL_iff, area2_side]
  exact ⟨h, fun h0 => by rw [h0]; linarith⟩

theorem seg_iff {eps : K} (he : 0 < eps) {a b c : Pt K} (hne : a ≠ b) (h : side a b c * side a b c < eps → side a b c = 0) : inSegment eps a b c = true ↔ Between (a, b) c := by
  unfold inSegment
  have hn : 0 < Pt.normSq (b - a) := by
    unfold Pt.normSq
    simp only [Pt.sub_x, Pt.sub_y]
    rcases eq_or_ne (b.x - a.x) 0 with hx | hx
    · have hy : b.y - a.y ≠ 0 := fun hy => hne (Pt.ext' (by linarith) (by linarith))
      have := mul_self_pos.mpr hy; nlinarith [mul_self_nonneg (b.x - a.x)]
    · have := mul_self_pos.mpr hx; nlinarith [mul_self_nonneg (b.y - a.y)]
  have hdot : ∀ t : K, Pt.dot (onSeg a b t - a) (b - a) = t * Pt.normSq (b - a) := by
    intro t; unfold Pt.dot Pt.normSq onSeg; simp only [Pt.sub_x, Pt.sub_y]; ring
  by_cases h0 : side a b c = 0
  · rw [if_neg (by rw [not_not]; exact (or_cl he h).mpr h0)]
    obtain ⟨t, rfl⟩ := on_line hne h0
    rw [hdot]
    simp only [Bool.and_eq_true, decide_eq_true_eq]
    constructor
    · rintro ⟨h1, h2⟩
      exact ⟨t, (pos_iff_pos_of_mul_pos h1).mpr hn, by nlinarith, rfl⟩
    · rintro ⟨s, s0, s1, hs⟩
      have hst : t = s := by
        have := congrArg (fun p => Pt.dot (p - a) (b - a)) hs
        simp only [hdot] at this
        exact mul_right_cancel₀ hn.ne' this
      rw [hst]
      exact ⟨mul_pos s0 hn, by nlinarith⟩
  · rw [if_pos (by rw [Ne, or_cl he h]; exact h0)]
    constructor
    · intro h; cases h
    · rintro ⟨t, -, -, rfl⟩
      exact absurd (by unfold side onSeg; ring) h0

theorem ll_iff {eps : K} (he : 0 < eps) {e f : Pt K × Pt K} (he' : e.1 ≠ e.2) (hf' : f.1 ≠ f.2) {pts : List (Pt K)} (h : Clear eps pts) (h1 : e.1 ∈ pts) (h2 : e.2 ∈ pts) (h3 : f.1 ∈ pts)
    (h4 : f.2 ∈ pts) :
    lineLineIntersection eps e.1 e.2 f.1 f.2 = true ↔ Cross e f ∨ (Between e f.1 ∨ Between e f.2) ∨ Between f e.1 ∨ Between f e.2 := by
  have k1 := h _ h1 _ h2 _ h3
  have k2 := h _ h1 _ h2 _ h4
  have k3 := h _ h3 _ h4 _ h1
  have k4 := h _ h3 _ h4 _ h2
  have op : ∀ {a b c d : Pt K}, (side a b c * side a b c < eps → side a b c = 0) → (side a b d * side a b d < eps → side a b d = 0) →
      (opposite (orientation eps a b c) (orientation eps a b d) = true ↔ side a b c * side a b d < 0) := by
    intro a b c d hc hd
    unfold opposite
    simp only [Bool.or_eq_true, Bool.and_eq_true, beq_iff_eq, or_ccw he hc, or_ccw he hd, or_cw he hc, or_cw he hd]
    rw [mul_neg_iff]
  have z : ∀ {g : Pt K × Pt K} {c : Pt K}, Between g c → side g.1 g.2 c = 0 := by
    rintro g c ⟨t, -, -, rfl⟩; unfold side onSeg; ring
  unfold lineLineIntersection
  simp only [Bool.ite_eq_true_distrib, Bool.and_eq_true, beq_iff_eq, op k1 k2, op k3 k4, or_cl he k1, or_cl he k2, or_cl he k3, or_cl he k4, seg_iff he he' k1, seg_iff he he' k2, seg_iff he hf' k3,
    seg_iff he hf' k4, if_true_left, if_false_right, Bool.false_eq_true, and_true, Prod.mk.eta]
  have w : ∀ {g : Pt K × Pt K} {c : Pt K}, (side g.1 g.2 c = 0 ∧ Between g c) ↔ Between g c := fun {g c} => ⟨And.right, fun h => ⟨z h, h⟩⟩
  rw [w, w, w, w, or_assoc]
  simp only [or_iff_not_imp_left]
  rfl

/-- What the tests report. -/
theorem meets_iff {eps : K} (he : 0 < eps) {A B pts : List (Pt K)} (hA : ConvexCorners A) (hB : ConvexCorners B) (hc : Clear eps pts) (iA : A ⊆ pts) (iB : B ⊆ pts) :
    (∃ e ∈ ring A, ∃ f ∈ ring B, lineLineIntersection eps e.1 e.2 f.1 f.2 = true) ↔ (∃ e ∈ ring A, ∃ f ∈ ring B, Cross e f) ∨ Hanging A B := by
  have key : ∀ e ∈ ring A, ∀ f ∈ ring B, (lineLineIntersection eps e.1 e.2 f.1 f.2 = true ↔ Cross e f ∨ (Between e f.1 ∨ Between e f.2) ∨ Between f e.1 ∨ Between f e.2) := fun e h f k =>
    ll_iff he (convex_proper hA e h) (convex_proper hB f k) hc (iA (ring_mem h).1) (iA (ring_mem h).2) (iB (ring_mem k).1) (iB (ring_mem k).2)
  constructor
  · rintro ⟨e, h, f, k, hm⟩
    rcases (key e h f k).mp hm with hx | (hx | hx) | hx | hx
    · exact Or.inl ⟨e, h, f, k, hx⟩
    · exact Or.inr (Or.inl ⟨e, h, _, (ring_mem k).1, hx⟩)
    · exact Or.inr (Or.inl ⟨e, h, _, (ring_mem k).2, hx⟩)
    · exact Or.inr (Or.inr ⟨f, k, _, (ring_mem h).1, hx⟩)
    · exact Or.inr (Or.inr ⟨f, k, _, (ring_mem h).2, hx⟩)
  · rintro (⟨e, h, f, k, hx⟩ | ⟨e, h, b, hb, hx⟩ | ⟨f, k, a, ha, hx⟩)
    · exact ⟨e, h, f, k, (key e h f k).mpr (Or.inl hx)⟩
    · obtain ⟨d, hd⟩ := side_after hb
      exact ⟨e, h, _, hd, (key e h _ hd).mpr (Or.inr (Or.inl (Or.inl hx)))⟩
    · obtain ⟨d, hd⟩ := side_after ha
      exact ⟨_, hd, f, k, (key _ hd f k).mpr (Or.inr (Or.inr (Or.inl hx)))⟩

theorem reported_iff {eps : K} (he : 0 < eps) {A B pts : List (Pt K)} (hA : ConvexCorners A) (hB : ConvexCorners B) (hl : B.length ≤ 4) (hc : Clear eps pts) (iA : A ⊆ pts) (iB : B ⊆ pts)
    {cA cB : Pt K} (mA : Mean A cA) (mB : Mean B cB) (hj : Adjoin A B) :
    ((∃ e ∈ ring A, ∃ f ∈ ring B, lineLineIntersection eps e.1 e.2 f.1 f.2 = true) ∨ LeftOfAll (ring B) cA ∨ LeftOfAll (ring A) cB) ↔ Overlap A B ∨ Hanging A B := by
  rw [meets_iff he hA hB hc iA iB]
  constructor
  · rintro ((⟨e, h, f, k, hx⟩ | h) | h | h)
    · exact Or.inl (cross_overlap hA hB h k hx)
    · exact Or.inr h
    · exact Or.inl ⟨cA, mean_in hA hA mA (cl_self hA), h⟩
    · exact Or.inl ⟨cB, h, mean_in hB hB mB (cl_self hB)⟩
  · rintro (h | h)
    · by_cases hN : NoMeet A B
      · rcases contained hA hB hl hj h hN with k | k
        · exact Or.inr (Or.inr (mean_in hA hB mB k))
        · exact Or.inr (Or.inl (mean_in hB hA mA k))
      · left
        unfold NoMeet at hN
        by_cases hh : Hanging A B
        · exact Or.inr hh
        · left
          by_contra hx
          push Not at hx
          exact hN ⟨hx, hh⟩
    · exact Or.inl (Or.inr h)

/-- Without a condition on common corners: what is reported is true. -/
theorem reported_true {eps : K} (he : 0 < eps) {A B pts : List (Pt K)} (hA : ConvexCorners A) (hB : ConvexCorners B) (hc : Clear eps pts) (iA : A ⊆ pts) (iB : B ⊆ pts)
    {cA cB : Pt K} (mA : Mean A cA) (mB : Mean B cB)
    (h : (∃ e ∈ ring A, ∃ f ∈ ring B, lineLineIntersection eps e.1 e.2 f.1 f.2 = true) ∨ LeftOfAll (ring B) cA ∨ LeftOfAll (ring A) cB) : Overlap A B ∨ Hanging A B := by
  rw [meets_iff he hA hB hc iA iB] at h
  rcases h with (⟨e, h, f, k, hx⟩ | h) | h | h
  · exact Or.inl (cross_overlap hA hB h k hx)
  · exact Or.inr h
  · exact Or.inl ⟨cA, mean_in hA hA mA (cl_self hA), h⟩
  · exact Or.inl ⟨cB, h, mean_in hB hB mB (cl_self hB)⟩

end TQ.Ovl

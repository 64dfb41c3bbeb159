import Verif.FrontUpdate.Sums
import Mathlib.Tactic.Linarith
import Mathlib.Tactic.LinearCombination

/-! # Lemmas: triangles and winding numbers -/

set_option linter.unusedSectionVars false

namespace TQ.FU
open TQ.MS TQ.MeshSpec TQ.FUSpec TQ.MS.St
variable {K : Type*} [Field K] [LinearOrder K] [IsStrictOrderedRing K]

/-- Crossing number of one edge. -/
def crossing (p a b : Pt K) : Int := (if UpCross p a b then 1 else 0) - (if UpCross p b a then 1 else 0)

theorem crossing_anti (p a b : Pt K) : crossing p a b = - crossing p b a := by
  unfold crossing; ring

theorem winding_eq (pos : Nat → Pt K) (es : List (Nat × Nat)) (p : Pt K) :
    winding pos es p = (es.map fun e => crossing p (pos e.1) (pos e.2)).sum := by
  unfold winding
  induction es with
  | nil => simp
  | cons e es ih =>
    rw [List.countP_cons, List.countP_cons, List.map_cons, List.sum_cons, ← ih]
    unfold crossing
    by_cases h1 : UpCross p (pos e.1) (pos e.2) <;> by_cases h2 : UpCross p (pos e.2) (pos e.1) <;>
      simp [h1, h2] <;> ring

theorem side_anti (a b p : Pt K) : side b a p = - side a b p := by
  unfold side; ring

/-- Upward edge `b → c`, downward edge `c → a`, both lower ends `a`, `b` below the ray. -/
theorem cross_two {a b c p : Pt K} (hA : 0 < side a b c) (h1 : a.y ≤ p.y) (h2 : b.y ≤ p.y) (h3 : p.y < c.y)
    (nab : side a b p ≠ 0) (nbc : side b c p ≠ 0) (nca : side c a p ≠ 0) :
    crossing p a b + crossing p b c + crossing p c a = if StrictlyIn p a b c then 1 else 0 := by
  have hsum : side a b c = side a b p + side b c p + side c a p := by unfold side; ring
  have hy : side b c p * (p.y - a.y) + side c a p * (p.y - b.y) = side a b p * (c.y - p.y) := by
    unfold side; ring
  have c1 : crossing p a b = 0 := by
    unfold crossing
    rw [if_neg (fun (h : UpCross _ _ _) => absurd h.2.1 (not_lt.mpr h2)), if_neg (fun (h : UpCross _ _ _) => absurd h.2.1 (not_lt.mpr h1))]; rfl
  have c2 : crossing p b c = if 0 < side b c p then 1 else 0 := by
    unfold crossing
    have : ¬ UpCross p c b := fun h => absurd h3 (not_lt.mpr h.1)
    rw [if_neg this]
    simp [UpCross, h2, h3]
  have c3 : crossing p c a = - if 0 < side a c p then 1 else 0 := by
    unfold crossing
    have : ¬ UpCross p c a := fun h => absurd h3 (not_lt.mpr h.1)
    rw [if_neg this]
    simp [UpCross, h1, h3]
  rw [c1, c2, c3, side_anti c a]
  unfold StrictlyIn
  rcases lt_or_gt_of_ne nbc with hb | hb <;> rcases lt_or_gt_of_ne nca with hc | hc
  · exfalso
    have e1 : side b c p * (p.y - a.y) ≤ 0 := mul_nonpos_of_nonpos_of_nonneg hb.le (by linarith)
    have e2 : side c a p * (p.y - b.y) ≤ 0 := mul_nonpos_of_nonpos_of_nonneg hc.le (by linarith)
    have e3 : 0 < side a b p * (c.y - p.y) := mul_pos (by linarith) (by linarith)
    linarith
  · simp [not_lt.mpr hb.le, not_lt.mpr hc.le]
  · simp [not_lt.mpr hc.le, hb, hc]
  · have e1 : 0 ≤ side b c p * (p.y - a.y) := mul_nonneg hb.le (by linarith)
    have e2 : 0 ≤ side c a p * (p.y - b.y) := mul_nonneg hc.le (by linarith)
    have hpos : 0 < side a b p := by
      rcases lt_or_gt_of_ne nab with h | h
      · exfalso
        have : side a b p * (c.y - p.y) < 0 := mul_neg_of_neg_of_pos h (by linarith)
        linarith
      · exact h
    simp [hb, hc, hpos, not_lt.mpr hc.le]

/-- One lower end `a`, upward edge `a → b`, downward edge `c → a`. -/
theorem cross_one {a b c p : Pt K} (hA : 0 < side a b c) (h1 : a.y ≤ p.y) (h2 : p.y < b.y) (h3 : p.y < c.y)
    (nab : side a b p ≠ 0) (nbc : side b c p ≠ 0) (nca : side c a p ≠ 0) :
    crossing p a b + crossing p b c + crossing p c a = if StrictlyIn p a b c then 1 else 0 := by
  have hsum : side a b c = side a b p + side b c p + side c a p := by unfold side; ring
  have hy : side c a p * (b.y - p.y) + side a b p * (c.y - p.y) = side b c p * (p.y - a.y) := by
    unfold side; ring
  have c1 : crossing p b c = 0 := by
    unfold crossing
    rw [if_neg (fun (h : UpCross _ _ _) => absurd h.1 (not_le.mpr h2)), if_neg (fun (h : UpCross _ _ _) => absurd h.1 (not_le.mpr h3))]; rfl
  have c2 : crossing p a b = if 0 < side a b p then 1 else 0 := by
    unfold crossing
    have : ¬ UpCross p b a := fun h => absurd h2 (not_lt.mpr h.1)
    rw [if_neg this]
    simp [UpCross, h1, h2]
  have c3 : crossing p c a = - if 0 < side a c p then 1 else 0 := by
    unfold crossing
    have : ¬ UpCross p c a := fun h => absurd h3 (not_lt.mpr h.1)
    rw [if_neg this]
    simp [UpCross, h1, h3]
  rw [c1, c2, c3, side_anti c a]
  unfold StrictlyIn
  rcases lt_or_gt_of_ne nab with hb | hb <;> rcases lt_or_gt_of_ne nca with hc | hc
  · exfalso
    have e1 : side c a p * (b.y - p.y) < 0 := mul_neg_of_neg_of_pos hc (by linarith)
    have e2 : side a b p * (c.y - p.y) < 0 := mul_neg_of_neg_of_pos hb (by linarith)
    have e3 : 0 ≤ side b c p * (p.y - a.y) := mul_nonneg (by linarith) (by linarith)
    linarith
  · simp [not_lt.mpr hb.le, not_lt.mpr hc.le]
  · simp [not_lt.mpr hc.le, hb, hc]
  · have e1 : 0 < side c a p * (b.y - p.y) := mul_pos hc (by linarith)
    have e2 : 0 < side a b p * (c.y - p.y) := mul_pos hb (by linarith)
    have hpos : 0 < side b c p := by
      rcases lt_or_gt_of_ne nbc with h | h
      · exfalso
        have : side b c p * (p.y - a.y) ≤ 0 := mul_nonpos_of_nonpos_of_nonneg h.le (by linarith)
        linarith
      · exact h
    simp [hb, hc, hpos, not_lt.mpr hc.le]

theorem side_rot (a b c : Pt K) : side b c a = side a b c := by unfold side; ring

theorem strictlyIn_rot (p a b c : Pt K) : StrictlyIn p b c a ↔ StrictlyIn p a b c := by
  unfold StrictlyIn; tauto

/-- The winding number of a counter-clockwise triangle is 1 inside and 0 outside. -/
theorem triangle_winding {a b c p : Pt K} (hA : 0 < side a b c)
    (nab : side a b p ≠ 0) (nbc : side b c p ≠ 0) (nca : side c a p ≠ 0) :
    crossing p a b + crossing p b c + crossing p c a = if StrictlyIn p a b c then 1 else 0 := by
  have hA2 : 0 < side b c a := by rw [side_rot]; exact hA
  have hA3 : 0 < side c a b := by rw [side_rot, side_rot]; exact hA
  have hsum : side a b c = side a b p + side b c p + side c a p := by unfold side; ring
  have i1 : (if StrictlyIn p b c a then (1 : Int) else 0) = if StrictlyIn p a b c then 1 else 0 := by
    simp only [strictlyIn_rot]
  have i2 : (if StrictlyIn p c a b then (1 : Int) else 0) = if StrictlyIn p a b c then 1 else 0 := by
    rw [← i1]; simp only [strictlyIn_rot p b c a]
  have hid : side b c p * (p.y - a.y) + side c a p * (p.y - b.y) + side a b p * (p.y - c.y) = 0 := by
    unfold side; ring
  have hzero : ∀ x y : Pt K, (x.y ≤ p.y ∧ y.y ≤ p.y) ∨ (p.y < x.y ∧ p.y < y.y) → crossing p x y = 0 := by
    intro x y hh
    unfold crossing
    rcases hh with ⟨u, v⟩ | ⟨u, v⟩
    · rw [if_neg (fun (h : UpCross _ _ _) => absurd h.2.1 (not_lt.mpr v)), if_neg (fun (h : UpCross _ _ _) => absurd h.2.1 (not_lt.mpr u))]; rfl
    · rw [if_neg (fun (h : UpCross _ _ _) => absurd h.1 (not_le.mpr u)), if_neg (fun (h : UpCross _ _ _) => absurd h.1 (not_le.mpr v))]; rfl
  rcases le_or_gt a.y p.y with ha | ha <;> rcases le_or_gt b.y p.y with hb | hb <;> rcases le_or_gt c.y p.y with hc | hc
  · rw [hzero a b (Or.inl ⟨ha, hb⟩), hzero b c (Or.inl ⟨hb, hc⟩), hzero c a (Or.inl ⟨hc, ha⟩), if_neg]
    · rfl
    · rintro ⟨x, y, z⟩
      have e1 : 0 ≤ side b c p * (p.y - a.y) := mul_nonneg y.le (by linarith)
      have e2 : 0 ≤ side c a p * (p.y - b.y) := mul_nonneg z.le (by linarith)
      have e3 : 0 ≤ side a b p * (p.y - c.y) := mul_nonneg x.le (by linarith)
      have f1 : p.y - a.y = 0 := by
        by_contra h
        have := mul_pos y (lt_of_le_of_ne (by linarith : 0 ≤ p.y - a.y) (Ne.symm h)); linarith
      have f2 : p.y - b.y = 0 := by
        by_contra h
        have := mul_pos z (lt_of_le_of_ne (by linarith : 0 ≤ p.y - b.y) (Ne.symm h)); linarith
      have f3 : p.y - c.y = 0 := by
        by_contra h
        have := mul_pos x (lt_of_le_of_ne (by linarith : 0 ≤ p.y - c.y) (Ne.symm h)); linarith
      have : side a b p = 0 := by
        unfold side
        have g1 : b.y - a.y = 0 := by linarith
        rw [f1, g1]; ring
      exact nab this
  · exact cross_two hA ha hb hc nab nbc nca
  · rw [← i2, add_assoc, add_comm, add_assoc, add_comm (crossing p c a), ← add_assoc]
    have := cross_two hA3 hc ha hb nca nab nbc
    rw [← this]; ring
  · exact cross_one hA ha hb hc nab nbc nca
  · have := cross_two hA2 hb hc ha nbc nca nab
    rw [← i1, ← this]; ring
  · have := cross_one hA2 hb hc ha nbc nca nab
    rw [← i1, ← this]; ring
  · have := cross_one hA3 hc ha hb nca nab nbc
    rw [← i2, ← this]; ring
  · rw [hzero a b (Or.inr ⟨ha, hb⟩), hzero b c (Or.inr ⟨hb, hc⟩), hzero c a (Or.inr ⟨hc, ha⟩), if_neg]
    · rfl
    · rintro ⟨x, y, z⟩
      have e1 : side b c p * (p.y - a.y) < 0 := mul_neg_of_pos_of_neg y (by linarith)
      have e2 : side c a p * (p.y - b.y) < 0 := mul_neg_of_pos_of_neg z (by linarith)
      have e3 : side a b p * (p.y - c.y) < 0 := mul_neg_of_pos_of_neg x (by linarith)
      linarith

/-- Every triangle of the mesh is counter-clockwise. -/
def AllCCW (s : St K) : Prop := ∀ t ∈ s.tris, ∀ a b c, (s.F (.tri t)).corners = [a, b, c] → 0 < side (s.pos a) (s.pos b) (s.pos c)

/-- Winding number of all triangle sides: number of triangles around the point. -/
theorem winding_sides {s : St K} (h : WF s) (hc : AllCCW s) {p : Pt K} (hg : Generic s p) :
    winding s.pos (sides s) p = s.tris.countP (Covers s p) := by
  rw [winding_eq]
  unfold sides triCorners
  have : ∀ ts : List Nat, (∀ t ∈ ts, t ∈ s.tris) →
      (((ts.map fun t => (s.F (.tri t)).corners).flatMap bdryOf).map fun e => crossing p (s.pos e.1) (s.pos e.2)).sum =
      (ts.countP (Covers s p) : Int) := by
    intro ts
    induction ts with
    | nil => intro _; simp
    | cons t ts ih =>
      intro hm
      rw [List.map_cons, List.flatMap_cons, List.map_append, List.sum_append, ih (fun u hu => hm u (by simp [hu])),
        List.countP_cons]
      have ht := hm t (by simp)
      have hlen := h.tcor t ht
      match hcs : (s.F (.tri t)).corners with
      | [a, b, c] =>
        have hside := hc t ht a b c hcs
        have hmem : ∀ e ∈ [(a, b), (b, c), (c, a)], e ∈ sides s := by
          intro e he
          unfold sides triCorners
          rw [List.mem_flatMap]
          refine ⟨[a, b, c], List.mem_map.mpr ⟨t, ht, hcs⟩, ?_⟩
          exact he
        have hcov : Covers s p t = decide (StrictlyIn p (s.pos a) (s.pos b) (s.pos c)) := by
          unfold Covers; rw [hcs]
        have hw := triangle_winding hside (hg (a, b) (hmem _ (by simp))) (hg (b, c) (hmem _ (by simp)))
          (hg (c, a) (hmem _ (by simp)))
        have hb : (bdryOf [a, b, c]).map (fun e => crossing p (s.pos e.1) (s.pos e.2)) =
            [crossing p (s.pos a) (s.pos b), crossing p (s.pos b) (s.pos c), crossing p (s.pos c) (s.pos a)] := rfl
        rw [hb, hcov]
        simp only [List.sum_cons, List.sum_nil, add_zero, decide_eq_true_eq]
        rw [← add_assoc, hw]
        push_cast
        ring
      | [] => rw [hcs] at hlen; simp at hlen
      | [_] => rw [hcs] at hlen; simp at hlen
      | [_, _] => rw [hcs] at hlen; simp at hlen
      | _ :: _ :: _ :: _ :: _ => rw [hcs] at hlen; simp at hlen
  exact this s.tris fun _ h => h

theorem run_ccw {env : Env K} (he : 0 < env.eps) (hq : QueryLive env) (hs : SortOK env) {s0 : St K} (h0 : WF s0)
    (hc : AllCCW s0) {log : List Entry} {s : St K} (hr : Run env s0 log s) : WF s ∧ AllCCW s := by
  refine run_induct he hq hs h0 (fun _ s => AllCCW s) hc ?_ ?_ ?_ hr
  · intro log s s' base v t hwf _ ih hd _ u hu a b c hcor
    rw [hd.tris, List.mem_append, List.mem_singleton] at hu
    rcases hu with hu | rfl
    · rw [hd.fold (.tri u) hu] at hcor
      have hm := (hwf.cor (.tri u) hu).2
      rw [hcor] at hm
      rw [hd.pos a (hm a (by simp)), hd.pos b (hm b (by simp)), hd.pos c (hm c (by simp))]
      exact ih u hu a b c hcor
    · rw [hd.cor] at hcor
      simp only [List.cons.injEq, and_true] at hcor
      obtain ⟨rfl, rfl, rfl⟩ := hcor
      have := hd.tpos
      unfold St.triArea Pt.cross at this
      simp only [Pt.sub_x, Pt.sub_y] at this
      unfold side
      linarith
  · intro log s s' hwf _ ih hsame u hu a b c hcor
    rw [hsame.tris] at hu
    rw [hsame.fdata (.tri u) hu] at hcor
    have hm := (hwf.cor (.tri u) hu).2
    rw [hcor] at hm
    rw [same_pos hsame (hm a (by simp)), same_pos hsame (hm b (by simp)), same_pos hsame (hm c (by simp))]
    exact ih u hu a b c hcor
  · intro log s l _ ih _
    exact ih

end TQ.FU

import Verif.Whole.Union
import Verif.Whole.CleanProps

/-! # Lemmas: meshes on both sides of a vertical line are side by side; translated fronts -/

set_option linter.unusedSectionVars false
set_option linter.unusedSimpArgs false
set_option linter.unusedVariables false

namespace TQ.Whole
open TQ TQ.MS TQ.MS.St TQ.MeshSpec TQ.FUSpec TQ.MCSpec TQ.WholeSpec TQ.FU TQ.Sm TQ.MC TQ.RefSpec TQ.CleanSpec TQ.MM TQ.MergeSpec TQ.SmSpec
variable {K : Type*} [Field K] [LinearOrder K] [IsStrictOrderedRing K]

/-- Nothing left of a point is crossed by the ray to its right. -/
theorem crossing_of_le {p a b : Pt K} (ha : a.x ≤ p.x) (hb : b.x ≤ p.x) : crossing p a b = 0 := by
  have key : ∀ a b : Pt K, a.x ≤ p.x → b.x ≤ p.x → ¬ UpCross p a b := by
    rintro a b ha hb ⟨h1, h2, h3⟩
    unfold side at h3
    nlinarith [mul_nonneg (sub_nonneg.mpr hb) (sub_nonneg.mpr h1), mul_nonneg (sub_nonneg.mpr ha) (sub_nonneg.mpr h2.le)]
  unfold crossing
  rw [if_neg (key a b ha hb), if_neg (key b a hb ha)]
  rfl

/-- What is right of a point is crossed if it leaves the lower half plane. -/
theorem crossing_of_lt {p a b : Pt K} (ha : p.x < a.x) (hb : p.x < b.x) :
    crossing p a b = (if p.y < b.y then 1 else 0) - if p.y < a.y then 1 else 0 := by
  have key : ∀ a b : Pt K, p.x < a.x → p.x < b.x → (UpCross p a b ↔ a.y ≤ p.y ∧ p.y < b.y) := by
    intro a b ha hb
    refine ⟨fun h => ⟨h.1, h.2.1⟩, fun ⟨h1, h2⟩ => ⟨h1, h2, ?_⟩⟩
    unfold side
    nlinarith [mul_nonneg (sub_nonneg.mpr hb.le) (sub_nonneg.mpr h1), mul_pos (sub_pos.mpr ha) (sub_pos.mpr h2)]
  unfold crossing
  simp only [key a b ha hb, key b a hb ha]
  by_cases h1 : p.y < b.y <;> by_cases h2 : p.y < a.y <;> simp [h1, h2, not_le.mpr, not_lt.mp]

theorem winding_of_le {pos : Nat → Pt K} {es : List (Nat × Nat)} {p : Pt K} (h : ∀ e ∈ es, (pos e.1).x ≤ p.x ∧ (pos e.2).x ≤ p.x) :
    winding pos es p = 0 := by
  rw [winding_eq]
  rw [List.map_congr_left fun e he => crossing_of_le (h e he).1 (h e he).2]
  simp

theorem winding_of_lt {pos : Nat → Pt K} {es : List (Nat × Nat)} {p : Pt K} (hb : Balanced es)
    (h : ∀ e ∈ es, p.x < (pos e.1).x ∧ p.x < (pos e.2).x) : winding pos es p = 0 := by
  rw [winding_eq, List.map_congr_left fun e he => crossing_of_lt (h e he).1 (h e he).2]
  have hc := closed_segs hb pos
  unfold Closed segs at hc
  simp only [List.map_map, Function.comp_def] at hc
  have := (hc.map fun x : Pt K => if p.y < x.y then (1 : Int) else 0).sum_eq
  simp only [List.map_map, Function.comp_def] at this
  rw [show (es.map fun e => (if p.y < (pos e.2).y then (1 : Int) else 0) - if p.y < (pos e.1).y then 1 else 0).sum =
    (es.map fun e => if p.y < (pos e.2).y then (1 : Int) else 0).sum - (es.map fun e => if p.y < (pos e.1).y then (1 : Int) else 0).sum from ?_, this, sub_self]
  clear * -
  induction es with
  | nil => rfl
  | cons e es ih => simp only [List.map_cons, List.sum_cons, ih]; ring

/-- A segment that is not in the line `x = c` meets it in end points. -/
theorem end_of_line {a b z : Pt K} {c : K} (ha : c ≤ a.x) (hb : c ≤ b.x) (h : c < a.x ∨ c < b.x) (hz : OnClosed a b z) (hc : z.x ≤ c) :
    z = a ∨ z = b := by
  obtain ⟨t, t0, t1, rfl⟩ := hz
  unfold GeoSpec.onSeg at hc ⊢
  simp only at hc
  rcases h with h | h
  · right
    have : t = 1 := by
      by_contra hne
      have : t < 1 := lt_of_le_of_ne t1 hne
      nlinarith [mul_pos (sub_pos.mpr this) (sub_pos.mpr h), mul_nonneg t0 (sub_nonneg.mpr hb)]
    subst this
    apply Pt.ext' <;> simp
  · left
    have : t = 0 := by
      by_contra hne
      have : 0 < t := lt_of_le_of_ne t0 (Ne.symm hne)
      nlinarith [mul_pos this (sub_pos.mpr h), mul_nonneg (sub_nonneg.mpr t1) (sub_nonneg.mpr ha)]
    subst this
    apply Pt.ext' <;> simp

/-- Mirrored. -/
theorem end_of_line' {a b z : Pt K} {c : K} (ha : a.x ≤ c) (hb : b.x ≤ c) (h : a.x < c ∨ b.x < c) (hz : OnClosed a b z) (hc : c ≤ z.x) :
    z = a ∨ z = b := by
  obtain ⟨t, t0, t1, rfl⟩ := hz
  unfold GeoSpec.onSeg at hc ⊢
  simp only at hc
  rcases h with h | h
  · right
    have : t = 1 := by
      by_contra hne
      have : t < 1 := lt_of_le_of_ne t1 hne
      nlinarith [mul_pos (sub_pos.mpr this) (sub_pos.mpr h), mul_nonneg t0 (sub_nonneg.mpr hb)]
    subst this
    apply Pt.ext' <;> simp
  · left
    have : t = 0 := by
      by_contra hne
      have : 0 < t := lt_of_le_of_ne t0 (Ne.symm hne)
      nlinarith [mul_pos this (sub_pos.mpr h), mul_nonneg (sub_nonneg.mpr t1) (sub_nonneg.mpr ha)]
    subst this
    apply Pt.ext' <;> simp

theorem on_between {a b z : Pt K} {c : K} (ha : c ≤ a.x) (hb : c ≤ b.x) (hz : OnClosed a b z) : c ≤ z.x := by
  obtain ⟨t, t0, t1, rfl⟩ := hz
  unfold GeoSpec.onSeg
  simp only
  nlinarith [mul_nonneg t0 (sub_nonneg.mpr hb), mul_nonneg (sub_nonneg.mpr t1) (sub_nonneg.mpr ha)]

theorem on_between' {a b z : Pt K} {c : K} (ha : a.x ≤ c) (hb : b.x ≤ c) (hz : OnClosed a b z) : z.x ≤ c := by
  obtain ⟨t, t0, t1, rfl⟩ := hz
  unfold GeoSpec.onSeg
  simp only
  nlinarith [mul_nonneg t0 (sub_nonneg.mpr hb), mul_nonneg (sub_nonneg.mpr t1) (sub_nonneg.mpr ha)]

/-- Fronts on both sides of the line `x = c` enclose no common points. -/
theorem disjoint_of_line {s t : St K} (hs : SimpleFront s.pos (pairs s .bdry)) (ht : SimpleFront t.pos (pairs t .bdry)) {c : K}
    (h1 : ∀ e ∈ s.es .bdry, c ≤ (s.pos (s.E e).v1).x ∧ c ≤ (s.pos (s.E e).v2).x)
    (h2 : ∀ e ∈ t.es .bdry, (t.pos (t.E e).v1).x ≤ c ∧ (t.pos (t.E e).v2).x ≤ c) (p : Pt K) :
    winding s.pos (pairs s .bdry) p + winding t.pos (pairs t .bdry) p ≤ 1 := by
  have hr := hs.once p
  have hd := ht.once p
  rcases lt_or_ge p.x c with h | h
  · have : winding s.pos (pairs s .bdry) p = 0 := winding_of_lt hs.balanced fun e he => by
      obtain ⟨x, hx, rfl⟩ := List.mem_map.mp he
      exact ⟨h.trans_le (h1 x hx).1, h.trans_le (h1 x hx).2⟩
    omega
  · have : winding t.pos (pairs t .bdry) p = 0 := winding_of_le fun e he => by
      obtain ⟨x, hx, rfl⟩ := List.mem_map.mp he
      exact ⟨(h2 x hx).1.trans h, (h2 x hx).2.trans h⟩
    omega

/-- Edges on both sides of the line that do not run along it meet in end points. -/
theorem rims_of_line {a b a' b' x : Pt K} {c : K} (h1 : c ≤ a.x ∧ c ≤ b.x) (h2 : a'.x ≤ c ∧ b'.x ≤ c) (h3 : c < a.x ∨ c < b.x)
    (h4 : a'.x < c ∨ b'.x < c) (hx : OnClosed a b x) (hx' : OnClosed a' b' x) : (x = a ∨ x = b) ∧ (x = a' ∨ x = b') := by
  have k1 := on_between h1.1 h1.2 hx
  have k2 := on_between' h2.1 h2.2 hx'
  exact ⟨end_of_line h1.1 h1.2 h3 hx k2, end_of_line' h2.1 h2.2 h4 hx' k1⟩

/-- Meshes on both sides of the line `x = c` are side by side if only interface edges run along the line. -/
theorem sideBySide_of_line {w : World K} {ri di : Nat} (A : Adjacent w ri di) (hR : Complete (w ri)) (hD : Complete (w di)) {c : K}
    (h1 : ∀ e ∈ (w ri).es .bdry, c ≤ ((w ri).pos ((w ri).E e).v1).x ∧ c ≤ ((w ri).pos ((w ri).E e).v2).x)
    (h2 : ∀ e ∈ (w di).es .bdry, ((w di).pos ((w di).E e).v1).x ≤ c ∧ ((w di).pos ((w di).E e).v2).x ≤ c)
    (h3 : ∀ e ∈ (w ri).es .bdry, ¬ Iface w ri di e → c < ((w ri).pos ((w ri).E e).v1).x ∨ c < ((w ri).pos ((w ri).E e).v2).x)
    (h4 : ∀ e ∈ (w di).es .bdry, ¬ Iface w di ri e → ((w di).pos ((w di).E e).v1).x < c ∨ ((w di).pos ((w di).E e).v2).x < c) :
    SideBySide w ri di where
  adj := A
  disjoint := disjoint_of_line hR.bdry hD.bdry h1 h2
  rims := fun e he hi e' he' hi' _ hx hx' => rims_of_line (h1 e he) (h2 e' he') (h3 e he hi) (h4 e' he' hi') hx hx'

/-- The point moved by `d`. -/
def shift (d p : Pt K) : Pt K := ⟨p.x + d.x, p.y + d.y⟩

/-- Moved fronts. -/
theorem simple_shift {pos pos' : Nat → Pt K} {es : List (Nat × Nat)} (d : Pt K) (h : SimpleFront pos es)
    (hp : ∀ e ∈ es, pos' e.1 = shift d (pos e.1) ∧ pos' e.2 = shift d (pos e.2)) : SimpleFront pos' es := by
  have inj : ∀ a b : Pt K, shift d a = shift d b ↔ a = b := by
    intro a b
    unfold shift
    rw [Pt.mk.injEq]
    exact ⟨fun h => Pt.ext' (by linarith [h.1]) (by linarith [h.2]), fun h => by rw [h]; exact ⟨rfl, rfl⟩⟩
  have back : ∀ z, ∃ y, z = shift d y := fun z => ⟨⟨z.x - d.x, z.y - d.y⟩, by unfold shift; apply Pt.ext' <;> simp⟩
  have on : ∀ a b z : Pt K, OnClosed (shift d a) (shift d b) (shift d z) → OnClosed a b z := by
    rintro a b z ⟨t, t0, t1, ht⟩
    refine ⟨t, t0, t1, ?_⟩
    unfold shift GeoSpec.onSeg at ht
    rw [Pt.mk.injEq] at ht
    unfold GeoSpec.onSeg
    exact Pt.ext' (by simp only; linarith [ht.1]) (by simp only; linarith [ht.2])
  have up : ∀ p a b : Pt K, UpCross (shift d p) (shift d a) (shift d b) ↔ UpCross p a b := by
    intro p a b
    unfold UpCross side shift
    simp only [add_le_add_iff_right, add_lt_add_iff_right, add_sub_add_right_eq_sub]
  refine ⟨h.balanced, fun e he => ?_, h.apart.imp_of_mem fun {e f} he hf hh z h1 h2 => ?_, fun p => ?_⟩
  · rw [(hp e he).1, (hp e he).2, Ne, inj]
    exact h.proper e he
  · obtain ⟨y, rfl⟩ := back z
    rw [(hp e he).1, (hp e he).2] at h1 ⊢
    rw [(hp f hf).1, (hp f hf).2] at h2 ⊢
    simp only [inj]
    exact hh y (on _ _ _ h1) (on _ _ _ h2)
  · obtain ⟨q, rfl⟩ := back p
    have : winding pos' es (shift d q) = winding pos es q := by
      rw [winding_eq, winding_eq]
      congr 1
      refine List.map_congr_left fun e he => ?_
      rw [(hp e he).1, (hp e he).2]
      unfold crossing
      simp only [up]
    rw [this]
    exact h.once q

end TQ.Whole

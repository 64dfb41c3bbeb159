import Verif.Whole.Convex

/-! # Lemmas: convex polygons with convex holes are simple -/

set_option linter.unusedSectionVars false

namespace TQ.Outl
open TQ.FUSpec TQ.OutlSpec TQ.FU TQ.GeoSpec
variable {K : Type*} [Field K] [LinearOrder K] [IsStrictOrderedRing K]

theorem wind_swap (l : List (Pt K × Pt K)) (p : Pt K) : wind (l.map Prod.swap) p = - wind l p := by
  induction l with
  | nil => rfl
  | cons e l ih =>
    unfold wind at ih ⊢
    simp only [List.map_cons, List.sum_cons, ih, Prod.fst_swap, Prod.snd_swap]
    rw [crossing_anti]; ring

theorem segApart_symm {s t : Pt K × Pt K} (h : SegApart s t) : SegApart t s := fun x h1 h2 => (h x h2 h1).symm

theorem segApart_swap {s t : Pt K × Pt K} (h : SegApart s t) : SegApart s.swap t := fun x h1 h2 => by
  obtain ⟨a, b⟩ := h x (onClosed_symm h1) h2
  exact ⟨a.symm, b⟩

/-- Points with winding number one are near the hull of the corners: lines with all corners on the left are passed on the left. -/
theorem convex_hull {ps : List (Pt K)} (h : ConvexCorners ps) {u v p : Pt K} (hl : ∀ c ∈ ps, 0 < side u v c)
    (hw : wind (ring ps) p = 1) : 0 ≤ side u v p := by
  cases ps with
  | nil => have := h.1; simp at this
  | cons o qs =>
    have hn := turns_nodup h
    by_contra hneg
    push Not at hneg
    have hsm : Small fun e => side u v (nudge p e) < 0 :=
      (small_pos (neg_pos.2 hneg) (v.y - u.y) (-(v.x - u.x))).mono fun e _ he => by rw [side_nudge]; linarith
    obtain ⟨e, _, ⟨h1, h2⟩, h3⟩ := (((nudge_wind (ring (o :: qs)) p).and (off_small p qs hn)).and hsm).get
    rw [← h1] at hw
    obtain ⟨a, b, hab, q1, q2, q3⟩ := (fan_wind qs h.2 h2).2.1 hw
    have ha : a ∈ qs := hab.subset (by simp)
    have hb : b ∈ qs := hab.subset (by simp)
    have hD : 0 < side o a b := h.2 o a b (by rw [List.cons_sublist_cons]; exact hab)
    have hm := side_mean u v (nudge p e) o a b
    have := mul_pos q2 (hl o (by simp))
    have := mul_pos q3 (hl a (by simp [ha]))
    have := mul_pos q1 (hl b (by simp [hb]))
    have := mul_neg_of_pos_of_neg hD h3
    linarith

/-- Points of a segment between points on the left of a line are on the left of it. -/
theorem left_seg {u v c d x : Pt K} (hc : 0 < side u v c) (hd : 0 < side u v d) (hx : OnClosed c d x) : 0 < side u v x := by
  obtain ⟨t, t0, t1, rfl⟩ := hx
  rw [side_onSeg]
  rcases eq_or_lt_of_le t0 with rfl | h
  · simpa using hc
  · have := mul_pos h hd
    have := mul_nonneg (sub_nonneg.2 t1) hc.le
    linarith

theorem right_seg {u v c d x : Pt K} (hc : side u v c < 0) (hd : side u v d < 0) (hx : OnClosed c d x) : side u v x < 0 := by
  have := left_seg (u := v) (v := u) (by rw [side_swap]; linarith) (by rw [side_swap]; linarith) hx
  rw [side_swap] at this; linarith

theorem holes_wind (hs : List (List (Pt K))) (p : Pt K) :
    wind (hs.flatMap fun q => (ring q).map Prod.swap) p = - (hs.map fun q => wind (ring q) p).sum := by
  induction hs with
  | nil => rfl
  | cons q hs ih => rw [List.flatMap_cons, wind_append, ih, wind_swap]; simp; ring

/-- Polygons on different sides of a line do not wind around the same point. -/
theorem holes_excl {q r : List (Pt K)} (hq : ConvexCorners q) (hr : ConvexCorners r) {a b : Pt K} (h1 : ∀ c ∈ q, 0 < side a b c)
    (h2 : ∀ c ∈ r, side a b c < 0) {p : Pt K} (w1 : wind (ring q) p = 1) (w2 : wind (ring r) p = 1) : False := by
  have hab : a ≠ b := by
    rintro rfl
    obtain ⟨w, hw, -⟩ := convex_third hq a a
    have := h1 w hw
    unfold side at this; ring_nf at this; exact lt_irrefl _ this
  obtain ⟨e, _, ⟨e1, e2⟩, e3⟩ := (((nudge_wind (ring q) p).and (nudge_wind (ring r) p)).and (nudge_side_ne hab p)).get
  have k1 := convex_hull hq h1 (e1.trans w1)
  have k2 := convex_hull (u := b) (v := a) hr (fun c hc => by rw [side_swap]; linarith [h2 c hc]) (e2.trans w2)
  rw [side_swap] at k2
  exact e3 (by linarith)

/-- A polygon with all corners inside of another one winds only around points of that one. -/
theorem holes_inside {ps q : List (Pt K)} (hp : ConvexCorners ps) (hq : ConvexCorners q) (hi : ∀ c ∈ q, LeftOfAll (ring ps) c) {p : Pt K}
    (w : wind (ring q) p = 1) : wind (ring ps) p = 1 := by
  have hs : Small fun e => ∀ s ∈ ring ps, side s.1 s.2 (nudge p e) ≠ 0 :=
    Small.all (P := fun (s : Pt K × Pt K) e => side s.1 s.2 (nudge p e) ≠ 0) _ fun s hs => nudge_side_ne (convex_proper hp s hs) p
  obtain ⟨e, _, ⟨e1, e2⟩, e3⟩ := (((nudge_wind (ring q) p).and (nudge_wind (ring ps) p)).and hs).get
  rw [← e2]
  refine (convex_wind hp _).2.1 fun s hs => ?_
  exact lt_of_le_of_ne (convex_hull hq (fun c hc => hi c hc s hs) (e1.trans w)) (e3 s hs).symm

/-- The winding numbers of the holes are zero but for at most one, where it is one. -/
theorem holes_once {hs : List (List (Pt K))} (hc : ∀ q ∈ hs, ConvexCorners q)
    (ha : hs.Pairwise fun q r => ∃ a b : Pt K, (∀ c ∈ q, 0 < side a b c) ∧ ∀ c ∈ r, side a b c < 0) (p : Pt K) :
    ((∀ q ∈ hs, wind (ring q) p = 0) ∧ (hs.map fun q => wind (ring q) p).sum = 0) ∨
    ((∃ q ∈ hs, wind (ring q) p = 1) ∧ (hs.map fun q => wind (ring q) p).sum = 1) := by
  induction hs with
  | nil => left; simp
  | cons q hs ih =>
    rw [List.pairwise_cons] at ha
    have hq := hc q (by simp)
    rw [List.map_cons, List.sum_cons]
    rcases (convex_wind hq p).1 with h0 | h1
    · rcases ih (fun r hr => hc r (by simp [hr])) ha.2 with ⟨a, b⟩ | ⟨⟨r, hr, a⟩, b⟩
      · left; rw [h0, b]; exact ⟨by simpa [h0] using a, rfl⟩
      · right; rw [h0, b]; exact ⟨⟨r, by simp [hr], a⟩, rfl⟩
    · right
      refine ⟨⟨q, by simp, h1⟩, ?_⟩
      have : (hs.map fun q => wind (ring q) p).sum = 0 := by
        rcases ih (fun r hr => hc r (by simp [hr])) ha.2 with ⟨a, b⟩ | ⟨⟨r, hr, a⟩, b⟩
        · exact b
        · obtain ⟨u, v, k1, k2⟩ := ha.1 r hr
          exact (holes_excl hq (hc r (by simp [hr])) k1 k2 h1 a).elim
      rw [h1, this]; rfl

theorem holes_simple {ps : List (Pt K)} {hs : List (List (Pt K))} (h : ConvexHoles ps hs) : SimpleOutline (withHoles ps hs) := by
  refine ⟨?_, ?_, fun p => ?_⟩
  · intro s hm
    rcases List.mem_append.1 hm with hm | hm
    · exact convex_proper h.outer s hm
    · obtain ⟨q, hq, hm⟩ := List.mem_flatMap.1 hm
      obtain ⟨t, ht, rfl⟩ := List.mem_map.1 hm
      exact (convex_proper (h.holes q hq) t ht).symm
  · unfold withHoles
    rw [List.pairwise_append]
    refine ⟨convex_apart h.outer, ?_, ?_⟩
    · rw [List.pairwise_flatMap]
      refine ⟨fun q hq => ?_, ?_⟩
      · rw [List.pairwise_map]
        exact (convex_apart (h.holes q hq)).imp fun hab => segApart_swap (segApart_symm (segApart_swap (segApart_symm hab)))
      · refine h.apart.imp ?_
        rintro q r ⟨a, b, k1, k2⟩ x hx y hy z hz1 hz2
        obtain ⟨s, hs, rfl⟩ := List.mem_map.1 hx
        obtain ⟨t, ht, rfl⟩ := List.mem_map.1 hy
        obtain ⟨s1, s2⟩ := ring_mem hs
        obtain ⟨t1, t2⟩ := ring_mem ht
        have := left_seg (k1 _ s2) (k1 _ s1) hz1
        have := right_seg (k2 _ t2) (k2 _ t1) hz2
        linarith
    · intro s hs y hy z hz1 hz2
      obtain ⟨q, hq, hy⟩ := List.mem_flatMap.1 hy
      obtain ⟨t, ht, rfl⟩ := List.mem_map.1 hy
      obtain ⟨t1, t2⟩ := ring_mem ht
      have := left_seg (h.inside q hq _ t2 s hs) (h.inside q hq _ t1 s hs) hz2
      obtain ⟨c, c0, c1, rfl⟩ := hz1
      rw [side_onSeg] at this
      have z1 : side s.1 s.2 s.1 = 0 := by unfold side; ring
      have z2 : side s.1 s.2 s.2 = 0 := by unfold side; ring
      rw [z1, z2] at this
      simp at this
  · rw [segWinding_wind]
    unfold withHoles
    rw [wind_append, holes_wind]
    rcases holes_once h.holes h.apart p with ⟨-, h2⟩ | ⟨⟨q, hq, h1⟩, h2⟩
    · rw [h2]; simpa using (convex_wind h.outer p).1
    · rw [h2, holes_inside h.outer (h.holes q hq) (h.inside q hq) h1]; left; rfl

/-- The region of a convex polygon with holes. -/
theorem holes_region {ps : List (Pt K)} {hs : List (List (Pt K))} (h : ConvexHoles ps hs) (p : Pt K) :
    (LeftOfAll (ring ps) p → (∀ q ∈ hs, ∃ s ∈ ring q, side s.1 s.2 p < 0) → segWinding (withHoles ps hs) p = 1) ∧
    ((∃ s ∈ ring ps, side s.1 s.2 p < 0) → segWinding (withHoles ps hs) p = 0) ∧
    ((∃ q ∈ hs, LeftOfAll (ring q) p) → segWinding (withHoles ps hs) p = 0) := by
  have key : segWinding (withHoles ps hs) p = wind (ring ps) p - (hs.map fun q => wind (ring q) p).sum := by
    rw [segWinding_wind]; unfold withHoles; rw [wind_append, holes_wind]; ring
  rw [key]
  refine ⟨fun h1 h2 => ?_, fun h1 => ?_, ?_⟩
  · rw [(convex_wind h.outer p).2.1 h1]
    rcases holes_once h.holes h.apart p with ⟨-, k⟩ | ⟨⟨q, hq, k⟩, -⟩
    · rw [k]; rfl
    · rw [(convex_wind (h.holes q hq) p).2.2 (h2 q hq)] at k; simp at k
  · have h0 := (convex_wind h.outer p).2.2 h1
    rw [h0]
    rcases holes_once h.holes h.apart p with ⟨-, k⟩ | ⟨⟨q, hq, k⟩, -⟩
    · rw [k]; rfl
    · rw [holes_inside h.outer (h.holes q hq) (h.inside q hq) k] at h0; simp at h0
  · rintro ⟨q, hq, h1⟩
    have k := (convex_wind (h.holes q hq) p).2.1 h1
    rw [holes_inside h.outer (h.holes q hq) (h.inside q hq) k]
    rcases holes_once h.holes h.apart p with ⟨k', -⟩ | ⟨-, k'⟩
    · rw [k' q hq] at k; simp at k
    · rw [k']; rfl

theorem simple_of_perm {ss ts : List (Pt K × Pt K)} (hp : ss.Perm ts) (h : SimpleOutline ss) : SimpleOutline ts := by
  refine ⟨fun s hs => h.proper s (hp.symm.subset hs), (hp.pairwise_iff fun hab => segApart_symm hab).1 h.apart, fun p => ?_⟩
  have := h.once p
  unfold segWinding at this ⊢
  rw [← hp.countP_eq, ← hp.countP_eq]; exact this

end TQ.Outl

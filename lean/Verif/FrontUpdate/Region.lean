import Verif.FrontUpdate.Winding

/-! # Lemmas: a new triangle lies in the region bounded by a simple front -/

set_option linter.unusedSectionVars false

namespace TQ.FU
open TQ.MS TQ.MeshSpec TQ.FUSpec TQ.MS.St TQ.GeoSpec
variable {K : Type*} [Field K] [LinearOrder K] [IsStrictOrderedRing K]

/-- The edges as pairs of points. -/
def segs (pos : Nat → Pt K) (es : List (Nat × Nat)) : List (Pt K × Pt K) := es.map fun e => (pos e.1, pos e.2)

theorem winding_wind (pos : Nat → Pt K) (es : List (Nat × Nat)) (p : Pt K) : winding pos es p = wind (segs pos es) p := by
  rw [winding_eq]; unfold wind segs; rw [List.map_map]; rfl

theorem closed_segs {es : List (Nat × Nat)} (h : FUSpec.Balanced es) (pos : Nat → Pt K) : Closed (segs pos es) := by
  unfold Closed segs
  rw [List.map_map, List.map_map]
  have : (es.map Prod.fst).Perm (es.map Prod.snd) := by
    rw [List.perm_iff_count]
    intro v
    have e1 : ∀ f : Nat × Nat → Nat, (es.map f).count v = es.countP fun e => decide (f e = v) := by
      intro f
      rw [List.count, List.countP_map]
      rfl
    rw [e1, e1]; exact h v
  have := this.map pos
  rw [List.map_map, List.map_map] at this
  exact this

theorem wind_perm {l l' : List (Pt K × Pt K)} (h : l.Perm l') (p : Pt K) : wind l p = wind l' p := by
  unfold wind; exact (h.map _).sum_eq

theorem closed_perm {l l' : List (Pt K × Pt K)} (h : l.Perm l') (hc : Closed l) : Closed l' := by
  unfold Closed at *
  exact ((h.map _).symm.trans hc).trans (h.map _)

theorem apart_symm {pos : Nat → Pt K} {e f : Nat × Nat} (h : Apart pos e f) : Apart pos f e :=
  fun x h1 h2 => (h x h2 h1).symm

theorem mid_on (a b : Pt K) : OnClosed a b (midp a b) := by
  refine ⟨1 / 2, by positivity, by linarith, ?_⟩
  apply Pt.ext'
  · rw [onSeg_x]; unfold midp; simp only; ring
  · rw [onSeg_y]; unfold midp; simp only; ring

theorem mid_ne_left {a b : Pt K} (h : a ≠ b) : midp a b ≠ a := by
  intro hh
  have h1 := congrArg Pt.x hh
  have h2 := congrArg Pt.y hh
  unfold midp at h1 h2
  exact h (Pt.ext' (by simp only at h1; linarith) (by simp only at h2; linarith))

theorem mid_ne_right {a b : Pt K} (h : a ≠ b) : midp a b ≠ b := by
  intro hh
  have h1 := congrArg Pt.x hh
  have h2 := congrArg Pt.y hh
  unfold midp at h1 h2
  exact h (Pt.ext' (by simp only at h1; linarith) (by simp only at h2; linarith))

/-- Crossing an edge of a simple front. -/
theorem simple_cross {pos : Nat → Pt K} {es : List (Nat × Nat)} (h : SimpleFront pos es) {u v : Nat} (hm : (u, v) ∈ es) :
    Small fun e => winding pos es (mov (midp (pos u) (pos v)) (leftN (pos u) (pos v)) e) =
      winding pos es (mov (midp (pos u) (pos v)) (leftN (pos u) (pos v)) (-e)) + 1 := by
  have hp := List.perm_cons_erase hm
  have hpw := (List.Perm.pairwise_iff (fun {x y} => apart_symm (pos := pos)) hp).mp h.apart
  rw [List.pairwise_cons] at hpw
  have hne := h.proper _ hm
  have hs : (segs pos es).Perm ((pos u, pos v) :: segs pos (es.erase (u, v))) := hp.map _
  have hc := closed_perm hs (closed_segs h.balanced pos)
  refine (wind_cross hc hne ?_).mono ?_
  · intro x hx hon
    obtain ⟨f, hf, rfl⟩ := List.mem_map.mp hx
    rcases (hpw.1 f hf _ (mid_on _ _) hon).1 with hh | hh
    · exact mid_ne_left hne hh
    · exact mid_ne_right hne hh
  · intro e _ he
    rw [winding_wind, winding_wind, wind_perm hs, wind_perm hs]
    exact he

/-- Points close to the middle of a side are inside. -/
theorem mid_in {a b c : Pt K} (hA : 0 < side a b c) :
    Small fun e => StrictlyIn (mov (midp a b) (leftN a b) e) a b c := by
  have hab : a ≠ b := by rintro rfl; unfold side at hA; linarith
  have hL := normSq_pos' hab
  have e1 : ∀ e, side a b (mov (midp a b) (leftN a b) e) = e * ((b.x - a.x) * (b.x - a.x) + (b.y - a.y) * (b.y - a.y)) := by
    intro e; unfold side mov midp leftN; simp only; ring
  have e2 : ∀ e, side b c (mov (midp a b) (leftN a b) e) = side a b c / 2 + e * ((c.x - b.x) * (b.x - a.x) + (c.y - b.y) * (b.y - a.y)) := by
    intro e; unfold side mov midp leftN; simp only; ring
  have e3 : ∀ e, side c a (mov (midp a b) (leftN a b) e) = side a b c / 2 + e * ((a.x - c.x) * (b.x - a.x) + (a.y - c.y) * (b.y - a.y)) := by
    intro e; unfold side mov midp leftN; simp only; ring
  refine ((small_pos1 (half_pos hA) ((c.x - b.x) * (b.x - a.x) + (c.y - b.y) * (b.y - a.y))).and
    (small_pos1 (half_pos hA) ((a.x - c.x) * (b.x - a.x) + (a.y - c.y) * (b.y - a.y)))).mono ?_
  rintro e h0 ⟨h1, h2⟩
  refine ⟨?_, ?_, ?_⟩
  · rw [e1]; exact mul_pos h0 hL
  · rw [e2]; exact h1
  · rw [e3]; exact h2

theorem mov_swap (a b : Pt K) (e : K) : mov (midp b a) (leftN b a) (-e) = mov (midp a b) (leftN a b) e := by
  apply Pt.ext'
  · unfold mov midp leftN; simp only; ring
  · unfold mov midp leftN; simp only; ring

theorem side_onSeg (a b p q : Pt K) (t : K) : side a b (onSeg p q t) = (1 - t) * side a b p + t * side a b q := by
  unfold side; simp only [onSeg_x, onSeg_y]; ring

theorem strictlyIn_onSeg {a b c p q x : Pt K} (hp : StrictlyIn p a b c) (hq : StrictlyIn q a b c) (hx : OnClosed p q x) :
    StrictlyIn x a b c := by
  obtain ⟨t, t0, t1, rfl⟩ := hx
  have key : ∀ u v : Pt K, 0 < side u v p → 0 < side u v q → 0 < side u v (onSeg p q t) := by
    intro u v h1 h2
    rw [side_onSeg]
    rcases eq_or_lt_of_le t0 with rfl | ht
    · linarith
    · have := mul_nonneg (by linarith : 0 ≤ 1 - t) h1.le
      have := mul_pos ht h2
      linarith
  exact ⟨key _ _ hp.1 hq.1, key _ _ hp.2.1 hq.2.1, key _ _ hp.2.2 hq.2.2⟩

theorem side_self_left (a b : Pt K) : side a b a = 0 := by unfold side; ring
theorem side_self_right (a b : Pt K) : side a b b = 0 := by unfold side; ring

theorem side_onClosed {a b x : Pt K} (h : OnClosed a b x) : side a b x = 0 := by
  obtain ⟨t, _, _, rfl⟩ := h
  rw [side_onSeg, side_self_left, side_self_right]; ring

/-- The interior of a free triangle meets no front edge. -/
theorem free_interior {pos : Nat → Pt K} {es : List (Nat × Nat)} {b1 b2 v : Nat} (hf : Free pos es b1 b2 v)
    {e : Nat × Nat} (he : e ∈ es) {x : Pt K} (hx : OnClosed (pos e.1) (pos e.2) x) :
    ¬ StrictlyIn x (pos b1) (pos b2) (pos v) := by
  intro hi
  have z : ∀ p q, OnClosed p q x → side p q x = 0 := fun _ _ h => side_onClosed h
  rcases hf e he with (rfl | rfl) | (rfl | rfl) | (rfl | rfl) | h
  · exact absurd (z _ _ hx) (ne_of_gt hi.1)
  · exact absurd (z _ _ (onClosed_symm hx)) (ne_of_gt hi.1)
  · exact absurd (z _ _ hx) (ne_of_gt hi.2.1)
  · exact absurd (z _ _ (onClosed_symm hx)) (ne_of_gt hi.2.1)
  · exact absurd (z _ _ hx) (ne_of_gt hi.2.2)
  · exact absurd (z _ _ (onClosed_symm hx)) (ne_of_gt hi.2.2)
  · rcases (h x hx ⟨hi.1.le, hi.2.1.le, hi.2.2.le⟩).2 with rfl | rfl | rfl
    · exact absurd (side_self_left _ _) (ne_of_gt hi.1)
    · exact absurd (side_self_left _ _) (ne_of_gt hi.2.1)
    · exact absurd (side_self_left _ _) (ne_of_gt hi.2.2)

/-- The winding number is constant in the interior of a free triangle. -/
theorem free_const {pos : Nat → Pt K} {es : List (Nat × Nat)} (hb : FUSpec.Balanced es) {b1 b2 v : Nat} (hf : Free pos es b1 b2 v)
    {p q : Pt K} (hp : StrictlyIn p (pos b1) (pos b2) (pos v)) (hq : StrictlyIn q (pos b1) (pos b2) (pos v)) :
    winding pos es p = winding pos es q := by
  rw [winding_wind, winding_wind]
  refine wind_const (closed_segs hb pos) ?_
  rintro x hx ⟨y, h1, h2⟩
  obtain ⟨e, he, rfl⟩ := List.mem_map.mp hx
  exact free_interior hf he h2 (strictlyIn_onSeg hp hq h1)

/-- The interior of a free triangle on a front edge belongs to the region. -/
theorem free_winding {pos : Nat → Pt K} {es : List (Nat × Nat)} (h : SimpleFront pos es) {b1 b2 v : Nat}
    (hm : (b1, b2) ∈ es) (hA : 0 < side (pos b1) (pos b2) (pos v)) (hf : Free pos es b1 b2 v)
    {p : Pt K} (hp : StrictlyIn p (pos b1) (pos b2) (pos v)) : winding pos es p = 1 := by
  obtain ⟨e, _, h1, h2⟩ := ((simple_cross h hm).and (mid_in hA)).get
  rw [free_const h.balanced hf hp h2]
  rcases h.once (mov (midp (pos b1) (pos b2)) (leftN (pos b1) (pos b2)) e) with h3 | h3
  · rcases h.once (mov (midp (pos b1) (pos b2)) (leftN (pos b1) (pos b2)) (-e)) with h4 | h4 <;> omega
  · exact h3

/-- The side edges of a free triangle run along the front. -/
theorem free_oriented {pos : Nat → Pt K} {es : List (Nat × Nat)} (h : SimpleFront pos es) {b1 b2 v : Nat}
    (hm : (b1, b2) ∈ es) (hA : 0 < side (pos b1) (pos b2) (pos v)) (hf : Free pos es b1 b2 v) :
    Oriented es b1 b2 v := by
  constructor
  · intro hx
    have hA' : 0 < side (pos v) (pos b1) (pos b2) := by rw [side_rot, side_rot]; exact hA
    obtain ⟨e, _, h1, h2⟩ := ((simple_cross h hx).and (mid_in hA')).get
    rw [mov_swap] at h1
    rw [← strictlyIn_rot] at h2
    have h3 := free_winding h hm hA hf h2
    rcases h.once (mov (midp (pos b1) (pos v)) (leftN (pos b1) (pos v)) e) with h4 | h4 <;> omega
  · intro hx
    have hA' : 0 < side (pos b2) (pos v) (pos b1) := by rw [side_rot]; exact hA
    obtain ⟨e, _, h1, h2⟩ := ((simple_cross h hx).and (mid_in hA')).get
    rw [mov_swap] at h1
    rw [strictlyIn_rot] at h2
    have h3 := free_winding h hm hA hf h2
    rcases h.once (mov (midp (pos v) (pos b2)) (leftN (pos v) (pos b2)) e) with h4 | h4 <;> omega

/-- Two sides of a triangle meet only in their common corner. -/
theorem sides_meet {a b c x : Pt K} (hA : 0 < side a b c) (h1 : OnClosed a b x) (h2 : OnClosed b c x) : x = b := by
  obtain ⟨t, t0, t1, rfl⟩ := h1
  have := side_onClosed h2
  rw [side_onSeg, side_self_left] at this
  have h3 : side b c a = side a b c := side_rot a b c
  rw [h3] at this
  have : 1 - t = 0 := by
    have h4 : (1 - t) * side a b c = 0 := by linarith
    rcases mul_eq_zero.mp h4 with h5 | h5
    · exact h5
    · exact absurd h5 (ne_of_gt hA)
  have ht : t = 1 := by linarith
  subst ht
  apply Pt.ext'
  · rw [onSeg_x]; ring
  · rw [onSeg_y]; ring

theorem inClosed_side {a b c x : Pt K} (hA : 0 < side a b c) (h : OnClosed a b x) : InClosed x a b c := by
  refine ⟨(side_onClosed h).ge, ?_, ?_⟩ <;> obtain ⟨t, t0, t1, rfl⟩ := h <;> rw [side_onSeg]
  · rw [side_self_left]
    have h3 : side b c a = side a b c := side_rot a b c
    rw [h3]
    have := mul_nonneg (by linarith : 0 ≤ 1 - t) hA.le
    linarith
  · rw [side_self_right]
    have h3 : side c a b = side a b c := by rw [side_rot, side_rot]
    rw [h3]
    have := mul_nonneg t0 hA.le
    linarith

theorem inClosed_rot {x a b c : Pt K} (h : InClosed x b c a) : InClosed x a b c := ⟨h.2.2, h.1, h.2.1⟩

/-- A corner on a side is an end of the side. -/
theorem corner_on_side {a b c x : Pt K} (hA : 0 < side a b c) (h : OnClosed a b x) (hx : x = a ∨ x = b ∨ x = c) :
    x = a ∨ x = b := by
  rcases hx with hx | hx | rfl
  · exact Or.inl hx
  · exact Or.inr hx
  · exact absurd (side_onClosed h) (ne_of_gt hA)

theorem apart_reverse {pos : Nat → Pt K} {e : Nat × Nat} {a b : Nat} (h : Apart pos e (a, b)) : Apart pos e (b, a) := by
  intro x h1 h2
  obtain ⟨h3, h4⟩ := h x h1 (onClosed_symm h2)
  exact ⟨h3, h4.symm⟩

/-- A front edge other than the sides of the triangle stays apart from the sides `a b`. -/
theorem free_apart {pos : Nat → Pt K} {e : Nat × Nat} {a b c : Nat} (hA : 0 < side (pos a) (pos b) (pos c))
    (h : ∀ x, OnClosed (pos e.1) (pos e.2) x → InClosed x (pos a) (pos b) (pos c) →
      (x = pos e.1 ∨ x = pos e.2) ∧ (x = pos a ∨ x = pos b ∨ x = pos c)) : Apart pos e (a, b) := by
  intro x h1 h2
  obtain ⟨h3, h4⟩ := h x h1 (inClosed_side hA h2)
  exact ⟨h3, corner_on_side hA h2 h4⟩

theorem apart_next {pos : Nat → Pt K} {a b c : Nat} (hA : 0 < side (pos a) (pos b) (pos c)) : Apart pos (a, b) (b, c) := by
  intro x h1 h2
  have := sides_meet hA h1 h2
  exact ⟨Or.inr this, Or.inl this⟩

theorem balanced_replaced {old new : List (Nat × Nat)} {b1 b2 v : Nat} (h : Replaced old new b1 b2 v) (hb : FUSpec.Balanced old) :
    FUSpec.Balanced new := by
  intro w
  have key : ∀ es : List (Nat × Nat), (es.map fun e => (if e.1 = w then (1 : Int) else 0) - (if e.2 = w then 1 else 0)).sum =
      (es.countP (fun e => decide (e.1 = w)) : Int) - es.countP (fun e => decide (e.2 = w)) := by
    intro es
    induction es with
    | nil => simp
    | cons e es ih =>
      rw [List.map_cons, List.sum_cons, ih, List.countP_cons, List.countP_cons]
      by_cases h1 : e.1 = w <;> by_cases h2 : e.2 = w <;> simp [h1, h2] <;> ring
  have := replaced_sum (fun e => (if e.1 = w then (1 : Int) else 0) - (if e.2 = w then 1 else 0)) (fun a b => by ring) h
  rw [key, key] at this
  have h2 := hb w
  simp only at this
  omega

theorem replaced_winding {old new : List (Nat × Nat)} {b1 b2 v : Nat} (h : Replaced old new b1 b2 v) (pos : Nat → Pt K) (p : Pt K) :
    winding pos new p + (crossing p (pos b1) (pos b2) + crossing p (pos b2) (pos v) + crossing p (pos v) (pos b1)) =
      winding pos old p := by
  rw [winding_eq, winding_eq]
  exact replaced_sum (fun e => crossing p (pos e.1) (pos e.2)) (fun a b => crossing_anti _ _ _) h

/-- The front stays simple. -/
theorem free_step {pos : Nat → Pt K} {es es' : List (Nat × Nat)} (h : SimpleFront pos es) {b1 b2 v : Nat}
    (hm : (b1, b2) ∈ es) (hA : 0 < side (pos b1) (pos b2) (pos v)) (hf : Free pos es b1 b2 v)
    (hr : Replaced es es' b1 b2 v) : SimpleFront pos es' := by
  have hA2 : 0 < side (pos b2) (pos v) (pos b1) := by rw [side_rot]; exact hA
  have hA3 : 0 < side (pos v) (pos b1) (pos b2) := by rw [side_rot, side_rot]; exact hA
  have n12 : pos b1 ≠ pos b2 := by intro hh; rw [hh] at hA; unfold side at hA; linarith
  have n2v : pos b2 ≠ pos v := by intro hh; rw [hh] at hA; unfold side at hA; linarith
  have nv1 : pos v ≠ pos b1 := by intro hh; rw [hh] at hA; unfold side at hA; linarith
  have hor := free_oriented h hm hA hf
  refine ⟨balanced_replaced hr h.balanced, ?_, ?_, ?_⟩
  · obtain ⟨out, inn, rest, p1, p2, p3⟩ := hr
    intro e he
    rcases List.mem_append.mp (p2.mem_iff.mp he) with hi | hi
    · rcases p3 with ⟨_, rfl⟩ | ⟨_, rfl, _⟩ | ⟨_, rfl, _⟩ | ⟨_, rfl, _⟩ <;>
        simp only [List.mem_cons, List.not_mem_nil, or_false] at hi
      · subst hi; exact Ne.symm n2v
      · subst hi; exact Ne.symm nv1
      · rcases hi with rfl | rfl
        · exact Ne.symm nv1
        · exact Ne.symm n2v
    · exact h.proper e (p1.mem_iff.mpr (List.mem_cons_of_mem _ (List.mem_append_right _ hi)))
  · obtain ⟨out, inn, rest, p1, p2, p3⟩ := hr
    have hpw := (List.Perm.pairwise_iff (fun {x y} => apart_symm (pos := pos)) p1).mp h.apart
    rw [List.pairwise_cons, List.pairwise_append] at hpw
    obtain ⟨hb, _, hrest, _⟩ := hpw
    rw [List.Perm.pairwise_iff (fun {x y} => apart_symm (pos := pos)) p2, List.pairwise_append]
    -- an edge that is kept is not a side that is put into the front
    have nb : ∀ f ∈ rest, f ≠ (b1, b2) ∧ f ≠ (b2, b1) := by
      intro f hfr
      have hap := hb f (List.mem_append_right _ hfr)
      constructor <;> rintro rfl
      · rcases (hap _ (mid_on _ _) (mid_on _ _)).1 with hh | hh
        · exact mid_ne_left n12 hh
        · exact mid_ne_right n12 hh
      · rcases (hap _ (mid_on _ _) (onClosed_symm (mid_on _ _))).1 with hh | hh
        · exact mid_ne_left n12 hh
        · exact mid_ne_right n12 hh
    have hmem : ∀ f ∈ rest, f ∈ es := fun f hfr => p1.mem_iff.mpr (List.mem_cons_of_mem _ (List.mem_append_right _ hfr))
    have side1 : (v, b1) ∉ es → ∀ f ∈ rest, Apart pos (b1, v) f := by
      intro hno f hfr
      apply apart_symm
      apply apart_reverse
      rcases hf f (hmem f hfr) with (rfl | rfl) | (rfl | rfl) | (rfl | rfl) | hx
      · exact absurd rfl (nb _ hfr).1
      · exact absurd rfl (nb _ hfr).2
      · exact apart_next hA2
      · exact apart_symm (apart_reverse (apart_symm (apart_next hA2)))
      · exact absurd (hmem _ hfr) hno
      · exact absurd (hmem _ hfr) hor.1
      · exact free_apart hA3 fun x hx1 hx2 => by
          obtain ⟨h3, h4⟩ := hx x hx1 (inClosed_rot (inClosed_rot hx2))
          exact ⟨h3, by tauto⟩
    have side2 : (b2, v) ∉ es → ∀ f ∈ rest, Apart pos (v, b2) f := by
      intro hno f hfr
      apply apart_symm
      apply apart_reverse
      rcases hf f (hmem f hfr) with (rfl | rfl) | (rfl | rfl) | (rfl | rfl) | hx
      · exact absurd rfl (nb _ hfr).1
      · exact absurd rfl (nb _ hfr).2
      · exact absurd (hmem _ hfr) hno
      · exact absurd (hmem _ hfr) hor.2
      · exact apart_symm (apart_next hA2)
      · exact apart_symm (apart_reverse (apart_next hA2))
      · exact free_apart hA2 fun x hx1 hx2 => by
          obtain ⟨h3, h4⟩ := hx x hx1 (inClosed_rot hx2)
          exact ⟨h3, by tauto⟩
    have mutual1 : Apart pos (b1, v) (v, b2) := by
      intro x h1 h2
      have := sides_meet hA2 (onClosed_symm h2) (onClosed_symm h1)
      exact ⟨Or.inr this, Or.inl this⟩
    refine ⟨?_, hrest, ?_⟩
    · rcases p3 with ⟨_, rfl⟩ | ⟨_, rfl, _⟩ | ⟨_, rfl, _⟩ | ⟨_, rfl, _⟩
      · exact List.Pairwise.nil
      · exact List.pairwise_singleton _ _
      · exact List.pairwise_singleton _ _
      · rw [List.pairwise_cons]
        refine ⟨?_, List.pairwise_singleton _ _⟩
        intro a ha
        rw [List.mem_singleton] at ha
        subst ha
        exact mutual1
    · intro e he f hfr
      rcases p3 with ⟨_, rfl⟩ | ⟨_, rfl, q1⟩ | ⟨_, rfl, q1⟩ | ⟨_, rfl, q1, q2⟩ <;>
        simp only [List.mem_cons, List.not_mem_nil, or_false] at he
      · subst he; exact side2 q1 f hfr
      · subst he; exact side1 q1 f hfr
      · rcases he with rfl | rfl
        · exact side1 q2 f hfr
        · exact side2 q1 f hfr
  · intro p
    obtain ⟨e, _, ⟨h1, h2⟩, h3, h4, h5⟩ := (((nudge_wind (segs pos es) p).and (nudge_wind (segs pos es') p)).and
      ((nudge_side_ne n12 p).and ((nudge_side_ne n2v p).and (nudge_side_ne nv1 p)))).get
    have hw := replaced_winding hr pos (nudge p e)
    rw [triangle_winding hA h3 h4 h5] at hw
    have e1 : winding pos es' p = winding pos es' (nudge p e) := by rw [winding_wind, winding_wind, h2]
    rw [e1]
    by_cases hin : StrictlyIn (nudge p e) (pos b1) (pos b2) (pos v)
    · rw [if_pos hin, free_winding h hm hA hf hin] at hw
      left; omega
    · rw [if_neg hin] at hw
      have := h.once (nudge p e)
      omega

end TQ.FU

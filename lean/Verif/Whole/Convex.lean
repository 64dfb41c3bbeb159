import Verif.Whole.Outline

/-! # Lemmas: convex polygons are simple -/

set_option linter.unusedSectionVars false

namespace TQ.Outl
open TQ.FUSpec TQ.OutlSpec TQ.FU TQ.GeoSpec
variable {K : Type*} [Field K] [LinearOrder K] [IsStrictOrderedRing K]

/-- Every three points in order turn to the left. -/
def Turns (ps : List (Pt K)) : Prop := ∀ a b c, [a, b, c].Sublist ps → 0 < side a b c

theorem Turns.sub {ps qs : List (Pt K)} (h : Turns ps) (hs : qs.Sublist ps) : Turns qs := fun a b c hc => h a b c (hc.trans hs)

theorem path_mem {p : Pt K} {qs : List (Pt K)} {z : Pt K} : ∀ e ∈ path p qs z, e.1 ∈ p :: qs ∧ (e.2 ∈ qs ∨ e.2 = z) := by
  induction qs generalizing p with
  | nil => intro e he; simp [path] at he; subst he; simp
  | cons q qs ih =>
    intro e he
    rcases List.mem_cons.1 he with rfl | he
    · simp
    · obtain ⟨h1, h2⟩ := ih e he
      refine ⟨List.mem_cons_of_mem _ h1, ?_⟩
      rcases h2 with h2 | h2
      · exact Or.inl (List.mem_cons_of_mem _ h2)
      · exact Or.inr h2

/-- A point inside a triangle: the distance from a line is a mean of those of the corners. -/
theorem side_mean (u v p a b c : Pt K) :
    side a b c * side u v p = side b c p * side u v a + side c a p * side u v b + side a b p * side u v c := by
  unfold side; ring

/-- `p` is off the lines through the corner `o` and the others and through consecutive ones. -/
def Off (o : Pt K) (p : Pt K) : List (Pt K) → Prop
  | [] => True
  | [q] => side o q p ≠ 0
  | q :: r :: qs => side o q p ≠ 0 ∧ side q r p ≠ 0 ∧ Off o p (r :: qs)

theorem side_swap (a b p : Pt K) : side b a p = - side a b p := by unfold side; ring

theorem ring_cons (o q r : Pt K) (qs : List (Pt K)) (p : Pt K) :
    wind (ring (o :: q :: r :: qs)) p = (crossing p o q + crossing p q r + crossing p r o) + wind (ring (o :: r :: qs)) p := by
  have := crossing_anti p o r
  unfold ring path
  cases qs <;> simp [path, wind] <;> rw [this] <;> ring

/-- The winding number of a convex polygon: 0 or 1, and in the latter case the point is inside of a triangle of the fan. -/
theorem fan_wind {o p : Pt K} : ∀ (qs : List (Pt K)), Turns (o :: qs) → Off o p qs →
    (wind (ring (o :: qs)) p = 0 ∨ wind (ring (o :: qs)) p = 1) ∧
    (wind (ring (o :: qs)) p = 1 → ∃ a b, [a, b].Sublist qs ∧ StrictlyIn p o a b) ∧
    (qs ≠ [] → LeftOfAll (ring (o :: qs)) p → wind (ring (o :: qs)) p = 1)
  | [], _, _ => by
    have : wind (ring [o]) p = 0 := by
      unfold ring path wind crossing
      have : ¬ UpCross p o o := fun h => absurd (h.1.trans_lt h.2.1) (lt_irrefl _)
      simp
    rw [this]
    exact ⟨Or.inl rfl, by simp, by simp⟩
  | [q], _, _ => by
    have : wind (ring [o, q]) p = 0 := by
      simp [ring, path, wind]; rw [crossing_anti]; ring
    rw [this]
    refine ⟨Or.inl rfl, by simp, fun _ h => ?_⟩
    have h1 := h (o, q) (by simp [ring, path])
    have h2 := h (q, o) (by simp [ring, path])
    rw [side_swap] at h2
    dsimp only at h1 h2
    linarith
  | q :: r :: qs, ht, ho => by
    obtain ⟨i1, i2, i3⟩ := fan_wind (r :: qs) (ht.sub (by simp)) ho.2.2
    have hA : 0 < side o q r := ht o q r (by simp)
    have hor : side o r p ≠ 0 := by
      have := ho.2.2
      cases qs with
      | nil => exact this
      | cons _ _ => exact this.1
    have hro : side r o p ≠ 0 := by rw [side_swap]; exact neg_ne_zero.2 hor
    have hw := triangle_winding hA ho.1 ho.2.1 hro
    rw [ring_cons, hw]
    have hleft : wind (ring (o :: r :: qs)) p = 1 → 0 < side o r p := by
      intro h
      obtain ⟨a, b, hab, h1, h2, h3⟩ := i2 h
      have hb : [r, b].Sublist (r :: qs) := by
        rw [List.cons_sublist_cons, List.singleton_sublist]
        have : b ∈ qs := by
          cases hab with
          | cons _ h => exact (List.cons_sublist_iff.1 h).elim fun r1 ⟨r2, e, _, h⟩ => by
                          rw [e]; exact List.mem_append_right _ (List.singleton_sublist.1 h)
          | cons_cons _ h => exact List.singleton_sublist.1 h
        exact this
      have hT := ht.sub (qs := o :: r :: qs) (by simp)
      have s1 : 0 < side o r b := hT o r b (by rw [List.cons_sublist_cons]; exact hb)
      have s2 : 0 ≤ side o r a := by
        have : a ∈ r :: qs := hab.subset (by simp)
        rcases List.mem_cons.1 this with rfl | ha
        · unfold side; apply le_of_eq; ring
        · exact (hT o r a (by rw [List.cons_sublist_cons, List.cons_sublist_cons, List.singleton_sublist]; exact ha)).le
      have hD : 0 < side o a b := hT o a b (by rw [List.cons_sublist_cons]; exact hab)
      have hm := side_mean o r p o a b
      have h0 : side o r o = 0 := by unfold side; ring
      rw [h0, mul_zero, zero_add] at hm
      have : 0 < side o a b * side o r p := by
        rw [hm]
        have := mul_pos h1 s1
        have := mul_nonneg h3.le s2
        linarith
      exact pos_of_mul_pos_right this hD.le |> fun h => h
    have hin : StrictlyIn p o q r → wind (ring (o :: r :: qs)) p = 0 := by
      intro h
      rcases i1 with h0 | h1
      · exact h0
      · have := hleft h1
        have h3 := h.2.2
        rw [side_swap] at h3
        linarith
    refine ⟨?_, ?_, ?_⟩
    · by_cases h : StrictlyIn p o q r
      · rw [if_pos h, hin h]; right; rfl
      · rw [if_neg h, zero_add]; exact i1
    · intro h1
      by_cases h : StrictlyIn p o q r
      · exact ⟨q, r, by simp, h⟩
      · rw [if_neg h, zero_add] at h1
        obtain ⟨a, b, hab, hp⟩ := i2 h1
        exact ⟨a, b, hab.trans (by simp), hp⟩
    · intro _ hl
      have e1 := hl (o, q) (by simp [ring, path])
      have e2 := hl (q, r) (by cases qs <;> simp [ring, path])
      dsimp only at e1 e2
      rcases lt_or_gt_of_ne hor with h | h
      · have hs : StrictlyIn p o q r := ⟨e1, e2, by rw [side_swap]; linarith⟩
        rw [if_pos hs, hin hs, add_zero]
      · have hs : ¬ StrictlyIn p o q r := fun hs => by have := hs.2.2; rw [side_swap] at this; linarith
        rw [if_neg hs, zero_add]
        refine i3 (by simp) ?_
        intro s hs
        have : s = (o, r) ∨ s ∈ path r qs o := by simpa [ring, path] using hs
        rcases this with rfl | hs
        · exact h
        · exact hl s (by simp only [ring, path]; exact List.mem_cons_of_mem _ (List.mem_cons_of_mem _ hs))

theorem sublist_grow {α : Type*} {s l : List α} (h : s.Sublist l) (hl : s.length < l.length) : ∃ t : List α, s.Sublist t ∧ t.Sublist l ∧ t.length = s.length + 1 := by
  induction h with
  | slnil => simp at hl
  | @cons s l x h ih => exact ⟨x :: s, by simp, by simpa using h, by simp⟩
  | @cons_cons s l x h ih =>
    obtain ⟨t, h1, h2, h3⟩ := ih (by simpa using hl)
    exact ⟨x :: t, by simpa using h1, by simpa using h2, by simp [h3]⟩

theorem turns_nodup {ps : List (Pt K)} (h : ConvexCorners ps) : ps.Nodup := by
  rw [List.nodup_iff_sublist]
  intro a ha
  obtain ⟨t, h1, h2, h3⟩ := sublist_grow ha (by have := h.1; simp; omega)
  obtain ⟨x, y, z, rfl⟩ : ∃ x y z, t = [x, y, z] := by
    match t, h3 with
    | [x, y, z], _ => exact ⟨x, y, z, rfl⟩
  have hs := h.2 x y z h2
  have hd : ¬ [x, y, z].Nodup := fun hn => (List.nodup_iff_sublist.1 hn) a h1
  simp at hd
  by_cases e1 : x = y
  · subst e1; unfold side at hs; ring_nf at hs; exact lt_irrefl _ hs
  · by_cases e2 : x = z
    · subst e2; unfold side at hs; ring_nf at hs; exact lt_irrefl _ hs
    · have e3 := hd e1 e2
      subst e3; unfold side at hs; ring_nf at hs; exact lt_irrefl _ hs

theorem path_split {p : Pt K} {qs : List (Pt K)} {z : Pt K} : ∀ e ∈ path p qs z,
    (∃ l1 l2, p :: qs = l1 ++ e.1 :: e.2 :: l2) ∨ (∃ l1, p :: qs = l1 ++ [e.1] ∧ e.2 = z) := by
  induction qs generalizing p with
  | nil => intro e he; simp [path] at he; subst he; exact Or.inr ⟨[], rfl, rfl⟩
  | cons q qs ih =>
    intro e he
    rcases List.mem_cons.1 he with rfl | he
    · exact Or.inl ⟨[], qs, rfl⟩
    · rcases ih e he with ⟨l1, l2, h⟩ | ⟨l1, h, h2⟩
      · exact Or.inl ⟨p :: l1, l2, by rw [h]; rfl⟩
      · exact Or.inr ⟨p :: l1, by rw [h]; rfl, h2⟩

theorem path_fst (p : Pt K) (qs : List (Pt K)) (z : Pt K) : (path p qs z).map Prod.fst = p :: qs := by
  induction qs generalizing p with
  | nil => rfl
  | cons q qs ih => simp [path, ih]

theorem path_snd (p : Pt K) (qs : List (Pt K)) (z : Pt K) : (path p qs z).map Prod.snd = qs ++ [z] := by
  induction qs generalizing p with
  | nil => rfl
  | cons q qs ih => simp [path, ih]

theorem ring_fst (ps : List (Pt K)) : (ring ps).map Prod.fst = ps := by
  cases ps with
  | nil => rfl
  | cons p ps => exact path_fst ..

theorem ring_snd (ps : List (Pt K)) : ((ring ps).map Prod.snd).Perm ps := by
  cases ps with
  | nil => exact List.Perm.refl _
  | cons p ps => unfold ring; rw [path_snd]; exact List.perm_append_singleton ..

/-- The corners are on the left of the sides, strictly if they are not ends of the side. -/
theorem convex_left {ps : List (Pt K)} (h : ConvexCorners ps) {e : Pt K × Pt K} (he : e ∈ ring ps) {w : Pt K} (hw : w ∈ ps) :
    0 ≤ side e.1 e.2 w ∧ (w ≠ e.1 → w ≠ e.2 → 0 < side e.1 e.2 w) := by
  have z1 : side e.1 e.2 e.1 = 0 := by unfold side; ring
  have z2 : side e.1 e.2 e.2 = 0 := by unfold side; ring
  have key : (w = e.1 ∨ w = e.2 ∨ 0 < side e.1 e.2 w) := by
    cases ps with
    | nil => simp [ring] at he
    | cons o qs =>
      rcases path_split e he with ⟨l1, l2, h1⟩ | ⟨l1, h1, h2⟩
      · rw [h1] at hw h
        rcases List.mem_append.1 hw with hw | hw
        · right; right
          have := h.2 w e.1 e.2 (List.Sublist.append (List.singleton_sublist.2 hw) (by simp))
          rwa [side_rot]
        · rcases List.mem_cons.1 hw with rfl | hw
          · exact Or.inl rfl
          · rcases List.mem_cons.1 hw with rfl | hw
            · exact Or.inr (Or.inl rfl)
            · right; right
              exact h.2 e.1 e.2 w ((by simpa using hw : [e.1, e.2, w].Sublist (e.1 :: e.2 :: l2)).trans (List.sublist_append_right ..))
      · rw [h2]
        cases l1 with
        | nil => simp at h1; rw [h1.1, h1.2] at hw; simp at hw; exact Or.inl hw
        | cons o' l1 =>
          rw [List.cons_append, List.cons.injEq] at h1
          obtain ⟨rfl, h1⟩ := h1
          rw [h1] at hw h
          rcases List.mem_cons.1 hw with rfl | hw
          · exact Or.inr (Or.inl rfl)
          · rcases List.mem_append.1 hw with hw | hw
            · right; right
              have := h.2 o w e.1 (by rw [List.cons_sublist_cons]; exact List.Sublist.append (l₁ := [w]) (List.singleton_sublist.2 hw) (List.Sublist.refl _))
              rw [← side_rot]; exact this
            · left; simpa using hw
  rcases key with rfl | rfl | hk
  · exact ⟨z1.ge, fun h => absurd rfl h⟩
  · exact ⟨z2.ge, fun _ h => absurd rfl h⟩
  · exact ⟨hk.le, fun _ _ => hk⟩

theorem ring_mem {ps : List (Pt K)} {e : Pt K × Pt K} (he : e ∈ ring ps) : e.1 ∈ ps ∧ e.2 ∈ ps :=
  ⟨by rw [← ring_fst ps]; exact List.mem_map_of_mem he, (ring_snd ps).subset (List.mem_map_of_mem he)⟩

/-- There is a corner off every side. -/
theorem convex_third {ps : List (Pt K)} (h : ConvexCorners ps) (u v : Pt K) : ∃ w ∈ ps, w ≠ u ∧ w ≠ v := by
  by_contra hc
  have hn := turns_nodup h
  have hsub : ps ⊆ [u, v] := by
    intro w hw
    by_contra hx
    simp at hx
    exact hc ⟨w, hw, hx.1, hx.2⟩
  have := (hn.subperm hsub).length_le
  have := h.1
  simp at *
  omega

theorem convex_proper {ps : List (Pt K)} (h : ConvexCorners ps) : ∀ e ∈ ring ps, e.1 ≠ e.2 := by
  intro e he heq
  obtain ⟨w, hw, h1, h2⟩ := convex_third h e.1 e.2
  have := (convex_left h he hw).2 h1 h2
  rw [heq] at this
  unfold side at this; ring_nf at this; exact lt_irrefl _ this

theorem side_onSeg (a b c d : Pt K) (t : K) : side a b (onSeg c d t) = (1 - t) * side a b c + t * side a b d := by
  unfold side onSeg; simp; ring

theorem onSeg_zero' (c d : Pt K) : onSeg c d (0 : K) = c := by unfold onSeg; apply Pt.ext' <;> simp
theorem onSeg_one' (c d : Pt K) : onSeg c d (1 : K) = d := by unfold onSeg; apply Pt.ext' <;> simp

theorem convex_apart {ps : List (Pt K)} (h : ConvexCorners ps) : (ring ps).Pairwise SegApart := by
  have hn := turns_nodup h
  have h1 : (ring ps).Pairwise fun e f => e.1 ≠ f.1 := by
    have := hn
    rw [← ring_fst ps] at this
    exact List.pairwise_map.1 this
  have h2 : (ring ps).Pairwise fun e f => e.2 ≠ f.2 := by
    have : ((ring ps).map Prod.snd).Nodup := (ring_snd ps).nodup_iff.2 hn
    exact List.pairwise_map.1 this
  refine List.Pairwise.imp_of_mem ?_ (h1.and h2)
  rintro e f he hf ⟨n1, n2⟩ x ⟨s, s0, s1, rfl⟩ ⟨t, t0, t1, hx⟩
  obtain ⟨f1, f2⟩ := ring_mem hf
  have hz : side e.1 e.2 (onSeg e.1 e.2 s) = 0 := by unfold side onSeg; simp; ring
  rw [hx, side_onSeg] at hz
  obtain ⟨a0, a1⟩ := convex_left h he f1
  obtain ⟨b0, b1⟩ := convex_left h he f2
  have m1 : 0 ≤ (1 - t) * side e.1 e.2 f.1 := mul_nonneg (by linarith) a0
  have m2 : 0 ≤ t * side e.1 e.2 f.2 := mul_nonneg t0 b0
  have k1 : (1 - t) * side e.1 e.2 f.1 = 0 := by linarith
  have k2 : t * side e.1 e.2 f.2 = 0 := by linarith
  by_cases c1 : f.1 = e.2
  · by_cases c2 : f.2 = e.1
    · exfalso
      obtain ⟨w, hw, w1, w2⟩ := convex_third h e.1 e.2
      have p1 := (convex_left h he hw).2 w1 w2
      have p2 := (convex_left h hf hw).2 (by rw [c1]; exact w2) (by rw [c2]; exact w1)
      rw [c1, c2, side_swap] at p2
      linarith
    · have := b1 c2 (Ne.symm n2)
      have ht : t = 0 := (mul_eq_zero.1 k2).resolve_right this.ne'
      rw [hx, ht, onSeg_zero']
      exact ⟨Or.inr c1, Or.inl rfl⟩
  · have := a1 (Ne.symm n1) c1
    have ht : t = 1 := by
      have := (mul_eq_zero.1 k1).resolve_right this.ne'
      linarith
    rw [hx, ht, onSeg_one']
    refine ⟨?_, Or.inr rfl⟩
    rw [ht, one_mul] at k2
    by_contra hc
    push Not at hc
    exact (b1 hc.1 hc.2).ne' k2

theorem off_small {o : Pt K} (p : Pt K) : ∀ qs : List (Pt K), (o :: qs).Nodup → Small fun e => Off o (nudge p e) qs
  | [], _ => Small.of fun _ _ => trivial
  | [q], h => nudge_side_ne (by simp at h; exact h) p
  | q :: r :: qs, h => by
    have h1 : o ≠ q := by simp at h; tauto
    have h2 : q ≠ r := by simp at h; tauto
    have h3 : (o :: r :: qs).Nodup := h.sublist (by simp)
    exact (nudge_side_ne h1 p).and ((nudge_side_ne h2 p).and (off_small p (r :: qs) h3))

/-- Convex polygons wind once around the points on the left of all sides, and not around points on the right of a side. -/
theorem convex_wind {ps : List (Pt K)} (h : ConvexCorners ps) (p : Pt K) :
    (wind (ring ps) p = 0 ∨ wind (ring ps) p = 1) ∧ (LeftOfAll (ring ps) p → wind (ring ps) p = 1) ∧
    ((∃ s ∈ ring ps, side s.1 s.2 p < 0) → wind (ring ps) p = 0) := by
  cases ps with
  | nil => have := h.1; simp at this
  | cons o qs =>
    have hn := turns_nodup h
    have hne : qs ≠ [] := by rintro rfl; have := h.1; simp at this
    have base := (nudge_wind (ring (o :: qs)) p).and (off_small p qs hn)
    refine ⟨?_, fun hl => ?_, ?_⟩
    · obtain ⟨e, _, h1, h2⟩ := base.get
      rw [← h1]; exact (fan_wind qs h.2 h2).1
    · have hs : Small fun e => ∀ s ∈ ring (o :: qs), 0 < side s.1 s.2 (nudge p e) :=
        Small.all (P := fun (s : Pt K × Pt K) e => 0 < side s.1 s.2 (nudge p e)) _ fun s hs =>
          (small_pos (hl s hs) (-(s.2.y - s.1.y)) (s.2.x - s.1.x)).mono fun e _ he => by rw [side_nudge]; exact he
      obtain ⟨e, _, ⟨h1, h2⟩, h3⟩ := (base.and hs).get
      rw [← h1]; exact (fan_wind qs h.2 h2).2.2 hne h3
    · rintro ⟨s, hs, hneg⟩
      have hsm : Small fun e => side s.1 s.2 (nudge p e) < 0 :=
        (small_pos (neg_pos.2 hneg) (s.2.y - s.1.y) (-(s.2.x - s.1.x))).mono fun e _ he => by rw [side_nudge]; linarith
      obtain ⟨e, _, ⟨h1, h2⟩, h3⟩ := (base.and hsm).get
      rw [← h1]
      obtain ⟨i1, i2, -⟩ := fan_wind qs h.2 h2
      refine i1.resolve_right fun h4 => ?_
      obtain ⟨a, b, hab, q1, q2, q3⟩ := i2 h4
      have ha : a ∈ qs := hab.subset (by simp)
      have hb : b ∈ qs := hab.subset (by simp)
      have hD : 0 < side o a b := h.2 o a b (by rw [List.cons_sublist_cons]; exact hab)
      have hm := side_mean s.1 s.2 (nudge p e) o a b
      have l1 := (convex_left h hs (w := o) (by simp)).1
      have l2 := (convex_left h hs (w := a) (by simp [ha])).1
      have l3 := (convex_left h hs (w := b) (by simp [hb])).1
      have := mul_nonneg q2.le l1
      have := mul_nonneg q3.le l2
      have := mul_nonneg q1.le l3
      have := mul_neg_of_pos_of_neg hD h3
      linarith

theorem convex_simple {ps : List (Pt K)} (h : ConvexCorners ps) : SimpleOutline (ring ps) :=
  ⟨convex_proper h, convex_apart h, fun p => by rw [segWinding_wind]; exact (convex_wind h p).1⟩

end TQ.Outl

import Verif.Whole.OutlineSpec

/-! # Lemmas: cut segments, and the boundary edges of prepared meshes as cuts of the outline -/

set_option linter.unusedSectionVars false

namespace TQ.Outl
open TQ.FUSpec TQ.OutlSpec TQ.FU TQ.GeoSpec TQ.FrSpec
variable {K : Type*} [Field K] [LinearOrder K] [IsStrictOrderedRing K]

theorem onLine_zero (p q : Pt K) : onLine p q 0 = p := by unfold onLine; apply Pt.ext' <;> simp
theorem onLine_one (p q : Pt K) : onLine p q 1 = q := by unfold onLine; apply Pt.ext' <;> simp

theorem onLine_inj {p q : Pt K} (h : p ≠ q) {s t : K} (he : onLine p q s = onLine p q t) : s = t := by
  unfold onLine at he
  have h1 := congrArg Pt.x he
  have h2 := congrArg Pt.y he
  dsimp only at h1 h2
  by_contra hst
  apply h
  have hs : s - t ≠ 0 := sub_ne_zero.2 hst
  apply Pt.ext'
  · have : (s - t) * (q.x - p.x) = 0 := by linear_combination h1
    rcases mul_eq_zero.1 this with h | h
    · exact absurd h hs
    · linear_combination -h
  · have : (s - t) * (q.y - p.y) = 0 := by linear_combination h2
    rcases mul_eq_zero.1 this with h | h
    · exact absurd h hs
    · linear_combination -h

/-- Points on a piece of a segment. -/
theorem onPiece {p q x : Pt K} {u v : K} (huv : u ≤ v) (h : OnClosed (onLine p q u) (onLine p q v) x) :
    ∃ t, u ≤ t ∧ t ≤ v ∧ x = onLine p q t := by
  obtain ⟨t, h0, h1, rfl⟩ := h
  refine ⟨u + t * (v - u), by nlinarith, by nlinarith, ?_⟩
  unfold onSeg onLine; apply Pt.ext' <;> (simp; ring)

theorem onClosed_onLine {p q : Pt K} {t : K} (h0 : 0 ≤ t) (h1 : t ≤ 1) : OnClosed p q (onLine p q t) := by
  refine ⟨t, h0, h1, ?_⟩
  unfold onSeg onLine; apply Pt.ext' <;> simp

theorem cut_mem {p q : Pt K} : ∀ (ts : List K) (s : K), (s :: (ts ++ [1])).Pairwise (· < ·) → ∀ c ∈ cut p q s ts,
    ∃ u v, s ≤ u ∧ u < v ∧ v ≤ 1 ∧ c = (onLine p q u, onLine p q v) := by
  intro ts
  induction ts with
  | nil =>
    intro s h c hc
    simp only [cut, List.mem_singleton] at hc
    simp at h
    exact ⟨s, 1, le_refl _, h, le_refl _, hc⟩
  | cons t ts ih =>
    intro s h c hc
    rw [List.cons_append, List.pairwise_cons] at h
    have hst : s < t := h.1 t (by simp)
    have ht1 : t < 1 := (List.pairwise_cons.1 h.2).1 1 (by simp)
    rcases List.mem_cons.1 hc with rfl | hc
    · exact ⟨s, t, le_refl _, hst, ht1.le, rfl⟩
    · obtain ⟨u, v, h1, h2, h3, h4⟩ := ih t h.2 c hc
      exact ⟨u, v, hst.le.trans h1, h2, h3, h4⟩

theorem cut_apart {p q : Pt K} (hpq : p ≠ q) : ∀ (ts : List K) (s : K), (s :: (ts ++ [1])).Pairwise (· < ·) →
    (cut p q s ts).Pairwise SegApart := by
  intro ts
  induction ts with
  | nil => intro s _; simp [cut]
  | cons t ts ih =>
    intro s h
    rw [List.cons_append, List.pairwise_cons] at h
    have hst : s < t := h.1 t (by simp)
    rw [cut, List.pairwise_cons]
    refine ⟨fun c hc x h1 h2 => ?_, ih t h.2⟩
    obtain ⟨u, v, c1, c2, c3, rfl⟩ := cut_mem ts t h.2 c hc
    obtain ⟨a, a1, a2, rfl⟩ := onPiece hst.le h1
    obtain ⟨b, b1, b2, hb⟩ := onPiece c2.le h2
    have := onLine_inj hpq hb
    subst this
    have e1 : a = t := le_antisymm a2 (c1.trans b1)
    have e2 : a = u := le_antisymm (e1.le.trans c1) b1
    exact ⟨Or.inr (by rw [e1]), Or.inl (by rw [e2])⟩

theorem side_onLine (a b p : Pt K) (u v : K) : side (onLine a b u) (onLine a b v) p = (v - u) * side a b p := by
  unfold side onLine; simp; ring

/-- Crossings add up along a segment. -/
theorem crossing_add (p a b : Pt K) {u v w : K} (huv : u < v) (hvw : v < w) :
    crossing p (onLine a b u) (onLine a b v) + crossing p (onLine a b v) (onLine a b w) = crossing p (onLine a b u) (onLine a b w) := by
  have s1 := side_onLine a b p u v
  have s2 := side_onLine a b p v w
  have s3 := side_onLine a b p u w
  have r1 := side_onLine a b p v u
  have r2 := side_onLine a b p w v
  have r3 := side_onLine a b p w u
  have pos : ∀ {k : K}, 0 < k → (0 < k * side a b p ↔ 0 < side a b p) := fun hk => mul_pos_iff_of_pos_left hk
  have neg : ∀ {k : K}, k < 0 → (0 < k * side a b p ↔ side a b p < 0) := fun {k} hk => by
    constructor
    · intro h; exact neg_of_mul_pos_right h hk.le
    · intro h; exact mul_pos_of_neg_of_neg hk h
  have q1 := pos (sub_pos.2 huv)
  have q2 := pos (sub_pos.2 hvw)
  have q3 := pos (sub_pos.2 (huv.trans hvw))
  have n1 := neg (sub_neg.2 huv)
  have n2 := neg (sub_neg.2 hvw)
  have n3 := neg (sub_neg.2 (huv.trans hvw))
  unfold crossing
  simp only [UpCross, s1, s2, s3, r1, r2, r3, q1, q2, q3, n1, n2, n3]
  have y1 : (onLine a b u).y = a.y + u * (b.y - a.y) := rfl
  have y2 : (onLine a b v).y = a.y + v * (b.y - a.y) := rfl
  have y3 : (onLine a b w).y = a.y + w * (b.y - a.y) := rfl
  rw [y1, y2, y3]
  simp only [← not_le (b := p.y)]
  rcases le_total a.y b.y with hy | hy
  · have m1 : a.y + u * (b.y - a.y) ≤ a.y + v * (b.y - a.y) := by nlinarith
    have m2 : a.y + v * (b.y - a.y) ≤ a.y + w * (b.y - a.y) := by nlinarith
    by_cases k1 : a.y + u * (b.y - a.y) ≤ p.y <;> by_cases k2 : a.y + v * (b.y - a.y) ≤ p.y <;> by_cases k3 : a.y + w * (b.y - a.y) ≤ p.y <;>
      simp only [k1, k2, k3, true_and, false_and, not_true_eq_false, not_false_eq_true, if_false, sub_self, add_zero, zero_add, sub_zero]
    all_goals (exfalso; linarith)
  · have m1 : a.y + v * (b.y - a.y) ≤ a.y + u * (b.y - a.y) := by nlinarith
    have m2 : a.y + w * (b.y - a.y) ≤ a.y + v * (b.y - a.y) := by nlinarith
    by_cases k1 : a.y + u * (b.y - a.y) ≤ p.y <;> by_cases k2 : a.y + v * (b.y - a.y) ≤ p.y <;> by_cases k3 : a.y + w * (b.y - a.y) ≤ p.y <;>
      simp only [k1, k2, k3, true_and, false_and, not_true_eq_false, not_false_eq_true, if_false, sub_self, add_zero, zero_add, sub_zero]
    all_goals (exfalso; linarith)

theorem wind_append (l m : List (Pt K × Pt K)) (p : Pt K) : wind (l ++ m) p = wind l p + wind m p := by
  unfold wind; simp

theorem cut_wind (a b p : Pt K) : ∀ (ts : List K) (s : K), (s :: (ts ++ [1])).Pairwise (· < ·) →
    wind (cut a b s ts) p = crossing p (onLine a b s) (onLine a b 1) := by
  intro ts
  induction ts with
  | nil => intro s _; simp [cut, wind]
  | cons t ts ih =>
    intro s h
    rw [List.cons_append, List.pairwise_cons] at h
    have hst : s < t := h.1 t (by simp)
    have ht1 : t < 1 := (List.pairwise_cons.1 h.2).1 1 (by simp)
    rw [cut, ← crossing_add p a b hst ht1, ← ih t h.2]
    simp [wind]

theorem segWinding_wind (ss : List (Pt K × Pt K)) (p : Pt K) : segWinding ss p = wind ss p := by
  induction ss with
  | nil => rfl
  | cons s ss ih =>
    unfold segWinding wind at ih ⊢
    rw [List.countP_cons, List.countP_cons, List.map_cons, List.sum_cons, ← ih]
    unfold crossing
    push_cast
    by_cases h1 : UpCross p s.1 s.2 <;> by_cases h2 : UpCross p s.2 s.1 <;> simp [h1, h2] <;> ring

/-- A cut segment has the crossings of the segment. -/
theorem isCut_wind {s : Pt K × Pt K} {l : List (Pt K × Pt K)} (h : IsCut s l) (p : Pt K) : wind l p = crossing p s.1 s.2 := by
  obtain ⟨ts, h1, rfl⟩ := h
  rw [cut_wind _ _ _ _ _ h1, onLine_zero, onLine_one]

theorem isCut_apart {s : Pt K × Pt K} (hs : s.1 ≠ s.2) {l : List (Pt K × Pt K)} (h : IsCut s l) : l.Pairwise SegApart := by
  obtain ⟨ts, h1, rfl⟩ := h
  exact cut_apart hs _ _ h1

theorem isCut_proper {s : Pt K × Pt K} (hs : s.1 ≠ s.2) {l : List (Pt K × Pt K)} (h : IsCut s l) : ∀ c ∈ l, c.1 ≠ c.2 := by
  obtain ⟨ts, h1, rfl⟩ := h
  intro c hc
  obtain ⟨u, v, _, c2, _, rfl⟩ := cut_mem _ _ h1 c hc
  intro he
  exact c2.ne (onLine_inj hs he)

/-- Points of pieces are points of the segment, and the end points of the segment are end points of pieces. -/
theorem isCut_on {s : Pt K × Pt K} (hs : s.1 ≠ s.2) {l : List (Pt K × Pt K)} (h : IsCut s l) {c : Pt K × Pt K} (hc : c ∈ l) {x : Pt K}
    (hx : OnClosed c.1 c.2 x) : OnClosed s.1 s.2 x ∧ ((x = s.1 ∨ x = s.2) → (x = c.1 ∨ x = c.2)) := by
  obtain ⟨ts, h1, rfl⟩ := h
  obtain ⟨u, v, c1, c2, c3, rfl⟩ := cut_mem _ _ h1 c hc
  obtain ⟨t, t1, t2, rfl⟩ := onPiece c2.le hx
  refine ⟨onClosed_onLine (c1.trans t1) (t2.trans c3), ?_⟩
  rintro (h | h)
  · have : t = 0 := onLine_inj hs (h.trans (onLine_zero _ _).symm)
    left; rw [show u = t from le_antisymm t1 (by rw [this]; exact c1)]
  · have : t = 1 := onLine_inj hs (h.trans (onLine_one _ _).symm)
    right; rw [show v = t from le_antisymm (by rw [this]; exact c3) t2]

theorem segApart_cuts {s t : Pt K × Pt K} (hs : s.1 ≠ s.2) (ht : t.1 ≠ t.2) (h : SegApart s t) {l m : List (Pt K × Pt K)} (hl : IsCut s l) (hm : IsCut t m) :
    ∀ c ∈ l, ∀ d ∈ m, SegApart c d := by
  intro c hc d hd x h1 h2
  obtain ⟨a1, a2⟩ := isCut_on hs hl hc h1
  obtain ⟨b1, b2⟩ := isCut_on ht hm hd h2
  obtain ⟨e1, e2⟩ := h x a1 b1
  exact ⟨a2 e1, b2 e2⟩

/-- Cutting the segments keeps their windings. -/
theorem cuts_wind {ss : List (Pt K × Pt K)} {ls : List (List (Pt K × Pt K))} (h : List.Forall₂ IsCut ss ls) (p : Pt K) :
    wind ls.flatten p = wind ss p := by
  induction h with
  | nil => rfl
  | @cons s l ss ls h1 h2 ih =>
    rw [List.flatten_cons, wind_append, ih, isCut_wind h1]
    simp [wind]

/-- Cutting the segments keeps them simple. -/
theorem cuts_simple {ss : List (Pt K × Pt K)} {ls : List (List (Pt K × Pt K))} (h : List.Forall₂ IsCut ss ls) (hs : SimpleOutline ss) :
    SimpleOutline ls.flatten := by
  refine ⟨?_, ?_, fun p => ?_⟩
  · have := hs.proper
    clear hs
    induction h with
    | nil => simp
    | @cons s l ss ls h1 h2 ih =>
      intro c hc
      rw [List.flatten_cons, List.mem_append] at hc
      rcases hc with hc | hc
      · exact isCut_proper (this s (by simp)) h1 c hc
      · exact ih (fun x hx => this x (by simp [hx])) c hc
  · have hp := hs.proper
    have ha := hs.apart
    clear hs
    induction h with
    | nil => simp
    | @cons s l ss ls h1 h2 ih =>
      rw [List.pairwise_cons] at ha
      rw [List.flatten_cons, List.pairwise_append]
      refine ⟨isCut_apart (hp s (by simp)) h1, ih (fun x hx => hp x (by simp [hx])) ha.2, ?_⟩
      intro c hc d hd
      obtain ⟨m, hm, hd⟩ := List.mem_flatten.1 hd
      obtain ⟨t, ht, hc'⟩ := TQ.forall₂_mem h2.flip m hm
      exact segApart_cuts (hp s (by simp)) (hp t (by simp [ht])) (ha.1 t ht) h1 hc' c hc d hd
  · have := hs.once p
    rw [segWinding_wind] at this ⊢
    rw [cuts_wind h]; exact this

/-- The segments of edges of the front. -/
def segsOf (st : List (Fr.MVert K)) (es : List Fr.FEdge) : List (Pt K × Pt K) := es.map fun e => (Fr.vpos st e.v1, Fr.vpos st e.v2)

open Fr

theorem segsOf_append (st : List (MVert K)) (es fs : List FEdge) : segsOf st (es ++ fs) = segsOf st es ++ segsOf st fs := by
  unfold segsOf; simp

theorem segsOf_ext {st ext : List (MVert K)} {es : List FEdge} (h : InRange st.length es) : segsOf (st ++ ext) es = segsOf st es := by
  unfold segsOf
  apply List.map_congr_left
  intro e he
  rw [vpos_append (h e he).1, vpos_append (h e he).2]

theorem isCut_self (s : Pt K × Pt K) : IsCut s [s] := ⟨[], by simp, by simp [cut, onLine_zero, onLine_one]⟩

theorem cut_zip (a b : Pt K) : ∀ (ts : List K) (s : K),
    cut a b s ts = List.zip (onLine a b s :: ts.map (onLine a b)) (ts.map (onLine a b) ++ [onLine a b 1]) := by
  intro ts
  induction ts with
  | nil => intro s; simp [cut]
  | cons t ts ih => intro s; rw [cut, ih]; simp

/-- The interior points of a partition. -/
theorem partition_inner {p q : Pt K} {xs : List (Pt K)} (h : Partition p q xs) (h3 : 3 ≤ xs.length) :
    ∃ ts : List K, (0 :: (ts ++ [1])).Pairwise (· < ·) ∧ (xs.drop 1).dropLast = ts.map (onLine p q) := by
  obtain ⟨us, rfl, h1, h2, h4⟩ := h
  cases us with
  | nil => simp at h2
  | cons u us =>
    simp at h2; subst h2
    rcases List.eq_nil_or_concat us with rfl | ⟨ts, z, rfl⟩
    · simp at h3
    · rw [List.concat_eq_append] at h1 h4 ⊢
      rw [← List.cons_append, List.getLast?_concat] at h4
      simp at h4; subst h4
      exact ⟨ts, h1, by simp⟩

theorem refineEdges_cuts (sub : FEdge → Option (List (Pt K))) (st0 : List (MVert K))
    (es : List FEdge) : ∀ (st st' : List (MVert K)) (l : List FEdge),
    (∃ x0, st = st0 ++ x0) → InRange st0.length es →
    (∀ e ∈ es, ∀ coords, sub e = some coords → Partition (vpos st0 e.v1) (vpos st0 e.v2) coords) →
    refineEdges sub st es = some (st', l) →
    ∃ ls, segsOf st' (free l) = ls.flatten ∧ List.Forall₂ IsCut (segsOf st0 (free es)) ls := by
  induction es with
  | nil => intro st st' l _ _ _ h; simp [refineEdges] at h; rw [h.2]; exact ⟨[], rfl, List.Forall₂.nil⟩
  | cons e es ih =>
    intro st st' l hx hir hon h
    have he := hir e (by simp)
    have hes : InRange st0.length es := fun f hf => hir f (List.mem_cons_of_mem _ hf)
    have hon' : ∀ f ∈ es, ∀ coords, sub f = some coords → Partition (vpos st0 f.v1) (vpos st0 f.v2) coords := fun f hf => hon f (List.mem_cons_of_mem _ hf)
    obtain ⟨x0, hx0⟩ := hx
    have hst : st0.length ≤ st.length := by rw [hx0]; simp
    have hvp : ∀ i, i < st0.length → vpos st i = vpos st0 i := fun i hi => by rw [hx0, vpos_append hi]
    have hirst : InRange st.length es := fun f hf => by have := hes f hf; omega
    have one : ∀ ext, ∃ ls, segsOf (st ++ ext) (free [e]) = ls.flatten ∧ List.Forall₂ IsCut (segsOf st0 (free [e])) ls := by
      intro ext
      have : segsOf (st ++ ext) (free [e]) = segsOf st0 (free [e]) := by
        rw [hx0, List.append_assoc]
        apply segsOf_ext
        intro f hf
        have : f ∈ [e] := (List.mem_filter.mp hf).1
        simp at this; subst this; exact he
      rw [this, free_of_all (b := e.isFixed) (es := [e]) (by simp)]
      cases e.isFixed
      · exact ⟨[segsOf st0 [e]], by simp, List.Forall₂.cons (isCut_self _) List.Forall₂.nil⟩
      · exact ⟨[], rfl, List.Forall₂.nil⟩
    have join : ∀ {s : List (MVert K)} {a b c d : List FEdge}, (∃ ls, segsOf s (free a) = ls.flatten ∧ List.Forall₂ IsCut (segsOf st0 (free b)) ls) →
        (∃ ls, segsOf s (free c) = ls.flatten ∧ List.Forall₂ IsCut (segsOf st0 (free d)) ls) →
        ∃ ls, segsOf s (free (a ++ c)) = ls.flatten ∧ List.Forall₂ IsCut (segsOf st0 (free (b ++ d))) ls := by
      rintro s a b c d ⟨l1, a1, b1⟩ ⟨l2, a2, b2⟩
      refine ⟨l1 ++ l2, ?_, ?_⟩
      · rw [free_append, segsOf_append, a1, a2, List.flatten_append]
      · rw [free_append, segsOf_append]; exact List.rel_append b1 b2
    rw [refineEdges] at h
    split_ifs at h with ht
    · cases hr : refineEdges sub st es with
      | none => rw [hr] at h; simp at h
      | some q =>
        rw [hr] at h
        simp only [Option.some.injEq, Prod.mk.injEq] at h
        obtain ⟨rfl, rfl⟩ := h
        obtain ⟨⟨ext, h1⟩, _⟩ := refineEdges_range sub es _ _ _ hr hirst
        exact join (a := [e]) (b := [e]) (by rw [h1]; exact one ext) (ih _ _ _ ⟨x0, hx0⟩ hes hon' hr)
    · cases hs : sub e with
      | none => rw [hs] at h; simp at h
      | some coords =>
        rw [hs] at h
        dsimp only at h
        cases hr : refineEdges sub (refineEdge coords st e).1 es with
        | none => rw [hr] at h; simp at h
        | some q =>
          rw [hr] at h
          simp only [Option.some.injEq, Prod.mk.injEq] at h
          obtain ⟨rfl, rfl⟩ := h
          have hpart := hon e (by simp) coords hs
          have hre : (∃ ext, (refineEdge coords st e).1 = st ++ ext) ∧
              InRange (refineEdge coords st e).1.length (refineEdge coords st e).2 ∧
              ∃ ls, segsOf (refineEdge coords st e).1 (free (refineEdge coords st e).2) = ls.flatten ∧
                List.Forall₂ IsCut (segsOf st0 (free [e])) ls := by
            unfold refineEdge
            split_ifs with hlen
            · refine ⟨⟨[], by simp⟩, by
                intro f hf; simp at hf; subst hf; exact ⟨by dsimp only; omega, by dsimp only; omega⟩, ?_⟩
              have := one []
              rwa [List.append_nil] at this
            · obtain ⟨⟨ext, h1, _⟩, h2⟩ := subEdges_range e (coords.drop 1).dropLast st e.v1
                (by omega) (by omega)
              refine ⟨⟨ext, h1⟩, h2, ?_⟩
              rw [free_of_all fun f hf => (subEdges_fixed e _ _ _ f hf).1,
                free_of_all (b := e.isFixed) (es := [e]) (by simp)]
              cases e.isFixed
              · simp only [Bool.false_eq_true, if_false]
                obtain ⟨ts, t1, t2⟩ := partition_inner hpart (by omega)
                obtain ⟨i1, i2⟩ := subEdges_points e (coords.drop 1).dropLast st e.v1 (by omega) (by omega)
                refine ⟨[segsOf (subEdges e st e.v1 (coords.drop 1).dropLast).1 (subEdges e st e.v1 (coords.drop 1).dropLast).2], by simp, List.Forall₂.cons ⟨ts, t1, ?_⟩ List.Forall₂.nil⟩
                dsimp only
                rw [cut_zip, onLine_zero, onLine_one, ← t2, ← hvp _ he.1, ← hvp _ he.2, ← i1, ← i2, List.zip_map']
                rfl
              · exact ⟨[], rfl, List.Forall₂.nil⟩
          obtain ⟨⟨ext1, h1⟩, h2, h5⟩ := hre
          have hir2 : InRange (refineEdge coords st e).1.length es := by
            intro f hf; have := hirst f hf; rw [h1]; simp; omega
          obtain ⟨⟨ext2, h3⟩, _⟩ := refineEdges_range sub es _ _ _ hr hir2
          refine join (b := [e]) ?_ (ih _ _ _ ⟨x0 ++ ext1, by rw [h1, hx0]; simp⟩ hes hon' hr)
          have : segsOf q.1 (free (refineEdge coords st e).2) = segsOf (refineEdge coords st e).1 (free (refineEdge coords st e).2) := by
            rw [h3]
            apply segsOf_ext
            intro f hf
            exact h2 f (List.mem_filter.mp hf).1
          rw [this]; exact h5

theorem segsOf_calls {st : List (MVert K)} {F : FID K} {es : List FEdge}
    {cs : List (SrcEdge K × Bool)}
    (h : List.Forall₂ (fun (e : FEdge) (c : SrcEdge K × Bool) =>
        ∃ i j, e.v1 = st.length + i ∧ e.v2 = st.length + j ∧
          FID.coord F i = some (callPts c).1 ∧ FID.coord F j = some (callPts c).2) es cs) :
    segsOf (initVerts st F) es = cs.map callPts := by
  induction h with
  | nil => rfl
  | @cons e c es cs hh ht ih =>
    obtain ⟨i, j, e1, e2, hi, hj⟩ := hh
    unfold segsOf at ih ⊢
    rw [List.map_cons, List.map_cons, ih, e1, e2, vpos_init st F hi, vpos_init st F hj]

open GN

/-- The free calls are the outline. -/
theorem calls_outline {nbr : Fr.SrcEdge K → List (Fr.SrcEdge K)} {bd : List (List (Fr.SrcEdge K))} {fx : List (Fr.SrcEdge K)}
    (D : DomainData nbr bd fx) : ((collectCalls nbr bd fx).filter fun c => !c.1.fixed).map callPts = outline nbr bd := by
  have hf1 := D.free
  have hf2 := D.fixed
  unfold collectCalls
  rw [List.filter_append]
  have h1 : (fx.map fun e => (e, false)).filter (fun c : SrcEdge K × Bool => !c.1.fixed) = [] := by
    rw [List.filter_eq_nil_iff]
    intro c hc
    obtain ⟨e, he, rfl⟩ := List.mem_map.mp hc
    simp [hf2 e he]
  rw [h1, List.append_nil, List.filter_eq_self.mpr]
  · unfold outline
    rw [List.map_flatMap]
    congr 1
    funext b
    rw [List.map_flatMap]
    congr 1
    funext e
    cases hnb : nbr e with
    | nil => simp [callPts]
    | cons n ns => simp [callPts]
  · intro c hc
    obtain ⟨b, hb, hc⟩ := List.mem_flatMap.mp hc
    obtain ⟨e, he, hc⟩ := List.mem_flatMap.mp hc
    split_ifs at hc
    · obtain ⟨n, hn, rfl⟩ := List.mem_map.mp hc
      simp [(hf1 b hb e he).2 n hn]
    · simp only [List.mem_singleton] at hc
      subst hc
      simp [(hf1 b hb e he).1]

/-- The free edges of the initial front are the outline cut into pieces. -/
theorem front_cuts {nbr : Fr.SrcEdge K → List (Fr.SrcEdge K)} {bd : List (List (Fr.SrcEdge K))} {fx : List (Fr.SrcEdge K)}
    (D : DomainData nbr bd fx) {sub : List (Fr.MVert K) → Fr.FEdge → Option (List (Pt K))} (hS : PartSub sub) {st' : List (Fr.MVert K)} {es : List Fr.FEdge} {A : K}
    (h : Fr.initFront sub [] (Fr.collect nbr bd fx) = some (st', es, A)) :
    ∃ ls, segsOf st' (free es) = ls.flatten ∧ List.Forall₂ IsCut (outline nbr bd) ls := by
  have hg := good_collect nbr bd fx
  obtain ⟨es0, h0, hfa⟩ := initEdges_calls hg 0
  unfold initFront at h
  rw [show ([] : List (Fr.MVert K)).length = 0 from rfl, h0] at h
  dsimp only at h
  cases hr : refineEdges (sub (initVerts [] (collect nbr bd fx)))
      (initVerts [] (collect nbr bd fx)) es0 with
  | none => rw [hr] at h; simp at h
  | some q =>
    rw [hr] at h
    simp only [Option.some.injEq, Prod.mk.injEq] at h
    obtain ⟨rfl, rfl, rfl⟩ := h
    have hir : InRange (initVerts [] (collect nbr bd fx)).length es0 := by
      intro e he
      obtain ⟨c, hc, i, j, rfl, hi, hj⟩ := forall₂_mem hfa e he
      have := coord_some_lt hi
      have := coord_some_lt hj
      unfold initVerts
      simp; omega
    obtain ⟨ls, l1, l2⟩ := refineEdges_cuts _ (initVerts [] (collect nbr bd fx)) es0 _ _ _ ⟨[], by simp⟩ hir (by
      intro e he coords hco
      obtain ⟨c, hc, i, j, rfl, hi, hj⟩ := forall₂_mem hfa e he
      refine hS _ _ _ ?_ hco
      dsimp only
      have v1 := vpos_init [] _ hi
      have v2 := vpos_init [] _ hj
      simp only [List.length_nil] at v1 v2
      rw [v1, v2]
      have := D.ne c hc
      unfold callPts
      split_ifs
      · exact this.symm
      · exact this) hr
    refine ⟨ls, ?_, ?_⟩
    · rw [free_ghosts]; exact l1
    · rw [segsOf_calls (st := []) (free_forall₂ hfa), calls_outline D] at l2; exact l2

/-- The boundary edges of a prepared mesh are the outline cut into pieces. -/
theorem prepared_cuts {nbr : Fr.SrcEdge K → List (Fr.SrcEdge K)} {bd : List (List (Fr.SrcEdge K))} {fx : List (Fr.SrcEdge K)}
    (D : DomainData nbr bd fx) {P : Prep K} (hP : P.front = Fr.collect nbr bd fx) (hS : PartSub P.sub) {w w' : MM.World K} {a : Nat} (hw : MeshSpec.WF (w a))
    (hr : ∀ x ∈ P.refs, x.1 ≠ a) (h : prepareMesh P w a = .ret true w') :
    ∃ ls, segs (w' a).pos (pairs (w' a) .bdry) = ls.flatten ∧ List.Forall₂ IsCut (outline nbr bd) ls := by
  obtain ⟨vs, es, A, hf, -, h2⟩ := C115_vertices D hP hw hr h
  rw [hP] at hf
  obtain ⟨ls, l1, l2⟩ := front_cuts D hS hf
  refine ⟨ls, ?_, l2⟩
  rw [← l1]
  have := congrArg (List.map fun x : Pt K × Pt K × Int => (x.1, x.2.1)) h2
  rw [List.map_map, List.map_map] at this
  unfold segs pairs segsOf free
  rw [List.map_map]
  exact this

end TQ.Outl

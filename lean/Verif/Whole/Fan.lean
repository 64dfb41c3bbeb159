import Verif.Whole.Geom

/-! # Lemmas: elements all around a vertex leave no room for others -/

set_option linter.unusedSectionVars false
set_option linter.unusedSimpArgs false

namespace TQ.Whole
open TQ TQ.MS TQ.MeshSpec TQ.FUSpec TQ.MCSpec TQ.WholeSpec TQ.FU TQ.Sm
variable {K : Type*} [Field K] [LinearOrder K] [IsStrictOrderedRing K]

/-- The element `f` has a piece with the corners `v`, `a`, `b` in this cyclic order. -/
def Wedge (s : St K) (f : FRef) (v a b : Nat) : Prop :=
  (f, v, a, b) ∈ pieces s ∨ (f, a, b, v) ∈ pieces s ∨ (f, b, v, a) ∈ pieces s

theorem side_cyc (a b c : Pt K) : side b c a = side a b c := by unfold side; ring

theorem side_flip (a b c : Pt K) : side b a c = - side a b c := by unfold side; ring

theorem wedge_pos {s : St K} (hc : ∀ x ∈ pieces s, 0 < side (s.pos x.2.1) (s.pos x.2.2.1) (s.pos x.2.2.2)) {f : FRef} {v a b : Nat}
    (h : Wedge s f v a b) : 0 < side (s.pos v) (s.pos a) (s.pos b) := by
  rcases h with h | h | h
  · exact hc _ h
  · have := hc _ h; rwa [side_cyc] at this
  · have := hc _ h; rwa [side_cyc, side_cyc] at this

/-- A point in a wedge is in a piece of the element. -/
theorem wedge_in {s : St K} {f : FRef} {v a b : Nat} (h : Wedge s f v a b) {p : Pt K} (h1 : 0 < side (s.pos v) (s.pos a) p)
    (h2 : 0 < side (s.pos a) (s.pos b) p) (h3 : 0 < side (s.pos b) (s.pos v) p) : ∃ x ∈ pieces s, x.1 = f ∧ InPiece s p x := by
  rcases h with h | h | h
  · exact ⟨_, h, rfl, h1, h2, h3⟩
  · exact ⟨_, h, rfl, h2, h3, h1⟩
  · exact ⟨_, h, rfl, h3, h1, h2⟩

/-- The points `v + e (a - v) + e² (b - v)`. -/
def bend (v a b : Pt K) (e : K) : Pt K := ⟨v.x + e * (a.x - v.x) + e * e * (b.x - v.x), v.y + e * (a.y - v.y) + e * e * (b.y - v.y)⟩

theorem side_bend (p q v a b : Pt K) (e : K) : side p q (bend v a b e) = side p q v + e * (side p q a - side p q v) + e * e * (side p q b - side p q v) := by
  unfold side bend; ring

theorem bend_in {v a b : Pt K} (h : 0 < side v a b) :
    Small fun e => 0 < side v a (bend v a b e) ∧ 0 < side a b (bend v a b e) ∧ 0 < side b v (bend v a b e) := by
  have h2 : Small fun e => 0 < side a b (bend v a b e) := by
    refine (small_pos (s := side a b v) (by rw [side_cyc]; exact h) (side a b a - side a b v) (side a b b - side a b v)).mono ?_
    intro e _ he; rw [side_bend]; exact he
  refine h2.mono fun e he k => ⟨?_, k, ?_⟩
  · rw [side_bend]
    have e1 : side v a v = 0 := by unfold side; ring
    have e2 : side v a a = 0 := by unfold side; ring
    rw [e1, e2]; have := mul_pos (mul_pos he he) h; linarith
  · rw [side_bend]
    have e1 : side b v v = 0 := by unfold side; ring
    have e2 : side b v b = 0 := by unfold side; ring
    have e3 : side b v a = side v a b := by unfold side; ring
    rw [e1, e2, e3]; have := mul_pos he h; linarith

/-- Points in the bend are on no line through `v`. -/
theorem bend_off {v a b z : Pt K} (h : 0 < side v a b) (hz : v ≠ z) : Small fun e => side v z (bend v a b e) ≠ 0 := by
  rcases small_sign (side v z v) (side v z a - side v z v) (side v z b - side v z v) with k | k | ⟨k0, k1, k2⟩
  · exact k.mono fun e _ k => by rw [side_bend]; exact ne_of_gt k
  · exact k.mono fun e _ k => by rw [side_bend]; exact ne_of_lt k
  · exfalso
    have ha : side v z a = 0 := by linarith
    have hb : side v z b = 0 := by linarith
    have e1 : (z.x - v.x) * side v a b = (a.x - v.x) * side v z b - (b.x - v.x) * side v z a := by unfold side; ring
    have e2 : (z.y - v.y) * side v a b = (a.y - v.y) * side v z b - (b.y - v.y) * side v z a := by unfold side; ring
    rw [ha, hb] at e1 e2
    have hx : z.x - v.x = 0 := by
      rcases mul_eq_zero.mp (e1.trans (by ring)) with k | k
      · exact k
      · exact absurd k (ne_of_gt h)
    have hy : z.y - v.y = 0 := by
      rcases mul_eq_zero.mp (e2.trans (by ring)) with k | k
      · exact k
      · exact absurd k (ne_of_gt h)
    exact hz (Pt.ext' (by linarith) (by linarith))

/-- Three directions around `v`: no point has all of them on one side. -/
theorem around3 {v a b c p : Pt K} (h1 : 0 < side v a b) (h2 : 0 < side v b c) (h3 : 0 < side v c a) :
    side v b c * side v a p + side v c a * side v b p + side v a b * side v c p = 0 := by
  unfold side; ring

/-- The directions around `v` in cyclic order. -/
def Turning (v : Pt K) : List (Pt K) → Prop
  | [a, b, c] => 0 < side v a b ∧ 0 < side v b c ∧ 0 < side v c a
  | [a, b, c, d] => 0 < side v a b ∧ 0 < side v b c ∧ 0 < side v c d ∧ 0 < side v d a
  | _ => False

theorem turning_not_pos {v p : Pt K} {l : List (Pt K)} (h : Turning v l) : ¬ ∀ z ∈ l, 0 < side v z p := by
  intro hp
  have three : ∀ a b c, 0 < side v a b → 0 < side v b c → 0 < side v c a → 0 < side v a p → 0 < side v b p → 0 < side v c p → False := by
    intro a b c h1 h2 h3 k1 k2 k3
    have := around3 (p := p) h1 h2 h3
    have := mul_pos h2 k1
    have := mul_pos h3 k2
    have := mul_pos h1 k3
    linarith
  match l, h with
  | [a, b, c], ⟨h1, h2, h3⟩ => exact three a b c h1 h2 h3 (hp _ (by simp)) (hp _ (by simp)) (hp _ (by simp))
  | [a, b, c, d], ⟨h1, h2, h3, h4⟩ =>
    have ka := hp a (by simp)
    have kb := hp b (by simp)
    have kc := hp c (by simp)
    have kd := hp d (by simp)
    have hca : side v c a = - side v a c := by unfold side; ring
    rcases lt_trichotomy (side v a c) 0 with k | k | k
    · exact three a b c h1 h2 (by linarith) ka kb kc
    · have e : side v b c * side v a p + side v c a * side v b p + side v a b * side v c p = 0 := by unfold side; ring
      rw [hca, k] at e
      have := mul_pos h2 ka
      have := mul_pos h1 kc
      linarith
    · exact three c d a h3 h4 k kc kd ka

theorem turning_not_neg {v p : Pt K} {l : List (Pt K)} (h : Turning v l) : ¬ ∀ z ∈ l, side v z p < 0 := by
  intro hp
  apply turning_not_pos (p := ⟨2 * v.x - p.x, 2 * v.y - p.y⟩) h
  intro z hz
  have := hp z hz
  have e : side v z ⟨2 * v.x - p.x, 2 * v.y - p.y⟩ = - side v z p := by unfold side; ring
  rw [e]; linarith

/-- A point on no line through `v` and one of the directions is between two consecutive ones. -/
theorem turning_between {v p : Pt K} {l : List (Pt K)} (h : Turning v l) (hp : ∀ z ∈ l, side v z p ≠ 0) :
    ∃ x y, ((x, y) ∈ l.zip (l.tail ++ l.head?.toList)) ∧ 0 < side v x p ∧ side v y p < 0 := by
  have np := turning_not_pos (p := p) h
  have nn := turning_not_neg (p := p) h
  have sg : ∀ z ∈ l, 0 < side v z p ∨ side v z p < 0 := fun z hz => (lt_or_gt_of_ne (hp z hz)).symm
  match l, h with
  | [a, b, c], _ =>
    simp only [List.mem_cons, List.not_mem_nil, or_false, forall_eq_or_imp, forall_eq] at np nn sg
    obtain ⟨sa, sb, sc⟩ := sg
    by_contra hc
    push Not at hc
    have n1 := hc a b (by simp)
    have n2 := hc b c (by simp)
    have n3 := hc c a (by simp)
    rcases sa with sa | sa
    · have sb' := sb.resolve_right (not_lt.mpr (n1 sa))
      exact np ⟨sa, sb', sc.resolve_right (not_lt.mpr (n2 sb'))⟩
    · have sc' := sc.resolve_left fun k => absurd (n3 k) (not_le.mpr sa)
      exact nn ⟨sa, sb.resolve_left fun k => absurd (n2 k) (not_le.mpr sc'), sc'⟩
  | [a, b, c, d], _ =>
    simp only [List.mem_cons, List.not_mem_nil, or_false, forall_eq_or_imp, forall_eq] at np nn sg
    obtain ⟨sa, sb, sc, sd⟩ := sg
    by_contra hc
    push Not at hc
    have n1 := hc a b (by simp)
    have n2 := hc b c (by simp)
    have n3 := hc c d (by simp)
    have n4 := hc d a (by simp)
    rcases sa with sa | sa
    · have sb' := sb.resolve_right (not_lt.mpr (n1 sa))
      have sc' := sc.resolve_right (not_lt.mpr (n2 sb'))
      exact np ⟨sa, sb', sc', sd.resolve_right (not_lt.mpr (n3 sc'))⟩
    · have sd' := sd.resolve_left fun k => absurd (n4 k) (not_le.mpr sa)
      have sc' := sc.resolve_left fun k => absurd (n3 k) (not_le.mpr sd')
      exact nn ⟨sa, sb.resolve_left fun k => absurd (n2 k) (not_le.mpr sc'), sc', sd'⟩

/-- Elements all around the vertex `v`: each other element at `v` is one of them. -/
theorem fan_only {s : St K} (h : Meshing s) {v : Nat} {l : List Nat} (ht : Turning (s.pos v) (l.map s.pos)) {P : FRef → Prop}
    (hw : ∀ a b, (a, b) ∈ l.zip (l.tail ++ l.head?.toList) → ∃ f, P f ∧ Wedge s f v a b) {g : FRef} {a b : Nat}
    (hg : Wedge s g v a b) : P g := by
  have hS := wedge_pos h.ccw hg
  have hz : ∀ z ∈ l, s.pos v ≠ s.pos z := by
    intro z hz heq
    have bad : ∀ w, side (s.pos v) (s.pos z) w = 0 := by intro w; rw [← heq]; unfold side; ring
    match l, ht with
    | [a, b, c], ⟨h1, h2, h3⟩ =>
      simp only [List.mem_cons, List.not_mem_nil, or_false] at hz
      rcases hz with rfl | rfl | rfl
      · rw [bad] at h1; exact lt_irrefl _ h1
      · rw [bad] at h2; exact lt_irrefl _ h2
      · rw [bad] at h3; exact lt_irrefl _ h3
    | [a, b, c, d], ⟨h1, h2, h3, h4⟩ =>
      simp only [List.mem_cons, List.not_mem_nil, or_false] at hz
      rcases hz with rfl | rfl | rfl | rfl
      · rw [bad] at h1; exact lt_irrefl _ h1
      · rw [bad] at h2; exact lt_irrefl _ h2
      · rw [bad] at h3; exact lt_irrefl _ h3
      · rw [bad] at h4; exact lt_irrefl _ h4
  have s1 := bend_in hS
  have s2 : Small fun e => ∀ z ∈ l, side (s.pos v) (s.pos z) (bend (s.pos v) (s.pos a) (s.pos b) e) ≠ 0 :=
    Small.all _ fun z hz' => bend_off hS (hz z hz')
  have s3 : Small fun e => ∀ y ∈ l.zip (l.tail ++ l.head?.toList), 0 < side (s.pos y.1) (s.pos y.2) (bend (s.pos v) (s.pos a) (s.pos b) e) := by
    refine Small.all _ fun y hy => ?_
    obtain ⟨f, -, hf⟩ := hw y.1 y.2 hy
    have hp := wedge_pos h.ccw hf
    refine (small_pos (s := side (s.pos y.1) (s.pos y.2) (s.pos v)) (by rw [side_cyc]; exact hp)
      (side (s.pos y.1) (s.pos y.2) (s.pos a) - side (s.pos y.1) (s.pos y.2) (s.pos v))
      (side (s.pos y.1) (s.pos y.2) (s.pos b) - side (s.pos y.1) (s.pos y.2) (s.pos v))).mono ?_
    intro e _ he; rw [side_bend]; exact he
  obtain ⟨e, -, ⟨e1, e2, e3⟩, f1, f2⟩ := (s1.and (s2.and s3)).get
  generalize bend (s.pos v) (s.pos a) (s.pos b) e = p at *
  obtain ⟨x, hx, hxg, hxin⟩ := wedge_in hg e1 e2 e3
  obtain ⟨q1, q2, hq, k1, k2⟩ := turning_between (p := p) ht (by
    intro z hz'
    obtain ⟨z', hz'', rfl⟩ := List.mem_map.mp hz'
    exact f1 z' hz'')
  have hq' : ∃ i j, (i, j) ∈ l.zip (l.tail ++ l.head?.toList) ∧ s.pos i = q1 ∧ s.pos j = q2 := by
    have e : (l.map s.pos).zip ((l.map s.pos).tail ++ (l.map s.pos).head?.toList) =
        (l.zip (l.tail ++ l.head?.toList)).map fun y => (s.pos y.1, s.pos y.2) := by
      have : (l.map s.pos).tail ++ (l.map s.pos).head?.toList = (l.tail ++ l.head?.toList).map s.pos := by
        cases l <;> simp
      rw [this, List.zip_map]
      rfl
    rw [e, List.mem_map] at hq
    obtain ⟨y, hy, heq⟩ := hq
    simp only [Prod.mk.injEq] at heq
    exact ⟨y.1, y.2, hy, heq.1, heq.2⟩
  obtain ⟨i, j, hij, rfl, rfl⟩ := hq'
  obtain ⟨f, hP, hf⟩ := hw i j hij
  obtain ⟨y, hy, hyf, hyin⟩ := wedge_in (p := p) hf k1 (f2 (i, j) hij) (by rw [side_flip]; linarith)
  have := (meshing_in h hx hxin).1 y hy hyin
  rw [← hxg, ← this, hyf]
  exact hP

/-- An element has a piece at each of its corners. -/
theorem wedge_corner {s : St K} (w : WF s) {f : FRef} (hf : Live s f) {v : Nat} (hv : v ∈ (s.F f).corners) :
    ∃ a b, Wedge s f v a b := by
  have mem : ∀ x, x ∈ halves s.pos f (s.F f).corners → x ∈ pieces s := fun x hx =>
    List.mem_flatMap.mpr ⟨f, mem_facets.mpr hf, hx⟩
  rcases corners_cases w hf with ⟨a, b, c, hc⟩ | ⟨a, b, c, d, hc⟩
  · rw [hc] at mem hv
    simp only [halves, List.mem_singleton] at mem
    simp only [List.mem_cons, List.not_mem_nil, or_false] at hv
    have := mem _ rfl
    rcases hv with rfl | rfl | rfl
    · exact ⟨_, _, Or.inl this⟩
    · exact ⟨_, _, Or.inr (Or.inr this)⟩
    · exact ⟨_, _, Or.inr (Or.inl this)⟩
  · rw [hc] at mem hv
    simp only [halves] at mem
    simp only [List.mem_cons, List.not_mem_nil, or_false] at hv
    split_ifs at mem
    · have m1 := mem (f, a, b, c) (by simp)
      have m2 := mem (f, c, d, a) (by simp)
      rcases hv with rfl | rfl | rfl | rfl
      · exact ⟨_, _, Or.inl m1⟩
      · exact ⟨_, _, Or.inr (Or.inr m1)⟩
      · exact ⟨_, _, Or.inr (Or.inl m1)⟩
      · exact ⟨_, _, Or.inr (Or.inr m2)⟩
    · have m1 := mem (f, b, c, d) (by simp)
      have m2 := mem (f, d, a, b) (by simp)
      rcases hv with rfl | rfl | rfl | rfl
      · exact ⟨_, _, Or.inr (Or.inr m2)⟩
      · exact ⟨_, _, Or.inl m1⟩
      · exact ⟨_, _, Or.inr (Or.inr m1)⟩
      · exact ⟨_, _, Or.inr (Or.inl m1)⟩

end TQ.Whole

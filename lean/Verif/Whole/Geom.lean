import Verif.Whole.Spec
import Verif.FrontUpdate.SimpleProps

/-! # Lemmas: the pieces of a partly meshed domain do not overlap -/

set_option linter.unusedSectionVars false
set_option linter.unusedSimpArgs false

namespace TQ.Whole
open TQ.MS TQ.MeshSpec TQ.FUSpec TQ.MS.St TQ.GeoSpec TQ.FU TQ.Sm TQ.MCSpec TQ.WholeSpec
variable {K : Type*} [Field K] [LinearOrder K] [IsStrictOrderedRing K]

/-! ### Sums over chains -/

theorem chain_append (xs ys : List (Nat × Nat)) (a b : Nat) : chain (xs ++ ys) a b = chain xs a b + chain ys a b := by
  unfold chain; rw [List.count_append, List.count_append]; push_cast; ring

theorem chain_perm {xs ys : List (Nat × Nat)} (h : xs.Perm ys) (a b : Nat) : chain xs a b = chain ys a b := by
  unfold chain; rw [h.count_eq, h.count_eq]

theorem swap_inj : Function.Injective (fun e : Nat × Nat => (e.2, e.1)) := by
  rintro ⟨a, b⟩ ⟨c, d⟩ h
  simp only [Prod.mk.injEq] at h
  rw [h.1, h.2]

theorem chain_swap (xs : List (Nat × Nat)) (a b : Nat) : chain (xs.map fun e => (e.2, e.1)) a b = - chain xs a b := by
  unfold chain
  have h1 := List.count_map_of_injective xs (fun e : Nat × Nat => (e.2, e.1)) swap_inj (b, a)
  have h2 := List.count_map_of_injective xs (fun e : Nat × Nat => (e.2, e.1)) swap_inj (a, b)
  simp only at h1 h2
  rw [h1, h2]; ring

/-- A chain that cancels has sum 0. -/
theorem sum_of_cancel {w : Nat × Nat → Int} (anti : ∀ a b, w (a, b) = - w (b, a)) : ∀ (n : Nat) (l : List (Nat × Nat)),
    l.length ≤ n → (∀ a b, chain l a b = 0) → (l.map w).sum = 0 := by
  intro n
  induction n with
  | zero => intro l hl _; rw [List.length_eq_zero_iff.mp (Nat.le_zero.mp hl)]; rfl
  | succ n ih =>
    intro l hl hc
    match l with
    | [] => rfl
    | (a, b) :: l =>
      rw [List.map_cons, List.sum_cons]
      rw [List.length_cons] at hl
      have hcons : ∀ x y, chain ((a, b) :: l) x y = chain [(a, b)] x y + chain l x y := fun x y => chain_append [(a, b)] l x y
      by_cases hab : a = b
      · subst hab
        have h0 : w (a, a) = 0 := by have := anti a a; omega
        rw [h0, zero_add]
        refine ih l (by omega) fun x y => ?_
        have := hc x y
        rw [hcons] at this
        have h1 : chain [(a, a)] x y = 0 := by
          unfold chain
          simp only [List.count_cons, List.count_nil, beq_iff_eq, Prod.mk.injEq]
          have : (a = x ∧ a = y) ↔ (a = y ∧ a = x) := and_comm
          simp only [this]; ring
        omega
      · have h1 := hc a b
        rw [hcons] at h1
        have h2 : chain [(a, b)] a b = 1 := by
          unfold chain
          simp [List.count_cons, hab]
        have hm : (b, a) ∈ l := by
          by_contra hn
          have : l.count (b, a) = 0 := List.count_eq_zero.mpr hn
          unfold chain at h1 h2
          omega
        have hp := List.perm_cons_erase hm
        rw [(hp.map w).sum_eq, List.map_cons, List.sum_cons, anti a b]
        have := ih (l.erase (b, a)) (by rw [List.length_erase_of_mem hm]; omega) fun x y => ?_
        · rw [this]; ring
        · have h3 := hc x y
          rw [hcons, chain_perm hp, show (b, a) :: l.erase (b, a) = [(b, a)] ++ l.erase (b, a) from rfl, chain_append] at h3
          have h4 : chain [(b, a)] x y = - chain [(a, b)] x y := chain_swap [(a, b)] x y
          omega

/-- Sums of quantities that change sign with the direction depend on the chain only. -/
theorem sum_of_chain {w : Nat × Nat → Int} (anti : ∀ a b, w (a, b) = - w (b, a)) {xs ys zs : List (Nat × Nat)}
    (h : ∀ a b, chain xs a b + chain ys a b = chain zs a b) : (xs.map w).sum + (ys.map w).sum = (zs.map w).sum := by
  have h1 := sum_of_cancel anti _ (xs ++ (ys ++ zs.map fun e => (e.2, e.1))) le_rfl fun a b => by
    rw [chain_append, chain_append, chain_swap, ← h a b]; ring
  rw [List.map_append, List.map_append, List.sum_append, List.sum_append, List.map_map] at h1
  have h2 : (zs.map (w ∘ fun e => (e.2, e.1))).sum = - (zs.map w).sum := by
    clear h h1
    induction zs with
    | nil => rfl
    | cons e zs ih =>
      obtain ⟨a, b⟩ := e
      rw [List.map_cons, List.sum_cons, ih, List.map_cons, List.sum_cons]
      simp only [Function.comp]
      rw [anti b a]; ring
  omega

theorem winding_of_chain {pos : Nat → Pt K} {xs ys zs : List (Nat × Nat)}
    (h : ∀ a b, chain xs a b + chain ys a b = chain zs a b) (p : Pt K) :
    winding pos xs p + winding pos ys p = winding pos zs p := by
  rw [winding_eq, winding_eq, winding_eq]
  exact sum_of_chain (w := fun e => crossing p (pos e.1) (pos e.2)) (fun a b => crossing_anti p _ _) h

/-! ### Windings of the pieces -/

/-- The three sides of a piece. -/
def pieceSides (x : FRef × Nat × Nat × Nat) : List (Nat × Nat) := [(x.2.1, x.2.2.1), (x.2.2.1, x.2.2.2), (x.2.2.2, x.2.1)]

theorem halves_fst {y : Nat → Pt K} {f : FRef} {cs : List Nat} {x : FRef × Nat × Nat × Nat} (hx : x ∈ halves y f cs) : x.1 = f := by
  unfold halves at hx
  split at hx
  · simp only [List.mem_cons, List.not_mem_nil, or_false] at hx
    rw [hx]
  · split_ifs at hx <;> simp only [List.mem_cons, List.not_mem_nil, or_false] at hx <;>
      rcases hx with rfl | rfl <;> rfl
  · simp at hx

/-- The corners of the pieces are corners of the element. -/
theorem halves_mem {y : Nat → Pt K} {f : FRef} {cs : List Nat} {x : FRef × Nat × Nat × Nat} (hx : x ∈ halves y f cs) :
    x.2.1 ∈ cs ∧ x.2.2.1 ∈ cs ∧ x.2.2.2 ∈ cs := by
  unfold halves at hx
  split at hx
  · simp only [List.mem_cons, List.not_mem_nil, or_false] at hx
    rw [hx]; simp
  · split_ifs at hx <;> simp only [List.mem_cons, List.not_mem_nil, or_false] at hx <;>
      rcases hx with rfl | rfl <;> simp
  · simp at hx

/-- The pieces depend on the positions of the corners only. -/
theorem halves_congr {y z : Nat → Pt K} {f : FRef} {cs : List Nat} (h : ∀ v ∈ cs, y v = z v) : halves y f cs = halves z f cs := by
  unfold halves
  split
  · rfl
  · rw [h _ (by simp), h _ (by simp), h _ (by simp), h _ (by simp)]
  · rfl

theorem mem_pieces {s : St K} {x : FRef × Nat × Nat × Nat} :
    x ∈ pieces s ↔ Live s x.1 ∧ x ∈ halves s.pos x.1 (s.F x.1).corners := by
  unfold pieces
  rw [List.mem_flatMap]
  constructor
  · rintro ⟨f, hf, hx⟩
    have : x.1 = f := halves_fst hx
    subst this
    exact ⟨mem_facets.mp hf, hx⟩
  · rintro ⟨h1, h2⟩
    exact ⟨x.1, mem_facets.mpr h1, h2⟩

theorem pieces_nodup {s : St K} (h : WF s) : (pieces s).Nodup := by
  unfold pieces
  rw [List.nodup_flatMap]
  refine ⟨fun f hf => ?_, ?_⟩
  · have hn := (h.cor f (mem_facets.mp hf)).1
    unfold halves
    split
    · simp
    · rename_i a b c d hc
      rw [hc] at hn
      simp only [List.nodup_cons, List.mem_cons, List.not_mem_nil, or_false, not_or] at hn
      split_ifs
      · simp only [List.nodup_cons, List.mem_cons, List.not_mem_nil, or_false, Prod.mk.injEq, not_and, true_and,
          not_false_eq_true, List.nodup_nil, and_true]
        intro hac
        exact absurd hac hn.1.2.1
      · simp only [List.nodup_cons, List.mem_cons, List.not_mem_nil, or_false, Prod.mk.injEq, not_and, true_and,
          not_false_eq_true, List.nodup_nil, and_true]
        intro hac
        exact absurd hac hn.2.1.2
    · simp
  · refine List.Pairwise.imp_of_mem ?_ (List.nodup_iff_pairwise_ne.mp (facets_nodup h))
    intro f g _ _ hne x hx hy
    exact hne ((halves_fst hx).symm.trans (halves_fst hy))

/-- A side of an element is a side of one of its pieces. -/
theorem side_piece {s : St K} (h : WF s) {f : FRef} (hf : Live s f) {a b : Nat} (hs : HasSide s f a b) :
    ∃ x ∈ pieces s, x.1 = f ∧ (a, b) ∈ pieceSides x := by
  have hs' := mem_sidesOf.mpr (show HasSide s f ((a, b) : Nat × Nat).1 (a, b).2 from hs)
  rcases corners_cases h hf with ⟨x, y, z, hc⟩ | ⟨x, y, z, w, hc⟩
  · rw [hc, sides3] at hs'
    refine ⟨(f, x, y, z), mem_pieces.mpr ⟨hf, by simp only [hc, halves]; simp⟩, rfl, ?_⟩
    unfold pieceSides
    simp only [List.mem_cons, List.not_mem_nil, or_false] at hs' ⊢
    tauto
  · rw [hc, sides4] at hs'
    simp only [List.mem_cons, List.not_mem_nil, or_false] at hs'
    by_cases hcut : 0 < side (s.pos x) (s.pos y) (s.pos z) ∧ 0 < side (s.pos z) (s.pos w) (s.pos x)
    · have m1 : (f, x, y, z) ∈ pieces s := mem_pieces.mpr ⟨hf, by simp only [hc, halves]; rw [if_pos hcut]; simp⟩
      have m2 : (f, z, w, x) ∈ pieces s := mem_pieces.mpr ⟨hf, by simp only [hc, halves]; rw [if_pos hcut]; simp⟩
      rcases hs' with h1 | h1 | h1 | h1
      · exact ⟨_, m1, rfl, by simp [pieceSides, h1]⟩
      · exact ⟨_, m2, rfl, by simp [pieceSides, h1]⟩
      · exact ⟨_, m2, rfl, by simp [pieceSides, h1]⟩
      · exact ⟨_, m1, rfl, by simp [pieceSides, h1]⟩
    · have m1 : (f, y, z, w) ∈ pieces s := mem_pieces.mpr ⟨hf, by simp only [hc, halves]; rw [if_neg hcut]; simp⟩
      have m2 : (f, w, x, y) ∈ pieces s := mem_pieces.mpr ⟨hf, by simp only [hc, halves]; rw [if_neg hcut]; simp⟩
      rcases hs' with h1 | h1 | h1 | h1
      · exact ⟨_, m1, rfl, by simp [pieceSides, h1]⟩
      · exact ⟨_, m1, rfl, by simp [pieceSides, h1]⟩
      · exact ⟨_, m2, rfl, by simp [pieceSides, h1]⟩
      · exact ⟨_, m2, rfl, by simp [pieceSides, h1]⟩

theorem sum_flatMapI {α β : Type*} (l : List α) (g : α → List β) (w : β → Int) :
    ((l.flatMap g).map w).sum = (l.map fun x => ((g x).map w).sum).sum := by
  induction l with
  | nil => rfl
  | cons x l ih => rw [List.flatMap_cons, List.map_append, List.sum_append, ih, List.map_cons, List.sum_cons]

/-- Sums over all sides are sums over the sides of the pieces. -/
theorem sum_pieces {s : St K} (h : WF s) {w : Nat × Nat → Int} (anti : ∀ a b, w (a, b) = - w (b, a)) :
    ((allSides s).map w).sum = ((pieces s).map fun x => ((pieceSides x).map w).sum).sum := by
  unfold allSides pieces
  rw [sum_flatMapI, sum_flatMapI]
  congr 1
  refine List.map_congr_left fun f hf => ?_
  rcases corners_cases h (mem_facets.mp hf) with ⟨x, y, z, hc⟩ | ⟨x, y, z, v, hc⟩
  · rw [hc, sides3]
    simp only [halves, pieceSides, List.map_cons, List.map_nil, List.sum_cons, List.sum_nil]
    ring
  · rw [hc, sides4]
    simp only [halves]
    split_ifs
    · simp only [pieceSides, List.map_cons, List.map_nil, List.sum_cons, List.sum_nil]
      have := anti x z
      linarith
    · simp only [pieceSides, List.map_cons, List.map_nil, List.sum_cons, List.sum_nil]
      have := anti y v
      linarith

/-- The winding number of all sides at a point on no line through a side of a piece is the number of pieces
around the point. -/
theorem winding_pieces {s : St K} (h : WF s) (hc : ∀ x ∈ pieces s, 0 < side (s.pos x.2.1) (s.pos x.2.2.1) (s.pos x.2.2.2))
    {p : Pt K} (hg : ∀ x ∈ pieces s, ∀ e ∈ pieceSides x, side (s.pos e.1) (s.pos e.2) p ≠ 0) :
    winding s.pos (allSides s) p = (pieces s).countP fun x => decide (InPiece s p x) := by
  rw [winding_eq, sum_pieces h (w := fun e => crossing p (s.pos e.1) (s.pos e.2)) (fun a b => crossing_anti p _ _)]
  generalize pieces s = l at hc hg
  induction l with
  | nil => rfl
  | cons x l ih =>
    rw [List.map_cons, List.sum_cons, ih (fun y hy => hc y (List.mem_cons_of_mem _ hy)) (fun y hy => hg y (List.mem_cons_of_mem _ hy)),
      List.countP_cons]
    have hx := hg x (by simp)
    have := triangle_winding (hc x (by simp)) (hx (x.2.1, x.2.2.1) (by simp [pieceSides])) (hx (x.2.2.1, x.2.2.2) (by simp [pieceSides]))
      (hx (x.2.2.2, x.2.1) (by simp [pieceSides]))
    simp only [pieceSides, List.map_cons, List.map_nil, List.sum_cons, List.sum_nil, decide_eq_true_eq]
    push_cast
    have this' : _ = if InPiece s p x then (1 : Int) else 0 := this
    rw [← this']
    ring

theorem ccw_ne {a b c : Pt K} (h : 0 < side a b c) : a ≠ b ∧ b ≠ c ∧ c ≠ a := by
  refine ⟨?_, ?_, ?_⟩
  · rintro rfl; unfold side at h; linarith
  · rintro rfl; unfold side at h; linarith
  · rintro rfl; unfold side at h; linarith

theorem nudge_in {a b c p : Pt K} (h : StrictlyIn p a b c) : Small fun e => StrictlyIn (nudge p e) a b c := by
  have key : ∀ u v : Pt K, 0 < side u v p → Small fun e => 0 < side u v (nudge p e) := by
    intro u v huv
    refine (small_pos huv (-(v.y - u.y)) (v.x - u.x)).mono fun e _ he => ?_
    rw [side_nudge]; exact he
  exact ((key _ _ h.1).and ((key _ _ h.2.1).and (key _ _ h.2.2))).mono fun e _ h => h

/-- Close to every point there is one on no line through a side of a piece, in the same pieces, with the same
winding numbers. -/
theorem exists_generic {s : St K} (hc : ∀ x ∈ pieces s, 0 < side (s.pos x.2.1) (s.pos x.2.2.1) (s.pos x.2.2.2)) (p : Pt K) :
    ∃ q, (∀ x ∈ pieces s, ∀ e ∈ pieceSides x, side (s.pos e.1) (s.pos e.2) q ≠ 0) ∧
      (∀ x ∈ pieces s, InPiece s p x → InPiece s q x) ∧
      (∀ l, winding s.pos (pairs s l) q = winding s.pos (pairs s l) p) := by
  have h1 : Small fun e => ∀ x ∈ pieces s, ∀ y ∈ pieceSides x, side (s.pos y.1) (s.pos y.2) (nudge p e) ≠ 0 := by
    refine Small.all _ fun x hx => Small.all _ fun y hy => nudge_side_ne ?_ p
    obtain ⟨n1, n2, n3⟩ := ccw_ne (hc x hx)
    simp only [pieceSides, List.mem_cons, List.not_mem_nil, or_false] at hy
    rcases hy with rfl | rfl | rfl
    · exact n1
    · exact n2
    · exact n3
  have h2 : Small fun e => ∀ x ∈ pieces s, InPiece s p x → InPiece s (nudge p e) x := by
    refine Small.all _ fun x hx => ?_
    by_cases hp : InPiece s p x
    · exact (nudge_in hp).mono fun e _ h _ => h
    · exact Small.of fun e _ h => absurd h hp
  have h3 : ∀ l, Small fun e => winding s.pos (pairs s l) (nudge p e) = winding s.pos (pairs s l) p := by
    intro l
    refine (nudge_wind (segs s.pos (pairs s l)) p).mono fun e _ h => ?_
    rw [winding_wind, winding_wind]; exact h
  obtain ⟨e, _, h1, h2, h3, h4, h5⟩ := (h1.and (h2.and ((h3 .front).and ((h3 .bdry).and (h3 .intr))))).get
  refine ⟨nudge p e, h1, h2, fun l => ?_⟩
  cases l
  · exact h5
  · exact h4
  · exact h3

theorem countP_two {α : Type*} {l : List α} {P : α → Bool} (hn : l.Nodup) {x y : α} (hx : x ∈ l) (hy : y ∈ l) (hxy : x ≠ y)
    (px : P x = true) (py : P y = true) : 2 ≤ l.countP P := by
  classical
  rw [List.countP_eq_length_filter]
  have h1 : [x, y].Nodup := by simp [hxy]
  have h2 : [x, y] ⊆ l.filter P := by
    intro z hz
    simp only [List.mem_cons, List.not_mem_nil, or_false] at hz
    rcases hz with rfl | rfl
    · exact List.mem_filter.mpr ⟨hx, px⟩
    · exact List.mem_filter.mpr ⟨hy, py⟩
  exact (List.subperm_of_subset h1 h2).length_le

/-- The law of the partly meshed domain. -/
theorem meshing_cover {s : St K} (h : Meshing s) {q : Pt K}
    (hg : ∀ x ∈ pieces s, ∀ e ∈ pieceSides x, side (s.pos e.1) (s.pos e.2) q ≠ 0) :
    ((pieces s).countP fun x => decide (InPiece s q x) : Int) + winding s.pos (pairs s .front) q =
      winding s.pos (pairs s .bdry) q := by
  rw [← winding_pieces h.wf h.ccw hg]
  exact winding_of_chain h.chain q

/-- A point in a piece is in no other one, in the domain and not in the region of the front. -/
theorem meshing_in {s : St K} (h : Meshing s) {p : Pt K} {x : FRef × Nat × Nat × Nat} (hx : x ∈ pieces s) (hp : InPiece s p x) :
    (∀ y ∈ pieces s, InPiece s p y → y = x) ∧ winding s.pos (pairs s .front) p = 0 ∧ winding s.pos (pairs s .bdry) p = 1 := by
  obtain ⟨q, hg, hin, hw⟩ := exists_generic h.ccw p
  have hc := meshing_cover h hg
  rw [hw, hw] at hc
  have hpos : 0 < (pieces s).countP fun x => decide (InPiece s q x) :=
    List.countP_pos_iff.mpr ⟨x, hx, by simpa using hin x hx hp⟩
  have w1 := h.front.once p
  have w2 := h.bdry.once p
  refine ⟨fun y hy hpy => ?_, by omega, by omega⟩
  by_contra hne
  have := countP_two (pieces_nodup h.wf) hx hy (Ne.symm hne) (P := fun x => decide (InPiece s q x)) (by simpa using hin x hx hp)
    (by simpa using hin y hy hpy)
  omega

theorem strictlyIn_side {s : St K} {x : FRef × Nat × Nat × Nat} (hc : 0 < side (s.pos x.2.1) (s.pos x.2.2.1) (s.pos x.2.2.2)) {a b : Nat}
    (hs : (a, b) ∈ pieceSides x) : Small fun e => InPiece s (mov (midp (s.pos a) (s.pos b)) (leftN (s.pos a) (s.pos b)) e) x := by
  unfold InPiece
  simp only [pieceSides, List.mem_cons, Prod.mk.injEq, List.not_mem_nil, or_false] at hs
  rcases hs with ⟨rfl, rfl⟩ | ⟨rfl, rfl⟩ | ⟨rfl, rfl⟩
  · exact mid_in hc
  · refine (mid_in (a := s.pos x.2.2.1) (b := s.pos x.2.2.2) (c := s.pos x.2.1) (by rw [side_rot]; exact hc)).mono fun e _ h => ?_
    exact (strictlyIn_rot _ _ _ _).mp h
  · refine (mid_in (a := s.pos x.2.2.2) (b := s.pos x.2.1) (c := s.pos x.2.2.1) (by rw [side_rot, side_rot]; exact hc)).mono fun e _ h => ?_
    exact (strictlyIn_rot _ _ _ _).mp ((strictlyIn_rot _ _ _ _).mp h)

/-- No two elements run through the same side in the same direction. -/
theorem meshing_dir {s : St K} (h : Meshing s) : DirUnique s := by
  intro f g a b hf hg hsf hsg
  obtain ⟨x, hx, rfl, hxs⟩ := side_piece h.wf hf hsf
  obtain ⟨y, hy, rfl, hys⟩ := side_piece h.wf hg hsg
  obtain ⟨e, _, h1, h2⟩ := ((strictlyIn_side (h.ccw x hx) hxs).and (strictlyIn_side (h.ccw y hy) hys)).get
  rw [(meshing_in h hx h1).1 y hy h2]

/-- No element lies left of a front edge. -/
theorem meshing_open {s : St K} (h : Meshing s) {a b : Nat} (hm : (a, b) ∈ pairs s .front) {f : FRef} (hf : Live s f) :
    ¬ HasSide s f a b := by
  intro hs
  obtain ⟨x, hx, rfl, hxs⟩ := side_piece h.wf hf hs
  obtain ⟨e, _, h1, h2⟩ := ((strictlyIn_side (h.ccw x hx) hxs).and (simple_cross h.front hm)).get
  have h3 := (meshing_in h hx h1).2.1
  have h4 := h.front.once (mov (midp (s.pos a) (s.pos b)) (leftN (s.pos a) (s.pos b)) (-e))
  omega

/-- No element lies right of a boundary edge. -/
theorem meshing_right {s : St K} (h : Meshing s) {a b : Nat} (hm : (a, b) ∈ pairs s .bdry) {f : FRef} (hf : Live s f) :
    ¬ HasSide s f b a := by
  intro hs
  obtain ⟨x, hx, rfl, hxs⟩ := side_piece h.wf hf hs
  obtain ⟨e, _, h1, h2⟩ := ((strictlyIn_side (h.ccw x hx) hxs).and (simple_cross h.bdry hm)).get
  have h3 := (meshing_in h hx h1).2.2
  have h4 := h.bdry.once (mov (midp (s.pos a) (s.pos b)) (leftN (s.pos a) (s.pos b)) e)
  rw [show mov (midp (s.pos b) (s.pos a)) (leftN (s.pos b) (s.pos a)) e = mov (midp (s.pos a) (s.pos b)) (leftN (s.pos a) (s.pos b)) (-e) by
    rw [← mov_swap]] at h3
  omega

end TQ.Whole

import Verif.QuadTree.Lemmas
import Mathlib.Data.Rat.Defs
import Mathlib.Algebra.Order.Ring.Rat

/-!
# Property theorems C01 - C06, C09: the spatial index

The abstract view (`QTSpec`): a list of stored items, `run` applies the operations to it.
-/

set_option linter.unusedSectionVars false

namespace TQ
open QTSpec QT
variable {α K : Type*} [DecidableEq α] [Field K] [LinearOrder K] [IsStrictOrderedRing K]

/-- Execute user calls on the root cell (depth 0, so the remaining depth is `max_depth_`);
`none` means that an assertion failed. -/
def exec (mi md : Nat) (pos : α → Pt K) (b : Box K) : QT α → List (Op α) → Option (QT α × List Bool)
  | t, [] => some (t, [])
  | t, .add x :: os =>
    let r := add mi pos md x b t
    (exec mi md pos b r.1 os).map fun (t', outs) => (t', r.2 :: outs)
  | t, .remove x :: os =>
    match QT.remove mi pos x b t with
    | none => none
    | some (t1, o) => (exec mi md pos b t1 os).map fun (t', outs) => (t', o :: outs)

variable (mi md : Nat) (pos : α → Pt K) (b : Box K)

/-- one legal step keeps the invariant (helper for the theorems below) -/
theorem step_inv (hs : 0 ≤ b.s) (S : List α) (hS : S.Nodup) (t : QT α) (hw : WF mi pos md b t)
    (hp : (toList t).Perm S) (o : Op α) (hl : Legal pos b S o) (os : List (Op α)) :
    ∃ t', WF mi pos md b t' ∧ (toList t').Perm (step pos b S o) ∧ (step pos b S o).Nodup ∧
      exec mi md pos b t (o :: os) =
        (exec mi md pos b t' os).map fun (t'', outs) => (t'', expected pos b o :: outs) := by
  cases o with
  | add x =>
    by_cases hx : InSquare b (pos x)
    · obtain ⟨e, w, p⟩ := addOK md x b t hw hx
      refine ⟨_, w, ?_, ?_, ?_⟩
      · simp only [step, hx, if_true]; exact p.trans (hp.cons x)
      · simp only [step, hx, if_true]; exact List.nodup_cons.mpr ⟨hl, hS⟩
      · simp only [exec, e, expected, hx, decide_true]
    · have e := add_outside (mi := mi) md x b t hx
      refine ⟨t, hw, ?_, ?_, ?_⟩
      · simpa only [step, hx, if_false] using hp
      · simpa only [step, hx, if_false] using hS
      · simp only [exec, e, expected, hx, decide_false]
  | remove x =>
    by_cases hm : x ∈ S
    · obtain ⟨t', e, w, p⟩ := remove_spec x b t hs hw (hp.nodup_iff.mpr hS) (hp.mem_iff.mpr hm)
      have hx : InSquare b (pos x) := hw.inSquare hs x (hp.mem_iff.mpr hm)
      refine ⟨t', w, p.trans (hp.erase x), hS.erase x, ?_⟩
      simp only [exec, e, expected, hx, decide_true]
    · have hx : ¬ InSquare b (pos x) := by
        rcases hl with h | h
        · exact absurd h hm
        · exact h
      refine ⟨t, hw, ?_, hS.erase x, ?_⟩
      · simp only [step]; rwa [List.erase_of_not_mem hm]
      · simp only [exec, remove_outside (mi := mi) x b t hx, expected, hx, decide_false]

theorem exec_inv (hs : 0 ≤ b.s) : ∀ (os : List (Op α)) (S : List α) (t : QT α), S.Nodup →
    WF mi pos md b t → (toList t).Perm S → LegalHist pos b S os →
    ∃ t', exec mi md pos b t os = some (t', os.map (expected pos b)) ∧ WF mi pos md b t' ∧
      (toList t').Perm (run pos b S os) ∧ (run pos b S os).Nodup := by
  intro os
  induction os with
  | nil => intro S t hS hw hp _; exact ⟨t, rfl, hw, hp, hS⟩
  | cons o os ih =>
    intro S t hS hw hp hl
    obtain ⟨t1, w1, p1, n1, e1⟩ := step_inv mi md pos b hs S hS t hw hp o hl.1 os
    obtain ⟨t2, e2, w2, p2, n2⟩ := ih _ t1 n1 w1 p1 hl.2
    refine ⟨t2, ?_, w2, p2, n2⟩
    rw [e1, e2]; rfl

theorem WF_empty : WF mi pos md b (QT.empty : QT α) := by
  unfold QT.empty; rw [WF_leaf]; simp

/-! ## C01 -/

/-- C01: after any legal history no assertion fired, the stored items are those of the abstract list,
and `size()` is their number. -/
theorem C01_multiset_refinement (hs : 0 ≤ b.s) (os : List (Op α)) (hl : LegalHist pos b [] os) :
    ∃ t outs, exec mi md pos b QT.empty os = some (t, outs) ∧
      (toList t).Perm (run pos b [] os) ∧ t.size = (run pos b [] os).length ∧
      outs = os.map (expected pos b) := by
  obtain ⟨t, e, w, p, _⟩ := exec_inv mi md pos b hs os [] QT.empty List.nodup_nil
    (WF_empty mi md pos b) (List.Perm.refl _) hl
  exact ⟨t, _, e, p, by rw [w.size_eq, p.length_eq], rfl⟩

/-! ## C02 -/

/-- C02: rectangle and circle queries on every reachable tree return exactly the stored items in
the rectangle / circle, each once (the list returned is a permutation of the filtered abstract
list, which has no duplicates). -/
theorem C02_queries_exact (hs : 0 ≤ b.s) (os : List (Op α)) (hl : LegalHist pos b [] os)
    (t : QT α) (outs : List Bool) (he : exec mi md pos b QT.empty os = some (t, outs))
    (lo up c : Pt K) (r : K) (hr : 0 ≤ r) :
    (getRect pos lo up (rectQuery pos lo up) b t).Perm ((run pos b [] os).filter fun x =>
      decide (lo.x ≤ (pos x).x ∧ (pos x).x ≤ up.x ∧ lo.y ≤ (pos x).y ∧ (pos x).y ≤ up.y)) ∧
    (getCirc pos c r (circQuery pos c (r * r)) b t).Perm ((run pos b [] os).filter fun x =>
      decide (((pos x).x - c.x) ^ 2 + ((pos x).y - c.y) ^ 2 < r ^ 2)) ∧
    (run pos b [] os).Nodup := by
  obtain ⟨t', e, w, p, hn⟩ := exec_inv mi md pos b hs os [] QT.empty List.nodup_nil
    (WF_empty mi md pos b) (List.Perm.refl _) hl
  rw [e] at he; cases he
  refine ⟨?_, ?_, hn⟩
  · rw [getRect_eq lo up b t hs w]
    have : rectQuery pos lo up = fun x : α =>
        decide (lo.x ≤ (pos x).x ∧ (pos x).x ≤ up.x ∧ lo.y ≤ (pos x).y ∧ (pos x).y ≤ up.y) := by
      funext x; unfold rectQuery inOnRect
      rw [Bool.eq_iff_iff]; simp only [Bool.and_eq_true, decide_eq_true_eq]; tauto
    rw [this]; exact p.filter _
  · rw [getCirc_eq c r hr b t hs w]
    have : circQuery pos c (r * r) = fun x : α =>
        decide (((pos x).x - c.x) ^ 2 + ((pos x).y - c.y) ^ 2 < r ^ 2) := by
      funext x; unfold circQuery Pt.normSq; simp only [Pt.sub_x, Pt.sub_y, sq]
    rw [this]; exact p.filter _

/-! ## C03 -/

omit [DecidableEq α] in
theorem WF_cells : ∀ (t : QT α) (d k : Nat) (b : Box K), 0 ≤ b.s → WF mi pos d b t →
    ∀ c ∈ cells k b t, c.1 ≤ k + d ∧ c.2.2.size = (toList c.2.2).length ∧
      (c.2.2.isSplit = true → mi < (toList c.2.2).length ∧ c.1 < k + d) ∧
      (c.2.2.isSplit = false → (toList c.2.2).length ≤ mi ∨ c.1 = k + d) ∧
      ∀ x ∈ toList c.2.2, InSquare c.2.1 (pos x) := by
  intro t
  induction t with
  | leaf n l =>
    intro d k b hs h c hc
    simp only [cells, List.mem_singleton] at hc
    subst hc
    obtain ⟨h1, h2, h3⟩ := WF_leaf.mp h
    refine ⟨by simp, h1, by simp [isSplit], ?_, h3⟩
    rintro -
    rcases h2 with h2 | h2
    · exact Or.inl h2
    · exact Or.inr (by subst h2; rfl)
  | node n c0 c1 c2 c3 i0 i1 i2 i3 =>
    intro d k b hs h c hc
    cases d with
    | zero => exact h.elim
    | succ d =>
      have hin := h.inSquare hs
      have hsz := h.size_eq
      obtain ⟨⟨h1, h2⟩, ⟨w0, w1, w2, w3⟩, _⟩ := WF_node.mp h
      have hs2 : (0 : K) ≤ b.s / 2 := by linarith
      have e : k + 1 + d = k + (d + 1) := by omega
      simp only [cells, List.mem_cons, List.mem_append] at hc
      rcases hc with hc | ((hc | hc) | hc) | hc
      · subst hc
        refine ⟨by simp, hsz, fun _ => ⟨?_, by simp⟩, by simp [isSplit], hin⟩
        have : n = (toList (node n c0 c1 c2 c3)).length := h2
        simp only; omega
      · exact e ▸ i0 d (k + 1) b.ch0 hs2 w0 c hc
      · exact e ▸ i1 d (k + 1) b.ch1 hs2 w1 c hc
      · exact e ▸ i2 d (k + 1) b.ch2 hs2 w2 c hc
      · exact e ▸ i3 d (k + 1) b.ch3 hs2 w3 c hc

/-- C03: shape of every reachable tree: for each cell (with depth and geometry) the depth limit, the
stored counter, the capacity of unsplit cells, the occupancy of split cells, and the location of
the items. -/
theorem C03_shape (hs : 0 ≤ b.s) (os : List (Op α)) (hl : LegalHist pos b [] os)
    (t : QT α) (outs : List Bool) (he : exec mi md pos b QT.empty os = some (t, outs)) :
    ∀ c ∈ cells 0 b t,
      c.1 ≤ md ∧ c.2.2.size = (toList c.2.2).length ∧
      (c.2.2.isSplit = false → c.1 < md → (toList c.2.2).length ≤ mi) ∧
      (c.2.2.isSplit = true → mi < (toList c.2.2).length) ∧
      ∀ x ∈ toList c.2.2, InSquare c.2.1 (pos x) := by
  obtain ⟨t', e, w, p, hn⟩ := exec_inv mi md pos b hs os [] QT.empty List.nodup_nil
    (WF_empty mi md pos b) (List.Perm.refl _) hl
  rw [e] at he; cases he
  intro c hc
  obtain ⟨h1, h2, h3, h4, h5⟩ := WF_cells mi pos t md 0 b hs w c hc
  rw [Nat.zero_add] at h1 h4
  refine ⟨h1, h2, fun hf hlt => ?_, fun ht => (h3 ht).1, h5⟩
  rcases h4 hf with h | h
  · exact h
  · omega

/-- C03: removals never hit one of the tree's assertions (in particular merging always succeeds):
every legal history runs to completion. -/
theorem C03_no_assertion (hs : 0 ≤ b.s) (os : List (Op α)) (hl : LegalHist pos b [] os) :
    exec mi md pos b QT.empty os ≠ none := by
  obtain ⟨t, e, _⟩ := exec_inv mi md pos b hs os [] QT.empty List.nodup_nil
    (WF_empty mi md pos b) (List.Perm.refl _) hl
  rw [e]; simp

/-! ## C04 -/

/-- C04: `add` succeeds iff the item is in the closed extent; a failing `add` changes nothing; a
succeeding one stores just the item.  `remove` of a stored item succeeds and removes just it;
`remove` of an item outside of the extent fails and changes nothing. -/
theorem C04_results (hs : 0 ≤ b.s) (os : List (Op α)) (hl : LegalHist pos b [] os)
    (t : QT α) (outs : List Bool) (he : exec mi md pos b QT.empty os = some (t, outs)) (x : α) :
    ((add mi pos md x b t).2 = true ↔ InSquare b (pos x)) ∧
    (¬ InSquare b (pos x) → (add mi pos md x b t).1 = t) ∧
    (InSquare b (pos x) → (toList (add mi pos md x b t).1).Perm (x :: toList t)) ∧
    (x ∈ toList t → ∃ t', QT.remove mi pos x b t = some (t', true) ∧
      (toList t').Perm ((toList t).erase x)) ∧
    (¬ InSquare b (pos x) → QT.remove mi pos x b t = some (t, false)) := by
  obtain ⟨t', e, w, p, hn⟩ := exec_inv mi md pos b hs os [] QT.empty List.nodup_nil
    (WF_empty mi md pos b) (List.Perm.refl _) hl
  rw [e] at he; cases he
  refine ⟨⟨fun h => ?_, fun h => (addOK md x b t w h).1⟩, fun h => ?_,
    fun h => (addOK md x b t w h).2.2, fun h => ?_, fun h => remove_outside x b t h⟩
  · by_contra hc
    rw [add_outside (mi := mi) md x b t hc] at h
    exact absurd h (by simp)
  · rw [add_outside (mi := mi) md x b t h]
  · obtain ⟨t', e, _, p'⟩ := remove_spec x b t hs w (p.nodup_iff.mpr hn) h
    exact ⟨t', e, p'⟩

/-! ## C05 -/

/-- C05: for a query point in the extent `get_nearest` is defined; an item it returns is stored and
no stored item is strictly closer; and it returns one whenever some stored item is closer than
twice the size of the leaf around the query point.  The square root may be any function with
`0 ≤ sqrt x` and `x ≤ (4 sqrt x)²`, so rounding of `sqrt` is covered. -/
theorem C05_nearest (hs : 0 ≤ b.s) (os : List (Op α)) (hl : LegalHist pos b [] os)
    (t : QT α) (outs : List Bool) (he : exec mi md pos b QT.empty os = some (t, outs))
    (sqrt : K → K) (hsq : ∀ x, 0 ≤ x → 0 ≤ sqrt x ∧ x ≤ (4 * sqrt x) ^ 2)
    (q : Pt K) (hq : InSquare b q) :
    ∃ bl tl res, getLeaf q b t = some (bl, tl) ∧ InSquare bl q ∧
      getNearest sqrt pos q b t = .val res ∧
      (∀ x, res = some x → x ∈ run pos b [] os ∧
        ∀ y ∈ run pos b [] os, ((pos x).x - q.x) ^ 2 + ((pos x).y - q.y) ^ 2 ≤
          ((pos y).x - q.x) ^ 2 + ((pos y).y - q.y) ^ 2) ∧
      ((∃ y ∈ run pos b [] os,
        ((pos y).x - q.x) ^ 2 + ((pos y).y - q.y) ^ 2 < (2 * bl.s) ^ 2) → res ≠ none) := by
  obtain ⟨t', e, w, p, hn⟩ := exec_inv mi md pos b hs os [] QT.empty List.nodup_nil
    (WF_empty mi md pos b) (List.Perm.refl _) hl
  rw [e] at he; cases he
  cases hleaf : getLeaf q b t with
  | none => exact absurd hq ((getLeaf_none_iff q b t).mp hleaf)
  | some r =>
    obtain ⟨bl, tl⟩ := r
    obtain ⟨hbl, hsp, ⟨d, hcell⟩, hbs⟩ := getLeaf_spec (d0 := 0) q b t hleaf
    have hsub : ∀ x ∈ tl.items, x ∈ toList t := by
      intro x hx
      apply cells_subset b t hcell
      cases tl with
      | leaf n l => exact hx
      | node => simp [isSplit] at hsp
    have nsq : ∀ y : α, Pt.normSq (pos y - q) = ((pos y).x - q.x) ^ 2 + ((pos y).y - q.y) ^ 2 := by
      intro y; unfold Pt.normSq; simp only [Pt.sub_x, Pt.sub_y, sq]
    have nnn : ∀ y : α, 0 ≤ Pt.normSq (pos y - q) := by
      intro y; rw [nsq]; positivity
    obtain ⟨a1, a2, a3⟩ := scanNearest_spec (pos := pos) q tl.items (4 * bl.s * bl.s, none)
    set st := scanNearest pos q tl.items (4 * bl.s * bl.s, none) with hst
    have hst0 : 0 ≤ st.1 := by
      rcases a3 with h | ⟨x, _, _, h, _⟩
      · rw [h]; simp only
        have := hbs hs
        positivity
      · rw [h]; exact nnn x
    obtain ⟨hr0, hr1⟩ := hsq st.1 hst0
    have hr : (0 : K) ≤ 4 * sqrt st.1 := by linarith
    have hcirc := getCirc_eq q (4 * sqrt st.1) hr b t hs w
    obtain ⟨b1, b2, b3⟩ := scanNearest_spec (pos := pos) q
      ((toList t).filter (circQuery pos q (4 * sqrt st.1 * (4 * sqrt st.1)))) st
    set fin := scanNearest pos q
      ((toList t).filter (circQuery pos q (4 * sqrt st.1 * (4 * sqrt st.1)))) st with hfin
    -- every stored item is at least as far as the final minimum
    have hmin : ∀ y ∈ toList t, fin.1 ≤ Pt.normSq (pos y - q) := by
      intro y hy
      by_cases hc : circQuery pos q (4 * sqrt st.1 * (4 * sqrt st.1)) y = true
      · exact b2 y (List.mem_filter.mpr ⟨hy, hc⟩)
      · unfold circQuery at hc
        rw [decide_eq_true_eq, not_lt] at hc
        have : st.1 ≤ 4 * sqrt st.1 * (4 * sqrt st.1) := by rw [← sq]; exact hr1
        exact b1.trans (this.trans hc)
    refine ⟨bl, tl, fin.2, rfl, hbl, ?_, ?_, ?_⟩
    · unfold getNearest
      rw [hleaf]
      simp only [← hst, hcirc, ← hfin]
    · intro x hx
      have hwin : x ∈ toList t ∧ fin.1 = Pt.normSq (pos x - q) := by
        rcases b3 with h | ⟨z, hz, h1, h2, _⟩
        · rw [h] at hx ⊢
          rcases a3 with h' | ⟨z, hz, h1, h2, _⟩
          · rw [h'] at hx; exact absurd hx (by simp)
          · rw [h1] at hx; cases hx
            exact ⟨hsub _ hz, h2⟩
        · rw [h1] at hx; cases hx
          exact ⟨(List.mem_filter.mp hz).1, h2⟩
      refine ⟨p.mem_iff.mp hwin.1, fun y hy => ?_⟩
      rw [← nsq, ← nsq, ← hwin.2]
      exact hmin y (p.mem_iff.mpr hy)
    · rintro ⟨y, hy, hlt⟩ hnone
      have h1 := hmin y (p.mem_iff.mpr hy)
      rw [nsq] at h1
      have h2 : fin.1 < 4 * bl.s * bl.s := by
        have : (2 * bl.s) ^ 2 = 4 * bl.s * bl.s := by ring
        linarith
      rcases b3 with h | ⟨z, hz, h3, _, _⟩
      · rcases a3 with h' | ⟨z, hz, h3, _, _⟩
        · rw [h, h'] at h2; exact absurd h2 (lt_irrefl _)
        · rw [h, h3] at hnone; exact absurd hnone (by simp)
      · rw [h3] at hnone; exact absurd hnone (by simp)

/-! ## Examples meeting the hypotheses -/

/-- positions of some sample items: a grid of spacing 1 with coinciding points 8, 9 -/
def samplePos (i : Nat) : Pt ℚ := if i < 8 then ⟨(i : ℚ) - 4, ((i * i % 5 : Nat) : ℚ) - 2⟩ else ⟨1, 1⟩

def sampleBox : Box ℚ := ⟨⟨0, 0⟩, 16⟩

def sampleOps : List (Op Nat) :=
  ((List.range 10).map Op.add) ++ [.remove 3, .remove 9, .add 3, .remove 0, .remove 1, .remove 2]

instance (pos : Nat → Pt ℚ) (b : Box ℚ) (S : List Nat) (o : Op Nat) : Decidable (Legal pos b S o) := by
  cases o <;> unfold Legal <;> infer_instance

instance decLegalHist (pos : Nat → Pt ℚ) (b : Box ℚ) : ∀ (S : List Nat) (os : List (Op Nat)),
    Decidable (LegalHist pos b S os)
  | _, [] => isTrue trivial
  | S, o :: os => by
    have := decLegalHist pos b (step pos b S o) os
    unfold LegalHist; infer_instance

/-- The hypotheses of C01 - C05 hold for a history with splits, coinciding points and merges. -/
example : (0 : ℚ) ≤ sampleBox.s ∧ LegalHist samplePos sampleBox [] sampleOps ∧
    (∃ t outs, exec 1 3 samplePos sampleBox QT.empty sampleOps = some (t, outs) ∧ t.size = 6 ∧
      height t = 3) ∧ InSquare sampleBox ⟨1, 1⟩ := by
  refine ⟨by decide +kernel, by decide +kernel, ?_, by decide +kernel⟩
  have h : ((exec 1 3 samplePos sampleBox QT.empty sampleOps).map fun r =>
      (r.1.size, height r.1)) = some (6, 3) := by decide +kernel
  cases he : exec 1 3 samplePos sampleBox QT.empty sampleOps with
  | none => rw [he] at h; simp at h
  | some r =>
    rw [he] at h
    simp only [Option.map_some, Option.some.injEq, Prod.mk.injEq] at h
    exact ⟨r.1, r.2, rfl, h⟩

/-- a square-root function as in C05 exists over the rationals -/
example : ∀ x : ℚ, 0 ≤ x → 0 ≤ (x + 1) / 4 ∧ x ≤ (4 * ((x + 1) / 4)) ^ 2 := by
  intro x hx; constructor
  · linarith
  · nlinarith

/-! ## C06 -/

/-- the 101 items of the witness: a row in the lower left corner of the default extent -/
def farPos (i : Nat) : Pt ℚ := ⟨-5000 + i, -5000⟩

/-- C06 is violated (1): with the default container parameters (extent 10000, 100 items per cell,
depth 25) and 101 stored items, `get_nearest` at (4000,4000) inside the extent returns null,
for every square-root function admitted in C05. -/
theorem C06_null_on_nonempty_violated :
    ∃ t outs, exec 100 25 farPos ⟨⟨0, 0⟩, 10000⟩ QT.empty ((List.range 101).map Op.add)
        = some (t, outs) ∧ t.size = 101 ∧ InSquare (⟨⟨0, 0⟩, 10000⟩ : Box ℚ) ⟨4000, 4000⟩ ∧
      ∀ sqrt : ℚ → ℚ, getNearest sqrt farPos ⟨4000, 4000⟩ ⟨⟨0, 0⟩, 10000⟩ t = .val none := by
  have hl : LegalHist farPos ⟨⟨0, 0⟩, 10000⟩ [] ((List.range 101).map Op.add) := by
    decide +kernel
  obtain ⟨t, e, w, p, hn⟩ := exec_inv 100 25 farPos ⟨⟨0, 0⟩, 10000⟩ (by norm_num)
    ((List.range 101).map Op.add) [] QT.empty List.nodup_nil
    (WF_empty 100 25 farPos _) (List.Perm.refl _) hl
  have hrun : run farPos ⟨⟨0, 0⟩, 10000⟩ [] ((List.range 101).map Op.add)
      = (List.range 101).reverse := by decide +kernel
  rw [hrun] at p
  have hmem : ∀ x ∈ toList t, x < 101 := by
    intro x hx
    have := p.mem_iff.mp hx
    simpa using this
  have hsize : t.size = 101 := by rw [w.size_eq, p.length_eq]; simp
  have hleaf : (getLeaf (⟨4000, 4000⟩ : Pt ℚ) ⟨⟨0, 0⟩, 10000⟩ t).map (fun r => r.1.s)
      = some 5000 := by
    have h := e
    have h2 : ((exec 100 25 farPos ⟨⟨0, 0⟩, 10000⟩ QT.empty ((List.range 101).map Op.add)).map
        fun r => (getLeaf (⟨4000, 4000⟩ : Pt ℚ) ⟨⟨0, 0⟩, 10000⟩ r.1).map (fun r => r.1.s))
        = some (some 5000) := by decide +kernel
    rw [h] at h2
    simpa using h2
  refine ⟨t, _, e, hsize, by decide +kernel, fun sqrt => ?_⟩
  cases hlf : getLeaf (⟨4000, 4000⟩ : Pt ℚ) ⟨⟨0, 0⟩, 10000⟩ t with
  | none => rw [hlf] at hleaf; simp at hleaf
  | some r =>
    obtain ⟨bl, tl⟩ := r
    rw [hlf] at hleaf
    have hbls : bl.s = 5000 := by simpa using hleaf
    obtain ⟨_, hsp, ⟨d, hcell⟩, _⟩ := getLeaf_spec (d0 := 0) _ _ t hlf
    -- all items are too far away
    have hfar : ∀ x ∈ toList t, ¬ Pt.normSq (farPos x - ⟨4000, 4000⟩) < 4 * bl.s * bl.s := by
      intro x hx
      have hx' := hmem x hx
      rw [hbls]
      unfold farPos Pt.normSq
      simp only [Pt.sub_x, Pt.sub_y]
      have : (x : ℚ) ≤ 101 := by exact_mod_cast hx'.le
      nlinarith
    have hscan : ∀ l : List Nat, (∀ x ∈ l, x ∈ toList t) →
        scanNearest farPos ⟨4000, 4000⟩ l (4 * bl.s * bl.s, none) = (4 * bl.s * bl.s, none) := by
      intro l
      induction l with
      | nil => intro _; rfl
      | cons a l ih =>
        intro h
        simp only [scanNearest, if_neg (hfar a (h a List.mem_cons_self))]
        exact ih fun x hx => h x (List.mem_cons_of_mem _ hx)
    unfold getNearest
    rw [hlf]
    simp only
    rw [hscan tl.items ?_, hscan _ ?_]
    · intro x hx
      have : ∀ (b' : Box ℚ) (t' : QT Nat) (c : Pt ℚ) (r : ℚ) (qf : Nat → Bool),
          ∀ x ∈ getCirc farPos c r qf b' t', x ∈ toList t' := by
        intro b' t'
        induction t' generalizing b' with
        | leaf n l =>
          intro c r qf x hx
          unfold getCirc at hx
          split at hx
          · exact (List.mem_filter.mp hx).1
          · simp at hx
        | node n c0 c1 c2 c3 i0 i1 i2 i3 =>
          intro c r qf x hx
          unfold getCirc at hx
          simp only at hx
          split at hx
          · simp only [List.mem_append] at hx
            simp only [toList, List.mem_append]
            rcases hx with ((hx | hx) | hx) | hx
            · exact Or.inl (Or.inl (Or.inl (i0 _ _ _ _ x hx)))
            · exact Or.inl (Or.inl (Or.inr (i1 _ _ _ _ x hx)))
            · exact Or.inl (Or.inr (i2 _ _ _ _ x hx))
            · exact Or.inr (i3 _ _ _ _ x hx)
          · simp at hx
      exact this _ t _ _ _ x hx
    · intro x hx
      apply cells_subset _ t hcell
      cases tl with
      | leaf n l => exact hx
      | node => simp [isSplit] at hsp

/-- C06 is violated (2): outside of the extent `get_nearest` dereferences a null pointer,
whatever the tree holds. -/
theorem C06_outside_ub_violated (t : QT α) (sqrt : K → K) (q : Pt K) (hq : ¬ InSquare b q) :
    getNearest sqrt pos q b t = .ub := by
  unfold getNearest; rw [(getLeaf_none_iff q b t).mpr hq]

/-- C06, the part that holds: inside the extent the result is never undefined, and while the tree
is not split (at most `max_item` items stored so far) a non-empty tree gives an item. Missing: split
trees, see `C06_null_on_nonempty_violated`. -/
theorem C06_unsplit_partial (hs : 0 < b.s) (os : List (Op α)) (hl : LegalHist pos b [] os)
    (t : QT α) (outs : List Bool) (he : exec mi md pos b QT.empty os = some (t, outs))
    (hns : t.isSplit = false) (sqrt : K → K) (hsq : ∀ x, 0 ≤ x → 0 ≤ sqrt x ∧ x ≤ (4 * sqrt x) ^ 2)
    (q : Pt K) (hq : InSquare b q) (hne : run pos b [] os ≠ []) :
    ∃ x ∈ run pos b [] os, getNearest sqrt pos q b t = .val (some x) := by
  obtain ⟨bl, tl, res, hleaf, _, hres, hin, hnn⟩ :=
    C05_nearest mi md pos b hs.le os hl t outs he sqrt hsq q hq
  obtain ⟨t', e, w, p, hn⟩ := exec_inv mi md pos b hs.le os [] QT.empty List.nodup_nil
    (WF_empty mi md pos b) (List.Perm.refl _) hl
  rw [e] at he; cases he
  have hbl : bl = b := by
    cases t with
    | leaf n l =>
      have hb := (Box.has_iff b q).mpr hq
      unfold getLeaf at hleaf
      rw [if_pos hb] at hleaf
      cases hleaf; rfl
    | node => simp [isSplit] at hns
  have : res ≠ none := by
    apply hnn
    obtain ⟨y, hy⟩ := List.exists_mem_of_ne_nil _ hne
    refine ⟨y, hy, ?_⟩
    obtain ⟨h1, h2, h3, h4⟩ := w.inSquare hs.le y (p.mem_iff.mpr hy)
    obtain ⟨g1, g2, g3, g4⟩ := hq
    rw [hbl]
    have e2 : b.s / 2 + b.s / 2 = b.s := by ring
    have a1 : ((pos y).x - q.x) ^ 2 ≤ b.s ^ 2 := by
      apply sq_le_sq'  <;> linarith
    have a2 : ((pos y).y - q.y) ^ 2 ≤ b.s ^ 2 := by
      apply sq_le_sq'  <;> linarith
    have a3 : 0 < b.s ^ 2 := by positivity
    nlinarith
  cases res with
  | none => exact absurd rfl this
  | some x => exact ⟨x, (hin x rfl).1, hres⟩

example : ¬ InSquare sampleBox ⟨9, 0⟩ := by decide +kernel

/-! ## C09 -/

/-- C09, the part that holds: on a tree that is not split the predicate decides about every stored
item (if the rectangle overlaps the extent). Missing: split trees, see below. -/
theorem C09_predicate_unsplit_partial (n : Nat) (l : List α) (lo up : Pt K) (qf : α → Bool)
    (hov : lo.x ≤ b.c.x + b.s / 2 ∧ b.c.x - b.s / 2 ≤ up.x ∧ lo.y ≤ b.c.y + b.s / 2 ∧
      b.c.y - b.s / 2 ≤ up.y) :
    getRect pos lo up qf b (leaf n l) = l.filter qf := by
  unfold getRect
  rw [if_pos]
  unfold rectOverlap Box.lo Box.up
  simp only [Bool.and_eq_true, decide_eq_true_eq]
  tauto

/-- C09 is violated: once the tree is split the predicate passed by the user is ignored altogether
(rectangle and circle version). -/
theorem C09_predicate_dropped_violated (n : Nat) (c0 c1 c2 c3 : QT α) (lo up c : Pt K) (r : K)
    (qf qf' : α → Bool) :
    getRect pos lo up qf b (node n c0 c1 c2 c3) = getRect pos lo up qf' b (node n c0 c1 c2 c3) ∧
    getCirc pos c r qf b (node n c0 c1 c2 c3) = getCirc pos c r qf' b (node n c0 c1 c2 c3) := by
  constructor
  · unfold getRect; rfl
  · unfold getCirc; rfl

/-- concrete witness: the predicate "reject everything" still returns an item -/
theorem C09_predicate_dropped_witness_violated :
    ((exec 1 3 samplePos sampleBox QT.empty [.add 0, .add 7]).map fun r =>
      getRect samplePos ⟨-8, -8⟩ ⟨8, 8⟩ (fun _ => false) sampleBox r.1) = some [7, 0] := by
  decide +kernel

end TQ

#print axioms TQ.C01_multiset_refinement
#print axioms TQ.C02_queries_exact
#print axioms TQ.C03_shape
#print axioms TQ.C03_no_assertion
#print axioms TQ.C04_results
#print axioms TQ.C05_nearest
#print axioms TQ.C06_null_on_nonempty_violated
#print axioms TQ.C06_outside_ub_violated
#print axioms TQ.C06_unsplit_partial
#print axioms TQ.C09_predicate_unsplit_partial
#print axioms TQ.C09_predicate_dropped_violated
#print axioms TQ.C09_predicate_dropped_witness_violated

import Verif.Container.Lemmas
import Mathlib.Data.Rat.Defs
import Mathlib.Algebra.Order.Ring.Rat

/-! # Property theorems C07, C08: the container -/

set_option linter.unusedSectionVars false

namespace TQ
open QTSpec QT ContSpec
variable {α K : Type*} [DecidableEq α] [Field K] [LinearOrder K] [IsStrictOrderedRing K]

/-- one user call on the model -/
def Cont.call (mi md : Nat) (b : Box K) (c : Cont α K) : ContSpec.Op α K → Out (Cont α K × Bool)
  | .insert k x p => .ok (c.insert mi md b k x p, true)
  | .remove x => c.remove mi b x
  | .update x p => c.update mi md b x p
  | .clearWaste => .ok (c.clearWaste, true)

/-- a sequence of user calls -/
def Cont.calls (mi md : Nat) (b : Box K) : Cont α K → List (ContSpec.Op α K) →
    Out (Cont α K × List Bool)
  | c, [] => .ok (c, [])
  | c, o :: os =>
    match c.call mi md b o with
    | .abort => .abort
    | .ub => .ub
    | .ok (c', r) =>
      match Cont.calls mi md b c' os with
      | .abort => .abort
      | .ub => .ub
      | .ok (c'', rs) => .ok (c'', r :: rs)

/-- Conditions on a call: fresh objects are inserted, live ones removed, and `update` is called for
a live item inside of the extent whose new coordinate, if it is in the same cell, is not on the
border of this cell. -/
def Cont.LegalCall (b : Box K) (c : Cont α K) : ContSpec.Op α K → Prop
  | .insert k x _ => x ∉ c.items ∧ x ∉ c.waste ∧ k ≤ c.items.length
  | .remove x => x ∈ c.items
  | .update x p => x ∈ c.items ∧ InSquare b (c.xy x) ∧
      ∀ bl tl, getLeaf (c.xy x) b c.tree = some (bl, tl) → InSquare bl p → StrictIn bl p
  | .clearWaste => True

def Cont.LegalCalls (mi md : Nat) (b : Box K) : Cont α K → List (ContSpec.Op α K) → Prop
  | _, [] => True
  | c, o :: os => c.LegalCall b o ∧
    ∀ c' r, c.call mi md b o = .ok (c', r) → Cont.LegalCalls mi md b c' os

/-- abstraction -/
def Cont.abs (c : Cont α K) : Abs α K := ⟨c.items, c.waste, c.xy⟩

/-- consistency of list, waste and spatial index -/
def Cont.Inv (mi md : Nat) (b : Box K) (c : Cont α K) : Prop :=
  c.items.Nodup ∧ (∀ x ∈ c.waste, x ∉ c.items) ∧ WF mi c.xy md b c.tree ∧
  (toList c.tree).Perm (c.items.filter fun x => decide (InSquare b (c.xy x)))

variable (mi md : Nat) (b : Box K)

theorem Cont.call_spec (hs : 0 ≤ b.s) (c : Cont α K) (h : c.Inv mi md b) (o : ContSpec.Op α K)
    (hl : c.LegalCall b o) :
    ∃ c', c.call mi md b o = .ok (c', (ContSpec.step b c.abs o).2) ∧ c'.Inv mi md b ∧
      c'.abs = (ContSpec.step b c.abs o).1 := by
  obtain ⟨hn, hw, hwf, hp⟩ := h
  have hpn : (toList c.tree).Nodup := hp.nodup_iff.mpr (hn.filter _)
  cases o with
  | insert k x p =>
    obtain ⟨h1, h2, h3⟩ := hl
    have e := insertIdx_eq_take_drop x c.items k h3
    have hxt : x ∉ toList c.tree := fun h => h1 (List.mem_filter.mp (hp.mem_iff.mp h)).1
    have hset : ∀ y ∈ c.items, Cont.setXY c.xy x p y = c.xy y := by
      intro y hy; unfold Cont.setXY; rw [if_neg (by rintro rfl; exact h1 hy)]
    have hsx : Cont.setXY c.xy x p x = p := by unfold Cont.setXY; rw [if_pos rfl]
    have hwf' : WF mi (Cont.setXY c.xy x p) md b c.tree := by
      apply WF_congr _ hwf
      intro y hy; exact hset y (List.mem_filter.mp (hp.mem_iff.mp hy)).1
    have hperm : (c.items.insertIdx k x).Perm (x :: c.items) := List.perm_insertIdx x c.items h3
    have hfil : (c.items.filter fun y => decide (InSquare b (Cont.setXY c.xy x p y))) =
        c.items.filter fun y => decide (InSquare b (c.xy y)) := by
      apply List.filter_congr
      intro y hy; rw [hset y hy]
    refine ⟨_, rfl, ⟨?_, ?_, ?_, ?_⟩, ?_⟩
    · exact hperm.nodup_iff.mpr (List.nodup_cons.mpr ⟨h1, hn⟩)
    · intro y hy hm
      rcases List.mem_cons.mp (hperm.mem_iff.mp hm) with rfl | hm
      · exact h2 hy
      · exact hw y hy hm
    · by_cases hx : InSquare b p
      · exact (addOK md x b c.tree hwf' (by rw [hsx]; exact hx)).2.1
      · simp only [Cont.insert]
        rw [add_outside (mi := mi) md x b c.tree (by rw [hsx]; exact hx)]; exact hwf'
    · have hp2 := hperm.filter fun y => decide (InSquare b (Cont.setXY c.xy x p y))
      refine List.Perm.trans ?_ hp2.symm
      by_cases hx : InSquare b p
      · have a := (addOK md x b c.tree hwf' (by rw [hsx]; exact hx)).2.2
        rw [List.filter_cons_of_pos (by rw [hsx]; simpa using hx), hfil]
        exact a.trans (hp.cons x)
      · rw [List.filter_cons_of_neg (by rw [hsx]; simpa using hx), hfil]
        simp only [Cont.insert]
        rw [add_outside (mi := mi) md x b c.tree (by rw [hsx]; exact hx)]; exact hp
    · simp only [Cont.abs, Cont.insert, ContSpec.step, e]
      rfl
  | remove x =>
    change x ∈ c.items at hl
    by_cases hx : InSquare b (c.xy x)
    · have hm : x ∈ toList c.tree :=
        hp.mem_iff.mpr (List.mem_filter.mpr ⟨hl, by simpa using hx⟩)
      obtain ⟨t', e, w, p⟩ := remove_spec x b c.tree hs hwf hpn hm
      refine ⟨{ c with tree := t', items := c.items.erase x, waste := c.waste ++ [x] }, ?_,
        ⟨hn.erase x, ?_, w, ?_⟩, ?_⟩
      · simp only [Cont.call, Cont.remove, e, ContSpec.step, Cont.abs, hx, if_true]
      · intro y hy hm'
        rcases List.mem_append.mp hy with hy | hy
        · exact hw y hy (List.mem_of_mem_erase hm')
        · have : y = x := by simpa using hy
          subst this
          exact (List.Nodup.not_mem_erase hn) hm'
      · refine p.trans ?_
        refine (hp.erase x).trans ?_
        rw [hn.erase_eq_filter, List.Nodup.erase_eq_filter (hn.filter _), List.filter_filter,
          List.filter_filter]
        simp only [Bool.and_comm]
        exact List.Perm.refl _
      · simp only [Cont.abs, ContSpec.step, hx, if_true, hn.erase_eq_filter]
        congr 1
        apply List.filter_congr
        intro y _
        rw [Bool.eq_iff_iff]; simp
    · refine ⟨c, ?_, ⟨hn, hw, hwf, hp⟩, ?_⟩
      · simp only [Cont.call, Cont.remove, remove_outside (mi := mi) x b c.tree hx, ContSpec.step,
          Cont.abs, hx, if_false]
      · simp only [ContSpec.step, Cont.abs, hx, if_false]
  | update x p =>
    obtain ⟨h1, h2, h3⟩ := hl
    have hm : x ∈ toList c.tree := hp.mem_iff.mpr (List.mem_filter.mpr ⟨h1, by simpa using h2⟩)
    have hsx : Cont.setXY c.xy x p x = p := by unfold Cont.setXY; rw [if_pos rfl]
    have hset : ∀ y, y ≠ x → Cont.setXY c.xy x p y = c.xy y := by
      intro y hy; unfold Cont.setXY; rw [if_neg hy]
    obtain ⟨lp, lr, hsplit⟩ := List.append_of_mem h1
    have hnx : x ∉ lp ∧ x ∉ lr := by
      rw [hsplit, List.nodup_append] at hn
      obtain ⟨_, n2, d⟩ := hn
      exact ⟨fun h => d x h x List.mem_cons_self rfl, (List.nodup_cons.mp n2).1⟩
    have hfl : ∀ l : List α, x ∉ l →
        (l.filter fun y => decide (InSquare b (Cont.setXY c.xy x p y))) =
        l.filter fun y => decide (InSquare b (c.xy y)) := by
      intro l hxl
      apply List.filter_congr
      intro y hy; rw [hset y (by rintro rfl; exact hxl hy)]
    cases hlf : getLeaf (c.xy x) b c.tree with
    | none => exact absurd h2 ((getLeaf_none_iff _ _ _).mp hlf)
    | some r =>
      obtain ⟨bl, tl⟩ := r
      by_cases hin : InSquare bl p
      · have hst := h3 bl tl hlf hin
        have hb : InSquare b p := StrictIn.inSquare (StrictIn.of_leaf hlf hst)
        have hrect : inOnRect p bl.lo bl.up = true := (Box.has_iff bl p).mpr hin
        refine ⟨{ c with xy := Cont.setXY c.xy x p }, ?_,
          ⟨hn, hw, WF_move hs hwf hpn hm hlf hst, ?_⟩, ?_⟩
        · simp only [Cont.call, Cont.update, hlf, hrect, if_true, ContSpec.step, hb, decide_true]
        · have : (c.items.filter fun y => decide (InSquare b (Cont.setXY c.xy x p y))) =
              c.items.filter fun y => decide (InSquare b (c.xy y)) := by
            apply List.filter_congr
            intro y _
            by_cases hy : y = x
            · subst hy; rw [hsx]; simp only [hb, h2]
            · rw [hset y hy]
          simp only [this]; exact hp
        · rfl
      · have hrect : inOnRect p bl.lo bl.up = false := (Box.has_false bl p).mpr hin
        obtain ⟨t', e, w, pe⟩ := remove_spec x b c.tree hs hwf hpn hm
        have hxt : x ∉ toList t' := fun h => (List.Nodup.not_mem_erase hpn) (pe.mem_iff.mp h)
        have w' : WF mi (Cont.setXY c.xy x p) md b t' :=
          WF_congr (fun y hy => hset y (by rintro rfl; exact hxt hy)) w
        have hbase : (toList t').Perm ((lp ++ lr).filter fun y => decide (InSquare b (c.xy y))) := by
          refine pe.trans ((hp.erase x).trans ?_)
          rw [hsplit, List.filter_append, List.filter_cons_of_pos (by simpa using h2),
            List.erase_append_right _ (by
              intro h; exact hnx.1 (List.mem_filter.mp h).1), List.erase_cons_head,
            ← List.filter_append]
        by_cases hb : InSquare b p
        · obtain ⟨a1, a2, a3⟩ := addOK md x b t' w' (by rw [hsx]; exact hb)
          refine ⟨{ c with xy := Cont.setXY c.xy x p,
                           tree := (add mi (Cont.setXY c.xy x p) md x b t').1 }, ?_,
            ⟨hn, hw, a2, ?_⟩, rfl⟩
          · simp only [Cont.call, Cont.update, hlf, hrect, Bool.false_eq_true, if_false, e,
              ContSpec.step, hb, decide_true, a1]
          · refine a3.trans ?_
            change List.Perm _ (c.items.filter fun y => decide (InSquare b (Cont.setXY c.xy x p y)))
            rw [hsplit, List.filter_append, List.filter_cons_of_pos (by rw [hsx]; simpa using hb),
              hfl lp hnx.1, hfl lr hnx.2]
            refine (hbase.cons x).trans ?_
            rw [List.filter_append]
            exact List.perm_middle.symm
        · have a := add_outside (mi := mi) (pos := Cont.setXY c.xy x p) md x b t'
            (by rw [hsx]; exact hb)
          refine ⟨{ c with xy := Cont.setXY c.xy x p, tree := t' }, ?_, ⟨hn, hw, w', ?_⟩, rfl⟩
          · simp only [Cont.call, Cont.update, hlf, hrect, Bool.false_eq_true, if_false, e,
              ContSpec.step, hb, decide_false, a]
          · change List.Perm _ (c.items.filter fun y => decide (InSquare b (Cont.setXY c.xy x p y)))
            rw [hsplit, List.filter_append, List.filter_cons_of_neg (by rw [hsx]; simpa using hb),
              hfl lp hnx.1, hfl lr hnx.2, ← List.filter_append]
            exact hbase
  | clearWaste => exact ⟨_, rfl, ⟨hn, by simp [Cont.clearWaste], hwf, hp⟩, rfl⟩

theorem Cont.calls_spec (hs : 0 ≤ b.s) : ∀ (os : List (ContSpec.Op α K)) (c : Cont α K),
    c.Inv mi md b → Cont.LegalCalls mi md b c os →
    ∃ c', c.calls mi md b os = .ok (c', (ContSpec.run b c.abs os).2) ∧ c'.Inv mi md b ∧
      c'.abs = (ContSpec.run b c.abs os).1 := by
  intro os
  induction os with
  | nil => intro c h _; exact ⟨c, rfl, h, rfl⟩
  | cons o os ih =>
    intro c h hl
    obtain ⟨c1, e1, i1, a1⟩ := Cont.call_spec mi md b hs c h o hl.1
    obtain ⟨c2, e2, i2, a2⟩ := ih c1 i1 (hl.2 _ _ e1)
    refine ⟨c2, ?_, i2, ?_⟩
    · simp only [Cont.calls, e1, e2, ContSpec.run, a1]
    · rw [a2, a1]; rfl

theorem Cont.Inv_new (xy : α → Pt K) : (Cont.new xy).Inv mi md b := by
  refine ⟨List.nodup_nil, by simp [Cont.new], ?_, by simp [Cont.new, QT.empty, toList]⟩
  simp only [Cont.new, QT.empty]
  rw [WF_leaf]; simp

/-! ## C08 -/

/-- C08: after any legal history (insert anywhere, remove, update, clear_waste) list, waste,
coordinates and returned booleans are those of the abstract container; nothing is both live and
waste; the items found by a rectangle / circle query are exactly the live items inside the extent
and inside the query region. -/
theorem C08_container_consistent (hs : 0 ≤ b.s) (xy : α → Pt K) (os : List (ContSpec.Op α K))
    (hl : Cont.LegalCalls mi md b (Cont.new xy) os) :
    ∃ c, (Cont.new xy).calls mi md b os = .ok (c, (ContSpec.run b ⟨[], [], xy⟩ os).2) ∧
      c.items = (ContSpec.run b ⟨[], [], xy⟩ os).1.live ∧
      c.waste = (ContSpec.run b ⟨[], [], xy⟩ os).1.waste ∧
      c.xy = (ContSpec.run b ⟨[], [], xy⟩ os).1.xy ∧
      c.size = (ContSpec.run b ⟨[], [], xy⟩ os).1.live.length ∧
      c.items.Nodup ∧ (∀ x ∈ c.waste, x ∉ c.items) ∧
      (∀ i, c.get i = c.items[i]?) ∧
      (∀ lo up, (c.getItemsRect b lo up).Perm (c.items.filter fun x => decide
        (InSquare b (c.xy x) ∧ lo.x ≤ (c.xy x).x ∧ (c.xy x).x ≤ up.x ∧ lo.y ≤ (c.xy x).y ∧
          (c.xy x).y ≤ up.y))) ∧
      (∀ q r, 0 ≤ r → (c.getItemsCirc b q r).Perm (c.items.filter fun x => decide
        (InSquare b (c.xy x) ∧ ((c.xy x).x - q.x) ^ 2 + ((c.xy x).y - q.y) ^ 2 < r ^ 2))) := by
  obtain ⟨c, e, ⟨hn, hw, hwf, hp⟩, a⟩ :=
    Cont.calls_spec mi md b hs os _ (Cont.Inv_new mi md b xy) hl
  change c.abs = (ContSpec.run b ⟨[], [], xy⟩ os).1 at a
  refine ⟨c, e, ?_, ?_, ?_, ?_, hn, hw, ?_, ?_, ?_⟩
  · rw [← a]; rfl
  · rw [← a]; rfl
  · rw [← a]; rfl
  · rw [← a]; rfl
  · intro i
    unfold Cont.get
    split
    · rfl
    · rename_i h; rw [List.getElem?_eq_none (by omega)]
  · intro lo up
    unfold Cont.getItemsRect
    rw [getRect_eq lo up b c.tree hs hwf]
    refine (hp.filter _).trans ?_
    rw [List.filter_filter]
    have : ∀ x ∈ c.items, (rectQuery c.xy lo up x && decide (InSquare b (c.xy x))) = decide
        (InSquare b (c.xy x) ∧ lo.x ≤ (c.xy x).x ∧ (c.xy x).x ≤ up.x ∧ lo.y ≤ (c.xy x).y ∧
          (c.xy x).y ≤ up.y) := by
      intro x _
      unfold rectQuery inOnRect
      rw [Bool.eq_iff_iff]; simp only [Bool.and_eq_true, decide_eq_true_eq]; tauto
    rw [List.filter_congr this]
  · intro q r hr
    unfold Cont.getItemsCirc
    rw [getCirc_eq q r hr b c.tree hs hwf]
    refine (hp.filter _).trans ?_
    rw [List.filter_filter]
    have : ∀ x ∈ c.items, (circQuery c.xy q (r * r) x && decide (InSquare b (c.xy x))) = decide
        (InSquare b (c.xy x) ∧ ((c.xy x).x - q.x) ^ 2 + ((c.xy x).y - q.y) ^ 2 < r ^ 2) := by
      intro x _
      unfold circQuery Pt.normSq
      rw [Bool.eq_iff_iff]
      simp only [Bool.and_eq_true, decide_eq_true_eq, Pt.sub_x, Pt.sub_y, sq]; tauto
    rw [List.filter_congr this]

/-! ## C07 -/

/-- C07, the part that holds: `update` to a coordinate that is not on the border of the item's
cell: the call is defined, returns whether the new coordinate is in the extent, only the coordinate
of the item changes, and the index holds exactly the live items inside the extent at their new
coordinates; in particular the item can be removed afterwards.
Missing: coordinates on the border of the cell, for which the property fails
(`C07_update_border_violated`). -/
theorem C07_update_partial (hs : 0 ≤ b.s) (xy : α → Pt K) (os : List (ContSpec.Op α K))
    (hl : Cont.LegalCalls mi md b (Cont.new xy) os) (c : Cont α K) (rs : List Bool)
    (hc : (Cont.new xy).calls mi md b os = .ok (c, rs))
    (x : α) (p : Pt K) (hx : x ∈ c.items) (hin : InSquare b (c.xy x))
    (hborder : ∀ bl tl, getLeaf (c.xy x) b c.tree = some (bl, tl) → InSquare bl p → StrictIn bl p) :
    ∃ c', c.update mi md b x p = .ok (c', decide (InSquare b p)) ∧
      c'.items = c.items ∧ c'.waste = c.waste ∧ c'.xy x = p ∧ (∀ y, y ≠ x → c'.xy y = c.xy y) ∧
      (toList c'.tree).Perm (c.items.filter fun y => decide (InSquare b (c'.xy y))) ∧
      (InSquare b p → ∃ c'', c'.remove mi b x = .ok (c'', true) ∧ x ∉ c''.items ∧
        x ∉ toList c''.tree) := by
  obtain ⟨c0, e, i, _⟩ := Cont.calls_spec mi md b hs os _ (Cont.Inv_new mi md b xy) hl
  rw [hc] at e; cases e
  obtain ⟨c', e', i', a'⟩ := Cont.call_spec mi md b hs c i (.update x p) ⟨hx, hin, hborder⟩
  have ha : c'.items = c.items ∧ c'.waste = c.waste ∧
      c'.xy = fun y => if y = x then p else c.xy y := by
    have h1 := congrArg Abs.live a'
    have h2 := congrArg Abs.waste a'
    have h3 := congrArg Abs.xy a'
    exact ⟨h1, h2, h3⟩
  obtain ⟨a1, a2, a3⟩ := ha
  refine ⟨c', e', a1, a2, by rw [a3]; simp, by intro y hy; rw [a3]; simp [hy], ?_, ?_⟩
  · have := i'.2.2.2
    rwa [a1] at this
  · intro hp
    have hx' : c'.xy x = p := by rw [a3]; simp
    obtain ⟨c'', e'', i'', a''⟩ := Cont.call_spec mi md b hs c' i' (.remove x) (by
      change x ∈ c'.items; rw [a1]; exact hx)
    have hst : (ContSpec.step b c'.abs (.remove x)) =
        (⟨c'.items.filter (· ≠ x), c'.waste ++ [x], c'.xy⟩, true) := by
      simp only [ContSpec.step, Cont.abs, hx', hp, if_true]
    rw [hst] at e'' a''
    have hnot : x ∉ c''.items := by
      have := congrArg Abs.live a''
      change c''.items = c'.items.filter (· ≠ x) at this
      rw [this]; simp
    refine ⟨c'', e'', hnot, fun h => hnot ?_⟩
    exact (List.mem_filter.mp (i''.2.2.2.mem_iff.mp h)).1

/-- coordinates of the objects of the witness -/
def borderOps : List (ContSpec.Op Nat ℚ) :=
  [.insert 0 0 ⟨1, 1⟩, .insert 1 1 ⟨-1, 1⟩, .update 1 ⟨0, 1⟩]

/-- C07 is violated: two items in two cells; the second one is moved onto the common border of the
cells.  The update returns true, but afterwards the item cannot be removed: the index looks for it
in the other cell and fails an assertion. -/
theorem C07_update_border_violated :
    ∃ c, (Cont.new (fun _ => (⟨0, 0⟩ : Pt ℚ))).calls 1 3 ⟨⟨0, 0⟩, 16⟩ borderOps
        = .ok (c, [true, true, true]) ∧ c.items = [0, 1] ∧ c.xy 1 = ⟨0, 1⟩ ∧
      c.remove 1 ⟨⟨0, 0⟩, 16⟩ 1 = .abort := by
  refine ⟨⟨[0, 1], .node 2 (.leaf 1 [0]) (.leaf 1 [1]) (.leaf 0 []) (.leaf 0 []), [],
    Cont.setXY (Cont.setXY (Cont.setXY (fun _ => ⟨0, 0⟩) 0 ⟨1, 1⟩) 1 ⟨-1, 1⟩) 1 ⟨0, 1⟩⟩,
    ?_, rfl, by decide +kernel, ?_⟩
  · have h1 : add 1 (Cont.setXY (fun _ => (⟨0, 0⟩ : Pt ℚ)) 0 ⟨1, 1⟩) 3 0 ⟨⟨0, 0⟩, 16⟩ QT.empty =
        (.leaf 1 [0], true) := by decide +kernel
    have h2 : add 1 (Cont.setXY (Cont.setXY (fun _ => (⟨0, 0⟩ : Pt ℚ)) 0 ⟨1, 1⟩) 1 ⟨-1, 1⟩) 3 1
        ⟨⟨0, 0⟩, 16⟩ (.leaf 1 [0]) =
        (.node 2 (.leaf 1 [0]) (.leaf 1 [1]) (.leaf 0 []) (.leaf 0 []), true) := by decide +kernel
    have h3 : getLeaf (Cont.setXY (Cont.setXY (fun _ => (⟨0, 0⟩ : Pt ℚ)) 0 ⟨1, 1⟩) 1 ⟨-1, 1⟩ 1)
        ⟨⟨0, 0⟩, 16⟩ (.node 2 (.leaf 1 [0]) (.leaf 1 [1]) (.leaf 0 []) (.leaf 0 [])) =
        some (⟨⟨-4, 4⟩, 8⟩, .leaf 1 [1]) := by decide +kernel
    have h4 : inOnRect (⟨0, 1⟩ : Pt ℚ) (Box.lo ⟨⟨-4, 4⟩, 8⟩) (Box.up ⟨⟨-4, 4⟩, 8⟩) = true := by
      decide +kernel
    simp only [borderOps, Cont.calls, Cont.call, Cont.insert, Cont.new, List.insertIdx_zero,
      List.insertIdx_succ_cons, h1, h2, Cont.update, h3, h4, if_true]
  · have h5 : QT.remove 1 (Cont.setXY (Cont.setXY (Cont.setXY
        (fun _ => (⟨0, 0⟩ : Pt ℚ)) 0 ⟨1, 1⟩) 1 ⟨-1, 1⟩) 1 ⟨0, 1⟩) 1 ⟨⟨0, 0⟩, 16⟩
        (.node 2 (.leaf 1 [0]) (.leaf 1 [1]) (.leaf 0 []) (.leaf 0 [])) = none := by
      decide +kernel
    simp only [Cont.remove, h5]

/-- `update` of an item that is outside of the extent dereferences a null pointer -/
theorem C07_update_outside_ub_violated (c : Cont α K) (x : α) (p : Pt K)
    (h : ¬ InSquare b (c.xy x)) : c.update mi md b x p = .ub := by
  unfold Cont.update; rw [(getLeaf_none_iff _ _ _).mpr h]

/-! ## Example: the hypotheses of C07/C08 hold for a history with all operations -/

/-- insert three items (one outside of the extent), move one to another cell, remove, clear -/
def contOps : List (ContSpec.Op Nat ℚ) :=
  [.insert 0 0 ⟨1, 1⟩, .insert 0 1 ⟨-1, 1⟩, .insert 1 2 ⟨100, 0⟩, .update 1 ⟨3, 3⟩, .remove 2,
   .remove 0, .clearWaste]

/-- executable form of `LegalCalls` for the example -/
def checkCalls (mi md : Nat) (b : Box ℚ) : Cont Nat ℚ → List (ContSpec.Op Nat ℚ) → Bool
  | _, [] => true
  | c, o :: os =>
    (match o with
     | .insert k x _ => decide (x ∉ c.items ∧ x ∉ c.waste ∧ k ≤ c.items.length)
     | .remove x => decide (x ∈ c.items)
     | .update x p => decide (x ∈ c.items ∧ InSquare b (c.xy x)) &&
        (match getLeaf (c.xy x) b c.tree with
         | none => true
         | some (bl, _) => decide (InSquare bl p → bl.c.x - bl.s / 2 < p.x ∧ p.x < bl.c.x + bl.s / 2 ∧
             bl.c.y - bl.s / 2 < p.y ∧ p.y < bl.c.y + bl.s / 2))
     | .clearWaste => true) &&
    (match c.call mi md b o with
     | .ok (c', _) => checkCalls mi md b c' os
     | _ => true)

theorem checkCalls_sound (mi md : Nat) (b : Box ℚ) : ∀ (os : List (ContSpec.Op Nat ℚ))
    (c : Cont Nat ℚ), checkCalls mi md b c os = true → Cont.LegalCalls mi md b c os := by
  intro os
  induction os with
  | nil => intro c _; trivial
  | cons o os ih =>
    intro c h
    unfold checkCalls at h
    rw [Bool.and_eq_true] at h
    obtain ⟨h1, h2⟩ := h
    refine ⟨?_, ?_⟩
    · cases o with
      | insert k x p => simpa [Cont.LegalCall] using h1
      | remove x => simpa [Cont.LegalCall] using h1
      | update x p =>
        simp only [Bool.and_eq_true, decide_eq_true_eq] at h1
        refine ⟨h1.1.1, h1.1.2, ?_⟩
        intro bl tl e hin
        rw [e] at h1
        exact (decide_eq_true_eq.mp h1.2) hin
      | clearWaste => trivial
    · intro c' r e
      rw [e] at h2
      exact ih c' h2

example : Cont.LegalCalls 1 3 ⟨⟨0, 0⟩, 16⟩ (Cont.new (fun _ => (⟨0, 0⟩ : Pt ℚ))) contOps :=
  checkCalls_sound _ _ _ _ _ (by decide +kernel)

example : (ContSpec.run (⟨⟨0, 0⟩, 16⟩ : Box ℚ) ⟨[], [], fun _ => ⟨0, 0⟩⟩ contOps).2 =
    [true, true, true, true, false, true, true] := by decide +kernel

end TQ

#print axioms TQ.C08_container_consistent
#print axioms TQ.C07_update_partial
#print axioms TQ.C07_update_border_violated
#print axioms TQ.C07_update_outside_ub_violated

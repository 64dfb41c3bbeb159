import Verif.QuadTree.Spec
import Mathlib.Algebra.Order.Ring.Abs

/-! # Helper lemmas for the spatial index -/

set_option linter.unusedSectionVars false

namespace TQ
open QTSpec
variable {α K : Type*} [Field K] [LinearOrder K] [IsStrictOrderedRing K]

theorem Box.has_iff (b : Box K) (p : Pt K) : b.has p = true ↔ InSquare b p := by
  unfold Box.has inOnRect InSquare Box.lo Box.up
  simp only [Bool.and_eq_true, decide_eq_true_eq]
  tauto

theorem Box.has_false (b : Box K) (p : Pt K) : b.has p = false ↔ ¬ InSquare b p := by
  rw [← Box.has_iff, Bool.not_eq_true]

/-- a cell is covered by its children -/
theorem InSquare.cover {b : Box K} {p : Pt K} (h : InSquare b p) :
    InSquare b.ch0 p ∨ InSquare b.ch1 p ∨ InSquare b.ch2 p ∨ InSquare b.ch3 p := by
  obtain ⟨h1, h2, h3, h4⟩ := h
  unfold InSquare Box.ch0 Box.ch1 Box.ch2 Box.ch3
  dsimp only
  have e : b.s / 2 / 2 + b.s / 2 / 2 = b.s / 2 := by ring
  rcases le_total p.x b.c.x with hx | hx <;> rcases le_total p.y b.c.y with hy | hy
  · right; right; left; refine ⟨?_, ?_, ?_, ?_⟩ <;> linarith
  · right; left; refine ⟨?_, ?_, ?_, ?_⟩ <;> linarith
  · right; right; right; refine ⟨?_, ?_, ?_, ?_⟩ <;> linarith
  · left; refine ⟨?_, ?_, ?_, ?_⟩ <;> linarith

/-- children lie in the cell -/
theorem InSquare.of_child {b : Box K} {p : Pt K} (hs : 0 ≤ b.s)
    (h : InSquare b.ch0 p ∨ InSquare b.ch1 p ∨ InSquare b.ch2 p ∨ InSquare b.ch3 p) :
    InSquare b p := by
  have e : b.s / 2 / 2 + b.s / 2 / 2 = b.s / 2 := by ring
  have e2 : b.s / 2 + b.s / 2 = b.s := by ring
  unfold InSquare Box.ch0 Box.ch1 Box.ch2 Box.ch3 at *
  dsimp only at h
  rcases h with ⟨h1, h2, h3, h4⟩ | ⟨h1, h2, h3, h4⟩ | ⟨h1, h2, h3, h4⟩ | ⟨h1, h2, h3, h4⟩ <;>
    refine ⟨?_, ?_, ?_, ?_⟩ <;> linarith

namespace QT

/-- Well-formed trees: counters are right, capacity and depth limits hold, every item sits in the
first child whose closed square contains it.  `d` is the remaining depth. -/
def WF (mi : Nat) (pos : α → Pt K) : Nat → Box K → QT α → Prop
  | d, b, leaf n l => n = l.length ∧ (l.length ≤ mi ∨ d = 0) ∧ ∀ x ∈ l, InSquare b (pos x)
  | 0, _, node .. => False
  | d + 1, b, node n c0 c1 c2 c3 =>
    (mi < n ∧ n = (toList c0 ++ toList c1 ++ toList c2 ++ toList c3).length) ∧
    (WF mi pos d b.ch0 c0 ∧ WF mi pos d b.ch1 c1 ∧ WF mi pos d b.ch2 c2 ∧ WF mi pos d b.ch3 c3) ∧
    (∀ x ∈ toList c1, ¬ InSquare b.ch0 (pos x)) ∧
    (∀ x ∈ toList c2, ¬ InSquare b.ch0 (pos x) ∧ ¬ InSquare b.ch1 (pos x)) ∧
    (∀ x ∈ toList c3, ¬ InSquare b.ch0 (pos x) ∧ ¬ InSquare b.ch1 (pos x) ∧
      ¬ InSquare b.ch2 (pos x))

/-- the part of `WF` about the four children -/
def KWF (mi : Nat) (pos : α → Pt K) (d : Nat) (b : Box K) (k : Kids α) : Prop :=
    (WF mi pos d b.ch0 k.k0 ∧ WF mi pos d b.ch1 k.k1 ∧ WF mi pos d b.ch2 k.k2 ∧
      WF mi pos d b.ch3 k.k3) ∧
    (∀ x ∈ toList k.k1, ¬ InSquare b.ch0 (pos x)) ∧
    (∀ x ∈ toList k.k2, ¬ InSquare b.ch0 (pos x) ∧ ¬ InSquare b.ch1 (pos x)) ∧
    (∀ x ∈ toList k.k3, ¬ InSquare b.ch0 (pos x) ∧ ¬ InSquare b.ch1 (pos x) ∧
      ¬ InSquare b.ch2 (pos x))

def Kids.list (k : Kids α) : List α :=
  toList k.k0 ++ toList k.k1 ++ toList k.k2 ++ toList k.k3

variable {mi : Nat} {pos : α → Pt K}

theorem WF_node {d : Nat} {b : Box K} {n : Nat} {c0 c1 c2 c3 : QT α} :
    WF mi pos (d + 1) b (node n c0 c1 c2 c3) ↔
      (mi < n ∧ n = (Kids.list ⟨c0, c1, c2, c3⟩).length) ∧ KWF mi pos d b ⟨c0, c1, c2, c3⟩ := by
  unfold WF KWF Kids.list; rfl

theorem WF_leaf {d : Nat} {b : Box K} {n : Nat} {l : List α} :
    WF mi pos d b (leaf n l) ↔
      n = l.length ∧ (l.length ≤ mi ∨ d = 0) ∧ ∀ x ∈ l, InSquare b (pos x) := by
  cases d <;> rfl

theorem WF.size_eq {d : Nat} {b : Box K} {t : QT α} (h : WF mi pos d b t) :
    t.size = (toList t).length := by
  cases t with
  | leaf n l => exact (WF_leaf.mp h).1
  | node n c0 c1 c2 c3 =>
    cases d with
    | zero => exact h.elim
    | succ d => exact (WF_node.mp h).1.2

/-- all items of a well-formed tree lie in its square -/
theorem WF.inSquare {d : Nat} : ∀ {b : Box K} {t : QT α}, 0 ≤ b.s → WF mi pos d b t →
    ∀ x ∈ toList t, InSquare b (pos x) := by
  induction d with
  | zero =>
    intro b t _ h x hx
    cases t with
    | leaf n l => exact (WF_leaf.mp h).2.2 x hx
    | node n c0 c1 c2 c3 => exact h.elim
  | succ d ih =>
    intro b t hs h x hx
    cases t with
    | leaf n l => exact (WF_leaf.mp h).2.2 x hx
    | node n c0 c1 c2 c3 =>
      obtain ⟨_, ⟨h0, h1, h2, h3⟩, _⟩ := WF_node.mp h
      have hs2 : (0 : K) ≤ b.s / 2 := by linarith
      simp only [toList, List.mem_append] at hx
      apply InSquare.of_child hs
      rcases hx with ((hx | hx) | hx) | hx
      · exact Or.inl (ih (b := b.ch0) hs2 h0 x hx)
      · exact Or.inr (Or.inl (ih (b := b.ch1) hs2 h1 x hx))
      · exact Or.inr (Or.inr (Or.inl (ih (b := b.ch2) hs2 h2 x hx)))
      · exact Or.inr (Or.inr (Or.inr (ih (b := b.ch3) hs2 h3 x hx)))

theorem add_outside (d : Nat) (x : α) (b : Box K) (t : QT α) (h : ¬ InSquare b (pos x)) :
    add mi pos d x b t = (t, false) := by
  have hb := (Box.has_false b (pos x)).mpr h
  cases d <;> cases t <;> simp [add, hb]

/-- what one `add` does -/
def AddOK (mi : Nat) (pos : α → Pt K) (d : Nat) : Prop :=
  ∀ (x : α) (b : Box K) (t : QT α), WF mi pos d b t → InSquare b (pos x) →
    (add mi pos d x b t).2 = true ∧ WF mi pos d b (add mi pos d x b t).1 ∧
    (toList (add mi pos d x b t).1).Perm (x :: toList t)

theorem passKids_spec {d : Nat} (hadd : AddOK mi pos d) {x : α} {b : Box K} {k : Kids α}
    (hk : KWF mi pos d b k) (hx : InSquare b (pos x)) :
    (passKids (add mi pos d x) b k).2 = true ∧ KWF mi pos d b (passKids (add mi pos d x) b k).1 ∧
    (passKids (add mi pos d x) b k).1.list.Perm (x :: k.list) := by
  obtain ⟨⟨w0, w1, w2, w3⟩, l1, l2, l3⟩ := hk
  by_cases h0 : InSquare b.ch0 (pos x)
  · obtain ⟨e, w, p⟩ := hadd x b.ch0 k.k0 w0 h0
    unfold passKids; simp only [e, if_true]
    refine ⟨trivial, ⟨⟨w, w1, w2, w3⟩, l1, l2, l3⟩, ?_⟩
    unfold Kids.list; simp only [List.append_assoc]
    exact p.append_right _
  · have e0 := add_outside (mi := mi) d x b.ch0 k.k0 h0
    by_cases h1 : InSquare b.ch1 (pos x)
    · obtain ⟨e, w, p⟩ := hadd x b.ch1 k.k1 w1 h1
      unfold passKids; simp only [e0, e, if_true, Bool.false_eq_true, if_false]
      refine ⟨trivial, ⟨⟨w0, w, w2, w3⟩, ?_, l2, l3⟩, ?_⟩
      · intro y hy
        rcases List.mem_cons.mp (p.mem_iff.mp hy) with rfl | hy
        · exact h0
        · exact l1 y hy
      · unfold Kids.list; simp only [List.append_assoc]
        refine ((p.append_right _).append_left _).trans ?_
        exact List.perm_middle
    · have e1 := add_outside (mi := mi) d x b.ch1 k.k1 h1
      by_cases h2 : InSquare b.ch2 (pos x)
      · obtain ⟨e, w, p⟩ := hadd x b.ch2 k.k2 w2 h2
        unfold passKids; simp only [e0, e1, e, if_true, Bool.false_eq_true, if_false]
        refine ⟨trivial, ⟨⟨w0, w1, w, w3⟩, l1, ?_, l3⟩, ?_⟩
        · intro y hy
          rcases List.mem_cons.mp (p.mem_iff.mp hy) with rfl | hy
          · exact ⟨h0, h1⟩
          · exact l2 y hy
        · unfold Kids.list
          refine ((p.append_left _).append_right _).trans ?_
          simp only [List.append_assoc, List.cons_append]
          rw [← List.append_assoc, ← List.append_assoc (toList k.k0)]
          exact List.perm_middle
      · have e2 := add_outside (mi := mi) d x b.ch2 k.k2 h2
        have h3 : InSquare b.ch3 (pos x) := by
          rcases InSquare.cover hx with h | h | h | h
          · exact absurd h h0
          · exact absurd h h1
          · exact absurd h h2
          · exact h
        obtain ⟨e, w, p⟩ := hadd x b.ch3 k.k3 w3 h3
        unfold passKids; simp only [e0, e1, e2, e, Bool.false_eq_true, if_false]
        refine ⟨trivial, ⟨⟨w0, w1, w2, w⟩, l1, l2, ?_⟩, ?_⟩
        · intro y hy
          rcases List.mem_cons.mp (p.mem_iff.mp hy) with rfl | hy
          · exact ⟨h0, h1, h2⟩
          · exact l3 y hy
        · unfold Kids.list
          refine (p.append_left _).trans ?_
          exact List.perm_middle

theorem distribute_spec {d : Nat} (hadd : AddOK mi pos d) {b : Box K} :
    ∀ (xs : List α) (n : Nat) (k : Kids α), KWF mi pos d b k → (∀ x ∈ xs, InSquare b (pos x)) →
    (distribute (add mi pos d) b xs n k).1 = [] ∧ (distribute (add mi pos d) b xs n k).2.1 = n ∧
    KWF mi pos d b (distribute (add mi pos d) b xs n k).2.2 ∧
    (distribute (add mi pos d) b xs n k).2.2.list.Perm (xs ++ k.list) := by
  intro xs
  induction xs with
  | nil => intro n k hk _; exact ⟨rfl, rfl, hk, List.Perm.refl _⟩
  | cons x xs ih =>
    intro n k hk hx
    obtain ⟨e, w, p⟩ := passKids_spec hadd hk (hx x List.mem_cons_self)
    have := ih n _ w (fun y hy => hx y (List.mem_cons_of_mem _ hy))
    unfold distribute
    simp only [e, if_true, Nat.add_sub_cancel]
    refine ⟨this.1, this.2.1, this.2.2.1, this.2.2.2.trans ?_⟩
    refine (p.append_left xs).trans ?_
    exact List.perm_middle

theorem KWF_empty (d : Nat) (b : Box K) :
    KWF mi pos d b (⟨empty, empty, empty, empty⟩ : Kids α) := by
  refine ⟨⟨?_, ?_, ?_, ?_⟩, ?_, ?_, ?_⟩
  all_goals first | (unfold empty; rw [WF_leaf]; simp) | simp [toList, empty]

theorem addOK : ∀ d : Nat, AddOK mi pos d (α := α) := by
  intro d
  induction d with
  | zero =>
    intro x b t h hx
    have hb := (Box.has_iff b (pos x)).mpr hx
    cases t with
    | leaf n l =>
      obtain ⟨h1, _, h3⟩ := WF_leaf.mp h
      simp only [add, hb, if_true, toList]
      refine ⟨trivial, WF_leaf.mpr ⟨by simp [h1], Or.inr rfl, ?_⟩, List.perm_append_singleton x l⟩
      intro y hy
      rcases List.mem_append.mp hy with hy | hy
      · exact h3 y hy
      · rw [List.mem_singleton.mp hy]; exact hx
    | node n c0 c1 c2 c3 => exact h.elim
  | succ d ih =>
    intro x b t h hx
    have hb := (Box.has_iff b (pos x)).mpr hx
    cases t with
    | leaf n l =>
      obtain ⟨h1, _, h3⟩ := WF_leaf.mp h
      have hall : ∀ y ∈ l ++ [x], InSquare b (pos y) := by
        intro y hy
        rcases List.mem_append.mp hy with hy | hy
        · exact h3 y hy
        · rw [List.mem_singleton.mp hy]; exact hx
      simp only [add, hb, if_true]
      by_cases hlen : (l ++ [x]).length > mi
      · simp only [hlen, if_true]
        obtain ⟨e1, e2, w, p⟩ := distribute_spec ih (l ++ [x]).reverse (n + 1)
          ⟨empty, empty, empty, empty⟩ (KWF_empty d b)
          (fun y hy => hall y (List.mem_reverse.mp hy))
        simp only [e1, List.isEmpty_nil, if_true, e2]
        have p' : (distribute (add mi pos d) b (l ++ [x]).reverse (n + 1)
            ⟨empty, empty, empty, empty⟩).2.2.list.Perm (x :: l) := by
          refine p.trans ?_
          have : Kids.list (⟨empty, empty, empty, empty⟩ : Kids α) = [] := rfl
          rw [this, List.append_nil]
          exact (List.reverse_perm _).trans (List.perm_append_singleton x l)
        refine ⟨trivial, WF_node.mpr ⟨⟨?_, ?_⟩, w⟩, p'⟩
        · rw [h1]; simpa using hlen
        · have := p'.length_eq
          rw [List.length_cons] at this
          have h4 : n + 1 = l.length + 1 := by rw [h1]
          exact h4.trans this.symm
      · simp only [hlen, if_false, toList]
        exact ⟨trivial, WF_leaf.mpr ⟨by simp [h1], Or.inl (not_lt.mp hlen), hall⟩,
          List.perm_append_singleton x l⟩
    | node n c0 c1 c2 c3 =>
      obtain ⟨⟨h1, h2⟩, hk⟩ := WF_node.mp h
      obtain ⟨e, w, p⟩ := passKids_spec ih hk hx
      simp only [add, hb, if_true, e]
      refine ⟨trivial, WF_node.mpr ⟨⟨by omega, ?_⟩, w⟩, p⟩
      have := p.length_eq
      rw [List.length_cons, ← h2] at this
      exact this.symm

/-! ### remove -/
variable [DecidableEq α]

theorem remove_outside (x : α) (b : Box K) (t : QT α) (h : ¬ InSquare b (pos x)) :
    remove mi pos x b t = some (t, false) := by
  have hb := (Box.has_false b (pos x)).mpr h
  cases t <;> simp [remove, hb]

theorem filter_ne_eq_erase {l : List α} (hn : l.Nodup) (x : α) :
    l.filter (fun y => !decide (y = x)) = l.erase x := by
  rw [hn.erase_eq_filter]
  congr 1

theorem mergeItems_spec {d n : Nat} {b : Box K} {c0 c1 c2 c3 : QT α}
    (hk : KWF mi pos d b ⟨c0, c1, c2, c3⟩) (hn : n = (Kids.list ⟨c0, c1, c2, c3⟩).length)
    (hle : n ≤ mi) : mergeItems c0 c1 c2 c3 = some (Kids.list ⟨c0, c1, c2, c3⟩) := by
  have key : ∀ (b' : Box K) (t : QT α), WF mi pos d b' t → (toList t).length ≤ mi →
      t.isSplit = false ∧ t.items = toList t := by
    intro b' t hw hl
    cases t with
    | leaf => exact ⟨rfl, rfl⟩
    | node m a0 a1 a2 a3 =>
      cases d with
      | zero => exact hw.elim
      | succ d =>
        obtain ⟨⟨h1, h2⟩, _⟩ := WF_node.mp hw
        have h3 : m = (toList (node m a0 a1 a2 a3)).length := h2
        exact absurd h1 (by omega)
  obtain ⟨⟨w0, w1, w2, w3⟩, _⟩ := hk
  unfold Kids.list at *
  simp only [List.length_append] at hn
  obtain ⟨s0, i0⟩ := key _ _ w0 (by simp only; omega)
  obtain ⟨s1, i1⟩ := key _ _ w1 (by simp only; omega)
  obtain ⟨s2, i2⟩ := key _ _ w2 (by simp only; omega)
  obtain ⟨s3, i3⟩ := key _ _ w3 (by simp only; omega)
  simp only at s0 i0 s1 i1 s2 i2 s3 i3
  unfold mergeItems
  simp [s0, s1, s2, s3, i0, i1, i2, i3]

theorem afterRemove_spec {d n : Nat} {b : Box K} {c0 c1 c2 c3 : QT α} (hs : 0 ≤ b.s)
    (hk : KWF mi pos d b ⟨c0, c1, c2, c3⟩)
    (hn : n - 1 = (Kids.list ⟨c0, c1, c2, c3⟩).length) :
    ∃ t', afterRemove mi n c0 c1 c2 c3 = some (t', true) ∧ WF mi pos (d + 1) b t' ∧
      toList t' = Kids.list ⟨c0, c1, c2, c3⟩ := by
  unfold afterRemove
  by_cases hle : n - 1 ≤ mi
  · simp only [hle, if_true, mergeItems_spec hk hn hle]
    refine ⟨_, rfl, WF_leaf.mpr ⟨hn, Or.inl (hn ▸ hle), ?_⟩, rfl⟩
    obtain ⟨⟨w0, w1, w2, w3⟩, _⟩ := hk
    have hs2 : (0 : K) ≤ b.s / 2 := by linarith
    intro x hx
    unfold Kids.list at hx
    simp only [List.mem_append] at hx
    apply InSquare.of_child hs
    rcases hx with ((hx | hx) | hx) | hx
    · exact Or.inl (w0.inSquare (b := b.ch0) hs2 x hx)
    · exact Or.inr (Or.inl (w1.inSquare (b := b.ch1) hs2 x hx))
    · exact Or.inr (Or.inr (Or.inl (w2.inSquare (b := b.ch2) hs2 x hx)))
    · exact Or.inr (Or.inr (Or.inr (w3.inSquare (b := b.ch3) hs2 x hx)))
  · simp only [hle, if_false]
    exact ⟨_, rfl, WF_node.mpr ⟨⟨by omega, hn⟩, hk⟩, rfl⟩

/-- removing a stored item works -/
theorem remove_spec {d : Nat} : ∀ (x : α) (b : Box K) (t : QT α), 0 ≤ b.s → WF mi pos d b t →
    (toList t).Nodup → x ∈ toList t →
    ∃ t', remove mi pos x b t = some (t', true) ∧ WF mi pos d b t' ∧
      (toList t').Perm ((toList t).erase x) := by
  induction d with
  | zero =>
    intro x b t hs h hn hx
    have hb := (Box.has_iff b (pos x)).mpr (h.inSquare hs x hx)
    cases t with
    | leaf n l =>
      obtain ⟨h1, h2, h3⟩ := WF_leaf.mp h
      have hx' : x ∈ l := hx
      have hlen : (l.erase x).length < l.length := by
        rw [List.length_erase_of_mem hx']
        have := List.length_pos_of_mem hx'; omega
      unfold remove
      simp only [hb, if_true, filter_ne_eq_erase (l := l) hn, hlen]
      refine ⟨_, rfl, WF_leaf.mpr ⟨?_, Or.inr rfl, ?_⟩, List.Perm.refl _⟩
      · rw [List.length_erase_of_mem hx', h1]
      · intro y hy; exact h3 y (List.mem_of_mem_erase hy)
    | node n c0 c1 c2 c3 => exact h.elim
  | succ d ih =>
    intro x b t hs h hn hx
    have hb := (Box.has_iff b (pos x)).mpr (h.inSquare hs x hx)
    cases t with
    | leaf n l =>
      obtain ⟨h1, h2, h3⟩ := WF_leaf.mp h
      have hx' : x ∈ l := hx
      have hlen : (l.erase x).length < l.length := by
        rw [List.length_erase_of_mem hx']
        have := List.length_pos_of_mem hx'; omega
      unfold remove
      simp only [hb, if_true, filter_ne_eq_erase (l := l) hn, hlen]
      refine ⟨_, rfl, WF_leaf.mpr ⟨?_, ?_, ?_⟩, List.Perm.refl _⟩
      · rw [List.length_erase_of_mem hx', h1]
      · left; rcases h2 with h2 | h2
        · omega
        · omega
      · intro y hy; exact h3 y (List.mem_of_mem_erase hy)
    | node n c0 c1 c2 c3 =>
      obtain ⟨⟨h1, h2⟩, hk⟩ := WF_node.mp h
      obtain ⟨⟨w0, w1, w2, w3⟩, l1, l2, l3⟩ := hk
      simp only at w0 w1 w2 w3 l1 l2 l3
      have hs2 : (0 : K) ≤ b.s / 2 := by linarith
      have hxl : x ∈ toList c0 ++ toList c1 ++ toList c2 ++ toList c3 := hx
      have hnl : (toList c0 ++ toList c1 ++ toList c2 ++ toList c3).Nodup := hn
      have hnn : n = (toList c0 ++ toList c1 ++ toList c2 ++ toList c3).length := h2
      have hlen : ((toList c0 ++ toList c1 ++ toList c2 ++ toList c3).erase x).length = n - 1 := by
        rw [List.length_erase_of_mem hxl, hnn]
      unfold remove
      simp only [hb, if_true]
      by_cases m0 : x ∈ toList c0
      · obtain ⟨t', e, w, p⟩ := ih x b.ch0 c0 hs2 w0
          (hnl.sublist (by simp only [List.append_assoc]; exact List.sublist_append_left _ _)) m0
        simp only [e]
        have pp : (Kids.list ⟨t', c1, c2, c3⟩).Perm
            ((toList c0 ++ toList c1 ++ toList c2 ++ toList c3).erase x) := by
          unfold Kids.list; simp only [List.append_assoc]
          rw [List.erase_append_left _ m0]
          exact p.append_right _
        obtain ⟨t2, e2, w2', l⟩ := afterRemove_spec (n := n) hs
          (⟨⟨w, w1, w2, w3⟩, l1, l2, l3⟩ : KWF mi pos d b ⟨t', c1, c2, c3⟩)
          (by rw [pp.length_eq, hlen])
        exact ⟨t2, e2, w2', l ▸ pp⟩
      · by_cases m1 : x ∈ toList c1
        · rw [remove_outside x b.ch0 c0 (l1 x m1)]
          obtain ⟨t', e, w, p⟩ := ih x b.ch1 c1 hs2 w1
            (hnl.sublist ((List.sublist_append_right _ _).trans ((List.sublist_append_left _ _).trans (List.sublist_append_left _ _)))) m1
          simp only [e]
          have pp : (Kids.list ⟨c0, t', c2, c3⟩).Perm
              ((toList c0 ++ toList c1 ++ toList c2 ++ toList c3).erase x) := by
            unfold Kids.list; simp only [List.append_assoc]
            rw [List.erase_append_right _ m0, List.erase_append_left _ m1]
            exact (p.append_right _).append_left _
          obtain ⟨t2, e2, w2', l⟩ := afterRemove_spec (n := n) hs
            (⟨⟨w0, w, w2, w3⟩, fun y hy => l1 y (List.mem_of_mem_erase (p.mem_iff.mp hy)), l2, l3⟩ :
              KWF mi pos d b ⟨c0, t', c2, c3⟩)
            (by rw [pp.length_eq, hlen])
          exact ⟨t2, e2, w2', l ▸ pp⟩
        · by_cases m2 : x ∈ toList c2
          · rw [remove_outside x b.ch0 c0 (l2 x m2).1, remove_outside x b.ch1 c1 (l2 x m2).2]
            obtain ⟨t', e, w, p⟩ := ih x b.ch2 c2 hs2 w2
              (hnl.sublist ((List.sublist_append_right _ _).trans (List.sublist_append_left _ _))) m2
            simp only [e]
            have pp : (Kids.list ⟨c0, c1, t', c3⟩).Perm
                ((toList c0 ++ toList c1 ++ toList c2 ++ toList c3).erase x) := by
              unfold Kids.list
              rw [List.append_assoc _ (toList c2), List.erase_append_right _ (by simp [m0, m1]),
                List.erase_append_left _ m2]
              simp only [List.append_assoc]
              exact ((p.append_right _).append_left _).append_left _
            obtain ⟨t2, e2, w2', l⟩ := afterRemove_spec (n := n) hs
              (⟨⟨w0, w1, w, w3⟩, l1,
                fun y hy => l2 y (List.mem_of_mem_erase (p.mem_iff.mp hy)), l3⟩ :
                KWF mi pos d b ⟨c0, c1, t', c3⟩)
              (by rw [pp.length_eq, hlen])
            exact ⟨t2, e2, w2', l ▸ pp⟩
          · have m3 : x ∈ toList c3 := by
              simp only [List.mem_append] at hxl; tauto
            rw [remove_outside x b.ch0 c0 (l3 x m3).1, remove_outside x b.ch1 c1 (l3 x m3).2.1,
              remove_outside x b.ch2 c2 (l3 x m3).2.2]
            obtain ⟨t', e, w, p⟩ := ih x b.ch3 c3 hs2 w3
              (hnl.sublist (List.sublist_append_right _ _)) m3
            simp only [e]
            have pp : (Kids.list ⟨c0, c1, c2, t'⟩).Perm
                ((toList c0 ++ toList c1 ++ toList c2 ++ toList c3).erase x) := by
              unfold Kids.list
              rw [List.erase_append_right _ (by simp [m0, m1, m2])]
              exact p.append_left _
            obtain ⟨t2, e2, w2', l⟩ := afterRemove_spec (n := n) hs
              (⟨⟨w0, w1, w2, w⟩, l1, l2,
                fun y hy => l3 y (List.mem_of_mem_erase (p.mem_iff.mp hy))⟩ :
                KWF mi pos d b ⟨c0, c1, c2, t'⟩)
              (by rw [pp.length_eq, hlen])
            exact ⟨t2, e2, w2', l ▸ pp⟩

/-! ### queries -/

omit [DecidableEq α] in
theorem getRect_eq (lo up : Pt K) {d : Nat} : ∀ (b : Box K) (t : QT α), 0 ≤ b.s →
    WF mi pos d b t →
    getRect pos lo up (rectQuery pos lo up) b t = (toList t).filter (rectQuery pos lo up) := by
  have key : ∀ (b : Box K) (l : List α), rectOverlap b.lo b.up lo up = false →
      (∀ x ∈ l, InSquare b (pos x)) → l.filter (rectQuery pos lo up) = [] := by
    intro b l hf hl
    rw [List.filter_eq_nil_iff]
    intro x hx hq
    obtain ⟨h1, h2, h3, h4⟩ := hl x hx
    unfold rectQuery inOnRect at hq
    simp only [Bool.and_eq_true, decide_eq_true_eq] at hq
    obtain ⟨⟨⟨q1, q2⟩, q3⟩, q4⟩ := hq
    have : rectOverlap b.lo b.up lo up = true := by
      unfold rectOverlap Box.lo Box.up
      simp only [Bool.and_eq_true, decide_eq_true_eq]
      refine ⟨⟨⟨?_, ?_⟩, ?_⟩, ?_⟩ <;> linarith
    rw [hf] at this; exact absurd this (by simp)
  induction d with
  | zero =>
    intro b t hs h
    cases t with
    | leaf n l =>
      unfold getRect
      by_cases ho : rectOverlap b.lo b.up lo up = true
      · simp [ho, toList]
      · rw [Bool.not_eq_true] at ho
        simp only [ho, Bool.false_eq_true, if_false, toList]
        exact (key b l ho (WF_leaf.mp h).2.2).symm
    | node n c0 c1 c2 c3 => exact h.elim
  | succ d ih =>
    intro b t hs h
    cases t with
    | leaf n l =>
      unfold getRect
      by_cases ho : rectOverlap b.lo b.up lo up = true
      · simp [ho, toList]
      · rw [Bool.not_eq_true] at ho
        simp only [ho, Bool.false_eq_true, if_false, toList]
        exact (key b l ho (WF_leaf.mp h).2.2).symm
    | node n c0 c1 c2 c3 =>
      have hin := h.inSquare hs
      obtain ⟨_, ⟨w0, w1, w2, w3⟩, _⟩ := WF_node.mp h
      have hs2 : (0 : K) ≤ b.s / 2 := by linarith
      unfold getRect
      by_cases ho : rectOverlap b.lo b.up lo up = true
      · have i0 := ih b.ch0 c0 hs2 w0
        have i1 := ih b.ch1 c1 hs2 w1
        have i2 := ih b.ch2 c2 hs2 w2
        have i3 := ih b.ch3 c3 hs2 w3
        have e : (fun x : α => inOnRect (pos x) lo up) = rectQuery pos lo up := rfl
        simp only [ho, if_true, e, i0, i1, i2, i3, toList, List.filter_append]
      · rw [Bool.not_eq_true] at ho
        simp only [ho, Bool.false_eq_true, if_false]
        exact (key b _ ho hin).symm

omit [DecidableEq α] in
theorem getCirc_eq (c : Pt K) (r : K) (hr : 0 ≤ r) {d : Nat} : ∀ (b : Box K) (t : QT α), 0 ≤ b.s →
    WF mi pos d b t →
    getCirc pos c r (circQuery pos c (r * r)) b t =
      (toList t).filter (circQuery pos c (r * r)) := by
  have key : ∀ (b : Box K) (l : List α),
      rectOverlap b.lo b.up ⟨c.x - 14142 / 10000 * r, c.y - 14142 / 10000 * r⟩
        ⟨c.x + 14142 / 10000 * r, c.y + 14142 / 10000 * r⟩ = false →
      (∀ x ∈ l, InSquare b (pos x)) → l.filter (circQuery pos c (r * r)) = [] := by
    intro b l hf hl
    rw [List.filter_eq_nil_iff]
    intro x hx hq
    obtain ⟨h1, h2, h3, h4⟩ := hl x hx
    unfold circQuery Pt.normSq at hq
    simp only [decide_eq_true_eq, Pt.sub_x, Pt.sub_y] at hq
    have hx1 : (pos x).x - c.x < r ∧ -r < (pos x).x - c.x := by
      have : ((pos x).x - c.x) ^ 2 < r ^ 2 := by nlinarith [mul_self_nonneg ((pos x).y - c.y)]
      have h := abs_lt_of_sq_lt_sq this hr
      rw [abs_lt] at h; exact ⟨h.2, h.1⟩
    have hy1 : (pos x).y - c.y < r ∧ -r < (pos x).y - c.y := by
      have : ((pos x).y - c.y) ^ 2 < r ^ 2 := by nlinarith [mul_self_nonneg ((pos x).x - c.x)]
      have h := abs_lt_of_sq_lt_sq this hr
      rw [abs_lt] at h; exact ⟨h.2, h.1⟩
    have hrr : r ≤ 14142 / 10000 * r := by
      have : (1 : K) ≤ 14142 / 10000 := by norm_num
      nlinarith
    have : rectOverlap b.lo b.up ⟨c.x - 14142 / 10000 * r, c.y - 14142 / 10000 * r⟩
        ⟨c.x + 14142 / 10000 * r, c.y + 14142 / 10000 * r⟩ = true := by
      unfold rectOverlap Box.lo Box.up
      simp only [Bool.and_eq_true, decide_eq_true_eq]
      refine ⟨⟨⟨?_, ?_⟩, ?_⟩, ?_⟩ <;> linarith
    rw [hf] at this; exact absurd this (by simp)
  induction d with
  | zero =>
    intro b t hs h
    cases t with
    | leaf n l =>
      unfold getCirc
      by_cases ho : rectOverlap b.lo b.up ⟨c.x - 14142 / 10000 * r, c.y - 14142 / 10000 * r⟩
        ⟨c.x + 14142 / 10000 * r, c.y + 14142 / 10000 * r⟩ = true
      · simp [ho, toList]
      · rw [Bool.not_eq_true] at ho
        simp only [ho, Bool.false_eq_true, if_false, toList]
        exact (key b l ho (WF_leaf.mp h).2.2).symm
    | node n c0 c1 c2 c3 => exact h.elim
  | succ d ih =>
    intro b t hs h
    cases t with
    | leaf n l =>
      unfold getCirc
      by_cases ho : rectOverlap b.lo b.up ⟨c.x - 14142 / 10000 * r, c.y - 14142 / 10000 * r⟩
        ⟨c.x + 14142 / 10000 * r, c.y + 14142 / 10000 * r⟩ = true
      · simp [ho, toList]
      · rw [Bool.not_eq_true] at ho
        simp only [ho, Bool.false_eq_true, if_false, toList]
        exact (key b l ho (WF_leaf.mp h).2.2).symm
    | node n c0 c1 c2 c3 =>
      have hin := h.inSquare hs
      obtain ⟨_, ⟨w0, w1, w2, w3⟩, _⟩ := WF_node.mp h
      have hs2 : (0 : K) ≤ b.s / 2 := by linarith
      unfold getCirc
      by_cases ho : rectOverlap b.lo b.up ⟨c.x - 14142 / 10000 * r, c.y - 14142 / 10000 * r⟩
        ⟨c.x + 14142 / 10000 * r, c.y + 14142 / 10000 * r⟩ = true
      · have i0 := ih b.ch0 c0 hs2 w0
        have i1 := ih b.ch1 c1 hs2 w1
        have i2 := ih b.ch2 c2 hs2 w2
        have i3 := ih b.ch3 c3 hs2 w3
        simp only [ho, if_true, i0, i1, i2, i3, toList, List.filter_append]
      · rw [Bool.not_eq_true] at ho
        simp only [ho, Bool.false_eq_true, if_false]
        exact (key b _ ho hin).symm

/-! ### leaf search -/

omit [DecidableEq α] in
theorem getLeaf_none_iff (q : Pt K) (b : Box K) (t : QT α) :
    getLeaf q b t = none ↔ ¬ InSquare b q := by
  rw [← Box.has_false]
  cases t with
  | leaf n l => unfold getLeaf; split_ifs with h <;> simp_all
  | node n c0 c1 c2 c3 =>
    unfold getLeaf
    split_ifs with h
    · constructor
      · intro hh
        repeat' split at hh
        all_goals simp_all
      · intro hh; simp_all
    · simp_all

/-- the leaf found is a cell of the tree, unsplit, and contains the query point -/
theorem getLeaf_spec (q : Pt K) {d0 : Nat} : ∀ (b : Box K) (t : QT α) {bl tl},
    getLeaf q b t = some (bl, tl) →
    InSquare bl q ∧ tl.isSplit = false ∧ (∃ d, (d, bl, tl) ∈ cells d0 b t) ∧
    (0 ≤ b.s → 0 ≤ bl.s) := by
  intro b t
  induction t generalizing b d0 with
  | leaf n l =>
    intro bl tl h
    unfold getLeaf at h
    split_ifs at h with hb
    · cases h
      refine ⟨(Box.has_iff _ _).mp hb, rfl, ⟨d0, by simp [cells]⟩, fun h => h⟩
  | node n c0 c1 c2 c3 i0 i1 i2 i3 =>
    intro bl tl h
    have hd2 : 0 ≤ b.s → (0 : K) ≤ b.s / 2 := fun h => by linarith
    unfold getLeaf at h
    split_ifs at h with hb
    have hq := (Box.has_iff _ _).mp hb
    cases e0 : getLeaf q b.ch0 c0 with
    | some r =>
      simp only [e0] at h; cases h
      obtain ⟨h1, h2, ⟨d, h3⟩, h4⟩ := i0 (d0 := d0 + 1) b.ch0 e0
      exact ⟨h1, h2, ⟨d, by simp [cells, h3]⟩, fun h => h4 (hd2 h)⟩
    | none =>
      simp only [e0] at h
      cases e1 : getLeaf q b.ch1 c1 with
      | some r =>
        simp only [e1] at h; cases h
        obtain ⟨h1, h2, ⟨d, h3⟩, h4⟩ := i1 (d0 := d0 + 1) b.ch1 e1
        exact ⟨h1, h2, ⟨d, by simp [cells, h3]⟩, fun h => h4 (hd2 h)⟩
      | none =>
        simp only [e1] at h
        cases e2 : getLeaf q b.ch2 c2 with
        | some r =>
          simp only [e2] at h; cases h
          obtain ⟨h1, h2, ⟨d, h3⟩, h4⟩ := i2 (d0 := d0 + 1) b.ch2 e2
          exact ⟨h1, h2, ⟨d, by simp [cells, h3]⟩, fun h => h4 (hd2 h)⟩
        | none =>
          simp only [e2] at h
          cases e3 : getLeaf q b.ch3 c3 with
          | some r =>
            simp only [e3] at h; cases h
            obtain ⟨h1, h2, ⟨d, h3⟩, h4⟩ := i3 (d0 := d0 + 1) b.ch3 e3
            exact ⟨h1, h2, ⟨d, by simp [cells, h3]⟩, fun h => h4 (hd2 h)⟩
          | none =>
            rw [getLeaf_none_iff] at e0 e1 e2 e3
            exact absurd (InSquare.cover hq) (by tauto)

omit [DecidableEq α] in
/-- items of a cell are items of the tree -/
theorem cells_subset {d0 : Nat} : ∀ (b : Box K) (t : QT α) {d bl tl},
    (d, bl, tl) ∈ cells d0 b t → ∀ x ∈ toList tl, x ∈ toList t := by
  intro b t
  induction t generalizing b d0 with
  | leaf n l =>
    intro d bl tl h x hx
    simp only [cells, List.mem_singleton] at h
    cases h; exact hx
  | node n c0 c1 c2 c3 i0 i1 i2 i3 =>
    intro d bl tl h x hx
    simp only [cells, List.mem_cons, List.mem_append] at h
    rcases h with h | ((h | h) | h) | h
    · cases h; exact hx
    · simp [toList, i0 _ h x hx]
    · simp [toList, i1 _ h x hx]
    · simp [toList, i2 _ h x hx]
    · simp [toList, i3 _ h x hx]

/-! ### nearest -/

omit [DecidableEq α] in
/-- invariant of the minimum scan -/
theorem scanNearest_spec (q : Pt K) : ∀ (l : List α) (st : K × Option α),
    (scanNearest pos q l st).1 ≤ st.1 ∧
    (∀ x ∈ l, (scanNearest pos q l st).1 ≤ Pt.normSq (pos x - q)) ∧
    ((scanNearest pos q l st) = st ∨
      ∃ x ∈ l, (scanNearest pos q l st).2 = some x ∧
        (scanNearest pos q l st).1 = Pt.normSq (pos x - q) ∧
        (scanNearest pos q l st).1 < st.1) := by
  intro l
  induction l with
  | nil => intro st; exact ⟨le_refl _, by simp, Or.inl rfl⟩
  | cons a l ih =>
    intro st
    simp only [scanNearest]
    split_ifs with h
    · obtain ⟨h1, h2, h3⟩ := ih (Pt.normSq (pos a - q), some a)
      refine ⟨h1.trans h.le, ?_, Or.inr ?_⟩
      · intro x hx
        rcases List.mem_cons.mp hx with rfl | hx
        · exact h1
        · exact h2 x hx
      · rcases h3 with h3 | ⟨x, hx, h4, h5, h6⟩
        · exact ⟨a, List.mem_cons_self, by rw [h3], by rw [h3], by rw [h3]; exact h⟩
        · exact ⟨x, List.mem_cons_of_mem _ hx, h4, h5, h6.trans h⟩
    · obtain ⟨h1, h2, h3⟩ := ih st
      refine ⟨h1, ?_, ?_⟩
      · intro x hx
        rcases List.mem_cons.mp hx with rfl | hx
        · exact h1.trans (not_lt.mp h)
        · exact h2 x hx
      · rcases h3 with h3 | ⟨x, hx, h4⟩
        · exact Or.inl h3
        · exact Or.inr ⟨x, List.mem_cons_of_mem _ hx, h4⟩

end QT
end TQ

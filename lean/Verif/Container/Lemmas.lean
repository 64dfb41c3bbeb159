import Verif.Container.Spec
import Verif.QuadTree.Lemmas
import Mathlib.Data.List.InsertIdx

/-! # Lemmas on the container: moving an item inside its cell, congruence in the coordinates -/

set_option linter.unusedSectionVars false

namespace TQ
open QTSpec QT ContSpec
variable {α K : Type*} [DecidableEq α] [Field K] [LinearOrder K] [IsStrictOrderedRing K]
variable {mi : Nat}

/-- the invariant only looks at the coordinates of stored items -/
theorem WF_congr {pos pos' : α → Pt K} : ∀ {t : QT α} {d : Nat} {b : Box K},
    (∀ x ∈ toList t, pos' x = pos x) → WF mi pos d b t → WF mi pos' d b t := by
  intro t
  induction t with
  | leaf n l =>
    intro d b h hw
    obtain ⟨h1, h2, h3⟩ := WF_leaf.mp hw
    exact WF_leaf.mpr ⟨h1, h2, fun x hx => by rw [h x hx]; exact h3 x hx⟩
  | node n c0 c1 c2 c3 i0 i1 i2 i3 =>
    intro d b h hw
    cases d with
    | zero => exact hw.elim
    | succ d =>
      obtain ⟨hn, ⟨w0, w1, w2, w3⟩, l1, l2, l3⟩ := WF_node.mp hw
      simp only [toList, List.mem_append] at h
      have e0 : ∀ x ∈ toList c0, pos' x = pos x := fun x hx => h x (by tauto)
      have e1 : ∀ x ∈ toList c1, pos' x = pos x := fun x hx => h x (by tauto)
      have e2 : ∀ x ∈ toList c2, pos' x = pos x := fun x hx => h x (by tauto)
      have e3 : ∀ x ∈ toList c3, pos' x = pos x := fun x hx => h x (by tauto)
      refine WF_node.mpr ⟨hn, ⟨i0 e0 w0, i1 e1 w1, i2 e2 w2, i3 e3 w3⟩, ?_, ?_, ?_⟩
      · intro x hx; rw [e1 x hx]; exact l1 x hx
      · intro x hx; rw [e2 x hx]; exact l2 x hx
      · intro x hx; rw [e3 x hx]; exact l3 x hx

theorem StrictIn.inSquare {b : Box K} {p : Pt K} (h : StrictIn b p) : InSquare b p :=
  ⟨h.1.le, h.2.1.le, h.2.2.1.le, h.2.2.2.le⟩

theorem StrictIn.of_ch0 {b : Box K} {p : Pt K} (h : StrictIn b.ch0 p) :
    b.c.x < p.x ∧ b.c.y < p.y := by
  obtain ⟨h1, h2, h3, h4⟩ := h
  unfold Box.ch0 at *; dsimp only at *
  constructor <;> linarith
theorem StrictIn.of_ch1 {b : Box K} {p : Pt K} (h : StrictIn b.ch1 p) :
    p.x < b.c.x ∧ b.c.y < p.y := by
  obtain ⟨h1, h2, h3, h4⟩ := h
  unfold Box.ch1 at *; dsimp only at *
  constructor <;> linarith
theorem StrictIn.of_ch2 {b : Box K} {p : Pt K} (h : StrictIn b.ch2 p) :
    p.x < b.c.x ∧ p.y < b.c.y := by
  obtain ⟨h1, h2, h3, h4⟩ := h
  unfold Box.ch2 at *; dsimp only at *
  constructor <;> linarith
theorem StrictIn.of_ch3 {b : Box K} {p : Pt K} (h : StrictIn b.ch3 p) :
    b.c.x < p.x ∧ p.y < b.c.y := by
  obtain ⟨h1, h2, h3, h4⟩ := h
  unfold Box.ch3 at *; dsimp only at *
  constructor <;> linarith
theorem not_ch0_of_left {b : Box K} {p : Pt K} (h : p.x < b.c.x ∨ p.y < b.c.y) :
    ¬ InSquare b.ch0 p := by
  rintro ⟨h1, h2, h3, h4⟩
  unfold Box.ch0 at *; dsimp only at *
  rcases h with h | h <;> linarith
theorem not_ch1_of {b : Box K} {p : Pt K} (h : b.c.x < p.x ∨ p.y < b.c.y) :
    ¬ InSquare b.ch1 p := by
  rintro ⟨h1, h2, h3, h4⟩
  unfold Box.ch1 at *; dsimp only at *
  rcases h with h | h <;> linarith
theorem not_ch2_of {b : Box K} {p : Pt K} (h : b.c.x < p.x ∨ b.c.y < p.y) :
    ¬ InSquare b.ch2 p := by
  rintro ⟨h1, h2, h3, h4⟩
  unfold Box.ch2 at *; dsimp only at *
  rcases h with h | h <;> linarith

/-- the open square of a child lies in the open square of the cell -/
theorem StrictIn.of_child {b : Box K} {p : Pt K}
    (h : StrictIn b.ch0 p ∨ StrictIn b.ch1 p ∨ StrictIn b.ch2 p ∨ StrictIn b.ch3 p) :
    StrictIn b p := by
  unfold StrictIn Box.ch0 Box.ch1 Box.ch2 Box.ch3 at *
  dsimp only at h
  have e : b.s / 2 / 2 + b.s / 2 / 2 = b.s / 2 := by ring
  rcases h with h | h | h | h <;> obtain ⟨h1, h2, h3, h4⟩ := h <;>
    refine ⟨?_, ?_, ?_, ?_⟩ <;> linarith

/-- the open square of the leaf found lies in the open square of the tree -/
theorem StrictIn.of_leaf {q p : Pt K} : ∀ {t : QT α} {b bl : Box K} {tl : QT α},
    getLeaf q b t = some (bl, tl) → StrictIn bl p → StrictIn b p := by
  intro t
  induction t with
  | leaf n l =>
    intro b bl tl h hp
    unfold getLeaf at h
    split at h
    · cases h; exact hp
    · exact absurd h (by simp)
  | node n c0 c1 c2 c3 i0 i1 i2 i3 =>
    intro b bl tl h hp
    unfold getLeaf at h
    split at h
    · split at h
      · rename_i r e; cases h
        exact StrictIn.of_child (Or.inl (i0 e hp))
      · split at h
        · rename_i r e; cases h
          exact StrictIn.of_child (Or.inr (Or.inl (i1 e hp)))
        · split at h
          · rename_i r e; cases h
            exact StrictIn.of_child (Or.inr (Or.inr (Or.inl (i2 e hp))))
          · split at h
            · rename_i r e; cases h
              exact StrictIn.of_child (Or.inr (Or.inr (Or.inr (i3 e hp))))
            · cases h; exact hp
    · exact absurd h (by simp)

/-- moving a stored item to the interior of the leaf found for its old position keeps the tree
well formed -/
theorem WF_move {pos : α → Pt K} {x : α} {p : Pt K} :
    ∀ {t : QT α} {d : Nat} {b bl : Box K} {tl : QT α}, 0 ≤ b.s → WF mi pos d b t →
    (toList t).Nodup → x ∈ toList t →
    getLeaf (pos x) b t = some (bl, tl) → StrictIn bl p →
    WF mi (Cont.setXY pos x p) d b t := by
  intro t
  have hset : ∀ y, y ≠ x → Cont.setXY pos x p y = pos y := by
    intro y hy; unfold Cont.setXY; rw [if_neg hy]
  have hsx : Cont.setXY pos x p x = p := by unfold Cont.setXY; rw [if_pos rfl]
  induction t with
  | leaf n l =>
    intro d b bl tl hs hw hn hx hl hp
    obtain ⟨h1, h2, h3⟩ := WF_leaf.mp hw
    refine WF_leaf.mpr ⟨h1, h2, fun y hy => ?_⟩
    by_cases hyx : y = x
    · subst hyx; rw [hsx]
      exact StrictIn.inSquare (StrictIn.of_leaf hl hp)
    · rw [hset y hyx]; exact h3 y hy
  | node n c0 c1 c2 c3 i0 i1 i2 i3 =>
    intro d b bl tl hs hw hn hx hl hp
    cases d with
    | zero => exact hw.elim
    | succ d =>
      obtain ⟨hc, ⟨w0, w1, w2, w3⟩, l1, l2, l3⟩ := WF_node.mp hw
      have hs2 : (0 : K) ≤ b.s / 2 := by linarith
      have hin : InSquare b (pos x) := hw.inSquare hs x hx
      simp only [toList, List.nodup_append, List.mem_append] at hn
      obtain ⟨⟨⟨n0, n1, d01⟩, n2, d2⟩, n3, d3⟩ := hn
      unfold getLeaf at hl
      rw [if_pos ((Box.has_iff _ _).mpr hin)] at hl
      have cong : ∀ {d' b'} {c : QT α}, x ∉ toList c → WF mi pos d' b' c →
          WF mi (Cont.setXY pos x p) d' b' c := by
        intro d' b' c hc hw
        exact WF_congr (fun y hy => hset y (by rintro rfl; exact hc hy)) hw
      have some_of : ∀ {b' : Box K} {c : QT α}, InSquare b' (pos x) →
          ∃ r, getLeaf (pos x) b' c = some r := by
        intro b' c h
        cases e : getLeaf (pos x) b' c with
        | none => exact absurd h ((getLeaf_none_iff _ _ _).mp e)
        | some r => exact ⟨r, rfl⟩
      simp only [toList, List.mem_append] at hx
      rcases hx with ((hx | hx) | hx) | hx
      · -- child 0
        have hx1 : x ∉ toList c1 := fun h => d01 x hx x h rfl
        have hx2 : x ∉ toList c2 := fun h => d2 x (Or.inl hx) x h rfl
        have hx3 : x ∉ toList c3 := fun h => d3 x (Or.inl (Or.inl hx)) x h rfl
        obtain ⟨r, e⟩ := some_of (c := c0) (w0.inSquare hs2 x hx)
        rw [e] at hl; cases hl
        refine WF_node.mpr ⟨hc, ⟨i0 hs2 w0 n0 hx e hp, cong hx1 w1, cong hx2 w2, cong hx3 w3⟩,
          ?_, ?_, ?_⟩
        · intro y hy; rw [hset y (by rintro rfl; exact hx1 hy)]; exact l1 y hy
        · intro y hy; rw [hset y (by rintro rfl; exact hx2 hy)]; exact l2 y hy
        · intro y hy; rw [hset y (by rintro rfl; exact hx3 hy)]; exact l3 y hy
      · have hx0 : x ∉ toList c0 := fun h => d01 x h x hx rfl
        have hx2 : x ∉ toList c2 := fun h => d2 x (Or.inr hx) x h rfl
        have hx3 : x ∉ toList c3 := fun h => d3 x (Or.inl (Or.inr hx)) x h rfl
        rw [(getLeaf_none_iff _ _ c0).mpr (l1 x hx)] at hl
        obtain ⟨r, e⟩ := some_of (c := c1) (w1.inSquare hs2 x hx)
        simp only [e] at hl; cases hl
        have hpc := StrictIn.of_ch1 (StrictIn.of_leaf e hp)
        refine WF_node.mpr ⟨hc, ⟨cong hx0 w0, i1 hs2 w1 n1 hx e hp, cong hx2 w2, cong hx3 w3⟩,
          ?_, ?_, ?_⟩
        · intro y hy
          by_cases hyx : y = x
          · subst hyx; rw [hsx]; exact not_ch0_of_left (Or.inl hpc.1)
          · rw [hset y hyx]; exact l1 y hy
        · intro y hy; rw [hset y (by rintro rfl; exact hx2 hy)]; exact l2 y hy
        · intro y hy; rw [hset y (by rintro rfl; exact hx3 hy)]; exact l3 y hy
      · have hx0 : x ∉ toList c0 := fun h => d2 x (Or.inl h) x hx rfl
        have hx1 : x ∉ toList c1 := fun h => d2 x (Or.inr h) x hx rfl
        have hx3 : x ∉ toList c3 := fun h => d3 x (Or.inr hx) x h rfl
        rw [(getLeaf_none_iff _ _ c0).mpr (l2 x hx).1] at hl
        simp only [(getLeaf_none_iff _ _ c1).mpr (l2 x hx).2] at hl
        obtain ⟨r, e⟩ := some_of (c := c2) (w2.inSquare hs2 x hx)
        simp only [e] at hl; cases hl
        have hpc := StrictIn.of_ch2 (StrictIn.of_leaf e hp)
        refine WF_node.mpr ⟨hc, ⟨cong hx0 w0, cong hx1 w1, i2 hs2 w2 n2 hx e hp, cong hx3 w3⟩,
          ?_, ?_, ?_⟩
        · intro y hy; rw [hset y (by rintro rfl; exact hx1 hy)]; exact l1 y hy
        · intro y hy
          by_cases hyx : y = x
          · subst hyx; rw [hsx]
            exact ⟨not_ch0_of_left (Or.inl hpc.1), not_ch1_of (Or.inr hpc.2)⟩
          · rw [hset y hyx]; exact l2 y hy
        · intro y hy; rw [hset y (by rintro rfl; exact hx3 hy)]; exact l3 y hy
      · have hx0 : x ∉ toList c0 := fun h => d3 x (Or.inl (Or.inl h)) x hx rfl
        have hx1 : x ∉ toList c1 := fun h => d3 x (Or.inl (Or.inr h)) x hx rfl
        have hx2 : x ∉ toList c2 := fun h => d3 x (Or.inr h) x hx rfl
        rw [(getLeaf_none_iff _ _ c0).mpr (l3 x hx).1] at hl
        simp only [(getLeaf_none_iff _ _ c1).mpr (l3 x hx).2.1,
          (getLeaf_none_iff _ _ c2).mpr (l3 x hx).2.2] at hl
        obtain ⟨r, e⟩ := some_of (c := c3) (w3.inSquare hs2 x hx)
        simp only [e] at hl; cases hl
        have hpc := StrictIn.of_ch3 (StrictIn.of_leaf e hp)
        refine WF_node.mpr ⟨hc, ⟨cong hx0 w0, cong hx1 w1, cong hx2 w2, i3 hs2 w3 n3 hx e hp⟩,
          ?_, ?_, ?_⟩
        · intro y hy; rw [hset y (by rintro rfl; exact hx1 hy)]; exact l1 y hy
        · intro y hy; rw [hset y (by rintro rfl; exact hx2 hy)]; exact l2 y hy
        · intro y hy
          by_cases hyx : y = x
          · subst hyx; rw [hsx]
            exact ⟨not_ch0_of_left (Or.inr hpc.2), not_ch1_of (Or.inl hpc.1),
              not_ch2_of (Or.inl hpc.1)⟩
          · rw [hset y hyx]; exact l3 y hy

theorem insertIdx_eq_take_drop {β : Type*} (x : β) : ∀ (l : List β) (k : Nat), k ≤ l.length →
    l.insertIdx k x = l.take k ++ x :: l.drop k
  | _, 0, _ => by simp
  | [], k + 1, h => absurd h (by simp)
  | a :: l, k + 1, h => by
    simp only [List.insertIdx_succ_cons, List.take_succ_cons, List.drop_succ_cons, List.cons_append]
    rw [insertIdx_eq_take_drop x l k (by simpa using h)]

end TQ

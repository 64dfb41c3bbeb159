import Verif.Reader.Model
import Verif.Reader.Spec
import Mathlib.Tactic.Ring
import Mathlib.Tactic.Linarith

/-!
# Lemmas about the reader
-/

namespace TQ
namespace PR
open PRSpec

/-! ### Finding keys in a line -/

theorem occurs_iff {q l : Line} {i : Nat} : Occurs q l i ↔ i ≤ l.length ∧ q <+: l.drop i := by
  constructor
  · rintro ⟨a, b, rfl, rfl⟩
    refine ⟨by simp, ?_⟩
    rw [List.append_assoc, List.drop_left]
    exact List.prefix_append _ _
  · rintro ⟨hi, b, hb⟩
    refine ⟨l.take i, b, ?_, by simp [hi]⟩
    rw [List.append_assoc, hb, List.take_append_drop]

theorem infix_iff_occurs {q l : Line} : q <:+: l ↔ ∃ i, Occurs q l i := by
  constructor
  · rintro ⟨a, b, h⟩
    exact ⟨a.length, a, b, h.symm, rfl⟩
  · rintro ⟨i, a, b, h, -⟩
    exact ⟨a, b, h.symm⟩

theorem findAt_spec (q : Line) : ∀ (l : Line) (i : Nat),
    match findAt q l i with
    | some j => i ≤ j ∧ j ≤ i + l.length ∧ q <+: l.drop (j - i) ∧ ∀ k, i ≤ k → k < j → ¬q <+: l.drop (k - i)
    | none => ∀ k, ¬q <+: l.drop k := by
  intro l
  induction l with
  | nil =>
    intro i
    simp only [findAt]
    split <;> rename_i h
    · split at h
      · cases h
        rename_i hq; subst hq
        refine ⟨le_rfl, by simp, by simp, fun k h1 h2 => absurd h2 (by omega)⟩
      · cases h
    · split at h
      · cases h
      · rename_i hq
        intro k; simpa using hq
  | cons c l ih =>
    intro i
    simp only [findAt]
    by_cases hp : q.isPrefixOf (c :: l)
    · simp only [hp, if_true]
      refine ⟨le_rfl, by omega, ?_, fun k h1 h2 => absurd h2 (by omega)⟩
      simpa using List.isPrefixOf_iff_prefix.1 hp
    · simp only [hp]
      have hp' : ¬q <+: (c :: l) := fun h => hp (List.isPrefixOf_iff_prefix.2 h)
      have := ih (i + 1)
      revert this
      simp only [Bool.false_eq_true, if_false]
      cases findAt q l (i + 1) with
      | none =>
        intro h k
        cases k with
        | zero => simpa using hp'
        | succ k => simpa using h k
      | some j =>
        rintro ⟨h1, h2, h3, h4⟩
        refine ⟨by omega, by simp only [List.length_cons]; omega, ?_, ?_⟩
        · have : j - i = (j - (i + 1)) + 1 := by omega
          rw [this, List.drop_succ_cons]; exact h3
        · intro k hk1 hk2
          rcases Nat.eq_or_lt_of_le hk1 with rfl | hlt
          · simpa using hp'
          · have : k - i = (k - (i + 1)) + 1 := by omega
            rw [this, List.drop_succ_cons]
            exact h4 k hlt hk2

theorem find_some {q l : Line} {pos i : Nat} (h : find q l pos = some i) :
    pos ≤ i ∧ Occurs q l i ∧ ∀ j, pos ≤ j → j < i → ¬Occurs q l j := by
  unfold find at h
  split at h
  · rename_i hp
    have := findAt_spec q (l.drop pos) pos
    rw [h] at this
    obtain ⟨h1, h2, h3, h4⟩ := this
    simp only [List.length_drop] at h2
    refine ⟨h1, occurs_iff.2 ⟨by omega, ?_⟩, fun j hj1 hj2 ho => ?_⟩
    · rwa [List.drop_drop, show pos + (i - pos) = i by omega] at h3
    · have := (occurs_iff.1 ho).2
      refine h4 j hj1 hj2 ?_
      rwa [List.drop_drop, show pos + (j - pos) = j by omega]
  · cases h

theorem find_none {q l : Line} {pos : Nat} (h : find q l pos = none) : ∀ j, pos ≤ j → ¬Occurs q l j := by
  intro j hj ho
  have hl := occurs_iff.1 ho
  unfold find at h
  rw [if_pos (by omega)] at h
  have := findAt_spec q (l.drop pos) pos
  rw [h] at this
  refine this (j - pos) ?_
  rw [List.drop_drop, show pos + (j - pos) = j by omega]
  exact hl.2

theorem lastHit_spec (q l : Line) : ∀ (n pos : Nat) (acc : Option Nat), l.length + 1 ≤ n + pos →
    match lastHit q l n pos acc with
    | some p => (Occurs q l p ∧ pos ≤ p ∧ ∀ j, Occurs q l j → j ≤ p) ∨ (acc = some p ∧ ∀ j, pos ≤ j → ¬Occurs q l j)
    | none => acc = none ∧ ∀ j, pos ≤ j → ¬Occurs q l j := by
  intro n
  induction n with
  | zero =>
    intro pos acc hn
    have h0 : ∀ j, pos ≤ j → ¬Occurs q l j := fun j hj ho => by
      have := (occurs_iff.1 ho).1; omega
    simp only [lastHit]
    cases acc with
    | none => exact ⟨rfl, h0⟩
    | some p => exact Or.inr ⟨rfl, h0⟩
  | succ n ih =>
    intro pos acc hn
    simp only [lastHit]
    cases hf : find q l pos with
    | none =>
      have h0 := find_none hf
      cases acc with
      | none => exact ⟨rfl, h0⟩
      | some p => exact Or.inr ⟨rfl, h0⟩
    | some i =>
      obtain ⟨h1, h2, h3⟩ := find_some hf
      have := ih (i + 1) (some i) (by omega)
      revert this
      simp only
      cases lastHit q l n (i + 1) (some i) with
      | none => rintro ⟨h, -⟩; cases h
      | some p =>
        rintro (⟨h4, h5, h6⟩ | ⟨h4, h5⟩)
        · exact Or.inl ⟨h4, by omega, h6⟩
        · cases h4
          refine Or.inl ⟨h2, h1, fun j hj => ?_⟩
          by_contra hc
          exact h5 j (by omega) hj

theorem lastHit_some {q l : Line} {p : Nat} (h : lastHit q l (l.length + 1) 0 none = some p) : LastAt q l p := by
  have := lastHit_spec q l (l.length + 1) 0 none (by omega)
  rw [h] at this
  rcases this with ⟨h1, -, h2⟩ | ⟨h, -⟩
  · exact ⟨h1, h2⟩
  · cases h

theorem lastHit_none {q l : Line} (h : lastHit q l (l.length + 1) 0 none = none) : ¬q <:+: l := by
  have := lastHit_spec q l (l.length + 1) 0 none (by omega)
  rw [h] at this
  rw [infix_iff_occurs]
  rintro ⟨i, hi⟩
  exact this.2 i (Nat.zero_le _) hi

/-! ### Finding the lines -/

theorem has_lt {q : Line} {file : List Line} {i : Nat} (h : Has q file i) : i < file.length := by
  obtain ⟨l, hl, -⟩ := h
  exact (List.getElem?_eq_some_iff.1 hl).1

theorem hits_ge {q : Line} {file : List Line} {s e : Nat} (h : e ≤ s) : hits q file s e = [] := by
  simp [hits, Nat.sub_eq_zero_of_le h]

theorem hits_step {q : Line} {file : List Line} {s e : Nat} (h : s < e) :
    hits q file s e = if Has q file s then s :: hits q file (s + 1) e else hits q file (s + 1) e := by
  unfold hits
  obtain ⟨n, hn⟩ : ∃ n, e - s = n + 1 := ⟨e - s - 1, by omega⟩
  have h2 : e - (s + 1) = n := by omega
  rw [hn, h2, List.range'_succ, List.filter_cons]
  simp

theorem mem_hits {q : Line} {file : List Line} {s e i : Nat} : i ∈ hits q file s e ↔ s ≤ i ∧ i < e ∧ Has q file i := by
  simp only [hits, List.mem_filter, List.mem_range'_1, decide_eq_true_eq]
  constructor
  · rintro ⟨⟨h1, h2⟩, h3⟩; exact ⟨h1, by omega, h3⟩
  · rintro ⟨h1, h2, h3⟩; exact ⟨⟨h1, by omega⟩, h3⟩

theorem hits_head {q : Line} {file : List Line} {e : Nat} : ∀ (n : Nat) {s i : Nat} {t : List Nat}, e - s = n →
    hits q file s e = i :: t → s ≤ i ∧ i < e ∧ Has q file i ∧ (∀ j, s ≤ j → j < i → ¬Has q file j) ∧ t = hits q file (i + 1) e := by
  intro n
  induction n with
  | zero =>
    intro s i t hn h
    rw [hits_ge (by omega)] at h
    cases h
  | succ n ih =>
    intro s i t hn h
    rw [hits_step (by omega)] at h
    split at h
    · rename_i hh
      cases h
      exact ⟨le_rfl, by omega, hh, fun j h1 h2 => absurd h2 (by omega), rfl⟩
    · rename_i hh
      obtain ⟨h1, h2, h3, h4, h5⟩ := ih (by omega) h
      refine ⟨by omega, h2, h3, fun j hj1 hj2 => ?_, h5⟩
      rcases Nat.eq_or_lt_of_le hj1 with rfl | hlt
      · exact hh
      · exact h4 j hlt hj2

theorem scan_spec (q : Line) (file : List Line) : ∀ (n cur : Nat), cur + n ≤ file.length →
    match scan q file n cur with
    | .ub => False
    | .miss => hits q file cur (cur + n) = []
    | .at i p => (∃ t, hits q file cur (cur + n) = i :: t) ∧ ∃ l, file[i]? = some l ∧ LastAt q l p := by
  intro n
  induction n with
  | zero => intro cur _; simp [scan, hits]
  | succ n ih =>
    intro cur hn
    have hlt : cur < file.length := by omega
    have hget : file[cur]? = some file[cur] := List.getElem?_eq_getElem hlt
    simp only [scan, hget]
    cases hl : lastHit q file[cur] (file[cur].length + 1) 0 none with
    | some p =>
      have hp := lastHit_some hl
      have hh : Has q file cur := ⟨_, hget, infix_iff_occurs.2 ⟨p, hp.1⟩⟩
      refine ⟨⟨hits q file (cur + 1) (cur + (n + 1)), ?_⟩, _, hget, hp⟩
      rw [hits_step (by omega), if_pos hh]
    | none =>
      have hp := lastHit_none hl
      have hh : ¬Has q file cur := by
        rintro ⟨l, h1, h2⟩
        rw [hget] at h1; cases h1
        exact hp h2
      have := ih (cur + 1) (by omega)
      simp only
      rw [hits_step (by omega), if_neg hh, show cur + (n + 1) = cur + 1 + n by omega]
      exact this

/-- One query: the first line with the key from the current line on. -/
theorem query_spec (q : Line) (file : List Line) (c : Cur) (hb : c.be ≤ file.length) :
    (hits q file (c.bs + c.ix) c.be = [] ∧ query q file c = (.miss, c)) ∨
    ∃ i p t l, hits q file (c.bs + c.ix) c.be = i :: t ∧ t = hits q file (i + 1) c.be ∧ c.bs + c.ix ≤ i ∧ i < c.be ∧
      file[i]? = some l ∧ LastAt q l p ∧ query q file c = (.at i p, { c with ix := i + 1 - c.bs }) := by
  unfold query
  split
  · rename_i hr
    simp only [Cur.reachedEnd, decide_eq_true_eq] at hr
    exact Or.inl ⟨hits_ge (by omega), rfl⟩
  · by_cases hle : c.be ≤ c.bs + c.ix
    · left
      refine ⟨hits_ge hle, ?_⟩
      rw [Nat.sub_eq_zero_of_le hle]
      rfl
    · have := scan_spec q file (c.be - (c.bs + c.ix)) (c.bs + c.ix) (by omega)
      rw [show c.bs + c.ix + (c.be - (c.bs + c.ix)) = c.be by omega] at this
      cases hs : scan q file (c.be - (c.bs + c.ix)) (c.bs + c.ix) with
      | ub => rw [hs] at this; exact this.elim
      | miss => rw [hs] at this; exact Or.inl ⟨this, rfl⟩
      | «at» i p =>
        rw [hs] at this
        obtain ⟨⟨t, ht⟩, l, hl, hp⟩ := this
        obtain ⟨h1, h2, h3, h4, h5⟩ := hits_head _ rfl ht
        exact Or.inr ⟨i, p, t, l, ht, h5, h1, h2, hl, hp, rfl⟩

theorem first_of_hits {q : Line} {file : List Line} {s e i : Nat} {t : List Nat} (h : hits q file s e = i :: t) :
    First q file s i := by
  obtain ⟨h1, h2, h3, h4, h5⟩ := hits_head _ rfl h
  exact ⟨h1, h3, h4⟩

theorem no_first_of_hits {q : Line} {file : List Line} {s : Nat} (h : hits q file s file.length = []) :
    ∀ i, ¬First q file s i := by
  rintro i ⟨h1, h2, h3⟩
  have : i ∈ hits q file s file.length := mem_hits.2 ⟨h1, has_lt h2, h2⟩
  rw [h] at this
  cases this

theorem first_unique {q : Line} {file : List Line} {s i j : Nat} (h1 : First q file s i) (h2 : First q file s j) : i = j := by
  obtain ⟨a1, a2, a3⟩ := h1
  obtain ⟨b1, b2, b3⟩ := h2
  by_contra hne
  rcases Nat.lt_or_gt_of_ne hne with h | h
  · exact b3 i a1 h a2
  · exact a3 j b1 h b2

/-- A query when the first line with the key is known. -/
theorem query_first {q : Line} {file : List Line} {c : Cur} {i : Nat} (hb : c.be ≤ file.length)
    (hf : First q file (c.bs + c.ix) i) (hi : i < c.be) :
    ∃ p l, file[i]? = some l ∧ LastAt q l p ∧ query q file c = (.at i p, { c with ix := i + 1 - c.bs }) := by
  rcases query_spec q file c hb with ⟨h1, -⟩ | ⟨j, p, t, l, h1, h2, h3, h4, h5, h6, h7⟩
  · have : i ∈ hits q file (c.bs + c.ix) c.be := mem_hits.2 ⟨hf.1, hi, hf.2.1⟩
    rw [h1] at this; cases this
  · have : j = i := first_unique (first_of_hits h1) hf
    subst this
    exact ⟨p, l, h5, h6, h7⟩

theorem lastAt_unique {q l : Line} {i j : Nat} (h1 : LastAt q l i) (h2 : LastAt q l j) : i = j :=
  Nat.le_antisymm (h2.2 i h1.1) (h1.2 j h2.1)

end PR
end TQ

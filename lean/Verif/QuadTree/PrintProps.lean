import Verif.QuadTree.Props
import Verif.QuadTree.PrintModel
import Verif.QuadTree.PrintSpec
import Verif.Writer.TxtProps

/-! # C191: the printed tree shows cells that tile the extent and hold the items -/

set_option linter.unusedSectionVars false

namespace TQ
open QTSpec QT VT VTSpec

namespace QT
variable {α : Type}

/-- The cells that are not split, with their items. -/
def leafs (b : Box ℚ) : QT α → List (Box ℚ × Nat × List α)
  | .node _ c0 c1 c2 c3 => leafs b.ch0 c0 ++ (leafs b.ch1 c1 ++ (leafs b.ch2 c2 ++ leafs b.ch3 c3))
  | .leaf n l => [(b, n, l)]

/-- A row without its line break. -/
def rowTxt (r : Box ℚ × Nat × List α) : Txt := List.intercalate [','] [fixed5 r.1.c.x, fixed5 r.1.c.y, fixed5 r.1.s, natTxt r.2.1]

theorem print_eq (b : Box ℚ) (t : QT α) : print b t = ((leafs b t).map fun r => rowTxt r ++ ['\n']).flatten := by
  induction t generalizing b with
  | leaf n l => simp [print, leafs, rowTxt, List.intercalate]
  | node n c0 c1 c2 c3 h0 h1 h2 h3 => simp [print, leafs, h0, h1, h2, h3]

theorem row_chars (r : Box ℚ × Nat × List α) : ∀ x ∈ [fixed5 r.1.c.x, fixed5 r.1.c.y, fixed5 r.1.s, natTxt r.2.1], (',' ∉ x ∧ '\n' ∉ x) ∧ Clean x := by
  intro x hx
  simp only [List.mem_cons, List.not_mem_nil, or_false] at hx
  rcases hx with rfl | rfl | rfl | rfl
  · exact ⟨comma_free (fixed5_chars _), clean_fixed5 _⟩
  · exact ⟨comma_free (fixed5_chars _), clean_fixed5 _⟩
  · exact ⟨comma_free (fixed5_chars _), clean_fixed5 _⟩
  · exact ⟨comma_free fun c hc => Or.inl (natTxt_digits _ c hc), clean_natTxt _⟩

theorem readRow_eq (r : Box ℚ × Nat × List α) : readRow (rowTxt r) = some (⟨⟨dec5 r.1.c.x, dec5 r.1.c.y⟩, dec5 r.1.s⟩, r.2.1) := by
  unfold readRow rowTxt
  rw [fields_csv (by simp) fun x hx => (row_chars r x hx).1.1]
  simp only [List.map_cons, List.map_nil]
  rw [trim_clean (clean_fixed5 _), trim_clean (clean_fixed5 _), trim_clean (clean_fixed5 _), trim_clean (clean_natTxt _)]
  simp [readDec_fixed5, readNat_natTxt]

theorem readTree_eq (b : Box ℚ) (t : QT α) :
    readTree (print b t) = some ((leafs b t).map fun r => (⟨⟨dec5 r.1.c.x, dec5 r.1.c.y⟩, dec5 r.1.s⟩, r.2.1)) := by
  have e : lines (print b t) = (leafs b t).map rowTxt ++ [[]] := by
    rw [print_eq]
    have := lines_rowsN (rs := (leafs b t).map rowTxt) (fun x hx h => by
      obtain ⟨r, -, rfl⟩ := List.mem_map.mp hx
      rcases mem_intercalate h with h | ⟨y, hy, hc⟩
      · revert h; decide
      · exact (row_chars r y hy).1.2 hc) []
    rw [List.append_nil, List.map_map] at this
    exact this
  unfold readTree
  rw [e, if_pos (by simp), List.dropLast_concat]
  exact mapM_map_some fun r _ => readRow_eq r

theorem within_square {b : Box ℚ} {p : Pt ℚ} (h : Within b p) : InSquare b p := ⟨h.1.le, h.2.1.le, h.2.2.1.le, h.2.2.2.le⟩

theorem within_ch {b : Box ℚ} (hs : 0 ≤ b.s) {p : Pt ℚ} : (Within b.ch0 p → b.c.x < p.x ∧ b.c.y < p.y) ∧ (Within b.ch1 p → p.x < b.c.x ∧ b.c.y < p.y) ∧
    (Within b.ch2 p → p.x < b.c.x ∧ p.y < b.c.y) ∧ (Within b.ch3 p → b.c.x < p.x ∧ p.y < b.c.y) ∧
    ((Within b.ch0 p ∨ Within b.ch1 p ∨ Within b.ch2 p ∨ Within b.ch3 p) → Within b p) := by
  unfold Within Box.ch0 Box.ch1 Box.ch2 Box.ch3
  dsimp only
  refine ⟨fun h => ⟨?_, ?_⟩, fun h => ⟨?_, ?_⟩, fun h => ⟨?_, ?_⟩, fun h => ⟨?_, ?_⟩, ?_⟩
  iterate 8 linarith [h.1, h.2.1, h.2.2.1, h.2.2.2]
  rintro (h | h | h | h) <;> refine ⟨?_, ?_, ?_, ?_⟩ <;> linarith [h.1, h.2.1, h.2.2.1, h.2.2.2]

theorem leafs_within (t : QT α) : ∀ {b : Box ℚ}, 0 ≤ b.s → ∀ r ∈ leafs b t, (∀ p, Within r.1 p → Within b p) ∧ ∀ p, InSquare r.1 p → InSquare b p := by
  induction t with
  | leaf n l => intro b _ r hr; simp only [leafs, List.mem_singleton] at hr; subst hr; exact ⟨fun _ h => h, fun _ h => h⟩
  | node n c0 c1 c2 c3 h0 h1 h2 h3 =>
    intro b hs r hr
    have hc : 0 ≤ b.s / 2 := by linarith
    simp only [leafs, List.mem_append] at hr
    rcases hr with hr | hr | hr | hr
    · obtain ⟨a, c⟩ := h0 (b := b.ch0) hc r hr
      exact ⟨fun p hp => (within_ch hs).2.2.2.2 (Or.inl (a p hp)), fun p hp => InSquare.of_child hs (Or.inl (c p hp))⟩
    · obtain ⟨a, c⟩ := h1 (b := b.ch1) hc r hr
      exact ⟨fun p hp => (within_ch hs).2.2.2.2 (Or.inr (Or.inl (a p hp))), fun p hp => InSquare.of_child hs (Or.inr (Or.inl (c p hp)))⟩
    · obtain ⟨a, c⟩ := h2 (b := b.ch2) hc r hr
      exact ⟨fun p hp => (within_ch hs).2.2.2.2 (Or.inr (Or.inr (Or.inl (a p hp)))), fun p hp => InSquare.of_child hs (Or.inr (Or.inr (Or.inl (c p hp))))⟩
    · obtain ⟨a, c⟩ := h3 (b := b.ch3) hc r hr
      exact ⟨fun p hp => (within_ch hs).2.2.2.2 (Or.inr (Or.inr (Or.inr (a p hp)))), fun p hp => InSquare.of_child hs (Or.inr (Or.inr (Or.inr (c p hp))))⟩

theorem leafs_tiled (t : QT α) : ∀ {b : Box ℚ}, 0 ≤ b.s → QTSpec.Tiled b ((leafs b t).map (·.1)) := by
  induction t with
  | leaf n l =>
    intro b _
    refine ⟨?_, ?_, by simp [leafs], by simp [leafs]⟩
    · intro c hc p hp; simp only [leafs, List.map_cons, List.map_nil, List.mem_singleton] at hc; rw [← hc]; exact hp
    · intro p hp; exact ⟨b, by simp [leafs], hp⟩
  | node n c0 c1 c2 c3 h0 h1 h2 h3 =>
    intro b hs
    have hc : 0 ≤ b.s / 2 := by linarith
    have t0 := h0 (b := b.ch0) hc
    have t1 := h1 (b := b.ch1) hc
    have t2 := h2 (b := b.ch2) hc
    have t3 := h3 (b := b.ch3) hc
    have w : ∀ (b' : Box ℚ) (c : QT α), 0 ≤ b'.s → ∀ d ∈ (leafs b' c).map (·.1), ∀ p, Within d p → Within b' p := by
      intro b' c hb d hd
      obtain ⟨r, hr, rfl⟩ := List.mem_map.mp hd
      exact (leafs_within c hb r hr).1
    refine ⟨?_, ?_, ?_, ?_⟩
    · intro c hc' p hp
      obtain ⟨r, hr, rfl⟩ := List.mem_map.mp hc'
      exact (leafs_within (.node n c0 c1 c2 c3) hs r hr).2 p hp
    · intro p hp
      simp only [leafs, List.map_append, List.mem_append]
      rcases InSquare.cover hp with h | h | h | h
      · obtain ⟨c, k1, k2⟩ := t0.cover p h; exact ⟨c, Or.inl k1, k2⟩
      · obtain ⟨c, k1, k2⟩ := t1.cover p h; exact ⟨c, Or.inr (Or.inl k1), k2⟩
      · obtain ⟨c, k1, k2⟩ := t2.cover p h; exact ⟨c, Or.inr (Or.inr (Or.inl k1)), k2⟩
      · obtain ⟨c, k1, k2⟩ := t3.cover p h; exact ⟨c, Or.inr (Or.inr (Or.inr k1)), k2⟩
    · simp only [leafs, List.map_append]
      have q := fun p => within_ch (b := b) hs (p := p)
      rw [List.pairwise_append, List.pairwise_append, List.pairwise_append]
      refine ⟨t0.apart, ⟨t1.apart, ⟨t2.apart, t3.apart, ?_⟩, ?_⟩, ?_⟩
      · intro c hc1 d hd p ⟨a1, a2⟩
        have k1 := (q p).2.2.1 (w _ _ hc c hc1 p a1)
        have k2 := (q p).2.2.2.1 (w _ _ hc d hd p a2)
        linarith [k1.1, k2.1]
      · intro c hc1 d hd p ⟨a1, a2⟩
        have k1 := (q p).2.1 (w _ _ hc c hc1 p a1)
        rcases List.mem_append.mp hd with hd | hd
        · have k2 := (q p).2.2.1 (w _ _ hc d hd p a2); linarith [k1.2, k2.2]
        · have k2 := (q p).2.2.2.1 (w _ _ hc d hd p a2); linarith [k1.1, k2.1]
      · intro c hc1 d hd p ⟨a1, a2⟩
        have k1 := (q p).1 (w _ _ hc c hc1 p a1)
        rcases List.mem_append.mp hd with hd | hd
        · have k2 := (q p).2.1 (w _ _ hc d hd p a2); linarith [k1.1, k2.1]
        rcases List.mem_append.mp hd with hd | hd
        · have k2 := (q p).2.2.1 (w _ _ hc d hd p a2); linarith [k1.1, k2.1]
        · have k2 := (q p).2.2.2.1 (w _ _ hc d hd p a2); linarith [k1.2, k2.2]
    · simp only [leafs, List.map_append, List.sum_append]
      rw [t0.area, t1.area, t2.area, t3.area]
      simp only [Box.ch0, Box.ch1, Box.ch2, Box.ch3]
      ring

theorem leafs_items (t : QT α) (b : Box ℚ) : (leafs b t).flatMap (·.2.2) = toList t := by
  induction t generalizing b with
  | leaf n l => simp [leafs, toList]
  | node n c0 c1 c2 c3 h0 h1 h2 h3 => simp [leafs, toList, h0, h1, h2, h3]

theorem leafs_wf {mi : Nat} {pos : α → Pt ℚ} (t : QT α) : ∀ {d : Nat} {b : Box ℚ}, WF mi pos d b t →
    ∀ r ∈ leafs b t, r.2.1 = r.2.2.length ∧ (r.2.2.length ≤ mi ∨ r.1.s * 2 ^ d = b.s) ∧ ∀ x ∈ r.2.2, InSquare r.1 (pos x) := by
  induction t with
  | leaf n l =>
    intro d b h r hr
    simp only [leafs, List.mem_singleton] at hr
    subst hr
    rw [WF_leaf] at h
    refine ⟨h.1, ?_, h.2.2⟩
    rcases h.2.1 with k | rfl
    · exact Or.inl k
    · exact Or.inr (by simp)
  | node n c0 c1 c2 c3 h0 h1 h2 h3 =>
    intro d b h r hr
    cases d with
    | zero => exact absurd h (by simp [WF])
    | succ d =>
      rw [WF_node] at h
      obtain ⟨-, ⟨w0, w1, w2, w3⟩, -⟩ := h
      have up : ∀ b' : Box ℚ, b'.s = b.s / 2 → (r.1.s * 2 ^ d = b'.s) → r.1.s * 2 ^ (d + 1) = b.s := fun b' e k => by
        rw [pow_succ, ← mul_assoc, k, e]; ring
      simp only [leafs, List.mem_append] at hr
      rcases hr with hr | hr | hr | hr
      · obtain ⟨a, c, e⟩ := h0 w0 r hr; exact ⟨a, c.imp_right (up _ rfl), e⟩
      · obtain ⟨a, c, e⟩ := h1 w1 r hr; exact ⟨a, c.imp_right (up _ rfl), e⟩
      · obtain ⟨a, c, e⟩ := h2 w2 r hr; exact ⟨a, c.imp_right (up _ rfl), e⟩
      · obtain ⟨a, c, e⟩ := h3 w3 r hr; exact ⟨a, c.imp_right (up _ rfl), e⟩

end QT

variable {α : Type} [DecidableEq α]

/-- **C191.** The printed tree can be read. After every legal history its rows are, up to half of the fifth decimal, squares that tile the extent of the tree; the stored items can be dealt out to
them so that each square contains its items and has their number in its row; only squares of the greatest depth have more than `mi` items. -/
theorem C191_printed (mi md : Nat) (pos : α → Pt ℚ) (b : Box ℚ) (hs : 0 ≤ b.s) (os : List (Op α)) (hl : LegalHist pos b [] os)
    (t : QT α) (outs : List Bool) (he : exec mi md pos b QT.empty os = some (t, outs)) :
    ∃ (rows : List (Box ℚ × Nat)) (cells : List (Box ℚ × List α)), readTree (print b t) = some rows ∧
      List.Forall₂ RowOf rows cells ∧ QTSpec.Tiled b (cells.map (·.1)) ∧ (cells.flatMap (·.2)).Perm (run pos b [] os) ∧ (rows.map (·.2)).sum = (run pos b [] os).length ∧
      ∀ c ∈ cells, (∀ x ∈ c.2, InSquare c.1 (pos x)) ∧ (c.2.length ≤ mi ∨ c.1.s * 2 ^ md = b.s) := by
  obtain ⟨t', e, w, p, -⟩ := exec_inv mi md pos b hs os [] QT.empty List.nodup_nil (WF_empty mi md pos b) (List.Perm.refl _) hl
  rw [he] at e
  obtain ⟨rfl, -⟩ := Prod.mk.inj (Option.some.inj e)
  have hw := leafs_wf t w
  have hp : ((leafs b t).flatMap (·.2.2)).Perm (run pos b [] os) := by rw [leafs_items]; exact p
  refine ⟨_, (leafs b t).map fun r => (r.1, r.2.2), readTree_eq b t, ?_, ?_, ?_, ?_, ?_⟩
  · rw [List.forall₂_map_left_iff, List.forall₂_map_right_iff, List.forall₂_same]
    exact fun r hr => ⟨dec5_near _, dec5_near _, dec5_near _, (hw r hr).1⟩
  · rw [List.map_map]; exact leafs_tiled t hs
  · rw [List.flatMap_map]; exact hp
  · rw [← hp.length_eq, List.length_flatMap, List.map_map]
    exact congrArg List.sum (List.map_congr_left fun r hr => (hw r hr).1)
  · intro c hc
    obtain ⟨r, hr, rfl⟩ := List.mem_map.mp hc
    exact ⟨(hw r hr).2.2, (hw r hr).2.1⟩

/-- A history with splits: the rows in the output. -/
example : LegalHist samplePos sampleBox [] sampleOps ∧
    (exec 3 2 samplePos sampleBox QT.empty sampleOps).map (fun r => readTree (print sampleBox r.1)) = some (some [(⟨⟨4, 4⟩, 8⟩, 2), (⟨⟨-4, 4⟩, 8⟩, 1), (⟨⟨-4, -4⟩, 8⟩, 1), (⟨⟨4, -4⟩, 8⟩, 2)]) := by decide +kernel

end TQ

#print axioms TQ.C191_printed

import Verif.Whole.Refine
import Verif.Smoothing.Props

/-! # A mesh that smoothing folds (for C159) -/

namespace TQ.FoldEx
open TQ.MS TQ.MS.St TQ.MeshSpec TQ.FUSpec TQ.MCSpec TQ.WholeSpec TQ.RefSpec TQ.SmSpec TQ.CleanSpec TQ.FU TQ.MCEx TQ.SMEx TQ.GeoSpec

theorem crossing_out {p a b : Pt ℚ} (h : (p.y < a.y ∧ p.y < b.y) ∨ (a.y ≤ p.y ∧ b.y ≤ p.y)) : crossing p a b = 0 := by
  have h1 : ¬ UpCross p a b := fun k => by rcases h with h | h <;> linarith [k.1, k.2.1, h.1, h.2]
  have h2 : ¬ UpCross p b a := fun k => by rcases h with h | h <;> linarith [k.1, k.2.1, h.1, h.2]
  unfold crossing
  rw [if_neg h1, if_neg h2, sub_zero]

theorem crossing_in {p a b : Pt ℚ} (h1 : a.y ≤ p.y) (h2 : p.y < b.y) {P : Prop} [Decidable P] (h : 0 < side a b p ↔ P) :
    crossing p a b = if P then 1 else 0 := by
  have h0 : ¬ UpCross p b a := fun k => by linarith [k.1]
  unfold crossing
  rw [if_neg h0, sub_zero]
  by_cases hp : P
  · rw [if_pos hp, if_pos (show UpCross p a b from ⟨h1, h2, h.mpr hp⟩)]
  · rw [if_neg hp, if_neg (fun k : UpCross p a b => hp (h.mp k.2.2))]

theorem ring_simple {pos : Nat → Pt ℚ} (h : pos 0 = ⟨90, 1⟩ ∧ pos 1 = ⟨190, -10⟩ ∧ pos 2 = ⟨100, 0⟩ ∧ pos 3 = ⟨30, 10⟩ ∧ pos 4 = ⟨-50, 60⟩ ∧ pos 5 = ⟨-60, 20⟩ ∧ pos 6 = ⟨-20, -20⟩ ∧ pos 7 = ⟨80, -30⟩ ∧ pos 8 = ⟨180, -50⟩) :
    SimpleFront pos [(0, 1), (1, 2), (2, 3), (3, 4), (4, 5), (5, 6), (6, 7), (7, 8), (8, 0)] := by
  obtain ⟨p0, p1, p2, p3, p4, p5, p6, p7, p8⟩ := h
  refine ⟨?_, ?_, ?_, ?_⟩
  · intro v
    simp only [List.countP_cons, List.countP_nil]
    omega
  · intro e he
    simp only [List.mem_cons, List.not_mem_nil, or_false] at he
    rcases he with rfl | rfl | rfl | rfl | rfl | rfl | rfl | rfl | rfl <;> simp [p0, p1, p2, p3, p4, p5, p6, p7, p8]
  · simp only [List.pairwise_cons, List.mem_cons, List.not_mem_nil, or_false, List.Pairwise.nil, and_true,
      forall_eq_or_imp, forall_eq, false_imp_iff, implies_true]
    simp only [Apart, OnClosed, p0, p1, p2, p3, p4, p5, p6, p7, p8, GeoSpec.onSeg]
    refine ⟨⟨?_, ?_, ?_, ?_, ?_, ?_, ?_, ?_⟩, ⟨?_, ?_, ?_, ?_, ?_, ?_, ?_⟩, ⟨?_, ?_, ?_, ?_, ?_, ?_⟩, ⟨?_, ?_, ?_, ?_, ?_⟩, ⟨?_, ?_, ?_, ?_⟩, ⟨?_, ?_, ?_⟩, ⟨?_, ?_⟩, ?_⟩ <;>
    · rintro ⟨x, y⟩ ⟨t, t0, t1, ht⟩ ⟨u, u0, u1, hu⟩
      simp only [Pt.mk.injEq] at ht hu
      obtain ⟨h1, h2⟩ := ht
      obtain ⟨h3, h4⟩ := hu
      simp only [Pt.mk.injEq]
      first
      | (exfalso; linarith)
      | (constructor <;>
        first
        | (left; constructor <;> linarith)
        | (right; constructor <;> linarith))
  · rintro ⟨x, y⟩
    rw [winding_eq]
    simp only [List.map_cons, List.map_nil, p0, p1, p2, p3, p4, p5, p6, p7, p8, List.sum_cons, List.sum_nil]
    rcases lt_or_ge y (-50) with l0 | g0
    · skip
      have c0 : crossing (⟨x, y⟩ : Pt ℚ) ⟨90, 1⟩ ⟨190, -10⟩ = 0 := crossing_out (by norm_num; first | (left; constructor <;> linarith) | (right; constructor <;> linarith))
      have c1 : crossing (⟨x, y⟩ : Pt ℚ) ⟨190, -10⟩ ⟨100, 0⟩ = 0 := crossing_out (by norm_num; first | (left; constructor <;> linarith) | (right; constructor <;> linarith))
      have c2 : crossing (⟨x, y⟩ : Pt ℚ) ⟨100, 0⟩ ⟨30, 10⟩ = 0 := crossing_out (by norm_num; first | (left; constructor <;> linarith) | (right; constructor <;> linarith))
      have c3 : crossing (⟨x, y⟩ : Pt ℚ) ⟨30, 10⟩ ⟨-50, 60⟩ = 0 := crossing_out (by norm_num; first | (left; constructor <;> linarith) | (right; constructor <;> linarith))
      have c4 : crossing (⟨x, y⟩ : Pt ℚ) ⟨-50, 60⟩ ⟨-60, 20⟩ = 0 := crossing_out (by norm_num; first | (left; constructor <;> linarith) | (right; constructor <;> linarith))
      have c5 : crossing (⟨x, y⟩ : Pt ℚ) ⟨-60, 20⟩ ⟨-20, -20⟩ = 0 := crossing_out (by norm_num; first | (left; constructor <;> linarith) | (right; constructor <;> linarith))
      have c6 : crossing (⟨x, y⟩ : Pt ℚ) ⟨-20, -20⟩ ⟨80, -30⟩ = 0 := crossing_out (by norm_num; first | (left; constructor <;> linarith) | (right; constructor <;> linarith))
      have c7 : crossing (⟨x, y⟩ : Pt ℚ) ⟨80, -30⟩ ⟨180, -50⟩ = 0 := crossing_out (by norm_num; first | (left; constructor <;> linarith) | (right; constructor <;> linarith))
      have c8 : crossing (⟨x, y⟩ : Pt ℚ) ⟨180, -50⟩ ⟨90, 1⟩ = 0 := crossing_out (by norm_num; first | (left; constructor <;> linarith) | (right; constructor <;> linarith))
      simp only [c0, c1, c2, c3, c4, c5, c6, c7, c8]
      decide
    rcases lt_or_ge y (-30) with l1 | g1
    · skip
      have c0 : crossing (⟨x, y⟩ : Pt ℚ) ⟨90, 1⟩ ⟨190, -10⟩ = 0 := crossing_out (by norm_num; first | (left; constructor <;> linarith) | (right; constructor <;> linarith))
      have c1 : crossing (⟨x, y⟩ : Pt ℚ) ⟨190, -10⟩ ⟨100, 0⟩ = 0 := crossing_out (by norm_num; first | (left; constructor <;> linarith) | (right; constructor <;> linarith))
      have c2 : crossing (⟨x, y⟩ : Pt ℚ) ⟨100, 0⟩ ⟨30, 10⟩ = 0 := crossing_out (by norm_num; first | (left; constructor <;> linarith) | (right; constructor <;> linarith))
      have c3 : crossing (⟨x, y⟩ : Pt ℚ) ⟨30, 10⟩ ⟨-50, 60⟩ = 0 := crossing_out (by norm_num; first | (left; constructor <;> linarith) | (right; constructor <;> linarith))
      have c4 : crossing (⟨x, y⟩ : Pt ℚ) ⟨-50, 60⟩ ⟨-60, 20⟩ = 0 := crossing_out (by norm_num; first | (left; constructor <;> linarith) | (right; constructor <;> linarith))
      have c5 : crossing (⟨x, y⟩ : Pt ℚ) ⟨-60, 20⟩ ⟨-20, -20⟩ = 0 := crossing_out (by norm_num; first | (left; constructor <;> linarith) | (right; constructor <;> linarith))
      have c6 : crossing (⟨x, y⟩ : Pt ℚ) ⟨-20, -20⟩ ⟨80, -30⟩ = 0 := crossing_out (by norm_num; first | (left; constructor <;> linarith) | (right; constructor <;> linarith))
      have c7 : crossing (⟨x, y⟩ : Pt ℚ) ⟨80, -30⟩ ⟨180, -50⟩ = - if 0 < (-100) * (y - (-50)) - 20 * (x - 180) then 1 else 0 := by
        rw [crossing_anti, crossing_in (P := 0 < (-100) * (y - (-50)) - 20 * (x - 180)) (by norm_num <;> linarith) (by norm_num <;> linarith) (by unfold side; norm_num)]
      have c8 : crossing (⟨x, y⟩ : Pt ℚ) ⟨180, -50⟩ ⟨90, 1⟩ = if 0 < (-90) * (y - (-50)) - 51 * (x - 180) then 1 else 0 := crossing_in (by norm_num <;> linarith) (by norm_num <;> linarith) (by unfold side; norm_num)
      simp only [c0, c1, c2, c3, c4, c5, c6, c7, c8]
      split_ifs <;> first | decide | (exfalso; linarith)
    rcases lt_or_ge y (-20) with l2 | g2
    · skip
      have c0 : crossing (⟨x, y⟩ : Pt ℚ) ⟨90, 1⟩ ⟨190, -10⟩ = 0 := crossing_out (by norm_num; first | (left; constructor <;> linarith) | (right; constructor <;> linarith))
      have c1 : crossing (⟨x, y⟩ : Pt ℚ) ⟨190, -10⟩ ⟨100, 0⟩ = 0 := crossing_out (by norm_num; first | (left; constructor <;> linarith) | (right; constructor <;> linarith))
      have c2 : crossing (⟨x, y⟩ : Pt ℚ) ⟨100, 0⟩ ⟨30, 10⟩ = 0 := crossing_out (by norm_num; first | (left; constructor <;> linarith) | (right; constructor <;> linarith))
      have c3 : crossing (⟨x, y⟩ : Pt ℚ) ⟨30, 10⟩ ⟨-50, 60⟩ = 0 := crossing_out (by norm_num; first | (left; constructor <;> linarith) | (right; constructor <;> linarith))
      have c4 : crossing (⟨x, y⟩ : Pt ℚ) ⟨-50, 60⟩ ⟨-60, 20⟩ = 0 := crossing_out (by norm_num; first | (left; constructor <;> linarith) | (right; constructor <;> linarith))
      have c5 : crossing (⟨x, y⟩ : Pt ℚ) ⟨-60, 20⟩ ⟨-20, -20⟩ = 0 := crossing_out (by norm_num; first | (left; constructor <;> linarith) | (right; constructor <;> linarith))
      have c6 : crossing (⟨x, y⟩ : Pt ℚ) ⟨-20, -20⟩ ⟨80, -30⟩ = - if 0 < (-100) * (y - (-30)) - 10 * (x - 80) then 1 else 0 := by
        rw [crossing_anti, crossing_in (P := 0 < (-100) * (y - (-30)) - 10 * (x - 80)) (by norm_num <;> linarith) (by norm_num <;> linarith) (by unfold side; norm_num)]
      have c7 : crossing (⟨x, y⟩ : Pt ℚ) ⟨80, -30⟩ ⟨180, -50⟩ = 0 := crossing_out (by norm_num; first | (left; constructor <;> linarith) | (right; constructor <;> linarith))
      have c8 : crossing (⟨x, y⟩ : Pt ℚ) ⟨180, -50⟩ ⟨90, 1⟩ = if 0 < (-90) * (y - (-50)) - 51 * (x - 180) then 1 else 0 := crossing_in (by norm_num <;> linarith) (by norm_num <;> linarith) (by unfold side; norm_num)
      simp only [c0, c1, c2, c3, c4, c5, c6, c7, c8]
      split_ifs <;> first | decide | (exfalso; linarith)
    rcases lt_or_ge y (-10) with l3 | g3
    · skip
      have c0 : crossing (⟨x, y⟩ : Pt ℚ) ⟨90, 1⟩ ⟨190, -10⟩ = 0 := crossing_out (by norm_num; first | (left; constructor <;> linarith) | (right; constructor <;> linarith))
      have c1 : crossing (⟨x, y⟩ : Pt ℚ) ⟨190, -10⟩ ⟨100, 0⟩ = 0 := crossing_out (by norm_num; first | (left; constructor <;> linarith) | (right; constructor <;> linarith))
      have c2 : crossing (⟨x, y⟩ : Pt ℚ) ⟨100, 0⟩ ⟨30, 10⟩ = 0 := crossing_out (by norm_num; first | (left; constructor <;> linarith) | (right; constructor <;> linarith))
      have c3 : crossing (⟨x, y⟩ : Pt ℚ) ⟨30, 10⟩ ⟨-50, 60⟩ = 0 := crossing_out (by norm_num; first | (left; constructor <;> linarith) | (right; constructor <;> linarith))
      have c4 : crossing (⟨x, y⟩ : Pt ℚ) ⟨-50, 60⟩ ⟨-60, 20⟩ = 0 := crossing_out (by norm_num; first | (left; constructor <;> linarith) | (right; constructor <;> linarith))
      have c5 : crossing (⟨x, y⟩ : Pt ℚ) ⟨-60, 20⟩ ⟨-20, -20⟩ = - if 0 < (-40) * (y - (-20)) - 40 * (x - (-20)) then 1 else 0 := by
        rw [crossing_anti, crossing_in (P := 0 < (-40) * (y - (-20)) - 40 * (x - (-20))) (by norm_num <;> linarith) (by norm_num <;> linarith) (by unfold side; norm_num)]
      have c6 : crossing (⟨x, y⟩ : Pt ℚ) ⟨-20, -20⟩ ⟨80, -30⟩ = 0 := crossing_out (by norm_num; first | (left; constructor <;> linarith) | (right; constructor <;> linarith))
      have c7 : crossing (⟨x, y⟩ : Pt ℚ) ⟨80, -30⟩ ⟨180, -50⟩ = 0 := crossing_out (by norm_num; first | (left; constructor <;> linarith) | (right; constructor <;> linarith))
      have c8 : crossing (⟨x, y⟩ : Pt ℚ) ⟨180, -50⟩ ⟨90, 1⟩ = if 0 < (-90) * (y - (-50)) - 51 * (x - 180) then 1 else 0 := crossing_in (by norm_num <;> linarith) (by norm_num <;> linarith) (by unfold side; norm_num)
      simp only [c0, c1, c2, c3, c4, c5, c6, c7, c8]
      split_ifs <;> first | decide | (exfalso; linarith)
    rcases lt_or_ge y 0 with l4 | g4
    · skip
      have c0 : crossing (⟨x, y⟩ : Pt ℚ) ⟨90, 1⟩ ⟨190, -10⟩ = - if 0 < (-100) * (y - (-10)) - 11 * (x - 190) then 1 else 0 := by
        rw [crossing_anti, crossing_in (P := 0 < (-100) * (y - (-10)) - 11 * (x - 190)) (by norm_num <;> linarith) (by norm_num <;> linarith) (by unfold side; norm_num)]
      have c1 : crossing (⟨x, y⟩ : Pt ℚ) ⟨190, -10⟩ ⟨100, 0⟩ = if 0 < (-90) * (y - (-10)) - 10 * (x - 190) then 1 else 0 := crossing_in (by norm_num <;> linarith) (by norm_num <;> linarith) (by unfold side; norm_num)
      have c2 : crossing (⟨x, y⟩ : Pt ℚ) ⟨100, 0⟩ ⟨30, 10⟩ = 0 := crossing_out (by norm_num; first | (left; constructor <;> linarith) | (right; constructor <;> linarith))
      have c3 : crossing (⟨x, y⟩ : Pt ℚ) ⟨30, 10⟩ ⟨-50, 60⟩ = 0 := crossing_out (by norm_num; first | (left; constructor <;> linarith) | (right; constructor <;> linarith))
      have c4 : crossing (⟨x, y⟩ : Pt ℚ) ⟨-50, 60⟩ ⟨-60, 20⟩ = 0 := crossing_out (by norm_num; first | (left; constructor <;> linarith) | (right; constructor <;> linarith))
      have c5 : crossing (⟨x, y⟩ : Pt ℚ) ⟨-60, 20⟩ ⟨-20, -20⟩ = - if 0 < (-40) * (y - (-20)) - 40 * (x - (-20)) then 1 else 0 := by
        rw [crossing_anti, crossing_in (P := 0 < (-40) * (y - (-20)) - 40 * (x - (-20))) (by norm_num <;> linarith) (by norm_num <;> linarith) (by unfold side; norm_num)]
      have c6 : crossing (⟨x, y⟩ : Pt ℚ) ⟨-20, -20⟩ ⟨80, -30⟩ = 0 := crossing_out (by norm_num; first | (left; constructor <;> linarith) | (right; constructor <;> linarith))
      have c7 : crossing (⟨x, y⟩ : Pt ℚ) ⟨80, -30⟩ ⟨180, -50⟩ = 0 := crossing_out (by norm_num; first | (left; constructor <;> linarith) | (right; constructor <;> linarith))
      have c8 : crossing (⟨x, y⟩ : Pt ℚ) ⟨180, -50⟩ ⟨90, 1⟩ = if 0 < (-90) * (y - (-50)) - 51 * (x - 180) then 1 else 0 := crossing_in (by norm_num <;> linarith) (by norm_num <;> linarith) (by unfold side; norm_num)
      simp only [c0, c1, c2, c3, c4, c5, c6, c7, c8]
      split_ifs <;> first | decide | (exfalso; linarith)
    rcases lt_or_ge y 1 with l5 | g5
    · skip
      have c0 : crossing (⟨x, y⟩ : Pt ℚ) ⟨90, 1⟩ ⟨190, -10⟩ = - if 0 < (-100) * (y - (-10)) - 11 * (x - 190) then 1 else 0 := by
        rw [crossing_anti, crossing_in (P := 0 < (-100) * (y - (-10)) - 11 * (x - 190)) (by norm_num <;> linarith) (by norm_num <;> linarith) (by unfold side; norm_num)]
      have c1 : crossing (⟨x, y⟩ : Pt ℚ) ⟨190, -10⟩ ⟨100, 0⟩ = 0 := crossing_out (by norm_num; first | (left; constructor <;> linarith) | (right; constructor <;> linarith))
      have c2 : crossing (⟨x, y⟩ : Pt ℚ) ⟨100, 0⟩ ⟨30, 10⟩ = if 0 < (-70) * (y - 0) - 10 * (x - 100) then 1 else 0 := crossing_in (by norm_num <;> linarith) (by norm_num <;> linarith) (by unfold side; norm_num)
      have c3 : crossing (⟨x, y⟩ : Pt ℚ) ⟨30, 10⟩ ⟨-50, 60⟩ = 0 := crossing_out (by norm_num; first | (left; constructor <;> linarith) | (right; constructor <;> linarith))
      have c4 : crossing (⟨x, y⟩ : Pt ℚ) ⟨-50, 60⟩ ⟨-60, 20⟩ = 0 := crossing_out (by norm_num; first | (left; constructor <;> linarith) | (right; constructor <;> linarith))
      have c5 : crossing (⟨x, y⟩ : Pt ℚ) ⟨-60, 20⟩ ⟨-20, -20⟩ = - if 0 < (-40) * (y - (-20)) - 40 * (x - (-20)) then 1 else 0 := by
        rw [crossing_anti, crossing_in (P := 0 < (-40) * (y - (-20)) - 40 * (x - (-20))) (by norm_num <;> linarith) (by norm_num <;> linarith) (by unfold side; norm_num)]
      have c6 : crossing (⟨x, y⟩ : Pt ℚ) ⟨-20, -20⟩ ⟨80, -30⟩ = 0 := crossing_out (by norm_num; first | (left; constructor <;> linarith) | (right; constructor <;> linarith))
      have c7 : crossing (⟨x, y⟩ : Pt ℚ) ⟨80, -30⟩ ⟨180, -50⟩ = 0 := crossing_out (by norm_num; first | (left; constructor <;> linarith) | (right; constructor <;> linarith))
      have c8 : crossing (⟨x, y⟩ : Pt ℚ) ⟨180, -50⟩ ⟨90, 1⟩ = if 0 < (-90) * (y - (-50)) - 51 * (x - 180) then 1 else 0 := crossing_in (by norm_num <;> linarith) (by norm_num <;> linarith) (by unfold side; norm_num)
      simp only [c0, c1, c2, c3, c4, c5, c6, c7, c8]
      split_ifs <;> first | decide | (exfalso; linarith)
    rcases lt_or_ge y 10 with l6 | g6
    · skip
      have c0 : crossing (⟨x, y⟩ : Pt ℚ) ⟨90, 1⟩ ⟨190, -10⟩ = 0 := crossing_out (by norm_num; first | (left; constructor <;> linarith) | (right; constructor <;> linarith))
      have c1 : crossing (⟨x, y⟩ : Pt ℚ) ⟨190, -10⟩ ⟨100, 0⟩ = 0 := crossing_out (by norm_num; first | (left; constructor <;> linarith) | (right; constructor <;> linarith))
      have c2 : crossing (⟨x, y⟩ : Pt ℚ) ⟨100, 0⟩ ⟨30, 10⟩ = if 0 < (-70) * (y - 0) - 10 * (x - 100) then 1 else 0 := crossing_in (by norm_num <;> linarith) (by norm_num <;> linarith) (by unfold side; norm_num)
      have c3 : crossing (⟨x, y⟩ : Pt ℚ) ⟨30, 10⟩ ⟨-50, 60⟩ = 0 := crossing_out (by norm_num; first | (left; constructor <;> linarith) | (right; constructor <;> linarith))
      have c4 : crossing (⟨x, y⟩ : Pt ℚ) ⟨-50, 60⟩ ⟨-60, 20⟩ = 0 := crossing_out (by norm_num; first | (left; constructor <;> linarith) | (right; constructor <;> linarith))
      have c5 : crossing (⟨x, y⟩ : Pt ℚ) ⟨-60, 20⟩ ⟨-20, -20⟩ = - if 0 < (-40) * (y - (-20)) - 40 * (x - (-20)) then 1 else 0 := by
        rw [crossing_anti, crossing_in (P := 0 < (-40) * (y - (-20)) - 40 * (x - (-20))) (by norm_num <;> linarith) (by norm_num <;> linarith) (by unfold side; norm_num)]
      have c6 : crossing (⟨x, y⟩ : Pt ℚ) ⟨-20, -20⟩ ⟨80, -30⟩ = 0 := crossing_out (by norm_num; first | (left; constructor <;> linarith) | (right; constructor <;> linarith))
      have c7 : crossing (⟨x, y⟩ : Pt ℚ) ⟨80, -30⟩ ⟨180, -50⟩ = 0 := crossing_out (by norm_num; first | (left; constructor <;> linarith) | (right; constructor <;> linarith))
      have c8 : crossing (⟨x, y⟩ : Pt ℚ) ⟨180, -50⟩ ⟨90, 1⟩ = 0 := crossing_out (by norm_num; first | (left; constructor <;> linarith) | (right; constructor <;> linarith))
      simp only [c0, c1, c2, c3, c4, c5, c6, c7, c8]
      split_ifs <;> first | decide | (exfalso; linarith)
    rcases lt_or_ge y 20 with l7 | g7
    · skip
      have c0 : crossing (⟨x, y⟩ : Pt ℚ) ⟨90, 1⟩ ⟨190, -10⟩ = 0 := crossing_out (by norm_num; first | (left; constructor <;> linarith) | (right; constructor <;> linarith))
      have c1 : crossing (⟨x, y⟩ : Pt ℚ) ⟨190, -10⟩ ⟨100, 0⟩ = 0 := crossing_out (by norm_num; first | (left; constructor <;> linarith) | (right; constructor <;> linarith))
      have c2 : crossing (⟨x, y⟩ : Pt ℚ) ⟨100, 0⟩ ⟨30, 10⟩ = 0 := crossing_out (by norm_num; first | (left; constructor <;> linarith) | (right; constructor <;> linarith))
      have c3 : crossing (⟨x, y⟩ : Pt ℚ) ⟨30, 10⟩ ⟨-50, 60⟩ = if 0 < (-80) * (y - 10) - 50 * (x - 30) then 1 else 0 := crossing_in (by norm_num <;> linarith) (by norm_num <;> linarith) (by unfold side; norm_num)
      have c4 : crossing (⟨x, y⟩ : Pt ℚ) ⟨-50, 60⟩ ⟨-60, 20⟩ = 0 := crossing_out (by norm_num; first | (left; constructor <;> linarith) | (right; constructor <;> linarith))
      have c5 : crossing (⟨x, y⟩ : Pt ℚ) ⟨-60, 20⟩ ⟨-20, -20⟩ = - if 0 < (-40) * (y - (-20)) - 40 * (x - (-20)) then 1 else 0 := by
        rw [crossing_anti, crossing_in (P := 0 < (-40) * (y - (-20)) - 40 * (x - (-20))) (by norm_num <;> linarith) (by norm_num <;> linarith) (by unfold side; norm_num)]
      have c6 : crossing (⟨x, y⟩ : Pt ℚ) ⟨-20, -20⟩ ⟨80, -30⟩ = 0 := crossing_out (by norm_num; first | (left; constructor <;> linarith) | (right; constructor <;> linarith))
      have c7 : crossing (⟨x, y⟩ : Pt ℚ) ⟨80, -30⟩ ⟨180, -50⟩ = 0 := crossing_out (by norm_num; first | (left; constructor <;> linarith) | (right; constructor <;> linarith))
      have c8 : crossing (⟨x, y⟩ : Pt ℚ) ⟨180, -50⟩ ⟨90, 1⟩ = 0 := crossing_out (by norm_num; first | (left; constructor <;> linarith) | (right; constructor <;> linarith))
      simp only [c0, c1, c2, c3, c4, c5, c6, c7, c8]
      split_ifs <;> first | decide | (exfalso; linarith)
    rcases lt_or_ge y 60 with l8 | g8
    · skip
      have c0 : crossing (⟨x, y⟩ : Pt ℚ) ⟨90, 1⟩ ⟨190, -10⟩ = 0 := crossing_out (by norm_num; first | (left; constructor <;> linarith) | (right; constructor <;> linarith))
      have c1 : crossing (⟨x, y⟩ : Pt ℚ) ⟨190, -10⟩ ⟨100, 0⟩ = 0 := crossing_out (by norm_num; first | (left; constructor <;> linarith) | (right; constructor <;> linarith))
      have c2 : crossing (⟨x, y⟩ : Pt ℚ) ⟨100, 0⟩ ⟨30, 10⟩ = 0 := crossing_out (by norm_num; first | (left; constructor <;> linarith) | (right; constructor <;> linarith))
      have c3 : crossing (⟨x, y⟩ : Pt ℚ) ⟨30, 10⟩ ⟨-50, 60⟩ = if 0 < (-80) * (y - 10) - 50 * (x - 30) then 1 else 0 := crossing_in (by norm_num <;> linarith) (by norm_num <;> linarith) (by unfold side; norm_num)
      have c4 : crossing (⟨x, y⟩ : Pt ℚ) ⟨-50, 60⟩ ⟨-60, 20⟩ = - if 0 < 10 * (y - 20) - 40 * (x - (-60)) then 1 else 0 := by
        rw [crossing_anti, crossing_in (P := 0 < 10 * (y - 20) - 40 * (x - (-60))) (by norm_num <;> linarith) (by norm_num <;> linarith) (by unfold side; norm_num)]
      have c5 : crossing (⟨x, y⟩ : Pt ℚ) ⟨-60, 20⟩ ⟨-20, -20⟩ = 0 := crossing_out (by norm_num; first | (left; constructor <;> linarith) | (right; constructor <;> linarith))
      have c6 : crossing (⟨x, y⟩ : Pt ℚ) ⟨-20, -20⟩ ⟨80, -30⟩ = 0 := crossing_out (by norm_num; first | (left; constructor <;> linarith) | (right; constructor <;> linarith))
      have c7 : crossing (⟨x, y⟩ : Pt ℚ) ⟨80, -30⟩ ⟨180, -50⟩ = 0 := crossing_out (by norm_num; first | (left; constructor <;> linarith) | (right; constructor <;> linarith))
      have c8 : crossing (⟨x, y⟩ : Pt ℚ) ⟨180, -50⟩ ⟨90, 1⟩ = 0 := crossing_out (by norm_num; first | (left; constructor <;> linarith) | (right; constructor <;> linarith))
      simp only [c0, c1, c2, c3, c4, c5, c6, c7, c8]
      split_ifs <;> first | decide | (exfalso; linarith)
    · skip
      have c0 : crossing (⟨x, y⟩ : Pt ℚ) ⟨90, 1⟩ ⟨190, -10⟩ = 0 := crossing_out (by norm_num; first | (left; constructor <;> linarith) | (right; constructor <;> linarith))
      have c1 : crossing (⟨x, y⟩ : Pt ℚ) ⟨190, -10⟩ ⟨100, 0⟩ = 0 := crossing_out (by norm_num; first | (left; constructor <;> linarith) | (right; constructor <;> linarith))
      have c2 : crossing (⟨x, y⟩ : Pt ℚ) ⟨100, 0⟩ ⟨30, 10⟩ = 0 := crossing_out (by norm_num; first | (left; constructor <;> linarith) | (right; constructor <;> linarith))
      have c3 : crossing (⟨x, y⟩ : Pt ℚ) ⟨30, 10⟩ ⟨-50, 60⟩ = 0 := crossing_out (by norm_num; first | (left; constructor <;> linarith) | (right; constructor <;> linarith))
      have c4 : crossing (⟨x, y⟩ : Pt ℚ) ⟨-50, 60⟩ ⟨-60, 20⟩ = 0 := crossing_out (by norm_num; first | (left; constructor <;> linarith) | (right; constructor <;> linarith))
      have c5 : crossing (⟨x, y⟩ : Pt ℚ) ⟨-60, 20⟩ ⟨-20, -20⟩ = 0 := crossing_out (by norm_num; first | (left; constructor <;> linarith) | (right; constructor <;> linarith))
      have c6 : crossing (⟨x, y⟩ : Pt ℚ) ⟨-20, -20⟩ ⟨80, -30⟩ = 0 := crossing_out (by norm_num; first | (left; constructor <;> linarith) | (right; constructor <;> linarith))
      have c7 : crossing (⟨x, y⟩ : Pt ℚ) ⟨80, -30⟩ ⟨180, -50⟩ = 0 := crossing_out (by norm_num; first | (left; constructor <;> linarith) | (right; constructor <;> linarith))
      have c8 : crossing (⟨x, y⟩ : Pt ℚ) ⟨180, -50⟩ ⟨90, 1⟩ = 0 := crossing_out (by norm_num; first | (left; constructor <;> linarith) | (right; constructor <;> linarith))
      simp only [c0, c1, c2, c3, c4, c5, c6, c7, c8]
      decide

/-- A quad with a long thin side (0, 1, 2 and the inner vertex 9), another one beside it, and five triangles. -/
def ring : St ℚ := flagged ((List.range 9).map fun i => (i, Flags.vOnBoundary))
  (build [.v 90 1, .v 190 (-10), .v 100 0, .v 30 10, .v (-50) 60, .v (-60) 20, .v (-20) (-20), .v 80 (-30), .v 180 (-50), .v 0 11,
    .bdry 0 1 1, .bdry 1 2 1, .bdry 2 3 1, .bdry 3 4 1, .bdry 4 5 1, .bdry 5 6 1, .bdry 6 7 1, .bdry 7 8 1, .bdry 8 0 1,
    .intr 9 0, .intr 9 2, .intr 9 3, .intr 9 4, .intr 9 5, .intr 9 6, .intr 9 7, .quad 0 1 2 9 1, .quad 7 8 0 9 1, .tri 2 3 9 1,
    .tri 3 4 9 1, .tri 4 5 9 1, .tri 5 6 9 1, .tri 6 7 9 1] (St.empty 1))

theorem wf_ring : WF ring := wf_flagged _ _ (built_wf (built_of _ _ Built.empty (by decide +kernel)))

theorem conforming_ring : Conforming ring :=
  conforming_of (proper_of wf_ring (by decide +kernel) (by decide +kernel) (by decide +kernel)) (by decide +kernel) (by decide +kernel)
    (by decide +kernel)

theorem complete_ring : Complete ring where
  toConforming := conforming_ring
  front := by decide +kernel
  bdry := by
    rw [show pairs ring .bdry = [(0, 1), (1, 2), (2, 3), (3, 4), (4, 5), (5, 6), (6, 7), (7, 8), (8, 0)] by decide +kernel]
    exact ring_simple (by decide +kernel)
  ccw := by decide +kernel
  plain := by decide +kernel

theorem flagged_ring : BdryFlagged ring := by unfold BdryFlagged; decide +kernel
theorem convex_ring : ConvexElements ring := convex_of (by decide +kernel)
theorem pointers_ring : NbrLen ring ∧ FreshPointers ring := pointers_of (by decide +kernel)

end TQ.FoldEx

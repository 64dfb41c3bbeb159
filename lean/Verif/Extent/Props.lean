import Verif.Extent.Model
import Verif.Extent.Spec
import Verif.QuadTree.Props
import Mathlib.Algebra.Order.Field.Basic
import Mathlib.Tactic.Linarith
import Mathlib.Tactic.NormNum

/-!
# C194: a new mesh has room for its domain
-/

set_option linter.unusedSectionVars false

namespace TQ
open EM EMSpec QTSpec

namespace EM
variable {K : Type*} [Field K] [LinearOrder K] [IsStrictOrderedRing K]

theorem abs_cases (a : K) : a ≤ cppABS a ∧ -a ≤ cppABS a ∧ 0 ≤ cppABS a := by
  unfold cppABS; split <;> refine ⟨?_, ?_, ?_⟩ <;> linarith

theorem abs_pos {a : K} (h : a ≠ 0) : 0 < cppABS a := by
  unfold cppABS
  split
  · assumption
  · rename_i h2; exact neg_pos.2 (lt_of_le_of_ne (not_lt.1 h2) h)

theorem le_max (a b : K) : a ≤ cppMAX a b ∧ b ≤ cppMAX a b := by
  unfold cppMAX; split <;> constructor <;> linarith

theorem grow_le (m : K) (vs : List (Pt K)) : m ≤ growExtent m vs ∧ ∀ v ∈ vs, cppABS v.x ≤ growExtent m vs ∧ cppABS v.y ≤ growExtent m vs := by
  unfold growExtent
  induction vs generalizing m with
  | nil => simp
  | cons v vs ih =>
    obtain ⟨h1, h2⟩ := ih (cppMAX (cppMAX m (cppABS v.x)) (cppABS v.y))
    have a := le_max (cppMAX m (cppABS v.x)) (cppABS v.y)
    have b := le_max m (cppABS v.x)
    simp only [List.foldl_cons]
    refine ⟨by linarith [a.1, b.1], fun w hw => ?_⟩
    rcases List.mem_cons.1 hw with rfl | hw
    · exact ⟨by linarith [a.1, b.2], by linarith [a.2]⟩
    · exact h2 w hw

/-- The extent is not larger than the greatest coordinate. -/
theorem grow_ex (m : K) (vs : List (Pt K)) : growExtent m vs = m ∨ ∃ v ∈ vs, growExtent m vs = cppABS v.x ∨ growExtent m vs = cppABS v.y := by
  unfold growExtent
  induction vs generalizing m with
  | nil => simp
  | cons v vs ih =>
    simp only [List.foldl_cons]
    rcases ih (cppMAX (cppMAX m (cppABS v.x)) (cppABS v.y)) with h | ⟨w, hw, h⟩
    · rw [h]
      have hc : ∀ a b : K, cppMAX a b = a ∨ cppMAX a b = b := fun a b => by
        unfold cppMAX; split
        · exact Or.inl rfl
        · exact Or.inr rfl
      rcases hc (cppMAX m (cppABS v.x)) (cppABS v.y) with h | h
      · rcases hc m (cppABS v.x) with h' | h'
        · exact Or.inl (h.trans h')
        · exact Or.inr ⟨v, by simp, Or.inl (h.trans h')⟩
      · exact Or.inr ⟨v, by simp, Or.inr h⟩
    · exact Or.inr ⟨w, by simp [hw], h⟩

theorem eq0_iff {eps given : K} (he : 0 ≤ eps) (he1 : eps < 1) : cppEQ given 0 0 eps = true ↔ given = 0 := by
  have h0 : cppABS (0 : K) = 0 := by simp [cppABS]
  unfold cppEQ
  simp only [sub_zero, h0]
  constructor
  · intro h
    by_contra hg
    have hp := abs_pos hg
    rw [if_neg (by linarith)] at h
    have h' := of_decide_eq_true h
    rw [show cppMAX (cppABS given) 0 = cppABS given by unfold cppMAX; rw [if_pos hp]] at h'
    nlinarith
  · rintro rfl
    rw [h0, if_pos le_rfl]

end EM

variable {K : Type*} [Field K] [LinearOrder K] [IsStrictOrderedRing K]

/-- **C194.** A mesh that is created for a domain without a given extent: every point in the bounding box of the vertices is inside the square of its search trees, with a margin of a
twentieth of the greatest coordinate, so that after every history of additions and removals a vertex or element there can be added. The square is no larger than needed for that: its half
side is 1.05 times the greatest coordinate. -/
theorem C194_room {α : Type*} [DecidableEq α] {eps : K} (he : 0 ≤ eps) (he1 : eps < 1) (vs : List (Pt K)) (hv : ∃ v ∈ vs, v.x ≠ 0 ∨ v.y ≠ 0) :
    ∃ m, 0 < m ∧ (∃ v ∈ vs, m = |v.x| ∨ m = |v.y|) ∧ (meshBox eps 0 vs).s / 2 = m + m / 20 ∧
      ∀ p, InBox vs p → (|p.x| + m / 20 ≤ (meshBox eps 0 vs).s / 2 ∧ |p.y| + m / 20 ≤ (meshBox eps 0 vs).s / 2) ∧
        ∀ (mi md : Nat) (pos : α → Pt K) (os : List (Op α)), LegalHist pos (meshBox eps 0 vs) [] os → ∀ t outs,
          exec mi md pos (meshBox eps 0 vs) QT.empty os = some (t, outs) → ∀ x, pos x = p → (QT.add mi pos md x (meshBox eps 0 vs) t).2 = true := by
  have habs : ∀ a : K, cppABS a = |a| := fun a => by
    unfold cppABS; split
    · rw [abs_of_pos (by assumption)]
    · rw [abs_of_nonpos (not_lt.1 (by assumption))]
  have hs : (meshBox eps 0 vs).s = growExtent 0 vs * (21 / 10) := by
    simp only [meshBox, meshExtent]
    rw [if_pos ((eq0_iff he he1).2 rfl)]
  obtain ⟨v, hvm, hv0⟩ := hv
  obtain ⟨g1, g2⟩ := grow_le 0 vs
  have hm : 0 < growExtent 0 vs := by
    rcases hv0 with h | h
    · exact lt_of_lt_of_le (EM.abs_pos h) (g2 v hvm).1
    · exact lt_of_lt_of_le (EM.abs_pos h) (g2 v hvm).2
  refine ⟨growExtent 0 vs, hm, ?_, by rw [hs]; ring, fun p hp => ?_⟩
  · rcases grow_ex 0 vs with h | ⟨w, hw, h⟩
    · exact absurd h (ne_of_gt hm)
    · exact ⟨w, hw, by rwa [← habs, ← habs]⟩
  · obtain ⟨⟨a, ha, ha'⟩, ⟨b, hb, hb'⟩, ⟨c, hc, hc'⟩, ⟨d, hd, hd'⟩⟩ := hp
    have hx : |p.x| ≤ growExtent 0 vs := by
      rw [abs_le]
      have h1 := (g2 a ha).1; have h2 := (g2 b hb).1
      have h3 := (EM.abs_cases a.x).2.1; have h4 := (EM.abs_cases b.x).1
      constructor <;> linarith
    have hy : |p.y| ≤ growExtent 0 vs := by
      rw [abs_le]
      have h1 := (g2 c hc).2; have h2 := (g2 d hd).2
      have h3 := (EM.abs_cases c.y).2.1; have h4 := (EM.abs_cases d.y).1
      constructor <;> linarith
    refine ⟨⟨by rw [hs]; linarith, by rw [hs]; linarith⟩, fun mi md pos os hl t outs hexec x hxp => ?_⟩
    refine (C04_results mi md pos _ (by rw [hs]; linarith) os hl t outs hexec x).1.2 ?_
    rw [hxp]
    obtain ⟨x1, x2⟩ := abs_le.1 hx
    obtain ⟨y1, y2⟩ := abs_le.1 hy
    have hc : (meshBox eps 0 vs).c = ⟨0, 0⟩ := rfl
    simp only [InSquare, hc, hs]
    refine ⟨?_, ?_, ?_, ?_⟩ <;> linarith

/-- **C194.** A given extent is the side of the square. -/
theorem C194_asked {eps : K} (he : 0 ≤ eps) (he1 : eps < 1) {given : K} (hg : given ≠ 0) (vs : List (Pt K)) :
    (meshBox eps given vs).c = ⟨0, 0⟩ ∧ (meshBox eps given vs).s = given := by
  refine ⟨rfl, ?_⟩
  simp only [meshBox, meshExtent]
  rw [if_neg (fun h => hg ((eq0_iff he he1).1 h))]

/-- **C194, the conditions are needed:** if an extent is given, the side is taken as it is, a domain vertex can be outside; the vertices at the origin alone leave no room at all. -/
theorem C194_given :
    (∃ (vs : List (Pt ℚ)) (p : Pt ℚ), p ∈ vs ∧ (QT.add 100 id 25 p (meshBox (1 / 2 ^ 52) 5 vs) QT.empty).2 = false) ∧
    meshBox (1 / 2 ^ 52) 0 [⟨0, 0⟩] = (⟨⟨0, 0⟩, 0⟩ : Box ℚ) :=
  ⟨⟨[⟨0, 0⟩, ⟨4, 0⟩, ⟨0, 4⟩], ⟨4, 0⟩, by decide, by decide +kernel⟩, by decide +kernel⟩

/-- An L-shaped domain far from the origin. -/
def EM.demo : List (Pt ℚ) := [⟨10, -3⟩, ⟨14, -3⟩, ⟨14, 2⟩, ⟨12, 2⟩, ⟨12, 0⟩, ⟨10, 0⟩]

example : meshBox (1 / 2 ^ 52) 0 EM.demo = ⟨⟨0, 0⟩, 147 / 5⟩ := by decide +kernel

example := C194_room (K := ℚ) (α := Nat) (eps := 1 / 2 ^ 52) (by norm_num) (by norm_num) EM.demo ⟨⟨10, -3⟩, by simp [EM.demo], by norm_num⟩

example : InBox EM.demo ⟨11, -1⟩ := ⟨⟨⟨10, -3⟩, by simp [EM.demo], by norm_num⟩, ⟨⟨14, 2⟩, by simp [EM.demo], by norm_num⟩,
  ⟨⟨10, -3⟩, by simp [EM.demo], by norm_num⟩, ⟨⟨14, 2⟩, by simp [EM.demo], by norm_num⟩⟩

end TQ

#print axioms TQ.C194_room
#print axioms TQ.C194_given

#print axioms TQ.C194_asked

import Verif.Front.Graded
import Mathlib.Algebra.Order.Group.MinMax

/-!
# Properties of refined edges for graded size functions: C31

The size may vary by any factor along the edge, as long as it changes slowly.
-/

set_option linter.unusedSectionVars false

namespace TQ.FrSpec
variable {K : Type*} [Field K] [LinearOrder K]

/-- Along the line through `p` and `q` the size is positive and changes by at most a fifth of the distance. -/
def Graded (norm : Pt K → K) (rho : Pt K → K) (p q : Pt K) : Prop :=
  (∀ t, 0 < rho (onLine p q t)) ∧
  ∀ s t, s ≤ t → 5 * |rho (onLine p q t) - rho (onLine p q s)| ≤ norm (onLine p q t - onLine p q s)

end TQ.FrSpec

namespace TQ
open Fr FrSpec
variable {K : Type*} [Field K] [LinearOrder K] [IsStrictOrderedRing K]

/-- **C31**, what holds for graded sizes: if the size changes along the edge by at most a fifth of the distance, the
points run strictly monotonically from the start to the end of the edge.  The full statement (arbitrary size functions)
is false, see `C31_partition_violated`. -/
theorem C31_graded_partial (norm : Pt K → K) (hn : IsNorm norm) (rho : Pt K → K) (p1 p2 : Pt K) (h : p1 ≠ p2)
    (hg : Graded norm rho p1 p2) (fuel : Nat) (xs : List (Pt K)) (hx : subCoords norm rho fuel p1 p2 = some xs) :
    Partition p1 p2 xs := by
  obtain ⟨hpos, hlip⟩ := hg
  obtain ⟨ρ, rev, hrev, hρ, he⟩ := subCoords_eq hn h hpos fuel
  obtain ⟨hlen, _⟩ := unit_tang hn h
  rw [he] at hx
  simp only [Option.map_eq_some_iff] at hx
  obtain ⟨⟨ys, z⟩, hq, rfl⟩ := hx
  have hρp : ∀ t, 0 < ρ t := fun t => by rw [hρ]; exact hpos _
  have e0 : onLine p1 p2 0 = p1 := by unfold onLine; apply Pt.ext' <;> simp
  have e1 : onLine p1 p2 1 = p2 := by unfold onLine; apply Pt.ext' <;> simp
  have hslow : Slow ρ := by
    intro s t hst
    rw [hρ s, hρ t]
    have hdiv : s / norm (p2 - p1) ≤ t / norm (p2 - p1) := (div_le_div_iff_of_pos_right hlen).mpr hst
    have hmul : (t / norm (p2 - p1) - s / norm (p2 - p1)) * norm (p2 - p1) = t - s := by
      field_simp
    cases rev
    · simp only [Bool.false_eq_true, if_false]
      refine (hlip _ _ hdiv).trans ?_
      rw [onLine_norm hn hdiv, hmul]
    · simp only [if_true]
      have h1 : 1 - t / norm (p2 - p1) ≤ 1 - s / norm (p2 - p1) := by linarith
      have h2 := hlip _ _ h1
      rw [onLine_norm hn h1] at h2
      rw [abs_sub_comm]
      refine h2.trans (le_of_eq ?_)
      rw [← hmul]; ring
  have hends : 1 / 2 * (rho p1 + rho p2) = 1 / 2 * (ρ 0 + ρ (norm (p2 - p1))) ∧ ρ 0 ≤ ρ (norm (p2 - p1)) := by
    rw [hρ 0, hρ (norm (p2 - p1)), zero_div, div_self hlen.ne']
    cases rev
    · simp only [Bool.false_eq_true, if_false]
      rw [e0, e1]
      have : rho p1 < rho p2 := by simpa using hrev
      exact ⟨rfl, this.le⟩
    · simp only [if_true]
      rw [sub_zero, sub_self, e0, e1]
      have : ¬ rho p1 < rho p2 := by simpa using hrev
      exact ⟨by ring, not_lt.mp this⟩
  have hs := tFinish_graded hρp hslow hlen hends.2 (by rw [hends.1]) hq
  obtain ⟨hh, hl⟩ := tFinish_head ρ (norm (p2 - p1)) ys z
  have hp := pairwise_ends hs
  cases rev
  · simp only [Bool.false_eq_true, if_false]
    refine ⟨_, rfl, ?_, ?_, ?_⟩
    · rw [List.pairwise_map]
      exact hp.imp fun hab => (div_lt_div_iff_of_pos_right hlen).mpr hab
    · rw [List.head?_map, hh]; simp
    · rw [List.getLast?_map, hl]; simp [hlen.ne']
  · simp only [if_true]
    refine ⟨_, rfl, ?_, ?_, ?_⟩
    · rw [List.pairwise_reverse, List.pairwise_map]
      apply hp.imp
      intro a b hab
      have := (div_lt_div_iff_of_pos_right hlen).mpr hab
      linarith
    · rw [List.head?_reverse, List.getLast?_map, hl]; simp [hlen.ne']
    · rw [List.getLast?_reverse, List.head?_map, hh]; simp

/-- **C31**: for graded sizes the debug assertions hold. -/
theorem C31_graded_checks (norm : Pt K → K) (hn : IsNorm norm) (rho : Pt K → K) (p1 p2 : Pt K) (h : p1 ≠ p2)
    (hg : Graded norm rho p1 p2) (fuel : Nat) (xs : List (Pt K)) (hx : subCoords norm rho fuel p1 p2 = some xs) :
    subChecks norm (if rho p1 < rho p2 then xs else xs.reverse) = true := by
  have hp := C31_graded_partial norm hn rho p1 p2 h hg fuel xs hx
  split_ifs
  · exact partition_checks hn h hp
  · exact partition_checks hn h.symm (partition_reverse hp)

/-! ### Example -/

/-- The size grows from 1 at the left to 41 at the right end of an edge of length 200. -/
noncomputable def growing (p : Pt ℝ) : ℝ := max 1 (1 + p.x / 5)

theorem growing_graded (p q : Pt ℝ) : Graded euclid growing p q := by
  refine ⟨fun t => lt_of_lt_of_le one_pos (le_max_left _ _), fun s t _ => ?_⟩
  generalize onLine p q t = a
  generalize onLine p q s = b
  have h1 : |growing a - growing b| ≤ |1 + a.x / 5 - (1 + b.x / 5)| := by
    unfold growing
    rw [max_comm 1, max_comm 1]
    exact abs_max_sub_max_le_abs _ _ _
  have h2 : |1 + a.x / 5 - (1 + b.x / 5)| = |a.x - b.x| / 5 := by
    rw [show 1 + a.x / 5 - (1 + b.x / 5) = (a.x - b.x) / 5 by ring, abs_div, abs_of_pos (show (0 : ℝ) < 5 by norm_num)]
  have h3 : |a.x - b.x| ≤ euclid (a - b) := by
    unfold euclid
    apply Real.abs_le_sqrt
    unfold Pt.normSq
    simp
    nlinarith [sq_nonneg (a.y - b.y)]
  linarith

example : (∃ n xs, subCoords euclid growing n ⟨200, 0⟩ ⟨0, 0⟩ = some xs ∧ Partition ⟨200, 0⟩ ⟨0, 0⟩ xs) ∧ growing ⟨0, 0⟩ = 1 ∧ growing ⟨200, 0⟩ = 41 := by
  have hne : (⟨200, 0⟩ : Pt ℝ) ≠ ⟨0, 0⟩ := by intro h; have := congrArg Pt.x h; norm_num at this
  obtain ⟨n, xs, h⟩ := C32_terminates_archimedean euclid euclid_isNorm growing ⟨200, 0⟩ ⟨0, 0⟩ hne 1 one_pos (fun t => le_max_left _ _)
  refine ⟨⟨n, xs, h, C31_graded_partial euclid euclid_isNorm growing _ _ hne (growing_graded _ _) n xs h⟩, ?_, ?_⟩ <;> unfold growing <;> norm_num

end TQ

#print axioms TQ.C31_graded_partial
#print axioms TQ.C31_graded_checks

import Verif.Angles.Lemmas

namespace TQ
namespace FG
open MS FGSpec EuclideanGeometry Real

/-- Sum of the four interior angles. -/
noncomputable def intSum (p q r s : Pt ℝ) : ℝ := interior s p q + interior p q r + interior q r s + interior r s p

theorem interior_convex {a b c : Pt ℝ} (h : ¬ Reflex a b c) : interior a b c = ang a b c := if_neg h
theorem interior_reflex {a b c : Pt ℝ} (h : Reflex a b c) : interior a b c = 2 * π - ang a b c := if_pos h

theorem ccw_ne {p q r : Pt ℝ} (h : Ccw p q r) : p ≠ q ∧ q ≠ r ∧ r ≠ p := by
  unfold Ccw Pt.cross at h
  simp only [Pt.sub_x, Pt.sub_y] at h
  refine ⟨?_, ?_, ?_⟩ <;>
  · rintro rfl
    apply absurd h
    apply not_lt.mpr
    apply le_of_eq
    ring

theorem ccw_rot {p q r : Pt ℝ} (h : Ccw p q r) : Ccw q r p := by
  unfold Ccw Pt.cross at h ⊢
  simp only [Pt.sub_x, Pt.sub_y] at h ⊢
  linarith

theorem ccw_convex {p q r : Pt ℝ} (h : Ccw p q r) : ¬ Reflex p q r := by
  have := ccw_rot h
  unfold Ccw at this
  unfold Reflex
  exact not_lt.mpr (le_of_lt this)

theorem core {p q r s : Pt ℝ} (h1 : Ccw p q r) (h2 : Ccw p r s) (hp : 0 < Pt.cross (q - p) (s - p)) :
    intSum p q r s = 2 * π := by
  have hA : 0 < Pt.cross (q - p) (r - p) := h1
  have hB : 0 < Pt.cross (r - p) (s - p) := h2
  obtain ⟨A, eA⟩ : ∃ A, A = Pt.cross (q - p) (r - p) := ⟨_, rfl⟩
  obtain ⟨B, eB⟩ : ∃ B, B = Pt.cross (r - p) (s - p) := ⟨_, rfl⟩
  obtain ⟨C, eC⟩ : ∃ C, C = Pt.cross (q - p) (s - p) := ⟨_, rfl⟩
  rw [← eA] at hA
  rw [← eB] at hB
  rw [← eC] at hp
  have hAB : 0 < A + B := by linarith
  have hne : A + B ≠ 0 := ne_of_gt hAB
  obtain ⟨u, eu⟩ : ∃ u, u = A / (A + B) := ⟨_, rfl⟩
  obtain ⟨t, et⟩ : ∃ t, t = C / (A + B) := ⟨_, rfl⟩
  have hu0 : 0 < u := by rw [eu]; exact div_pos hA hAB
  have hu1 : u < 1 := by rw [eu, div_lt_one hAB]; linarith
  have ht0 : 0 < t := by rw [et]; exact div_pos hp hAB
  have hD : Pt.cross (s - r) (q - r) = (1 - t) * (A + B) := by
    have : t * (A + B) = C := by rw [et]; field_simp
    have e : (1 - t) * (A + B) = A + B - C := by rw [sub_mul, this]; ring
    rw [e, eA, eB, eC]
    unfold Pt.cross
    simp only [Pt.sub_x, Pt.sub_y]
    ring
  obtain ⟨x, hx⟩ : ∃ x : Pt ℝ, x = ⟨q.x + u * (s.x - q.x), q.y + u * (s.y - q.y)⟩ := ⟨_, rfl⟩
  have hx2 : x = ⟨p.x + t * (r.x - p.x), p.y + t * (r.y - p.y)⟩ := by
    rw [hx, eu, et]
    apply Pt.ext'
    · change q.x + A / (A + B) * (s.x - q.x) = p.x + C / (A + B) * (r.x - p.x)
      field_simp
      rw [eA, eB, eC]
      unfold Pt.cross
      simp only [Pt.sub_x, Pt.sub_y]
      ring
    · change q.y + A / (A + B) * (s.y - q.y) = p.y + C / (A + B) * (r.y - p.y)
      field_simp
      rw [eA, eB, eC]
      unfold Pt.cross
      simp only [Pt.sub_x, Pt.sub_y]
      ring
  have hx3 : x = ⟨r.x + (1 - t) * (p.x - r.x), r.y + (1 - t) * (p.y - r.y)⟩ := by
    rw [hx2]
    apply Pt.ext'
    · change p.x + t * (r.x - p.x) = r.x + (1 - t) * (p.x - r.x)
      ring
    · change p.y + t * (r.y - p.y) = r.y + (1 - t) * (p.y - r.y)
      ring
  have hqs : q ≠ s := by
    rintro rfl
    apply absurd hp
    rw [eC]
    unfold Pt.cross
    apply not_lt.mpr
    apply le_of_eq
    ring
  have a1 := ang_add p hx hqs hu0 hu1
  rw [ang_ray hx2 ht0, ang_comm x p s, ang_ray hx2 ht0] at a1
  have a2 := ang_add r hx hqs hu0 hu1
  have s1 := tri_sum r (ccw_ne h1).1.symm
  have s2 := tri_sum s (ccw_ne h2).1.symm
  have ip : interior s p q = ang q p s := by
    rw [interior_convex, ang_comm]
    unfold Reflex
    rw [← eC]
    exact not_lt.mpr (le_of_lt hp)
  have iq : interior p q r = ang p q r := interior_convex (ccw_convex h1)
  have is : interior r s p = ang r s p := interior_convex (ccw_convex (ccw_rot h2))
  have ir : interior q r s = ang q r p + ang p r s := by
    rcases lt_trichotomy t 1 with ht | ht | ht
    · rw [interior_convex, ← a2, ang_ray hx3 (by linarith), ang_comm x r s, ang_ray hx3 (by linarith), ang_comm s r p]
      unfold Reflex
      rw [hD]
      exact not_lt.mpr (mul_nonneg (by linarith) (le_of_lt hAB))
    · have hxr : x = r := by
        rw [hx3, ht]
        apply Pt.ext'
        · change r.x + (1 - 1) * (p.x - r.x) = r.x
          ring
        · change r.y + (1 - 1) * (p.y - r.y) = r.y
          ring
      have hst : Sbtw ℝ (emb q) (emb r) (emb s) := by
        rw [← hxr]
        exact sbtw_line hx hqs hu0 hu1
      have hpi : ∠ (emb q) (emb r) (emb s) = π := hst.angle₁₂₃_eq_pi
      have := angle_add_angle_eq_pi_of_angle_eq_pi (emb p) hpi
      rw [interior_convex]
      · have e1 : ang q r p = ∠ (emb p) (emb r) (emb q) := ang_comm _ _ _
        have e2 : ang p r s = ∠ (emb p) (emb r) (emb s) := rfl
        rw [e1, e2]
        unfold ang
        rw [hpi, ← this]
      · unfold Reflex
        rw [hD, ht]
        simp
    · rw [interior_reflex, ← a2, ang_back hx3 (by linarith), ang_comm x r s, ang_back hx3 (by linarith), ang_comm s r p]
      · ring
      · unfold Reflex
        rw [hD]
        exact mul_neg_of_neg_of_pos (by linarith) hAB
  unfold intSum
  rw [ip, iq, is, ir, ← a1]
  rw [ang_comm r p q] at s1
  linarith

theorem split_sum {p q r s : Pt ℝ} (h1 : Ccw p q r) (h2 : Ccw p r s) : intSum p q r s = 2 * π := by
  by_cases hp : 0 < Pt.cross (q - p) (s - p)
  · exact core h1 h2 hp
  · have hr : 0 < Pt.cross (s - r) (q - r) := by
      have h1' : 0 < Pt.cross (q - p) (r - p) := h1
      have h2' : 0 < Pt.cross (r - p) (s - p) := h2
      have : Pt.cross (s - r) (q - r) =
          Pt.cross (q - p) (r - p) + Pt.cross (r - p) (s - p) - Pt.cross (q - p) (s - p) := by
        unfold Pt.cross
        simp only [Pt.sub_x, Pt.sub_y]
        ring
      linarith
    have := core (p := r) (q := s) (r := p) (s := q) (ccw_rot h2) (ccw_rot (ccw_rot h1)) hr
    rw [← this]
    unfold intSum
    ring

theorem simple_sum {p q r s : Pt ℝ} (h : Simple4 p q r s) : intSum p q r s = 2 * π := by
  rcases h with ⟨h1, h2⟩ | ⟨h1, h2⟩
  · exact split_sum h1 h2
  · rw [← split_sum h1 h2]
    unfold intSum
    ring

theorem ang_pos {a b c : Pt ℝ} (h : Pt.cross (c - b) (a - b) ≠ 0) : 0 < ang a b c ∧ ang a b c < π := by
  have hsin : ang a b c ≠ 0 ∧ ang a b c ≠ π := by
    have hne : len b a * len b c ≠ 0 → Pt.dot (a - b) (c - b) ^ 2 ≠ (len b a * len b c) ^ 2 := by
      intro _ he
      apply h
      have h1 : len b a ^ 2 = Pt.normSq (a - b) := by
        unfold len
        exact Real.sq_sqrt (by unfold Pt.normSq; nlinarith [mul_self_nonneg (a - b).x, mul_self_nonneg (a - b).y])
      have h2 : len b c ^ 2 = Pt.normSq (c - b) := by
        unfold len
        exact Real.sq_sqrt (by unfold Pt.normSq; nlinarith [mul_self_nonneg (c - b).x, mul_self_nonneg (c - b).y])
      rw [mul_pow, h1, h2] at he
      have : Pt.cross (c - b) (a - b) ^ 2 = 0 := by
        unfold Pt.dot Pt.normSq at he
        unfold Pt.cross
        linear_combination -he
      exact pow_eq_zero_iff (two_ne_zero) |>.mp this
    have hl : len b a * len b c ≠ 0 := by
      intro h0
      apply h
      rcases mul_eq_zero.mp h0 with h1 | h1
      · unfold len at h1
        rw [Real.sqrt_eq_zero (by unfold Pt.normSq; nlinarith [mul_self_nonneg (a - b).x, mul_self_nonneg (a - b).y])] at h1
        unfold Pt.normSq at h1
        have hx : (a - b).x = 0 := by nlinarith [mul_self_nonneg (a - b).x, mul_self_nonneg (a - b).y]
        have hy : (a - b).y = 0 := by nlinarith [mul_self_nonneg (a - b).x, mul_self_nonneg (a - b).y]
        unfold Pt.cross
        rw [hx, hy]
        ring
      · unfold len at h1
        rw [Real.sqrt_eq_zero (by unfold Pt.normSq; nlinarith [mul_self_nonneg (c - b).x, mul_self_nonneg (c - b).y])] at h1
        unfold Pt.normSq at h1
        have hx : (c - b).x = 0 := by nlinarith [mul_self_nonneg (c - b).x, mul_self_nonneg (c - b).y]
        have hy : (c - b).y = 0 := by nlinarith [mul_self_nonneg (c - b).x, mul_self_nonneg (c - b).y]
        unfold Pt.cross
        rw [hx, hy]
        ring
    have hcos : Real.cos (ang a b c) * (len b a * len b c) = Pt.dot (a - b) (c - b) := by
      unfold ang EuclideanGeometry.angle
      rw [← norm_emb, ← norm_emb, ← inner_emb]
      exact InnerProductGeometry.cos_angle_mul_norm_mul_norm _ _
    constructor
    · intro e
      rw [e, Real.cos_zero, one_mul] at hcos
      exact hne hl (by rw [hcos])
    · intro e
      rw [e, Real.cos_pi] at hcos
      exact hne hl (by rw [← hcos]; ring)
  have h0 : 0 ≤ ang a b c := EuclideanGeometry.angle_nonneg _ _ _
  have h1 : ang a b c ≤ π := EuclideanGeometry.angle_le_pi _ _ _
  exact ⟨lt_of_le_of_ne h0 (Ne.symm hsin.1), lt_of_le_of_ne h1 hsin.2⟩

theorem reported_le (a b c : Pt ℝ) : ang a b c ≤ interior a b c ∧ (ang a b c = interior a b c ↔ ¬ Reflex a b c) := by
  by_cases h : Reflex a b c
  · rw [interior_reflex h]
    have := (ang_pos (ne_of_lt h)).2
    refine ⟨by linarith, fun e => ?_, fun hn => absurd h hn⟩
    linarith
  · rw [interior_convex h]
    exact ⟨le_refl _, fun _ => h, fun _ => rfl⟩

end FG
end TQ

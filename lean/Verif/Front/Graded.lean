import Verif.Front.Props

/-! # Helper lemmas for C31: sizes that change slowly along the edge -/

set_option linter.unusedSectionVars false

namespace TQ
open Fr FrSpec
variable {K : Type*} [Field K] [LinearOrder K] [IsStrictOrderedRing K]

/-- The steps of the loop. -/
theorem tLoop_steps {ρ : K → K} {S : K} (n : Nat) : ∀ x xs z, tLoop ρ S n x = some (xs, z) →
    (x :: xs ++ [z]).IsChain (fun u v => v = u + 1 / 2 * (ρ u + ρ (u + ρ u))) ∧ (∀ y ∈ xs, y ≤ S) ∧ S < z := by
  induction n with
  | zero => intro x xs z h; simp [tLoop] at h
  | succ n ih =>
    intro x xs z h
    rw [tLoop] at h
    try dsimp only at h
    split_ifs at h with hS
    · simp only [Option.some.injEq, Prod.mk.injEq] at h
      obtain ⟨rfl, rfl⟩ := h
      refine ⟨?_, by simp, hS⟩
      rw [List.cons_append, List.nil_append, List.isChain_cons_cons]
      exact ⟨rfl, List.isChain_singleton _⟩
    · simp only [Option.map_eq_some_iff, Prod.mk.injEq] at h
      obtain ⟨⟨xs', z'⟩, hl', rfl, rfl⟩ := h
      obtain ⟨a1, a2, a3⟩ := ih _ _ _ hl'
      refine ⟨?_, ?_, a3⟩
      · rw [List.cons_append, List.cons_append, List.isChain_cons_cons]
        exact ⟨rfl, a1⟩
      · intro y hy
        rcases List.mem_cons.mp hy with rfl | hy
        · exact not_lt.mp hS
        · exact a2 y hy

/-- The size changes by at most a fifth of the distance. -/
def Slow (ρ : K → K) : Prop := ∀ s t, s ≤ t → 5 * |ρ t - ρ s| ≤ t - s

theorem slow_step {ρ : K → K} (h : Slow ρ) (hp : ∀ t, 0 < ρ t) {u v : K} (huv : v = u + 1 / 2 * (ρ u + ρ (u + ρ u))) :
    9 / 10 * ρ u ≤ v - u ∧ v - u ≤ 11 / 10 * ρ u ∧ 5 * |ρ v - ρ u| ≤ v - u := by
  have h1 := h u (u + ρ u) (by linarith [hp u])
  have h2 : |ρ (u + ρ u) - ρ u| ≤ ρ u / 5 := by linarith
  obtain ⟨a, b⟩ := abs_le.mp h2
  have hl : 9 / 10 * ρ u ≤ v - u := by rw [huv]; linarith
  exact ⟨hl, by rw [huv]; linarith, h u v (by linarith [hp u])⟩

/-- The last point and the one before. -/
theorem last_two {P : K → K → Prop} {ρ : K → K} (hp : ∀ t, 0 < ρ t) {xs : List K} (hc : xs.IsChain P) {u w : K} (hu : xs.head? = some u) (hw : xs.getLast? = some w) :
    xs = [u] ∨ ∃ w' ∈ xs, P w' w ∧ ρ w' + ρ w ≤ (xs.map ρ).sum := by
  rcases List.eq_nil_or_concat xs with rfl | ⟨l, b, rfl⟩
  · simp at hu
  rw [List.concat_eq_append] at *
  rw [List.getLast?_concat, Option.some.injEq] at hw
  subst hw
  rcases List.eq_nil_or_concat l with rfl | ⟨m, c, rfl⟩
  · left
    simpa using hu
  · right
    rw [List.concat_eq_append] at *
    refine ⟨c, by simp, ?_, ?_⟩
    · rw [List.isChain_append] at hc
      exact hc.2.2 c (by simp) b (by simp)
    · have h0 : 0 ≤ (m.map ρ).sum := by
        apply List.sum_nonneg; intro y hy; obtain ⟨z, _, rfl⟩ := List.mem_map.mp hy; exact (hp z).le
      simp only [List.map_append, List.map_cons, List.map_nil, List.sum_append, List.sum_cons, List.sum_nil]
      linarith

/-- The abscissae after the loop are strictly increasing if the size changes slowly and does not decrease from the start to the end. -/
theorem tFinish_graded {ρ : K → K} {len m : K} (hp : ∀ t, 0 < ρ t) (hs : Slow ρ) (hlen : 0 < len) (hdir : ρ 0 ≤ ρ len)
    (hm : m = cppMIN len (1 / 2 * (ρ 0 + ρ len)))
    {n : Nat} {xs : List K} {z : K} (h : tLoop ρ (len - m / 2) n 0 = some (xs, z)) :
    (tFinish ρ len xs z).IsChain (· < ·) := by
  obtain ⟨hch, hxs, hz⟩ := tLoop_steps n 0 xs z h
  obtain ⟨m1, m2, m3⟩ := min_cases len (1 / 2 * (ρ 0 + ρ len))
  rw [← hm] at m1 m2 m3
  unfold tFinish
  cases hcase : xs.getLast? with
  | none =>
    rw [List.getLast?_eq_none_iff] at hcase
    subst hcase
    simpa using hlen
  | some w =>
  have hne : xs ≠ [] := by rintro rfl; simp at hcase
  have hwm : w ∈ xs := List.mem_of_getLast? hcase
  rw [List.isChain_append] at hch
  obtain ⟨hchx, -, hlast⟩ := hch
  have hlw := hlast w (by
    cases xs with
    | nil => exact absurd rfl hne
    | cons b l => rw [List.getLast?_cons_cons, hcase]; rfl) z (by simp)
  obtain ⟨l1, l2, l3⟩ := slow_step hs hp hlw
  have hwS := hxs w hwm
  have hpw := hp w
  have hp0 := hp 0
  -- the size at the end
  have he : ρ len ≤ ρ w + (len - w) / 5 := by
    have hm0 : 0 < m := by rcases m1 with h | h <;> rw [h] <;> linarith [hp len]
    have := hs w len (by linarith)
    have := (abs_le.mp (show |ρ len - ρ w| ≤ (len - w) / 5 by linarith)).2
    linarith
  have hd1 : len - z ≤ 7 / 10 * ρ w := by linarith
  have hd2 : -(11 / 10 * ρ w) + m / 2 ≤ len - z := by linarith
  have hm0 : 0 < m := by rcases m1 with h | h <;> rw [h] <;> linarith [hp len]
  have hsw := mem_le_sum (fun t => (hp t).le) xs w hwm
  have hS : 0 < (xs.map ρ).sum := lt_of_lt_of_le hpw hsw
  have hratio : |(len - z) / (xs.map ρ).sum| ≤ 11 / 10 := by
    rw [abs_div, abs_of_pos hS, div_le_iff₀ hS]
    refine abs_le.mpr ⟨by linarith, by linarith⟩
  apply chain_ends hne (List.isChain_cons.mp hchx).2
  · intro u hu v hv huv
    obtain ⟨a1, a2, a3⟩ := slow_step hs hp huv
    have e : v + ρ v / (xs.map ρ).sum * (len - z) - (u + ρ u / (xs.map ρ).sum * (len - z)) =
        (v - u) + (ρ v - ρ u) * ((len - z) / (xs.map ρ).sum) := by field_simp; ring
    have a4 : |(ρ v - ρ u) * ((len - z) / (xs.map ρ).sum)| ≤ (v - u) / 5 * (11 / 10) := by
      rw [abs_mul]
      exact mul_le_mul (by linarith) hratio (abs_nonneg _) (by linarith [hp u])
    have a5 := (abs_le.mp a4).1
    linarith [hp u]
  · intro u hu
    have hum : u ∈ xs := List.mem_of_head? hu
    have h0u : u = 0 + 1 / 2 * (ρ 0 + ρ (0 + ρ 0)) := (List.isChain_cons.mp hchx).1 u hu
    obtain ⟨a1, a2, a3⟩ := slow_step hs hp h0u
    have a4 : ρ u ≤ ρ 0 + u / 5 := by
      have := (abs_le.mp (show |ρ u - ρ 0| ≤ u / 5 by linarith)).2
      linarith
    have hpu := hp u
    rcases le_total 0 (len - z) with h | h
    · have := mul_nonneg (div_pos hpu hS).le h; linarith
    · rcases last_two hp (List.isChain_cons.mp hchx).2 hu hcase with hx | ⟨w', hw', hpp, hsum⟩
      · subst hx
        simp only [List.getLast?_singleton, Option.some.injEq] at hcase
        subst hcase
        simp only [List.map_cons, List.map_nil, List.sum_cons, List.sum_nil, add_zero, div_self hpu.ne', one_mul]
        have hm9 : 9 / 10 * ρ 0 ≤ m := by
          rcases m1 with h | h
          · rw [h]; linarith
          · rw [h]; linarith
        linarith
      · obtain ⟨b1, b2, b3⟩ := slow_step hs hp hpp
        have b4 : ρ w ≤ 61 / 50 * ρ w' := by
          have := (abs_le.mp (show |ρ w - ρ w'| ≤ (w - w') / 5 by linarith)).2
          linarith
        have b5 : 18 / 10 * ρ w ≤ (xs.map ρ).sum := by linarith
        have b6 : -(11 / 18) ≤ (len - z) / (xs.map ρ).sum := by
          rw [le_div_iff₀ hS]; linarith
        have b7 : ρ u / (xs.map ρ).sum * (len - z) = ρ u * ((len - z) / (xs.map ρ).sum) := by ring
        rw [b7]
        have b8 := mul_le_mul_of_nonneg_left b6 hpu.le
        linarith
  · intro u hu
    have hum : u ∈ xs := List.mem_of_getLast? hu
    obtain rfl : w = u := by rw [hcase] at hu; exact Option.some.inj hu
    have u1 : ρ w / (xs.map ρ).sum ≤ 1 := (div_le_one hS).mpr hsw
    have u2 := div_pos hpw hS
    rcases le_total 0 (len - z) with h | h
    · have : ρ w / (xs.map ρ).sum * (len - z) ≤ len - z := by nlinarith
      linarith
    · have := mul_nonpos_of_nonneg_of_nonpos u2.le h
      linarith

end TQ

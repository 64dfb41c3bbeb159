import Verif.Whole.Start

/-! # Lemmas: conforming meshes are completely meshed domains -/

set_option linter.unusedSectionVars false
set_option linter.unusedSimpArgs false

namespace TQ.Whole
open TQ.MS TQ.MeshSpec TQ.FUSpec TQ.MS.St TQ.GeoSpec TQ.FU TQ.Sm TQ.MCSpec TQ.WholeSpec TQ.RefSpec
variable {K : Type*} [Field K] [LinearOrder K] [IsStrictOrderedRing K]

theorem allSides_ne {s : St K} (h : WF s) {a b : Nat} (hm : (a, b) ∈ allSides s) : a ≠ b := by
  unfold allSides at hm
  obtain ⟨f, hf, hs⟩ := List.mem_flatMap.mp hm
  have hl := mem_facets.mp hf
  have hn := (h.cor f hl).1
  rcases corners_cases h hl with ⟨x, y, z, hc⟩ | ⟨x, y, z, u, hc⟩
  · rw [hc, sides3] at hs
    rw [hc] at hn
    simp only [List.nodup_cons, List.mem_cons, List.not_mem_nil, or_false, not_or] at hn hs
    simp only [Prod.mk.injEq] at hs
    rintro rfl
    obtain ⟨⟨n1, n2⟩, n3, -⟩ := hn
    clear * - hs n1 n2 n3
    omega
  · rw [hc, sides4] at hs
    rw [hc] at hn
    simp only [List.nodup_cons, List.mem_cons, List.not_mem_nil, or_false, not_or] at hn hs
    simp only [Prod.mk.injEq] at hs
    rintro rfl
    obtain ⟨⟨n1, n2, n3⟩, ⟨n4, n5⟩, n6, -⟩ := hn
    clear * - hs n1 n2 n3 n4 n5 n6
    omega

theorem connecting_self {es : List (Nat × Nat)} (h : ∀ e ∈ es, e.1 ≠ e.2) (a : Nat) : connecting es a a = 0 := by
  unfold connecting
  rw [List.countP_eq_zero]
  intro e he hh
  have := h e he
  simp only [decide_eq_true_eq] at hh
  omega

theorem connecting_none {s : St K} {l : EL} {a b : Nat} (h : ∀ e ∈ s.es l, ¬ Connects s e a b) : connecting (pairs s l) a b = 0 := by
  unfold connecting
  rw [List.countP_eq_zero]
  intro p hp hh
  obtain ⟨e, he, rfl⟩ := List.mem_map.mp hp
  simp only [decide_eq_true_eq] at hh
  exact h e he hh

theorem connects_same {s : St K} {e e' a b : Nat} (h : Connects s e a b) (h' : Connects s e' a b) : SameEnds s e e' := by
  unfold Connects SameEnds at *
  omega

theorem connecting_one {s : St K} (w : WF s) {l : EL} {a b e : Nat} (he : e ∈ s.es l) (hc : Connects s e a b)
    (hu : ∀ e' ∈ s.es l, Connects s e' a b → e' = e) : connecting (pairs s l) a b = 1 := by
  unfold connecting pairs
  rw [List.countP_map]
  have h1 : (s.es l).countP ((fun p : Nat × Nat => decide ((p.1 = a ∧ p.2 = b) ∨ (p.1 = b ∧ p.2 = a))) ∘ fun e => ((s.E e).v1, (s.E e).v2)) =
      (s.es l).count e := by
    unfold List.count
    refine List.countP_congr fun x hx => ?_
    simp only [Function.comp, decide_eq_true_eq, beq_iff_eq]
    constructor
    · intro hh; exact hu x hx hh
    · rintro rfl; exact hc
  rw [h1, (w.ends l).1.count]
  simp [he]

/-- In a conforming mesh the sides of the elements cancel up to the boundary edges; two of them meet in an interior edge. -/
theorem conforming_counts {s : St K} (h : Conforming s) : ∀ a b, a ≠ b →
      (allSides s).count (a, b) + (pairs s .bdry).count (b, a) = (allSides s).count (b, a) + (pairs s .bdry).count (a, b) ∧
      (allSides s).count (a, b) + (allSides s).count (b, a) = 2 * connecting (pairs s .intr) a b + connecting (pairs s .bdry) a b := by
  have w := h.wf
  have hs1 : ∀ x, (allSides s).count x ≤ 1 := fun x => List.nodup_iff_count_le_one.mp (allSides_nodup w h.dir) x
  have cov : ∀ a b, Covered s a b → (allSides s).count (a, b) = 1 := by
    intro a b hcov
    have := side_count.mpr hcov
    have := hs1 (a, b)
    omega
  have unc : ∀ a b, ¬ Covered s a b → (allSides s).count (a, b) = 0 := by
    intro a b hn
    by_contra h0
    exact hn (side_count.mp (Nat.one_le_iff_ne_zero.mpr h0))
  intro a b hab
  by_cases hi : ∃ e ∈ s.es .intr, Connects s e a b
  · obtain ⟨e, he, hce⟩ := hi
    have k1 := connecting_one w he hce fun e' he' hc' => h.unique e' (Or.inl he') e (Or.inl he) (connects_same hc' hce)
    have k2 : connecting (pairs s .bdry) a b = 0 := connecting_none fun b' hb' hc' => by
      have := h.unique b' (Or.inr hb') e (Or.inl he) (connects_same hc' hce)
      subst this
      have q1 := ((w.ends _).2 b' hb').1
      rw [((w.ends _).2 b' he).1] at q1
      simp at q1
    have k3 := k2
    rw [connecting_count _ hab] at k3
    have k4 := h.intrFull e he
    have k5 : Covered s a b ∧ Covered s b a := by
      rcases hce with ⟨rfl, rfl⟩ | ⟨rfl, rfl⟩
      · exact k4
      · exact k4.symm
    have k6 := cov a b k5.1
    have k7 := cov b a k5.2
    clear * - k1 k2 k3 k6 k7
    omega
  · have k0 : connecting (pairs s .intr) a b = 0 := connecting_none fun e he hce => hi ⟨e, he, hce⟩
    by_cases hbd : ∃ e ∈ s.es .bdry, Connects s e a b
    · obtain ⟨e, he, hce⟩ := hbd
      have k1 := connecting_one w he hce fun e' he' hc' => h.unique e' (Or.inr he') e (Or.inr he) (connects_same hc' hce)
      have k2 := k1
      rw [connecting_count _ hab] at k2
      have k3 := cov _ _ (h.bdryFull e he)
      have k4 := unc _ _ (h.right e he)
      have k5 := count_pos_mem.mpr (mem_pairs_of he)
      rcases hce with ⟨h1, h2⟩ | ⟨h1, h2⟩
      · rw [h1, h2] at k3 k4 k5
        clear * - k0 k1 k2 k3 k4 k5
        omega
      · rw [h1, h2] at k3 k4 k5
        clear * - k0 k1 k2 k3 k4 k5
        omega
    · have k1 : connecting (pairs s .bdry) a b = 0 := connecting_none fun e he hce => hbd ⟨e, he, hce⟩
      have k2 := k1
      rw [connecting_count _ hab] at k2
      have k3 : ∀ x y, (x = a ∧ y = b) ∨ (x = b ∧ y = a) → ¬ Covered s x y := by
        intro x y hxy hcov
        obtain ⟨e, he, hce⟩ := h.sides x y hcov
        have hce' : Connects s e a b := by unfold Connects at *; omega
        rcases he with he | he
        · exact hi ⟨e, he, hce'⟩
        · exact hbd ⟨e, he, hce'⟩
      have k4 := unc _ _ (k3 a b (Or.inl ⟨rfl, rfl⟩))
      have k5 := unc _ _ (k3 b a (Or.inr ⟨rfl, rfl⟩))
      clear * - k0 k1 k2 k4 k5
      omega

/-- A conforming mesh with a simple boundary and counter-clockwise elements is a completely meshed domain. -/
theorem conforming_meshing {s : St K} (h : Conforming s) (hf : s.es .front = []) (hb : SimpleFront s.pos (pairs s .bdry))
    (hc : ∀ x ∈ pieces s, 0 < side (s.pos x.2.1) (s.pos x.2.2.1) (s.pos x.2.2.2))
    (hp : ∀ b ∈ s.es .bdry, s.isInterior b = false ∧ s.isGhost b = false) : Meshing s := by
  have w := h.wf
  have hpf : pairs s .front = [] := by unfold pairs; rw [hf]; rfl
  have hfo : ∀ i, frontOf s i = [] := by intro i; unfold frontOf; rw [hf]; rfl
  have hne : ∀ l, ∀ e ∈ pairs s l, e.1 ≠ e.2 := by
    intro l e he
    obtain ⟨k, hk, rfl⟩ := List.mem_map.mp he
    exact ((w.ends l).2 k hk).2.2.2.1
  have hsides : ∀ e ∈ allSides s, e.1 ≠ e.2 := fun e he => allSides_ne w he
  have key := conforming_counts h
  refine ⟨w, hc, ?_, hb, ?_, ?_, ?_, ?_, hp, ?_⟩
  · rw [hpf]
    exact ⟨fun _ => rfl, by simp, by simp, fun p => Or.inl rfl⟩
  · intro a b
    rw [hpf]
    by_cases hab : a = b
    · subst hab; simp [FUSpec.chain]
    · have := (key a b hab).1
      unfold FUSpec.chain
      simp only [List.count_nil]
      omega
  · intro a b
    rw [hfo, hfo]
    by_cases hab : a = b
    · subst hab
      rw [connecting_self hsides, connecting_self (hne _), connecting_self (hne _)]
      simp [connecting]
    · have := (key a b hab).2
      rw [connecting_count (allSides s) hab]
      simp only [connecting, List.countP_nil] at this ⊢
      omega
  · intro e he
    rw [hfo] at he; simp at he
  · intro k hk
    rw [hf] at hk; simp at hk
  · intro b hb' hn
    obtain ⟨f, hf', hs⟩ := h.bdryFull b hb'
    exact absurd hs (hn f hf')

theorem conforming_chain {s : St K} (h : Conforming s) (a b : Nat) : chain (allSides s) a b = chain (pairs s .bdry) a b := by
  by_cases hab : a = b
  · subst hab; simp [FUSpec.chain]
  · have := (conforming_counts h a b hab).1
    unfold FUSpec.chain
    omega

end TQ.Whole

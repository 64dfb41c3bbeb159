import Verif.Whole.Twins

/-! # Lemmas: shapes of elements with two common edges -/

set_option linter.unusedSectionVars false
set_option linter.unusedSimpArgs false
set_option linter.unusedVariables false

namespace TQ.Whole
open TQ TQ.MS TQ.MeshSpec TQ.FUSpec TQ.MCSpec TQ.WholeSpec TQ.FU TQ.Sm TQ.MC TQ.RefSpec
variable {K : Type*} [Field K] [LinearOrder K] [IsStrictOrderedRing K]

theorem rot4_wedge {s : St K} {f : FRef} (hf : Live s f) {a b c d : Nat} (h : Rot4 (s.F f).corners a b c d) :
    (Wedge s f b c a ∧ Wedge s f c d a) ∨ (Wedge s f b c d ∧ Wedge s f b d a) := by
  have mem : ∀ x, x ∈ halves s.pos f (s.F f).corners → x ∈ pieces s := fun x hx => List.mem_flatMap.mpr ⟨f, mem_facets.mpr hf, hx⟩
  unfold Wedge
  rcases h with h | h | h | h <;> rw [h] at mem <;> simp only [halves] at mem <;> split_ifs at mem <;>
    simp only [List.mem_cons, List.not_mem_nil, or_false, forall_eq_or_imp, forall_eq] at mem <;> tauto

theorem rot3_wedge {s : St K} {f : FRef} (hf : Live s f) {a b c : Nat} (h : Rot3 (s.F f).corners a b c) : Wedge s f b c a := by
  have mem : ∀ x, x ∈ halves s.pos f (s.F f).corners → x ∈ pieces s := fun x hx => List.mem_flatMap.mpr ⟨f, mem_facets.mpr hf, hx⟩
  unfold Wedge
  rcases h with h | h | h <;> rw [h] at mem <;> simp only [halves] at mem <;>
    simp only [List.mem_cons, List.not_mem_nil, or_false, forall_eq_or_imp, forall_eq] at mem <;> tauto

theorem side_sum (v a b c : Pt K) : side a b c = side v a b + side v b c + side v c a := by unfold side; ring

theorem side_neg (v a b : Pt K) : side v b a = - side v a b := by unfold side; ring

/-- Four triangles around a vertex: one of the diagonals of their union cuts it into two triangles. -/
theorem four_around {v a b c d : Pt K} (h1 : 0 < side v a b) (h2 : 0 < side v b c) (h3 : 0 < side v c d) (h4 : 0 < side v d a)
    (hn : ¬ (0 < side a b c ∧ 0 < side c d a)) : 0 < side b c d ∧ 0 < side d a b := by
  have pl : side v a c * side v b d = side v a b * side v c d - side v d a * side v b c := by unfold side; ring
  have e1 := side_sum v a b c
  have e2 := side_sum v c d a
  have e3 := side_sum v b c d
  have e4 := side_sum v d a b
  have s1 := side_neg v a c
  have s2 := side_neg v b d
  rw [e3, e4]
  rw [e1, e2] at hn
  rw [not_and_or, not_lt, not_lt] at hn
  rcases hn with hn | hn
  · have hac : side v a b + side v b c ≤ side v a c := by linarith
    have pac : 0 < side v a c := by linarith
    have k1 : side v b d < side v c d := by
      by_contra hh
      rw [not_lt] at hh
      have := mul_le_mul_of_nonneg_left hh pac.le
      have := mul_le_mul_of_nonneg_right hac h3.le
      have := mul_pos h4 h2
      have := mul_pos h2 h3
      nlinarith
    have k2 : - side v d a < side v b d := by
      by_contra hh
      rw [not_lt] at hh
      have := mul_le_mul_of_nonneg_left hh pac.le
      have := mul_le_mul_of_nonneg_right hac h4.le
      have := mul_pos h1 h3
      have := mul_pos h1 h4
      nlinarith
    constructor <;> linarith
  · have hac : side v c d + side v d a ≤ side v c a := by linarith
    have pac : 0 < side v c a := by linarith
    have k1 : side v b d < side v b c := by
      by_contra hh
      rw [not_lt] at hh
      have := mul_le_mul_of_nonneg_left hh pac.le
      have := mul_le_mul_of_nonneg_right hac h2.le
      have := mul_pos h1 h3
      have := mul_pos h3 h2
      nlinarith
    have k2 : - side v a b < side v b d := by
      by_contra hh
      rw [not_lt] at hh
      have := mul_le_mul_of_nonneg_left hh pac.le
      have := mul_le_mul_of_nonneg_right hac h1.le
      have := mul_pos h4 h2
      have := mul_pos h4 h1
      nlinarith
    constructor <;> linarith

/-- Elements with two common edges surround the common vertex, their union is a proper element. -/
theorem twin_geo {s : St K} (h : Meshing s) {isQ : Bool} {m : Merge} {v1 v3 : Nat} (t : Twin s isQ m v1 v3) :
    (∀ g, Live s g → m.v2 ∈ (s.F g).corners → g = .quad m.q ∨ g = m.nbr) ∧
    (isQ = true → m.o1 ≠ m.o2 ∧
      (¬ (0 < side (s.pos m.o1) (s.pos v1) (s.pos m.o2) ∧ 0 < side (s.pos m.o2) (s.pos v3) (s.pos m.o1)) →
        0 < side (s.pos v1) (s.pos m.o2) (s.pos v3) ∧ 0 < side (s.pos v3) (s.pos m.o1) (s.pos v1))) ∧
    (isQ = false → 0 < side (s.pos v3) (s.pos m.o1) (s.pos v1)) := by
  have hq : Live s (.quad m.q) := t.q
  have only : ∀ l : List Nat, Turning (s.pos m.v2) (l.map s.pos) →
      (∀ a b, (a, b) ∈ l.zip (l.tail ++ l.head?.toList) → ∃ f, (f = .quad m.q ∨ f = m.nbr) ∧ Wedge s f m.v2 a b) →
      ∀ g, Live s g → m.v2 ∈ (s.F g).corners → g = .quad m.q ∨ g = m.nbr := by
    intro l ht hw g hg hv
    obtain ⟨a, b, hwd⟩ := wedge_corner h.wf hg hv
    exact fan_only h ht hw hwd
  have P : ∀ {f v a b}, Wedge s f v a b → 0 < side (s.pos v) (s.pos a) (s.pos b) := fun hw => wedge_pos h.ccw hw
  have sn := side_neg (s.pos m.v2)
  have ss := side_sum (s.pos m.v2)
  cases isQ with
  | true =>
    have hn := t.nc.1 rfl
    refine ⟨?_, fun _ => ?_, fun hh => absurd hh (by simp)⟩
    · rcases rot4_wedge hq t.qc with ⟨a1, -⟩ | ⟨b1, b2⟩ <;> rcases rot4_wedge t.live hn with ⟨c1, -⟩ | ⟨d1, d2⟩
      · exfalso
        have := P a1; have := P c1; have := sn (s.pos v1) (s.pos v3); linarith
      · refine only [v3, v1, m.o2] ⟨P a1, P d1, P d2⟩ ?_
        intro a b hab
        simp at hab
        rcases hab with ⟨rfl, rfl⟩ | ⟨rfl, rfl⟩ | ⟨rfl, rfl⟩
        · exact ⟨_, Or.inl rfl, a1⟩
        · exact ⟨_, Or.inr rfl, d1⟩
        · exact ⟨_, Or.inr rfl, d2⟩
      · refine only [v3, m.o1, v1] ⟨P b1, P b2, P c1⟩ ?_
        intro a b hab
        simp at hab
        rcases hab with ⟨rfl, rfl⟩ | ⟨rfl, rfl⟩ | ⟨rfl, rfl⟩
        · exact ⟨_, Or.inl rfl, b1⟩
        · exact ⟨_, Or.inl rfl, b2⟩
        · exact ⟨_, Or.inr rfl, c1⟩
      · refine only [v3, m.o1, v1, m.o2] ⟨P b1, P b2, P d1, P d2⟩ ?_
        intro a b hab
        simp at hab
        rcases hab with ⟨rfl, rfl⟩ | ⟨rfl, rfl⟩ | ⟨rfl, rfl⟩ | ⟨rfl, rfl⟩
        · exact ⟨_, Or.inl rfl, b1⟩
        · exact ⟨_, Or.inl rfl, b2⟩
        · exact ⟨_, Or.inr rfl, d1⟩
        · exact ⟨_, Or.inr rfl, d2⟩
    · rcases rot4_wedge hq t.qc with ⟨a1, a2⟩ | ⟨b1, b2⟩ <;> rcases rot4_wedge t.live hn with ⟨c1, c2⟩ | ⟨d1, d2⟩
      · exfalso
        have := P a1; have := P c1; have := sn (s.pos v1) (s.pos v3); linarith
      · have p1 := P a1; have p2 := P d1; have p3 := P d2; have p4 := P a2
        have e1 := ss (s.pos v1) (s.pos m.o2) (s.pos v3)
        have e2 := ss (s.pos v3) (s.pos m.o1) (s.pos v1)
        refine ⟨fun heq => ?_, fun _ => ⟨by linarith, p4⟩⟩
        rw [heq] at e2 p4
        have := sn (s.pos v3) (s.pos m.o2)
        have := sn (s.pos m.o2) (s.pos v1)
        have := sn (s.pos v1) (s.pos v3)
        linarith
      · have p1 := P b1; have p2 := P b2; have p3 := P c1; have p4 := P c2
        have e1 := ss (s.pos v1) (s.pos m.o2) (s.pos v3)
        have e2 := ss (s.pos v3) (s.pos m.o1) (s.pos v1)
        refine ⟨fun heq => ?_, fun _ => ⟨p4, by linarith⟩⟩
        rw [← heq] at e1 p4
        have := sn (s.pos v3) (s.pos m.o1)
        have := sn (s.pos m.o1) (s.pos v1)
        have := sn (s.pos v1) (s.pos v3)
        linarith
      · have p1 := P b1; have p2 := P b2; have p3 := P d1; have p4 := P d2
        refine ⟨fun heq => ?_, fun hh => four_around p2 p3 p4 p1 hh⟩
        rw [heq] at p2
        have := sn (s.pos m.o2) (s.pos v1)
        linarith
  | false =>
    have c1 := rot3_wedge t.live (t.nc.2 rfl)
    rcases rot4_wedge hq t.qc with ⟨a1, -⟩ | ⟨b1, b2⟩
    · exfalso
      have := P a1; have := P c1; have := sn (s.pos v1) (s.pos v3); linarith
    · refine ⟨?_, fun hh => absurd hh (by simp), fun _ => ?_⟩
      · refine only [v3, m.o1, v1] ⟨P b1, P b2, P c1⟩ ?_
        intro a b hab
        simp at hab
        rcases hab with ⟨rfl, rfl⟩ | ⟨rfl, rfl⟩ | ⟨rfl, rfl⟩
        · exact ⟨_, Or.inl rfl, b1⟩
        · exact ⟨_, Or.inl rfl, b2⟩
        · exact ⟨_, Or.inr rfl, c1⟩
      · have := P b1; have := P b2; have := P c1
        have := ss (s.pos v3) (s.pos m.o1) (s.pos v1)
        linarith

end TQ.Whole

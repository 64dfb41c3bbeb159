import Verif.Refinement.Conform
import Mathlib.Tactic.LinearCombination

/-! # Conformity, areas and shapes of refined meshes -/

set_option linter.unusedSectionVars false
set_option linter.unusedSimpArgs false

namespace TQ.RefSpec
open TQ.MS TQ.MeshSpec TQ.MCSpec TQ.MS.St
variable {K : Type*} [Field K] [LinearOrder K]

namespace Ref
variable {s t : St K} {N : Names} (R : Ref s t N)
include R

/-- The edges of the refined mesh. -/
theorem edges {x : Nat} (hx : IsEdge t x) : (∃ e, IsEdge s e ∧ (x = (N.half e).1 ∨ x = (N.half e).2)) ∨
    ∃ (f : FRef) (i : Nat) (p : Nat × Nat × Nat), Live s f ∧ (around (s.F f).corners)[i]? = some p ∧ x = N.spoke f i := by
  rcases hx with hx | hx
  · rw [R.ref.intr] at hx
    rcases List.mem_append.mp hx with hx | hx
    · obtain ⟨e, he, hxe⟩ := List.mem_flatMap.mp hx
      exact Or.inl ⟨e, Or.inl he, by simpa using hxe⟩
    · obtain ⟨f, hf, hxf⟩ := List.mem_flatMap.mp hx
      obtain ⟨i, hi, rfl⟩ := List.mem_map.mp hxf
      have hl := mem_facets.mp hf
      have hlen := around_length R.src.wf hl
      unfold nc at hlen
      rw [List.mem_range, ← hlen] at hi
      exact Or.inr ⟨f, i, _, hl, List.getElem?_eq_getElem hi, rfl⟩
  · rw [R.ref.bdry] at hx
    obtain ⟨e, he, hxe⟩ := List.mem_flatMap.mp hx
    exact Or.inl ⟨e, Or.inr he, by simpa using hxe⟩

/-- A half connects an old vertex with a midpoint. -/
theorem half_ends {e x : Nat} (he : IsEdge s e) (hx : x = (N.half e).1 ∨ x = (N.half e).2) :
    ∃ a, a ∈ s.verts ∧ Connects t x a (N.mid e) ∧ (x = (N.half e).1 → a = (s.E e).v1) ∧ (x = (N.half e).2 → a = (s.E e).v2) := by
  obtain ⟨_, _, ⟨h3, h4⟩, h5, h6⟩ := R.half_edge he
  obtain ⟨e1, e2, e3⟩ := R.ends_ne he
  have m0 := R.mf e he
  have o1 := R.old_lt e2
  have o2 := R.old_lt e3
  have hne : (N.half e).1 ≠ (N.half e).2 := by
    intro hh; rw [hh] at h3; omega
  rcases hx with rfl | rfl
  · exact ⟨_, e2, Or.inl ⟨h3, h4⟩, fun _ => rfl, fun hh => absurd hh hne⟩
  · exact ⟨_, e3, Or.inr ⟨h5, h6⟩, fun hh => absurd hh.symm hne, fun _ => rfl⟩

theorem same_ends {x y a b c d : Nat} (hs : SameEnds t x y) (h1 : Connects t x a b) (h2 : Connects t y c d) :
    (a = c ∧ b = d) ∨ (a = d ∧ b = c) := by
  clear * - hs h1 h2
  unfold SameEnds at hs
  unfold Connects at h1 h2
  omega

theorem conforming (hu : ∀ e, IsEdge s e → ∀ e', IsEdge s e' → SameEnds s e e' → e = e')
    (hi : ∀ e ∈ s.es .intr, Covered s (s.E e).v1 (s.E e).v2 ∧ Covered s (s.E e).v2 (s.E e).v1)
    (hb : ∀ e ∈ s.es .bdry, Covered s (s.E e).v1 (s.E e).v2) : Conforming t := by
  have hedge : ∀ e a b, IsEdge s e → Connects s e a b → Covered s a b → N.edge a b = e := by
    intro e a b he hc hcov
    obtain ⟨k1, k2⟩ := R.ref.edge a b hcov
    apply hu _ k1 _ he
    clear * - k2 hc
    unfold Connects at k2 hc; unfold SameEnds; omega
  -- an element along an edge covers both halves
  have cov : ∀ e a b, IsEdge s e → Connects s e a b → Covered s a b → Covered t a (N.mid e) ∧ Covered t (N.mid e) b := by
    intro e a b he hc hcov
    have hN := hedge e a b he hc hcov
    obtain ⟨f, hf, k, hk, hks⟩ := hcov
    obtain ⟨⟨j, c, hj⟩, ⟨j', c', hj'⟩⟩ := around_of_side (R.nc34 hf) hk hks
    refine ⟨⟨_, R.live_sub hf hj', ?_⟩, ⟨_, R.live_sub hf hj, ?_⟩⟩
    · rw [R.sides hf hj']; left; rw [← hN]
    · rw [R.sides hf hj]; right; right; right; rw [← hN]
  refine { toProper := R.proper, unique := ?_, intrFull := ?_, bdryFull := ?_ }
  · intro x hx y hy hs
    rcases R.edges hx with ⟨e, he, hxe⟩ | ⟨f, i, p, hf, hp, rfl⟩
    · obtain ⟨a, a1, a2, a3, a4⟩ := R.half_ends he hxe
      rcases R.edges hy with ⟨e', he', hye⟩ | ⟨g, j, q, hg, hq, rfl⟩
      · obtain ⟨b, b1, b2, b3, b4⟩ := R.half_ends he' hye
        have o1 := R.old_lt a1
        have o2 := R.old_lt b1
        have m1 := R.mf e he
        have m2 := R.mf e' he'
        rcases R.same_ends hs a2 b2 with ⟨k1, k2⟩ | ⟨k1, k2⟩
        · have hee := R.mid_inj he he' k2
          subst hee
          have hne := (R.ends_ne he).1
          rcases hxe with h1 | h1 <;> rcases hye with h2 | h2
          · rw [h1, h2]
          · exact absurd ((a3 h1).symm.trans (k1.trans (b4 h2))) hne
          · exact absurd ((b3 h2).symm.trans (k1.symm.trans (a4 h1))) hne
          · rw [h1, h2]
        · omega
      · obtain ⟨q1, q2, q3, q4, q5⟩ := R.corner hg hq
        have o1 := R.old_lt a1
        have m1 := R.mf e he
        have m2 := R.mf _ q5.1
        have c1 := R.cf g hg
        rcases R.same_ends hs a2 (Or.inl (R.ref.spokes g hg j q hq)) with ⟨k1, k2⟩ | ⟨k1, k2⟩ <;> omega
    · obtain ⟨p1, p2, p3, p4, p5⟩ := R.corner hf hp
      have c1 := R.cf f hf
      rcases R.edges hy with ⟨e', he', hye⟩ | ⟨g, j, q, hg, hq, rfl⟩
      · obtain ⟨b, b1, b2, b3, b4⟩ := R.half_ends he' hye
        have o2 := R.old_lt b1
        have m1 := R.mf e' he'
        have m2 := R.mf _ p5.1
        rcases R.same_ends hs (Or.inl (R.ref.spokes f hf i p hp)) b2 with ⟨k1, k2⟩ | ⟨k1, k2⟩ <;> omega
      · obtain ⟨q1, q2, q3, q4, q5⟩ := R.corner hg hq
        rcases R.same_ends hs (Or.inl (R.ref.spokes f hf i p hp)) (Or.inl (R.ref.spokes g hg j q hq)) with ⟨k1, k2⟩ | ⟨k1, k2⟩
        · have hfg := R.ctr_inj hf hg k2
          subst hfg
          rw [R.same_out hf hp hq (R.mid_inj p5.1 q5.1 k1)]
        · exact absurd k2 (R.cm f hf _ q5.1)
  · intro x hx
    rw [R.ref.intr] at hx
    rcases List.mem_append.mp hx with hx | hx
    · obtain ⟨e, he, hxe⟩ := List.mem_flatMap.mp hx
      obtain ⟨_, _, ⟨h3, h4⟩, h5, h6⟩ := R.half_edge (Or.inl he)
      obtain ⟨c1, c2⟩ := hi e he
      have d1 := cov e _ _ (Or.inl he) (Or.inl ⟨rfl, rfl⟩) c1
      have d2 := cov e _ _ (Or.inl he) (Or.inr ⟨rfl, rfl⟩) c2
      simp only [List.mem_cons, List.not_mem_nil, or_false] at hxe
      rcases hxe with rfl | rfl
      · rw [h3, h4]; exact ⟨d1.1, d2.2⟩
      · rw [h5, h6]; exact ⟨d1.2, d2.1⟩
    · obtain ⟨f, hf, hxf⟩ := List.mem_flatMap.mp hx
      obtain ⟨i, hi', rfl⟩ := List.mem_map.mp hxf
      have hl := mem_facets.mp hf
      have hlen := around_length R.src.wf hl
      unfold nc at hlen
      rw [List.mem_range, ← hlen] at hi'
      have hp := List.getElem?_eq_getElem hi'
      obtain ⟨k1, k2⟩ := R.ref.spokes f hl i _ hp
      rw [k1, k2]
      refine ⟨⟨_, R.live_sub hl hp, ?_⟩, ?_⟩
      · rw [R.sides hl hp]; right; left; rfl
      · obtain ⟨_, ⟨k, hk, hks⟩, _⟩ := R.corner hl hp
        obtain ⟨⟨j, c, hj⟩, _⟩ := around_of_side (R.nc34 hl) hk hks
        exact ⟨_, R.live_sub hl hj, by rw [R.sides hl hj]; right; right; left; rfl⟩
  · intro x hx
    rw [R.ref.bdry] at hx
    obtain ⟨e, he, hxe⟩ := List.mem_flatMap.mp hx
    obtain ⟨_, _, ⟨h3, h4⟩, h5, h6⟩ := R.half_edge (Or.inr he)
    have d1 := cov e _ _ (Or.inr he) (Or.inl ⟨rfl, rfl⟩) (hb e he)
    simp only [List.mem_cons, List.not_mem_nil, or_false] at hxe
    rcases hxe with rfl | rfl
    · rw [h3, h4]; exact d1.1
    · rw [h5, h6]; exact d1.2

/-- The position of the midpoint of a side. -/
theorem mid_side {a b : Nat} (hc : Covered s a b) :
    2 * (t.pos (N.mid (N.edge a b))).x = (s.pos a).x + (s.pos b).x ∧ 2 * (t.pos (N.mid (N.edge a b))).y = (s.pos a).y + (s.pos b).y := by
  obtain ⟨k1, k2⟩ := R.ref.edge a b hc
  have hp : 2 * (t.pos (N.mid (N.edge a b))).x = (s.pos (s.E (N.edge a b)).v1).x + (s.pos (s.E (N.edge a b)).v2).x ∧
    2 * (t.pos (N.mid (N.edge a b))).y = (s.pos (s.E (N.edge a b)).v1).y + (s.pos (s.E (N.edge a b)).v2).y := by
    rcases k1 with k1 | k1
    · exact R.ref.midPos _ (by decide) _ k1
    · exact R.ref.midPos _ (by decide) _ k1
  rcases k2 with ⟨h1, h2⟩ | ⟨h1, h2⟩
  · rw [h1, h2] at hp; exact hp
  · rw [h1, h2] at hp; exact ⟨hp.1.trans (add_comm _ _), hp.2.trans (add_comm _ _)⟩

end Ref

variable [IsStrictOrderedRing K]

theorem half_of {x y : K} (h : 2 * x = y) : x = y / 2 := by field_simp; linear_combination h

theorem quadArea_expand (p q r u : Pt K) : quadArea p q r u =
    1 / 2 * ((q.x - p.x) * (r.y - p.y) - (q.y - p.y) * (r.x - p.x)) + 1 / 2 * ((r.x - p.x) * (u.y - p.y) - (r.y - p.y) * (u.x - p.x)) := rfl

theorem triArea_expand (p q r : Pt K) : triArea p q r = 1 / 2 * ((q.x - p.x) * (r.y - p.y) - (q.y - p.y) * (r.x - p.x)) := rfl

/-- A sub quad of a triangle `a, b, c` at the corner `b`: one third of the area, convex. -/
theorem sub_of_tri {a b c m1 m2 z : Pt K} (h1 : 2 * m1.x = b.x + c.x ∧ 2 * m1.y = b.y + c.y) (h2 : 2 * m2.x = a.x + b.x ∧ 2 * m2.y = a.y + b.y)
    (hz : 3 * z.x = a.x + b.x + c.x ∧ 3 * z.y = a.y + b.y + c.y) :
    quadArea b m1 z m2 = triArea a b c / 3 ∧
    area2 b m1 z = area2 a b c / 6 ∧ area2 m1 z m2 = area2 a b c / 12 ∧ area2 z m2 b = area2 a b c / 6 ∧ area2 m2 b m1 = area2 a b c / 4 := by
  have e1 : m1.x = (b.x + c.x) / 2 := half_of h1.1
  have e2 : m1.y = (b.y + c.y) / 2 := half_of h1.2
  have e3 : m2.x = (a.x + b.x) / 2 := half_of h2.1
  have e4 : m2.y = (a.y + b.y) / 2 := half_of h2.2
  have e5 : z.x = (a.x + b.x + c.x) / 3 := by field_simp; linear_combination hz.1
  have e6 : z.y = (a.y + b.y + c.y) / 3 := by field_simp; linear_combination hz.2
  rw [quadArea_expand, triArea_expand]
  unfold area2
  rw [e1, e2, e3, e4, e5, e6]
  refine ⟨?_, ?_, ?_, ?_, ?_⟩ <;> ring

/-- A sub quad of a quad `a, b, c, d` at the corner `b`. -/
theorem sub_of_quad {a b c d m1 m2 z : Pt K} (h1 : 2 * m1.x = b.x + c.x ∧ 2 * m1.y = b.y + c.y) (h2 : 2 * m2.x = a.x + b.x ∧ 2 * m2.y = a.y + b.y)
    (hz : 4 * z.x = a.x + b.x + c.x + d.x ∧ 4 * z.y = a.y + b.y + c.y + d.y) :
    quadArea b m1 z m2 = (area2 a b c + area2 b c d + area2 a b c + area2 d a b) / 16 ∧
    area2 b m1 z = (area2 a b c + area2 b c d) / 8 ∧ area2 m1 z m2 = (area2 a b c + area2 c d a) / 8 ∧
    area2 z m2 b = (area2 a b c + area2 d a b) / 8 ∧ area2 m2 b m1 = area2 a b c / 4 := by
  have e1 : m1.x = (b.x + c.x) / 2 := half_of h1.1
  have e2 : m1.y = (b.y + c.y) / 2 := half_of h1.2
  have e3 : m2.x = (a.x + b.x) / 2 := half_of h2.1
  have e4 : m2.y = (a.y + b.y) / 2 := half_of h2.2
  have e5 : z.x = (a.x + b.x + c.x + d.x) / 4 := by field_simp; linear_combination hz.1
  have e6 : z.y = (a.y + b.y + c.y + d.y) / 4 := by field_simp; linear_combination hz.2
  rw [quadArea_expand]
  unfold area2
  rw [e1, e2, e3, e4, e5, e6]
  refine ⟨?_, ?_, ?_, ?_, ?_⟩ <;> ring

end TQ.RefSpec

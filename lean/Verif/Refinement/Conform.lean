import Verif.Refinement.Result
import Verif.Cleanup.Merge

/-! # Refined meshes are conforming -/

set_option linter.unusedSectionVars false
set_option linter.unusedSimpArgs false

namespace TQ.MS.St
open TQ.MeshSpec TQ.MCSpec TQ.RefSpec
variable {K : Type*} [Field K] [LinearOrder K]

/-- Every side occurs as entering and as leaving side of a corner. -/
theorem around_of_side {cs : List Nat} (hl : cs.length = 3 ∨ cs.length = 4) {a b : Nat} {i : Nat} (hi : i < cs.length)
    (hs : sideAt cs i = some (a, b)) :
    (∃ (j : Nat) (c : Nat), (around cs)[j]? = some (a, b, c)) ∧ ∃ (j : Nat) (c : Nat), (around cs)[j]? = some (c, a, b) := by
  rcases hl with hl | hl
  · obtain ⟨x, y, z, rfl⟩ := List.length_eq_three.mp hl
    have : i = 0 ∨ i = 1 ∨ i = 2 := by simp at hi; omega
    rcases this with rfl | rfl | rfl <;> simp [sideAt] at hs <;> obtain ⟨rfl, rfl⟩ := hs
    · exact ⟨⟨2, _, rfl⟩, ⟨1, _, rfl⟩⟩
    · exact ⟨⟨0, _, rfl⟩, ⟨2, _, rfl⟩⟩
    · exact ⟨⟨1, _, rfl⟩, ⟨0, _, rfl⟩⟩
  · obtain ⟨x, y, z, w, rfl⟩ : ∃ x y z w, cs = [x, y, z, w] := by
      match cs, hl with
      | [x, y, z, w], _ => exact ⟨x, y, z, w, rfl⟩
    have : i = 0 ∨ i = 1 ∨ i = 2 ∨ i = 3 := by simp at hi; omega
    rcases this with rfl | rfl | rfl | rfl <;> simp [sideAt] at hs <;> obtain ⟨rfl, rfl⟩ := hs
    · exact ⟨⟨2, _, rfl⟩, ⟨1, _, rfl⟩⟩
    · exact ⟨⟨3, _, rfl⟩, ⟨2, _, rfl⟩⟩
    · exact ⟨⟨0, _, rfl⟩, ⟨3, _, rfl⟩⟩
    · exact ⟨⟨1, _, rfl⟩, ⟨0, _, rfl⟩⟩

/-- The corners are different: a corner determines its place, and no side is run through in both directions. -/
theorem around_inj {cs : List Nat} (hn : cs.Nodup) {i j : Nat} {p q : Nat × Nat × Nat} (hp : (around cs)[i]? = some p)
    (hq : (around cs)[j]? = some q) :
    (p.2.1 = q.2.1 → i = j) ∧ (p.2.2 = q.2.2 → i = j) ∧ (p.1 = q.1 → i = j) ∧ ¬ (p.2.1 = q.2.2 ∧ p.2.2 = q.2.1) ∧
    ¬ (p.1 = q.2.1 ∧ p.2.1 = q.1) := by
  unfold around at hp hq
  split at hp
  · next a b c =>
    simp only [List.nodup_cons, List.mem_cons, List.not_mem_nil, or_false, not_or, not_false_eq_true, List.nodup_nil, and_true] at hn
    have hi : i = 0 ∨ i = 1 ∨ i = 2 := by have := (List.getElem?_eq_some_iff.mp hp).1; simp at this; omega
    have hj : j = 0 ∨ j = 1 ∨ j = 2 := by have := (List.getElem?_eq_some_iff.mp hq).1; simp at this; omega
    rcases hi with rfl | rfl | rfl <;> rcases hj with rfl | rfl | rfl <;> simp at hp hq <;> subst hp <;> subst hq <;>
      simp <;> omega
  · next a b c d =>
    simp only [List.nodup_cons, List.mem_cons, List.not_mem_nil, or_false, not_or, not_false_eq_true, List.nodup_nil, and_true] at hn
    have hi : i = 0 ∨ i = 1 ∨ i = 2 ∨ i = 3 := by have := (List.getElem?_eq_some_iff.mp hp).1; simp at this; omega
    have hj : j = 0 ∨ j = 1 ∨ j = 2 ∨ j = 3 := by have := (List.getElem?_eq_some_iff.mp hq).1; simp at this; omega
    rcases hi with rfl | rfl | rfl | rfl <;> rcases hj with rfl | rfl | rfl | rfl <;> simp at hp hq <;> subst hp <;> subst hq <;>
      simp <;> omega
  · simp at hp

end TQ.MS.St

namespace TQ.RefSpec
open TQ.MS TQ.MeshSpec TQ.MCSpec TQ.MS.St
variable {K : Type*} [Field K] [LinearOrder K]

/-- An edge of the mesh. -/
def IsEdge (s : St K) (e : Nat) : Prop := e ∈ s.es .intr ∨ e ∈ s.es .bdry

/-- What is known about a refined mesh. -/
structure Ref (s t : St K) (N : Names) : Prop where
  src : Proper s
  ref : Refined s t N
  wf : WF t
  cm : ∀ f, Live s f → ∀ e, IsEdge s e → N.ctr f ≠ N.mid e
  mf : ∀ e, IsEdge s e → s.nxt ≤ N.mid e
  cf : ∀ f, Live s f → s.nxt ≤ N.ctr f

namespace Ref
variable {s t : St K} {N : Names} (R : Ref s t N)
include R

theorem mid_inj {e e' : Nat} (he : IsEdge s e) (he' : IsEdge s e') (hm : N.mid e = N.mid e') : e = e' := by
  have hnd := R.wf.vnd
  rw [R.ref.verts, List.append_assoc s.verts, ← List.map_append, List.nodup_append, List.nodup_append] at hnd
  exact List.inj_on_of_nodup_map hnd.1.2.1 (List.mem_append.mpr he) (List.mem_append.mpr he') hm

theorem ctr_inj {f g : FRef} (hf : Live s f) (hg : Live s g) (hm : N.ctr f = N.ctr g) : f = g := by
  have hnd := R.wf.vnd
  rw [R.ref.verts, List.nodup_append] at hnd
  exact List.inj_on_of_nodup_map hnd.2.1 (mem_facets.mpr hf) (mem_facets.mpr hg) hm

theorem nc34 {f : FRef} (hf : Live s f) : (s.F f).corners.length = 3 ∨ (s.F f).corners.length = 4 := by
  rcases live_corners R.src.wf hf with ⟨a, b, c, hc⟩ | ⟨a, b, c, d, hc⟩ <;> rw [hc] <;> simp

/-- The elements of the refined mesh. -/
theorem live {x : FRef} (hx : Live t x) : ∃ (f : FRef) (i : Nat) (p : Nat × Nat × Nat), Live s f ∧ (around (s.F f).corners)[i]? = some p ∧ x = .quad (N.sub f i) := by
  cases x with
  | null => exact absurd hx (by simp [Live])
  | tri y => simp [Live, R.ref.tris] at hx
  | quad q =>
    have hq : q ∈ t.quads := hx
    rw [R.ref.quads] at hq
    obtain ⟨f, hf, hq⟩ := List.mem_flatMap.mp hq
    obtain ⟨i, hi, rfl⟩ := List.mem_map.mp hq
    have hl := mem_facets.mp hf
    have hlen := around_length R.src.wf hl
    unfold nc at hlen
    rw [List.mem_range, ← hlen] at hi
    exact ⟨f, i, _, hl, List.getElem?_eq_getElem hi, rfl⟩

theorem live_sub {f : FRef} (hf : Live s f) {i : Nat} {p : Nat × Nat × Nat} (hp : (around (s.F f).corners)[i]? = some p) :
    Live t (.quad (N.sub f i)) := by
  change _ ∈ t.quads
  rw [R.ref.quads]
  refine List.mem_flatMap.mpr ⟨f, mem_facets.mpr hf, List.mem_map.mpr ⟨i, ?_, rfl⟩⟩
  have hlen := around_length R.src.wf hf
  unfold nc at hlen
  rw [List.mem_range, ← hlen]
  exact (List.getElem?_eq_some_iff.mp hp).1

/-- Sides and edges at a corner. -/
theorem corner {f : FRef} (hf : Live s f) {i : Nat} {p : Nat × Nat × Nat} (hp : (around (s.F f).corners)[i]? = some p) :
    HasSide s f p.1 p.2.1 ∧ HasSide s f p.2.1 p.2.2 ∧ p.2.1 ∈ s.verts ∧
    (IsEdge s (N.edge p.1 p.2.1) ∧ Connects s (N.edge p.1 p.2.1) p.1 p.2.1) ∧
    (IsEdge s (N.edge p.2.1 p.2.2) ∧ Connects s (N.edge p.2.1 p.2.2) p.2.1 p.2.2) := by
  obtain ⟨a1, a2, a3, _⟩ := around_sides (List.mem_of_getElem? hp)
  exact ⟨a1, a2, (R.src.wf.cor f hf).2 _ a3, R.ref.edge _ _ ⟨f, hf, a1⟩, R.ref.edge _ _ ⟨f, hf, a2⟩⟩

/-- The sides of a sub quad. -/
theorem sides {f : FRef} (hf : Live s f) {i : Nat} {p : Nat × Nat × Nat} (hp : (around (s.F f).corners)[i]? = some p) (x y : Nat) :
    HasSide t (.quad (N.sub f i)) x y ↔
      (x, y) = (p.2.1, N.mid (N.edge p.2.1 p.2.2)) ∨ (x, y) = (N.mid (N.edge p.2.1 p.2.2), N.ctr f) ∨
      (x, y) = (N.ctr f, N.mid (N.edge p.1 p.2.1)) ∨ (x, y) = (N.mid (N.edge p.1 p.2.1), p.2.1) :=
  MC.quad_side (R.ref.subs f hf i p hp).1 x y

theorem ends_ne {e : Nat} (he : IsEdge s e) : (s.E e).v1 ≠ (s.E e).v2 ∧ (s.E e).v1 ∈ s.verts ∧ (s.E e).v2 ∈ s.verts := by
  rcases he with h | h <;> have := (R.src.wf.ends _).2 e h <;> exact ⟨this.2.2.2.1, this.2.1, this.2.2.1⟩

theorem old_lt {v : Nat} (hv : v ∈ s.verts) : v < s.nxt := R.src.wf.vlt v hv

/-- Two corners whose leaving sides have the same edge. -/
theorem same_out {f : FRef} (hf : Live s f) {i j : Nat} {p q : Nat × Nat × Nat}
    (hp : (around (s.F f).corners)[i]? = some p) (hq : (around (s.F f).corners)[j]? = some q)
    (he : N.edge p.2.1 p.2.2 = N.edge q.2.1 q.2.2) : i = j := by
  obtain ⟨_, _, _, _, p5⟩ := R.corner hf hp
  obtain ⟨_, _, _, _, q5⟩ := R.corner hf hq
  obtain ⟨a1, _, _, a4, _⟩ := around_inj (R.src.wf.cor f hf).1 hp hq
  have k1 := p5.2
  have k2 := q5.2
  rw [he] at k1
  clear * - a1 a4 k1 k2
  unfold Connects at k1 k2
  rcases k1 with k1 | k1 <;> rcases k2 with k2 | k2
  · exact a1 (k1.1.symm.trans k2.1)
  · exact absurd ⟨k1.1.symm.trans k2.1, k1.2.symm.trans k2.2⟩ a4
  · exact absurd ⟨k1.2.symm.trans k2.2, k1.1.symm.trans k2.1⟩ a4
  · exact a1 (k1.2.symm.trans k2.2)

/-- Two corners whose entering sides have the same edge. -/
theorem same_in {f : FRef} (hf : Live s f) {i j : Nat} {p q : Nat × Nat × Nat}
    (hp : (around (s.F f).corners)[i]? = some p) (hq : (around (s.F f).corners)[j]? = some q)
    (he : N.edge p.1 p.2.1 = N.edge q.1 q.2.1) : i = j := by
  obtain ⟨_, _, _, p5, _⟩ := R.corner hf hp
  obtain ⟨_, _, _, q5, _⟩ := R.corner hf hq
  obtain ⟨a1, _, _, _, a4⟩ := around_inj (R.src.wf.cor f hf).1 hp hq
  have k1 := p5.2
  have k2 := q5.2
  rw [he] at k1
  clear * - a1 a4 k1 k2
  unfold Connects at k1 k2
  rcases k1 with k1 | k1 <;> rcases k2 with k2 | k2
  · exact a1 (k1.2.symm.trans k2.2)
  · exact absurd ⟨k1.1.symm.trans k2.1, k1.2.symm.trans k2.2⟩ a4
  · exact absurd ⟨k1.2.symm.trans k2.2, k1.1.symm.trans k2.1⟩ a4
  · exact a1 (k1.1.symm.trans k2.1)

theorem connects_right {e b c c' : Nat} (he : IsEdge s e) (h1 : Connects s e b c) (h2 : Connects s e b c') : c = c' := by
  have := (R.ends_ne he).1
  clear * - this h1 h2
  unfold Connects at h1 h2
  omega

theorem dir : DirUnique t := by
  intro x y a b hx hy hsx hsy
  obtain ⟨f, i, p, hf, hp, rfl⟩ := R.live hx
  obtain ⟨g, j, q, hg, hq, rfl⟩ := R.live hy
  rw [R.sides hf hp] at hsx
  rw [R.sides hg hq] at hsy
  obtain ⟨p1, p2, p3, p4, p5⟩ := R.corner hf hp
  obtain ⟨q1, q2, q3, q4, q5⟩ := R.corner hg hq
  have o1 := R.old_lt p3
  have o2 := R.old_lt q3
  have m1 := R.mf _ p4.1
  have m2 := R.mf _ p5.1
  have m3 := R.mf _ q4.1
  have m4 := R.mf _ q5.1
  have c1 := R.cf f hf
  have c2 := R.cf g hg
  have d1 := R.cm f hf _ q4.1
  have d2 := R.cm f hf _ q5.1
  have d3 := R.cm g hg _ p4.1
  have d4 := R.cm g hg _ p5.1
  simp only [Prod.mk.injEq] at hsx hsy
  have fin : f = g → i = j → FRef.quad (N.sub f i) = FRef.quad (N.sub g j) := by rintro rfl rfl; rfl
  rcases hsx with ⟨rfl, rfl⟩ | ⟨rfl, rfl⟩ | ⟨rfl, rfl⟩ | ⟨rfl, rfl⟩
  · rcases hsy with ⟨h1, h2⟩ | ⟨h1, h2⟩ | ⟨h1, h2⟩ | ⟨h1, h2⟩
    · have he := R.mid_inj p5.1 q5.1 h2
      have hc : p.2.2 = q.2.2 := by
        refine R.connects_right p5.1 p5.2 ?_
        rw [he, h1]; exact q5.2
      have hfg : f = g := R.src.dir f g _ _ hf hg p2 (by rw [h1, hc]; exact q2)
      subst hfg
      exact fin rfl (R.same_out hf hp hq he)
    · omega
    · omega
    · omega
  · rcases hsy with ⟨h1, h2⟩ | ⟨h1, h2⟩ | ⟨h1, h2⟩ | ⟨h1, h2⟩
    · omega
    · have hfg := R.ctr_inj hf hg h2
      subst hfg
      exact fin rfl (R.same_out hf hp hq (R.mid_inj p5.1 q5.1 h1))
    · exact absurd h2 d1
    · omega
  · rcases hsy with ⟨h1, h2⟩ | ⟨h1, h2⟩ | ⟨h1, h2⟩ | ⟨h1, h2⟩
    · omega
    · exact absurd h1 d2
    · have hfg := R.ctr_inj hf hg h1
      subst hfg
      exact fin rfl (R.same_in hf hp hq (R.mid_inj p4.1 q4.1 h2))
    · omega
  · rcases hsy with ⟨h1, h2⟩ | ⟨h1, h2⟩ | ⟨h1, h2⟩ | ⟨h1, h2⟩
    · omega
    · omega
    · omega
    · have he := R.mid_inj p4.1 q4.1 h1
      have hc : p.1 = q.1 := by
        refine R.connects_right (b := p.2.1) p4.1 (Or.symm p4.2) ?_
        rw [he, h2]; exact Or.symm q4.2
      have hfg : f = g := R.src.dir f g _ _ hf hg p1 (by rw [h2, hc]; exact q1)
      subst hfg
      exact fin rfl (R.same_in hf hp hq he)

theorem half_edge {e : Nat} (he : IsEdge s e) : IsEdge t (N.half e).1 ∧ IsEdge t (N.half e).2 ∧
    ((t.E (N.half e).1).v1 = (s.E e).v1 ∧ (t.E (N.half e).1).v2 = N.mid e) ∧
    (t.E (N.half e).2).v1 = N.mid e ∧ (t.E (N.half e).2).v2 = (s.E e).v2 := by
  rcases he with he | he
  · refine ⟨Or.inl ?_, Or.inl ?_, R.ref.halves _ (by decide) e he⟩ <;> rw [R.ref.intr] <;>
      exact List.mem_append_left _ (List.mem_flatMap.mpr ⟨e, he, by simp⟩)
  · refine ⟨Or.inr ?_, Or.inr ?_, R.ref.halves _ (by decide) e he⟩ <;> rw [R.ref.bdry] <;>
      exact List.mem_flatMap.mpr ⟨e, he, by simp⟩

theorem spoke_edge {f : FRef} (hf : Live s f) {i : Nat} {p : Nat × Nat × Nat} (hp : (around (s.F f).corners)[i]? = some p) :
    N.spoke f i ∈ t.es .intr := by
  rw [R.ref.intr]
  refine List.mem_append_right _ (List.mem_flatMap.mpr ⟨f, mem_facets.mpr hf, List.mem_map.mpr ⟨i, ?_, rfl⟩⟩)
  have hlen := around_length R.src.wf hf
  unfold nc at hlen
  rw [List.mem_range, ← hlen]
  exact (List.getElem?_eq_some_iff.mp hp).1

/-- Halves connect the ends with the midpoint. -/
theorem half_connects {e a b : Nat} (he : IsEdge s e) (hc : Connects s e a b) :
    ∃ x, IsEdge t x ∧ Connects t x a (N.mid e) := by
  obtain ⟨h1, h2, ⟨h3, h4⟩, h5, h6⟩ := R.half_edge he
  rcases hc with ⟨c1, _⟩ | ⟨_, c2⟩
  · exact ⟨_, h1, Or.inl ⟨h3.trans c1, h4⟩⟩
  · exact ⟨_, h2, Or.inr ⟨h5, h6.trans c2⟩⟩

theorem proper : Proper t := by
  refine ⟨R.wf, R.dir, ?_, ?_⟩
  · rintro a b ⟨x, hx, hs⟩
    obtain ⟨f, i, p, hf, hp, rfl⟩ := R.live hx
    rw [R.sides hf hp] at hs
    obtain ⟨p1, p2, p3, p4, p5⟩ := R.corner hf hp
    simp only [Prod.mk.injEq] at hs
    rcases hs with ⟨rfl, rfl⟩ | ⟨rfl, rfl⟩ | ⟨rfl, rfl⟩ | ⟨rfl, rfl⟩
    · exact R.half_connects p5.1 p5.2
    · exact ⟨_, Or.inl (R.spoke_edge hf hp), Or.inl (R.ref.spokes f hf i p hp)⟩
    · obtain ⟨k, hk, hks⟩ := p1
      obtain ⟨_, j, c, hj⟩ := around_of_side (R.nc34 hf) hk hks
      exact ⟨_, Or.inl (R.spoke_edge hf hj), Or.inr (R.ref.spokes f hf j _ hj)⟩
    · obtain ⟨e, h1, h2⟩ := R.half_connects p4.1 (Or.symm p4.2)
      exact ⟨e, h1, Or.symm h2⟩
  · rintro x hx ⟨y, hy, hs⟩
    rw [R.ref.bdry] at hx
    obtain ⟨e, he, hx⟩ := List.mem_flatMap.mp hx
    have hE : IsEdge s e := Or.inr he
    obtain ⟨_, _, ⟨h3, h4⟩, h5, h6⟩ := R.half_edge hE
    obtain ⟨f, i, p, hf, hp, rfl⟩ := R.live hy
    rw [R.sides hf hp] at hs
    obtain ⟨p1, p2, p3, p4, p5⟩ := R.corner hf hp
    obtain ⟨e1, e2, e3⟩ := R.ends_ne hE
    have o1 := R.old_lt p3
    have o2 := R.old_lt e2
    have o3 := R.old_lt e3
    have m0 := R.mf _ hE
    have m1 := R.mf _ p4.1
    have m2 := R.mf _ p5.1
    have c1 := R.cf f hf
    have hr := R.src.right e he
    simp only [List.mem_cons, List.not_mem_nil, or_false] at hx
    simp only [Prod.mk.injEq] at hs
    rcases hx with rfl | rfl
    · rw [h3, h4] at hs
      rcases hs with ⟨k1, k2⟩ | ⟨k1, k2⟩ | ⟨k1, k2⟩ | ⟨k1, k2⟩
      · omega
      · omega
      · omega
      · have hh := R.mid_inj hE p4.1 k1
        have hc : p.1 = (s.E e).v2 := by
          have := p4.2
          rw [← hh, ← k2] at this
          clear * - this e1
          unfold Connects at this; omega
        exact hr ⟨f, hf, by rw [← hc, k2]; exact p1⟩
    · rw [h5, h6] at hs
      rcases hs with ⟨k1, k2⟩ | ⟨k1, k2⟩ | ⟨k1, k2⟩ | ⟨k1, k2⟩
      · have hh := R.mid_inj hE p5.1 k2
        have hc : p.2.2 = (s.E e).v1 := by
          have := p5.2
          rw [← hh, ← k1] at this
          clear * - this e1
          unfold Connects at this; omega
        exact hr ⟨f, hf, by rw [← hc, k1]; exact p2⟩
      · omega
      · omega
      · omega

end Ref
end TQ.RefSpec

import Verif.Whole.Geom

/-! # Lemmas: edges and elements of a partly meshed domain -/

set_option linter.unusedSectionVars false
set_option linter.unusedSimpArgs false

namespace TQ.Whole
open TQ.MS TQ.MeshSpec TQ.FUSpec TQ.MS.St TQ.GeoSpec TQ.FU TQ.Sm TQ.MCSpec TQ.WholeSpec TQ.RefSpec
variable {K : Type*} [Field K] [LinearOrder K] [IsStrictOrderedRing K]

theorem connecting_count (es : List (Nat × Nat)) {a b : Nat} (h : a ≠ b) :
    connecting es a b = es.count (a, b) + es.count (b, a) := by
  unfold connecting
  induction es with
  | nil => rfl
  | cons e es ih =>
    obtain ⟨x, y⟩ := e
    rw [List.countP_cons, ih, List.count_cons, List.count_cons]
    simp only [decide_eq_true_eq, beq_iff_eq, Prod.mk.injEq]
    by_cases h1 : x = a ∧ y = b
    · have h2 : ¬ (x = b ∧ y = a) := by rintro ⟨rfl, rfl⟩; exact h h1.1.symm
      rw [if_pos (Or.inl h1), if_pos h1, if_neg h2]; omega
    · by_cases h2 : x = b ∧ y = a
      · rw [if_pos (Or.inr h2), if_neg h1, if_pos h2]; omega
      · rw [if_neg (by tauto), if_neg h1, if_neg h2]; omega

theorem front_count (s : St K) (x : Nat × Nat) :
    (pairs s .front).count x = (frontOf s false).count x + (frontOf s true).count x := by
  unfold pairs frontOf
  induction s.es .front with
  | nil => rfl
  | cons e l ih =>
    rw [List.map_cons, List.count_cons, ih, List.filter_cons, List.filter_cons]
    cases s.isInterior e <;> simp [List.count_cons] <;> omega

theorem pairwise_countP {α : Type*} {R : α → α → Prop} {P : α → Bool} {l : List α} (h : l.Pairwise R)
    (hP : ∀ x y, P x = true → P y = true → ¬ R x y) : l.countP P ≤ 1 := by
  induction l with
  | nil => simp
  | cons x l ih =>
    rw [List.pairwise_cons] at h
    rw [List.countP_cons]
    by_cases hx : P x = true
    · have : l.countP P = 0 := by
        rw [List.countP_eq_zero]
        intro y hy hPy
        exact hP x y hx hPy (h.1 y hy)
      rw [this, if_pos hx]
    · rw [if_neg hx]; have := ih h.2; omega

/-- A simple front connects two vertices at most once. -/
theorem simple_connecting {pos : Nat → Pt K} {es : List (Nat × Nat)} (h : SimpleFront pos es) (a b : Nat) : connecting es a b ≤ 1 := by
  unfold connecting
  refine pairwise_countP (R := fun e f => Apart pos e f ∧ e ∈ es) ?_ ?_
  · exact List.Pairwise.imp_of_mem (fun ha _ hab => ⟨hab, ha⟩) h.apart
  · rintro ⟨x, y⟩ ⟨z, w⟩ hx hy ⟨hap, hm⟩
    have hne := h.proper _ hm
    simp only [decide_eq_true_eq] at hx hy
    have h2 : OnClosed (pos z) (pos w) (midp (pos x) (pos y)) := by
      rcases hx with ⟨rfl, rfl⟩ | ⟨rfl, rfl⟩ <;> rcases hy with ⟨rfl, rfl⟩ | ⟨rfl, rfl⟩
      · exact mid_on _ _
      · exact onClosed_symm (mid_on _ _)
      · exact onClosed_symm (mid_on _ _)
      · exact mid_on _ _
    rcases (hap _ (mid_on _ _) h2).1 with h3 | h3
    · exact mid_ne_left hne h3
    · exact mid_ne_right hne h3

theorem count_pos_mem {x : Nat × Nat} {l : List (Nat × Nat)} : 1 ≤ l.count x ↔ x ∈ l := List.count_pos_iff

/-- All numbers for two vertices. -/
structure Numbers (s : St K) (a b : Nat) : Prop where
  s1 : (allSides s).count (a, b) ≤ 1
  s2 : (allSides s).count (b, a) ≤ 1
  f1 : (pairs s .front).count (a, b) + (pairs s .front).count (b, a) ≤ 1
  b1 : (pairs s .bdry).count (a, b) + (pairs s .bdry).count (b, a) ≤ 1
  chain : (allSides s).count (a, b) + (pairs s .front).count (a, b) + (pairs s .bdry).count (b, a) =
    (allSides s).count (b, a) + (pairs s .front).count (b, a) + (pairs s .bdry).count (a, b)
  count : (allSides s).count (a, b) + (allSides s).count (b, a) + ((frontOf s false).count (a, b) + (frontOf s false).count (b, a)) =
    2 * ((pairs s .intr).count (a, b) + (pairs s .intr).count (b, a)) + ((frontOf s true).count (a, b) + (frontOf s true).count (b, a)) +
    ((pairs s .bdry).count (a, b) + (pairs s .bdry).count (b, a))
  fs : (pairs s .front).count (a, b) = (frontOf s false).count (a, b) + (frontOf s true).count (a, b)
  fs' : (pairs s .front).count (b, a) = (frontOf s false).count (b, a) + (frontOf s true).count (b, a)
  m1 : 1 ≤ (frontOf s false).count (a, b) → 1 ≤ (pairs s .bdry).count (a, b)
  m2 : 1 ≤ (frontOf s false).count (b, a) → 1 ≤ (pairs s .bdry).count (b, a)
  o1 : 1 ≤ (pairs s .front).count (a, b) → (allSides s).count (a, b) = 0
  o2 : 1 ≤ (pairs s .front).count (b, a) → (allSides s).count (b, a) = 0
  r1 : 1 ≤ (pairs s .bdry).count (a, b) → (allSides s).count (b, a) = 0
  r2 : 1 ≤ (pairs s .bdry).count (b, a) → (allSides s).count (a, b) = 0

theorem side_count {s : St K} {a b : Nat} : 1 ≤ (allSides s).count (a, b) ↔ Covered s a b :=
  count_pos_mem.trans mem_allSides

theorem meshing_numbers {s : St K} (h : Meshing s) {a b : Nat} (hab : a ≠ b) : Numbers s a b := by
  have hn := allSides_nodup h.wf (meshing_dir h)
  have hs : ∀ x, (allSides s).count x ≤ 1 := fun x => List.nodup_iff_count_le_one.mp hn x
  have ho : ∀ a b, 1 ≤ (pairs s .front).count (a, b) → (allSides s).count (a, b) = 0 := by
    intro a b hm
    by_contra hne
    obtain ⟨f, hf, hside⟩ := side_count.mp (Nat.one_le_iff_ne_zero.mpr hne)
    exact meshing_open h (count_pos_mem.mp hm) hf hside
  have hr : ∀ a b, 1 ≤ (pairs s .bdry).count (a, b) → (allSides s).count (b, a) = 0 := by
    intro a b hm
    by_contra hne
    obtain ⟨f, hf, hside⟩ := side_count.mp (Nat.one_le_iff_ne_zero.mpr hne)
    exact meshing_right h (count_pos_mem.mp hm) hf hside
  have hm : ∀ x, 1 ≤ (frontOf s false).count x → 1 ≤ (pairs s .bdry).count x := fun x hx =>
    count_pos_mem.mpr (h.marked x (count_pos_mem.mp hx))
  have hc := h.chain a b
  unfold chain at hc
  have hk := h.count a b
  simp only [connecting_count _ hab] at hk
  have h1 := simple_connecting h.front a b
  have h2 := simple_connecting h.bdry a b
  rw [connecting_count _ hab] at h1 h2
  exact ⟨hs _, hs _, h1, h2, by omega, hk, front_count s _, front_count s _, hm _, hm _, ho _ _, ho _ _, hr _ _, hr _ _⟩

theorem mem_pairs_of {s : St K} {l : EL} {e : Nat} (he : e ∈ s.es l) : ((s.E e).v1, (s.E e).v2) ∈ pairs s l :=
  List.mem_map_of_mem (f := fun e => ((s.E e).v1, (s.E e).v2)) he

/-- Edges of one list with the same ends are counted twice. -/
theorem two_edges {s : St K} (h : WF s) {l : EL} {e e' : Nat} (he : e ∈ s.es l) (he' : e' ∈ s.es l) (hne : e ≠ e')
    (hs : SameEnds s e e') : 2 ≤ (pairs s l).count ((s.E e).v1, (s.E e).v2) + (pairs s l).count ((s.E e).v2, (s.E e).v1) := by
  have hab : (s.E e).v1 ≠ (s.E e).v2 := ((h.ends l).2 e he).2.2.2.1
  rw [← connecting_count _ hab]
  unfold connecting pairs
  rw [List.countP_map]
  refine countP_two (h.ends l).1 he he' hne ?_ ?_
  · simp
  · simp only [Function.comp, decide_eq_true_eq]
    rcases hs with ⟨h1, h2⟩ | ⟨h1, h2⟩
    · exact Or.inl ⟨h1.symm, h2.symm⟩
    · exact Or.inr ⟨h2.symm, h1.symm⟩

theorem sameEnds_pair {s : St K} {l : EL} {e b : Nat} (hb : b ∈ s.es l) (hs : SameEnds s e b) :
    1 ≤ (pairs s l).count ((s.E e).v1, (s.E e).v2) + (pairs s l).count ((s.E e).v2, (s.E e).v1) := by
  have hm := count_pos_mem.mpr (mem_pairs_of hb)
  rcases hs with ⟨h1, h2⟩ | ⟨h1, h2⟩
  · rw [h1, h2]; omega
  · rw [h1, h2]; omega

theorem uncovered_iff {s : St K} {a b : Nat} : (allSides s).count (a, b) = 0 ↔ ∀ f, Live s f → ¬ HasSide s f a b := by
  constructor
  · intro h0 f hf hs
    have := side_count.mpr ⟨f, hf, hs⟩
    omega
  · intro hn
    by_contra hne
    obtain ⟨f, hf, hs⟩ := side_count.mp (Nat.one_le_iff_ne_zero.mpr hne)
    exact hn f hf hs

/-- A partly meshed simple domain is a mesh with its remaining front. -/
theorem meshing_remaining {s : St K} (h : Meshing s) : Remaining s ∧ UniqueIntr s := by
  have hne : ∀ {l e}, e ∈ s.es l → (s.E e).v1 ≠ (s.E e).v2 := fun {l e} he => ((h.wf.ends l).2 e he).2.2.2.1
  have numb : ∀ {l e}, e ∈ s.es l → Numbers s (s.E e).v1 (s.E e).v2 := fun he => meshing_numbers h (hne he)
  have bd : ∀ e ∈ s.es .front, ∀ b ∈ s.es .bdry, SameEnds s e b → (s.E e).v1 = (s.E b).v1 ∧ (s.E e).v2 = (s.E b).v2 := by
    intro e he b hb hs
    rcases hs with hs | hs
    · exact hs
    · exfalso
      have n := numb he
      have h1 := count_pos_mem.mpr (mem_pairs_of hb)
      rw [← hs.1, ← hs.2] at h1
      have h2 := count_pos_mem.mpr (mem_pairs_of he)
      have := n.chain; have := n.s1; have := n.s2; have := n.f1; have := n.b1; have := n.o1 h2; have := n.r2 h1
      omega
  refine ⟨⟨h.wf, meshing_dir h, ?_, ?_, ?_, bd, ?_, ?_, h.null, ?_, ?_⟩, ?_⟩
  · intro e he e' he' hs
    by_contra hc
    have := two_edges h.wf he he' hc hs
    have := (numb he).f1
    omega
  · intro e he f hf
    exact meshing_open h (mem_pairs_of he) hf
  · intro e he i hi hs
    have n := numb he
    have h1 := sameEnds_pair hi hs
    have h2 := count_pos_mem.mpr (mem_pairs_of he)
    have := n.count; have := n.s1; have := n.s2; have := n.f1; have := n.b1; have := n.o1 h2
    have := n.fs; have := n.fs'; have := n.m1; have := n.r1; have := n.m2
    omega
  · intro e he e' he' hs
    by_contra hc
    have := two_edges h.wf he he' hc hs
    have := (numb he).b1
    omega
  · intro b hb
    have n := numb hb
    have h1 := count_pos_mem.mpr (mem_pairs_of hb)
    rw [← uncovered_iff]
    constructor
    · rintro ⟨e, he, hs⟩
      obtain ⟨e1, e2⟩ := bd e he b hb hs
      have := count_pos_mem.mpr (mem_pairs_of he)
      rw [e1, e2] at this
      exact n.o1 this
    · intro h0
      have := n.chain; have := n.r1 h1; have := n.b1
      have h3 : 1 ≤ (pairs s .front).count ((s.E b).v1, (s.E b).v2) := by omega
      obtain ⟨e, he, hpe⟩ := List.mem_map.mp (count_pos_mem.mp h3)
      simp only [Prod.mk.injEq] at hpe
      exact ⟨e, he, Or.inl hpe⟩
  · intro b hb f hf
    exact meshing_right h (mem_pairs_of hb) hf
  · intro i hi
    have n := numb hi
    have h1 := count_pos_mem.mpr (mem_pairs_of hi)
    have := n.count; have := n.s1; have := n.s2; have := n.f1; have := n.b1; have := n.o1; have := n.o2
    have := n.fs; have := n.fs'; have := n.m1; have := n.r1; have := n.m2; have := n.r2
    exact ⟨side_count.mp (by omega), side_count.mp (by omega)⟩
  · intro e he e' he' hs
    by_contra hc
    have h1 := two_edges h.wf he he' hc hs
    have n := numb he
    have := n.count; have := n.s1; have := n.s2; have := n.f1; have := n.fs; have := n.fs'; have := n.o1; have := n.o2
    omega

/-- Every side of an element lies on an edge of the mesh or on a front edge; once the front is used up the
mesh is conforming. -/
theorem meshing_conforming {s : St K} (h : Meshing s) (hf : s.es .front = []) : Conforming s := by
  obtain ⟨r, hu⟩ := meshing_remaining h
  have hne : ∀ {l e}, e ∈ s.es l → (s.E e).v1 ≠ (s.E e).v2 := fun {l e} he => ((h.wf.ends l).2 e he).2.2.2.1
  have hp : pairs s .front = [] := by unfold pairs; rw [hf]; rfl
  have hf1 : frontOf s false = [] := by unfold frontOf; rw [hf]; rfl
  have hf2 : frontOf s true = [] := by unfold frontOf; rw [hf]; rfl
  have mix : ∀ i ∈ s.es .intr, ∀ b ∈ s.es .bdry, ¬ SameEnds s i b := by
    intro i hi b hb hs
    have n := meshing_numbers h (hne hi)
    have h1 := count_pos_mem.mpr (mem_pairs_of hi)
    have h2 := sameEnds_pair hb hs
    have h3 := n.count
    rw [hf1, hf2] at h3
    simp only [List.count_nil] at h3
    have := n.s1; have := n.s2; have := n.r1; have := n.r2
    omega
  refine { wf := h.wf, dir := r.dir, sides := ?_, right := ?_, unique := ?_, intrFull := r.intrFull, bdryFull := ?_ }
  · intro a b hc
    have hab : a ≠ b := by
      rintro rfl
      obtain ⟨f, hfl, hs⟩ := hc
      obtain ⟨x, hx, _, hxs⟩ := side_piece h.wf hfl hs
      obtain ⟨n1, n2, n3⟩ := ccw_ne (h.ccw x hx)
      simp only [pieceSides, List.mem_cons, Prod.mk.injEq, List.not_mem_nil, or_false] at hxs
      rcases hxs with ⟨e1, e2⟩ | ⟨e1, e2⟩ | ⟨e1, e2⟩
      · exact n1 (by rw [← e1, ← e2])
      · exact n2 (by rw [← e1, ← e2])
      · exact n3 (by rw [← e1, ← e2])
    have n := meshing_numbers h hab
    have h1 := side_count.mpr hc
    have h2 := n.count
    rw [hf1, hf2] at h2
    simp only [List.count_nil] at h2
    have find : ∀ (l : EL) (x y : Nat), 1 ≤ (pairs s l).count (x, y) → ∃ e ∈ s.es l, (s.E e).v1 = x ∧ (s.E e).v2 = y := by
      intro l x y hxy
      obtain ⟨e, he, hpe⟩ := List.mem_map.mp (count_pos_mem.mp hxy)
      simp only [Prod.mk.injEq] at hpe
      exact ⟨e, he, hpe⟩
    have h3 : 1 ≤ (pairs s .intr).count (a, b) ∨ 1 ≤ (pairs s .intr).count (b, a) ∨ 1 ≤ (pairs s .bdry).count (a, b) ∨
        1 ≤ (pairs s .bdry).count (b, a) := by omega
    rcases h3 with h3 | h3 | h3 | h3
    · obtain ⟨e, he, hx⟩ := find _ _ _ h3; exact ⟨e, Or.inl he, Or.inl hx⟩
    · obtain ⟨e, he, hx⟩ := find _ _ _ h3; exact ⟨e, Or.inl he, Or.inr hx⟩
    · obtain ⟨e, he, hx⟩ := find _ _ _ h3; exact ⟨e, Or.inr he, Or.inl hx⟩
    · obtain ⟨e, he, hx⟩ := find _ _ _ h3; exact ⟨e, Or.inr he, Or.inr hx⟩
  · rintro e he ⟨f, hfl, hs⟩
    exact r.bdryRight e he f hfl hs
  · intro e he e' he' hs
    rcases he with he | he <;> rcases he' with he' | he'
    · exact hu e he e' he' hs
    · exact absurd hs (mix e he e' he')
    · refine absurd ?_ (mix e' he' e he)
      rcases hs with ⟨h1, h2⟩ | ⟨h1, h2⟩
      · exact Or.inl ⟨h1.symm, h2.symm⟩
      · exact Or.inr ⟨h2.symm, h1.symm⟩
    · exact r.bdryUnique e he e' he' hs
  · intro e he
    by_contra hc
    have h1 : ∀ f, Live s f → ¬ HasSide s f (s.E e).v1 (s.E e).v2 := fun f hfl hs => hc ⟨f, hfl, hs⟩
    obtain ⟨x, hx, _⟩ := (r.bdryOpen e he).mpr h1
    rw [hf] at hx
    simp at hx

end TQ.Whole

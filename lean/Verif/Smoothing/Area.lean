import Verif.Smoothing.Lemmas
import Verif.Refinement.Props
import Mathlib.Tactic.LinearCombination

/-! # Sums over the sides of a conforming mesh are sums over its boundary -/

set_option linter.unusedSectionVars false
set_option linter.unusedSimpArgs false

namespace TQ.Sm
open TQ.MS TQ.MS.St TQ.MeshSpec TQ.MCSpec TQ.SmSpec TQ.RefSpec
variable {K : Type*} [Field K] [LinearOrder K] [IsStrictOrderedRing K]

/-- The sides of an element. -/
def sidesOf (cs : List Nat) : List (Nat × Nat) := (List.range cs.length).filterMap (sideAt cs)

/-- All sides of all elements. -/
def allSides (s : St K) : List (Nat × Nat) := (facets s).flatMap fun f => sidesOf (s.F f).corners

theorem mem_sidesOf {s : St K} {f : FRef} {p : Nat × Nat} : p ∈ sidesOf (s.F f).corners ↔ HasSide s f p.1 p.2 := by
  unfold sidesOf HasSide
  simp only [List.mem_filterMap, List.mem_range]

theorem mem_allSides {s : St K} {p : Nat × Nat} : p ∈ allSides s ↔ Covered s p.1 p.2 := by
  unfold allSides Covered
  simp only [List.mem_flatMap, mem_facets, mem_sidesOf]

theorem sides3 (a b c : Nat) : sidesOf [a, b, c] = [(b, c), (c, a), (a, b)] := by
  simp [sidesOf, sideAt, List.range_succ]

theorem sides4 (a b c d : Nat) : sidesOf [a, b, c, d] = [(b, c), (c, d), (d, a), (a, b)] := by
  simp [sidesOf, sideAt, List.range_succ]

theorem corners_cases {s : St K} (w : WF s) {f : FRef} (hf : Live s f) :
    (∃ a b c, (s.F f).corners = [a, b, c]) ∨ ∃ a b c d, (s.F f).corners = [a, b, c, d] := by
  cases f with
  | null => exact absurd hf (by simp [Live])
  | tri t =>
    left
    have := w.tcor t hf
    match h : (s.F (.tri t)).corners with
    | [a, b, c] => exact ⟨a, b, c, rfl⟩
    | [] | [_] | [_, _] | _ :: _ :: _ :: _ :: _ => rw [h] at this; simp at this
  | quad q =>
    right
    have := w.qcor q hf
    match h : (s.F (.quad q)).corners with
    | [a, b, c, d] => exact ⟨a, b, c, d, rfl⟩
    | [] | [_] | [_, _] | [_, _, _] | _ :: _ :: _ :: _ :: _ :: _ => rw [h] at this; simp at this

theorem facets_nodup {s : St K} (w : WF s) : (facets s).Nodup := by
  unfold facets
  rw [List.nodup_append]
  refine ⟨List.Nodup.map (fun a b h => FRef.tri.inj h) w.tnd, List.Nodup.map (fun a b h => FRef.quad.inj h) w.qnd, ?_⟩
  intro a ha b hb
  simp only [List.mem_map] at ha hb
  obtain ⟨x, _, rfl⟩ := ha
  obtain ⟨y, _, rfl⟩ := hb
  simp

theorem sidesOf_nodup {s : St K} (w : WF s) {f : FRef} (hf : Live s f) : (sidesOf (s.F f).corners).Nodup := by
  have hn := (w.cor f hf).1
  rcases corners_cases w hf with ⟨a, b, c, h⟩ | ⟨a, b, c, d, h⟩
  · rw [h] at hn ⊢
    rw [sides3]
    simp only [List.nodup_cons, List.mem_cons, List.not_mem_nil, or_false, not_or, List.nodup_nil, and_true, not_false_eq_true,
      Prod.mk.injEq, not_and] at hn ⊢
    grind
  · rw [h] at hn ⊢
    rw [sides4]
    simp only [List.nodup_cons, List.mem_cons, List.not_mem_nil, or_false, not_or, List.nodup_nil, and_true, not_false_eq_true,
      Prod.mk.injEq, not_and] at hn ⊢
    grind

theorem allSides_nodup {s : St K} (w : WF s) (d : DirUnique s) : (allSides s).Nodup := by
  unfold allSides
  rw [List.nodup_flatMap]
  refine ⟨fun f hf => sidesOf_nodup w (mem_facets.mp hf), ?_⟩
  refine List.Pairwise.imp_of_mem ?_ (List.nodup_iff_pairwise_ne.mp (facets_nodup w))
  intro f g hf hg hne p hp hq
  exact hne (d f g p.1 p.2 (mem_facets.mp hf) (mem_facets.mp hg) (mem_sidesOf.mp hp) (mem_sidesOf.mp hq))

/-- The directed pairs of the edges of a mesh: boundary edges in their direction, interior edges in both. -/
def edgePairs (s : St K) : List (Nat × Nat) :=
  (s.es .bdry).map (fun e => ((s.E e).v1, (s.E e).v2)) ++
    ((s.es .intr).map (fun e => ((s.E e).v1, (s.E e).v2)) ++ (s.es .intr).map (fun e => ((s.E e).v2, (s.E e).v1)))

theorem edgePairs_nodup {s : St K} (h : Conforming s) : (edgePairs s).Nodup := by
  unfold edgePairs
  have key : ∀ e e', (e ∈ s.es .intr ∨ e ∈ s.es .bdry) → (e' ∈ s.es .intr ∨ e' ∈ s.es .bdry) → SameEnds s e e' → e = e' :=
    fun e e' he he' => h.unique e he e' he'
  have lists : ∀ e, e ∈ s.es .bdry → e ∈ s.es .intr → False := by
    intro e hb hi
    have h1 := ((h.wf.ends .bdry).2 e hb).1
    have h2 := ((h.wf.ends .intr).2 e hi).1
    rw [h1] at h2; exact absurd h2 (by simp)
  rw [List.nodup_append, List.nodup_append]
  refine ⟨?_, ⟨?_, ?_, ?_⟩, ?_⟩
  · refine List.Nodup.map_on ?_ (h.wf.ends .bdry).1
    intro e he e' he' heq
    exact key e e' (Or.inr he) (Or.inr he') (Or.inl ⟨congrArg Prod.fst heq, congrArg Prod.snd heq⟩)
  · refine List.Nodup.map_on ?_ (h.wf.ends .intr).1
    intro e he e' he' heq
    exact key e e' (Or.inl he) (Or.inl he') (Or.inl ⟨congrArg Prod.fst heq, congrArg Prod.snd heq⟩)
  · refine List.Nodup.map_on ?_ (h.wf.ends .intr).1
    intro e he e' he' heq
    exact key e e' (Or.inl he) (Or.inl he') (Or.inl ⟨congrArg Prod.snd heq, congrArg Prod.fst heq⟩)
  · intro p hp q hq heq
    simp only [List.mem_map] at hp hq
    obtain ⟨e, he, rfl⟩ := hp
    obtain ⟨e', he', rfl⟩ := hq
    have h1 : (s.E e).v1 = (s.E e').v2 := congrArg Prod.fst heq
    have h2 : (s.E e).v2 = (s.E e').v1 := congrArg Prod.snd heq
    have := key e e' (Or.inl he) (Or.inl he') (Or.inr ⟨h1, h2⟩)
    subst this
    exact ((h.wf.ends .intr).2 e he).2.2.2.1 h1
  · intro p hp q hq heq
    simp only [List.mem_map, List.mem_append] at hp hq
    obtain ⟨e, he, rfl⟩ := hp
    rcases hq with ⟨e', he', rfl⟩ | ⟨e', he', rfl⟩
    · have := key e e' (Or.inr he) (Or.inl he') (Or.inl ⟨congrArg Prod.fst heq, congrArg Prod.snd heq⟩)
      subst this; exact lists e he he'
    · have := key e e' (Or.inr he) (Or.inl he') (Or.inr ⟨congrArg Prod.fst heq, congrArg Prod.snd heq⟩)
      subst this; exact lists e he he'

theorem mem_edgePairs {s : St K} (h : Conforming s) {p : Nat × Nat} : p ∈ edgePairs s ↔ Covered s p.1 p.2 := by
  unfold edgePairs
  simp only [List.mem_append, List.mem_map]
  constructor
  · rintro (⟨e, he, rfl⟩ | ⟨e, he, rfl⟩ | ⟨e, he, rfl⟩)
    · exact h.bdryFull e he
    · exact (h.intrFull e he).1
    · exact (h.intrFull e he).2
  · intro hc
    obtain ⟨e, he, hcon⟩ := h.sides p.1 p.2 hc
    rcases he with he | he
    · rcases hcon with ⟨h1, h2⟩ | ⟨h1, h2⟩
      · exact Or.inr (Or.inl ⟨e, he, Prod.ext h1 h2⟩)
      · exact Or.inr (Or.inr ⟨e, he, Prod.ext h2 h1⟩)
    · rcases hcon with ⟨h1, h2⟩ | ⟨h1, h2⟩
      · exact Or.inl ⟨e, he, Prod.ext h1 h2⟩
      · refine absurd ?_ (h.right e he)
        rw [h1, h2]; exact hc

theorem allSides_perm {s : St K} (h : Conforming s) : (allSides s).Perm (edgePairs s) :=
  (List.perm_ext_iff_of_nodup (allSides_nodup h.wf h.dir) (edgePairs_nodup h)).mpr fun _ => mem_allSides.trans (mem_edgePairs h).symm

/-- A quantity of directed pairs that changes sign with the direction adds up to its sum over the boundary. -/
theorem sum_sides {s : St K} (h : Conforming s) (w : Nat × Nat → K) (anti : ∀ a b, w (b, a) = - w (a, b)) :
    ((allSides s).map w).sum = ((s.es .bdry).map fun e => w ((s.E e).v1, (s.E e).v2)).sum := by
  rw [((allSides_perm h).map w).sum_eq]
  unfold edgePairs
  rw [List.map_append, List.map_append, List.sum_append, List.sum_append, List.map_map, List.map_map, List.map_map]
  have : ((s.es .intr).map (w ∘ fun e => ((s.E e).v2, (s.E e).v1))).sum =
      - ((s.es .intr).map (w ∘ fun e => ((s.E e).v1, (s.E e).v2))).sum := by
    induction s.es .intr with
    | nil => simp
    | cons e l ih =>
      simp only [List.map_cons, List.sum_cons, Function.comp]
      rw [anti]
      rw [ih]; ring
  rw [this]
  simp only [Function.comp_def]
  ring

theorem fArea_sides {s : St K} (w : WF s) {f : FRef} (hf : Live s f) :
    ((sidesOf (s.F f).corners).map fun p => Pt.cross (s.pos p.1) (s.pos p.2)).sum = 2 * s.fArea f := by
  rcases corners_cases w hf with ⟨a, b, c, h⟩ | ⟨a, b, c, d, h⟩
  · unfold fArea
    rw [h, sides3]
    simp only [List.map_cons, List.map_nil, List.sum_cons, List.sum_nil]
    rw [triArea_expand]
    unfold Pt.cross
    ring
  · unfold fArea
    rw [h, sides4]
    simp only [List.map_cons, List.map_nil, List.sum_cons, List.sum_nil]
    rw [quadArea_expand]
    unfold Pt.cross
    ring

/-- The area of a conforming mesh is the shoelace sum of its boundary. -/
theorem meshArea_boundary {s : St K} (h : Conforming s) :
    2 * meshArea s = ((s.es .bdry).map fun e => Pt.cross (s.pos (s.E e).v1) (s.pos (s.E e).v2)).sum := by
  rw [meshArea_facets]
  have h1 := sum_sides h (fun p => Pt.cross (s.pos p.1) (s.pos p.2)) (fun a b => by unfold Pt.cross; ring)
  rw [← h1]
  unfold allSides
  rw [sum_flatMap (facets s) (fun f => sidesOf (s.F f).corners) _ (fun f => 2 * s.fArea f)
    (fun f hf => fArea_sides h.wf (mem_facets.mp hf))]
  induction facets s with
  | nil => simp
  | cons f l ih => simp only [List.map_cons, List.sum_cons]; rw [← ih]; ring

end TQ.Sm

import Verif.Whole.Final
import Verif.Whole.FinalSpec
import Verif.Smoothing.Props

/-! # Lemmas: smoothing of completely meshed domains -/

set_option linter.unusedSectionVars false
set_option linter.unusedSimpArgs false

namespace TQ.Whole
open TQ.MS TQ.MeshSpec TQ.FUSpec TQ.MS.St TQ.GeoSpec TQ.FU TQ.Sm TQ.MCSpec TQ.WholeSpec TQ.RefSpec TQ.QLSpec TQ.QL TQ.CleanSpec TQ.SmSpec
variable {K : Type*} [Field K] [LinearOrder K] [IsStrictOrderedRing K]

theorem side_area2 (p q r : Pt K) : area2 p q r = side p q r := by unfold area2 side; ring

/-- The pieces are counter-clockwise iff the triangles are and no quad is folded. -/
theorem ccw_iff {s : St K} (h : WF s) : (∀ x ∈ pieces s, 0 < side (s.pos x.2.1) (s.pos x.2.2.1) (s.pos x.2.2.2)) ↔
    (∀ t ∈ s.tris, ∀ a b c, (s.F (.tri t)).corners = [a, b, c] → 0 < area2 (s.pos a) (s.pos b) (s.pos c)) ∧ Unfolded s := by
  constructor
  · intro hp
    refine ⟨fun t ht a b c hc => ?_, fun q hq a b c d hc => ?_⟩
    · rw [side_area2]
      exact hp (.tri t, a, b, c) (mem_pieces.mpr ⟨ht, by simp [hc, halves]⟩)
    · by_cases k : 0 < side (s.pos a) (s.pos b) (s.pos c) ∧ 0 < side (s.pos c) (s.pos d) (s.pos a)
      · exact Or.inl k
      · right
        refine ⟨hp (.quad q, b, c, d) (mem_pieces.mpr ⟨hq, ?_⟩), hp (.quad q, d, a, b) (mem_pieces.mpr ⟨hq, ?_⟩)⟩ <;>
        · simp only [hc, halves, if_neg k]; simp
  · rintro ⟨ht, hq⟩ x hx
    obtain ⟨hl, hx⟩ := mem_pieces.mp hx
    obtain ⟨f, x1, x2, x3⟩ := x
    dsimp only at hl hx ⊢
    cases f with
    | null => exact absurd hl (by simp [Live])
    | tri t =>
      obtain ⟨a, b, c, hc⟩ := List.length_eq_three.mp (h.tcor t hl)
      rw [hc] at hx
      simp only [halves, List.mem_cons, List.not_mem_nil, or_false, Prod.mk.injEq, true_and] at hx
      obtain ⟨rfl, rfl, rfl⟩ := hx
      rw [← side_area2]
      exact ht t hl _ _ _ hc
    | quad q =>
      rcases corners_cases h hl with ⟨a, b, c, hc⟩ | ⟨a, b, c, d, hc⟩
      · have := h.qcor q hl
        rw [hc] at this; simp at this
      rw [hc] at hx
      have hu := hq q hl a b c d hc
      unfold halves at hx
      dsimp only at hx
      split_ifs at hx with k
      · simp only [List.mem_cons, List.not_mem_nil, or_false, Prod.mk.injEq, true_and] at hx
        rcases hx with ⟨rfl, rfl, rfl⟩ | ⟨rfl, rfl, rfl⟩
        · exact k.1
        · exact k.2
      · simp only [List.mem_cons, List.not_mem_nil, or_false, Prod.mk.injEq, true_and] at hx
        rcases hu with hu | hu
        · exact absurd hu k
        rcases hx with ⟨rfl, rfl, rfl⟩ | ⟨rfl, rfl, rfl⟩
        · exact hu.1
        · exact hu.2

theorem complete_tris {s : St K} (h : Complete s) :
    ∀ t ∈ s.tris, ∀ a b c, (s.F (.tri t)).corners = [a, b, c] → 0 < area2 (s.pos a) (s.pos b) (s.pos c) := ((ccw_iff h.wf).mp h.ccw).1

/-- The boundary edges as points are the same. -/
theorem places_bdry {s t : St K} (hf : BdryFlagged s) {l : Bool} (hp : SameButPlaces s t)
    (hq : ∀ v, Pinned l s v → t.pos v = s.pos v) :
    pairs t .bdry = pairs s .bdry ∧ ∀ p ∈ pairs s .bdry, t.pos p.1 = s.pos p.1 ∧ t.pos p.2 = s.pos p.2 := by
  constructor
  · unfold pairs
    rw [hp.es]
    exact List.map_congr_left fun e _ => by rw [(hp.ends e).1, (hp.ends e).2.1]
  · intro p hp'
    unfold pairs at hp'
    obtain ⟨e, he, rfl⟩ := List.mem_map.mp hp'
    exact ⟨hq _ (Or.inr (Or.inl (hf e he).1)), hq _ (Or.inr (Or.inl (hf e he).2))⟩

theorem places_flagged {s t : St K} (hf : BdryFlagged s) (hp : SameButPlaces s t) : BdryFlagged t := by
  intro e he
  rw [hp.es] at he
  rw [(hp.ends e).1, (hp.ends e).2.1, (hp.V _).1, (hp.V _).1]
  exact hf e he

/-- A mesh with the same boundary and the same elements, the vertices elsewhere: it is complete if its triangles are
counter-clockwise and its quads not folded. -/
theorem places_complete {s t : St K} (h : Complete s) (hf : BdryFlagged s) {l : Bool} (hp : SameButPlaces s t)
    (hq : ∀ v, Pinned l s v → t.pos v = s.pos v)
    (ht : ∀ x ∈ t.tris, ∀ a b c, (t.F (.tri x)).corners = [a, b, c] → 0 < area2 (t.pos a) (t.pos b) (t.pos c)) (hu : Unfolded t) : Complete t := by
  obtain ⟨k1, k2⟩ := places_bdry hf hp hq
  have hc := sp_conforming hp h.toConforming
  refine { toConforming := hc, front := by rw [hp.es]; exact h.front, bdry := ?_, ccw := (ccw_iff hc.wf).mpr ⟨ht, hu⟩, plain := ?_ }
  · rw [k1]
    exact simple_congr k2 h.bdry
  · intro b hb
    rw [hp.es] at hb
    obtain ⟨-, -, -, -, e5, -⟩ := hp.ends b
    unfold isInterior isGhost
    rw [e5]
    exact h.plain b hb

/-- The elements around every point: also where quads are folded, the winding numbers of the elements add up to that
of the boundary. -/
theorem places_winding {s t : St K} (h : Complete s) (hf : BdryFlagged s) {l : Bool} (hp : SameButPlaces s t)
    (hq : ∀ v, Pinned l s v → t.pos v = s.pos v) (p : Pt K) :
    winding t.pos (elemSides t) p = winding s.pos (pairs s .bdry) p := by
  obtain ⟨k1, k2⟩ := places_bdry hf hp hq
  have m := complete_meshing h
  have e1 : elemSides t = elemSides s := QL.elemSides_congr hp.tris hp.quads fun f _ => (hp.corners f).1
  have h1 := winding_of_chain (pos := t.pos) m.chain p
  have h2 : pairs s .front = [] := by unfold pairs; rw [h.front]; rfl
  rw [h2] at h1
  rw [e1, winding_perm (elemSides_perm h.wf)]
  have h3 : winding t.pos [] p = 0 := by rw [winding_eq]; rfl
  rw [h3, add_zero] at h1
  rw [h1]
  exact winding_congr k2 p

/-- The pointers of facets are those after `setup_facet_connectivity`. -/
theorem stable_F (c : SmoothCfg K) (s : St K) : Stable c fun t => t.F = s.F := fun t v p h _ _ => h

theorem fresh_places {s t : St K} (hp : SameButPlaces s t) (hF : t.F = s.F) (h : FreshPointers s) : FreshPointers t := by
  intro f a b g hl hn hx
  refine h f a b g ((sp_live hp f).mp hl) ?_ ?_
  · intro hi
    apply hn
    obtain ⟨e, he, hc⟩ := hi
    exact ⟨e, by rw [hp.es]; exact he, (sp_connects hp e a b).mpr hc⟩
  · unfold NbrAcross at hx ⊢
    rw [hF] at hx
    exact hx

end TQ.Whole

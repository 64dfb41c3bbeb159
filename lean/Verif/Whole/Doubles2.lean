import Verif.Whole.Doubles

/-! # Lemmas: the mesh after merging elements with two common edges -/

set_option linter.unusedSectionVars false
set_option linter.unusedSimpArgs false
set_option linter.unusedVariables false

namespace TQ.Whole
open TQ TQ.MS TQ.MS.St TQ.MeshSpec TQ.FUSpec TQ.MCSpec TQ.WholeSpec TQ.FU TQ.Sm TQ.MC TQ.RefSpec TQ.CleanSpec
variable {K : Type*} [Field K] [LinearOrder K] [IsStrictOrderedRing K]

/-- The mesh after the merges. -/
structure Outcome (s t : St K) (isQ : Bool) (ms : List Merge) (id : Merge → Nat) : Prop where
  wf : WF t
  verts : t.verts = s.verts.filter fun v => decide (v ∉ goneOf ms)
  bits : Bits s t
  lists : ∀ l, l ≠ .intr → t.es l = s.es l
  intr : t.es .intr = (s.es .intr).filter fun x => decide (x ∉ ms.flatMap fun m => [m.e1, m.e2])
  tris : t.tris = (s.tris.filter fun x => decide (FRef.tri x ∉ removed ms)) ++ (if isQ then [] else ms.map id)
  quads : t.quads = (s.quads.filter fun x => decide (FRef.quad x ∉ removed ms)) ++ (if isQ then ms.map id else [])
  ge : ∀ m ∈ ms, s.nxt ≤ id m
  old : ∀ f, Live s f → t.F f = s.F f
  new : ∀ m ∈ ms, t.F (ref isQ (id m)) = ⟨corOf s isQ m, List.replicate (corOf s isQ m).length .null, s.color, true⟩

theorem live_lt {s : St K} (w : WF s) {isQ : Bool} {n : Nat} (h : Live s (ref isQ n)) : n < s.nxt := by
  unfold ref at h
  cases isQ
  · exact w.tlt n h
  · exact w.qlt n h

theorem outcome {s u : St K} {isQ : Bool} {ms : List Merge} {id : Merge → Nat} (h : Plan s isQ ms) (ha : Added s u isQ ms id (corOf s isQ)) :
    Outcome s (removeOld ms u) isQ ms id := by
  have w := h.wf
  have nonnull : ∀ m ∈ ms, m.nbr ≠ .null := by
    intro m hm hh
    obtain ⟨v1, v3, t⟩ := h.twins m hm
    have := t.live
    rw [hh] at this
    exact this
  have fresh : ∀ m ∈ ms, ref isQ (id m) ∉ removed ms := by
    intro m hm hin
    obtain ⟨m', hm', hf⟩ := Plan.mem_removed.mp hin
    have := live_lt w (h.liveR hm' hf)
    have := ha.ge m hm
    omega
  have old : ∀ f, Live s f → u.F f = s.F f := by
    intro f hf
    refine ha.old f fun m hm hh => ?_
    subst hh
    have := live_lt w hf
    have := ha.ge m hm
    omega
  have c := cut_all ms ha.wf nonnull
  have sn := snip_all ms c.wf h.edges_nodup fun m hm => by
    rw [c.es, ha.es]; exact ⟨(h.ends_e hm).2.2.2.1, (h.ends_e hm).2.2.2.2⟩
  -- elements before the vertices are removed
  have trisC : (ms.foldl (fun s m => removeFacet (s.removeQuad m.q) m.nbr) u).tris =
      (s.tris.filter fun x => decide (FRef.tri x ∉ removed ms)) ++ (if isQ then [] else ms.map id) := by
    rw [c.tris, ha.tris, List.filter_append]
    congr 1
    cases isQ with
    | true => rfl
    | false =>
      simp only [Bool.false_eq_true, if_false]
      refine List.filter_eq_self.mpr fun x hx => ?_
      obtain ⟨m, hm, rfl⟩ := List.mem_map.mp hx
      have := fresh m hm
      simp only [ref, Bool.false_eq_true, if_false] at this
      exact decide_eq_true this
  have quadsC : (ms.foldl (fun s m => removeFacet (s.removeQuad m.q) m.nbr) u).quads =
      (s.quads.filter fun x => decide (FRef.quad x ∉ removed ms)) ++ (if isQ then ms.map id else []) := by
    rw [c.quads, ha.quads, List.filter_append]
    congr 1
    cases isQ with
    | false => rfl
    | true =>
      simp only [if_true]
      refine List.filter_eq_self.mpr fun x hx => ?_
      obtain ⟨m, hm, rfl⟩ := List.mem_map.mp hx
      have := fresh m hm
      simp only [ref, if_true] at this
      exact decide_eq_true this
  generalize hu1 : ms.foldl (fun s m => removeFacet (s.removeQuad m.q) m.nbr) u = u1 at c sn trisC quadsC
  generalize hu2 : ms.foldl (fun s m => (s.removeIntr m.e1).removeIntr m.e2) u1 = u2 at sn
  have live2 : ∀ f, Live u2 f → (Live s f ∧ f ∉ removed ms) ∨ ∃ m ∈ ms, f = ref isQ (id m) := by
    intro f hf
    cases f with
    | null => exact absurd hf (by simp [Live])
    | tri x =>
      simp only [Live, sn.tris, trisC, List.mem_append, List.mem_filter, decide_eq_true_eq] at hf
      rcases hf with hf | hf
      · exact Or.inl hf
      · cases isQ with
        | true => simp at hf
        | false =>
          simp only [Bool.false_eq_true, if_false, List.mem_map] at hf
          obtain ⟨m, hm, rfl⟩ := hf
          exact Or.inr ⟨m, hm, by simp [ref]⟩
    | quad x =>
      simp only [Live, sn.quads, quadsC, List.mem_append, List.mem_filter, decide_eq_true_eq] at hf
      rcases hf with hf | hf
      · exact Or.inl hf
      · cases isQ with
        | false => simp at hf
        | true =>
          simp only [if_true, List.mem_map] at hf
          obtain ⟨m, hm, rfl⟩ := hf
          exact Or.inr ⟨m, hm, by simp [ref]⟩
  have vert2 : u2.verts = s.verts := by rw [sn.verts, c.verts, ha.verts]
  have E2 : u2.E = s.E := by rw [sn.bits.E, c.bits.E, ha.bits.E]
  have F2 : u2.F = u.F := by rw [sn.F, c.F]
  have dr := drop_all ms sn.wf h.v2nd fun m hm => by
    have hv : m.v2 ∈ s.verts := (w.cor _ (h.liveR hm (Or.inl rfl))).2 _ (h.at_v2 hm).1
    have hv2 : m.v2 ∈ u2.verts := by rw [vert2]; exact hv
    refine ⟨hv2, ?_, ?_⟩
    · rw [List.eq_nil_iff_forall_not_mem]
      intro e he
      obtain ⟨hl, hends⟩ := ((sn.wf.edges _ hv2).2 e).mp he
      rw [E2] at hends
      obtain ⟨l, hl⟩ := (liveE_iff sn.wf.toSound e).mp hl
      cases l with
      | intr =>
        rw [sn.intr, c.es, ha.es, List.mem_filter] at hl
        have := (h.mem_edges hl.1).mpr (by
          have hg : m.v2 ∈ goneOf ms := List.mem_map_of_mem hm
          rcases hends with hh | hh
          · exact Or.inl (hh ▸ hg)
          · exact Or.inr (hh ▸ hg))
        simp only [decide_eq_true_eq] at hl
        exact hl.2 this
      | bdry =>
        rw [sn.lists _ (by simp), c.es, ha.es] at hl
        have hg : m.v2 ∈ goneOf ms := List.mem_map_of_mem hm
        rcases hends with hh | hh
        · exact (h.bdry_stay hl).1 (hh ▸ hg)
        · exact (h.bdry_stay hl).2 (hh ▸ hg)
      | front =>
        rw [sn.lists _ (by simp), c.es, ha.es, h.comp.front] at hl
        simp at hl
    · rw [List.eq_nil_iff_forall_not_mem]
      intro f hf
      obtain ⟨hl, hc⟩ := ((sn.wf.facets _ hv2).2 f).mp hf
      rw [F2] at hc
      rcases live2 f hl with ⟨h1, h2⟩ | ⟨m', hm', rfl⟩
      · rw [old f h1] at hc
        exact h2 ((h.removed_iff h1).mpr ⟨m.v2, List.mem_map_of_mem hm, hc⟩)
      · rw [ha.new m' hm'] at hc
        exact (h.cor_stay hm' hc).2 (List.mem_map_of_mem hm)
  unfold MC.removeOld
  dsimp only
  rw [hu1, hu2]
  refine ⟨dr.wf, by rw [dr.verts, vert2]; rfl, ((ha.bits.trans c.bits).trans sn.bits).trans dr.bits, ?_, ?_, ?_, ?_, ha.ge, ?_, ?_⟩
  · intro l hl; rw [dr.es, sn.lists l hl, c.es, ha.es]
  · rw [dr.es, sn.intr, c.es, ha.es]
  · rw [dr.tris, sn.tris, trisC]
  · rw [dr.quads, sn.quads, quadsC]
  · intro f hf; rw [dr.F, F2, old f hf]
  · intro m hm; rw [dr.F, F2, ha.new m hm]

namespace Outcome
variable {s t : St K} {isQ : Bool} {ms : List Merge} {id : Merge → Nat}

theorem live (h : Outcome s t isQ ms id) (f : FRef) : Live t f ↔ (Live s f ∧ f ∉ removed ms) ∨ ∃ m ∈ ms, f = ref isQ (id m) := by
  cases f with
  | null => simp only [Live, false_and, false_or, false_iff]; rintro ⟨m, -, hm⟩; unfold ref at hm; split_ifs at hm <;> cases hm
  | tri x =>
    simp only [Live, h.tris, List.mem_append, List.mem_filter, decide_eq_true_eq]
    refine or_congr Iff.rfl ?_
    cases isQ with
    | true => simp [ref]
    | false => simp only [Bool.false_eq_true, if_false, List.mem_map, ref, FRef.tri.injEq]; constructor <;> rintro ⟨m, hm, rfl⟩ <;> exact ⟨m, hm, rfl⟩
  | quad x =>
    simp only [Live, h.quads, List.mem_append, List.mem_filter, decide_eq_true_eq]
    refine or_congr Iff.rfl ?_
    cases isQ with
    | false => simp [ref]
    | true => simp only [if_true, List.mem_map, ref, FRef.quad.injEq]; constructor <;> rintro ⟨m, hm, rfl⟩ <;> exact ⟨m, hm, rfl⟩

theorem pos (h : Outcome s t isQ ms id) (v : Nat) : t.pos v = s.pos v := (h.bits.V v).1

/-- Sides of a new element are sides of the two old ones. -/
theorem new_side (h : Outcome s t isQ ms id) (p : Plan s isQ ms) {m : Merge} (hm : m ∈ ms) (a b : Nat) :
    HasSide t (ref isQ (id m)) a b ↔ (HasSide s (.quad m.q) a b ∨ HasSide s m.nbr a b) ∧ a ≠ m.v2 ∧ b ≠ m.v2 := by
  obtain ⟨v1, v3, tw⟩ := p.twins m hm
  have hn := rot4_nodup tw.qc (p.wf.cor (.quad m.q) tw.q).1
  simp only [List.nodup_cons, List.mem_cons, List.not_mem_nil, or_false, not_or] at hn
  have hc : (t.F (ref isQ (id m))).corners = corOf s isQ m := by rw [h.new m hm]
  rw [twin_cor p.wf tw] at hc
  cases isQ with
  | true =>
    have hn2 := rot4_nodup (tw.nc.1 rfl) (p.wf.cor m.nbr tw.live).1
    simp only [List.nodup_cons, List.mem_cons, List.not_mem_nil, or_false, not_or] at hn2
    simp only [if_true] at hc
    rw [quad_side hc, rot4_side tw.qc, rot4_side (tw.nc.1 rfl)]
    simp only [Prod.mk.injEq]
    obtain ⟨⟨n1, n2, n3⟩, ⟨n4, n5⟩, n6, -⟩ := hn
    obtain ⟨⟨-, -, k3⟩, ⟨-, k5⟩, k6, -⟩ := hn2
    clear * - n1 n2 n3 n4 n5 n6 k3 k5 k6
    constructor
    · rintro (⟨rfl, rfl⟩ | ⟨rfl, rfl⟩ | ⟨rfl, rfl⟩ | ⟨rfl, rfl⟩)
      · exact ⟨Or.inl (by simp), Ne.symm n5, n1⟩
      · exact ⟨Or.inr (by simp), n1, Ne.symm k5⟩
      · exact ⟨Or.inr (by simp), Ne.symm k5, Ne.symm n4⟩
      · exact ⟨Or.inl (by simp), Ne.symm n4, Ne.symm n5⟩
    · rintro ⟨(⟨rfl, rfl⟩ | ⟨rfl, rfl⟩ | ⟨rfl, rfl⟩ | ⟨rfl, rfl⟩) | (⟨rfl, rfl⟩ | ⟨rfl, rfl⟩ | ⟨rfl, rfl⟩ | ⟨rfl, rfl⟩), c1, c2⟩ <;>
        first | exact absurd rfl c1 | exact absurd rfl c2 | simp
  | false =>
    simp only [Bool.false_eq_true, if_false] at hc
    rw [rot3_side (Or.inl hc), rot4_side tw.qc, rot3_side (tw.nc.2 rfl)]
    simp only [Prod.mk.injEq]
    obtain ⟨⟨n1, n2, n3⟩, ⟨n4, n5⟩, n6, -⟩ := hn
    clear * - n1 n2 n3 n4 n5 n6
    constructor
    · rintro (⟨rfl, rfl⟩ | ⟨rfl, rfl⟩ | ⟨rfl, rfl⟩)
      · exact ⟨Or.inl (by simp), Ne.symm n4, Ne.symm n5⟩
      · exact ⟨Or.inl (by simp), Ne.symm n5, n1⟩
      · exact ⟨Or.inr (by simp), n1, Ne.symm n4⟩
    · rintro ⟨(⟨rfl, rfl⟩ | ⟨rfl, rfl⟩ | ⟨rfl, rfl⟩ | ⟨rfl, rfl⟩) | (⟨rfl, rfl⟩ | ⟨rfl, rfl⟩ | ⟨rfl, rfl⟩), c1, c2⟩ <;>
        first | exact absurd rfl c1 | exact absurd rfl c2 | simp

theorem old_side (h : Outcome s t isQ ms id) {f : FRef} (hf : Live s f) (a b : Nat) : HasSide t f a b ↔ HasSide s f a b := by
  unfold HasSide; rw [h.old f hf]

/-- Where a side of the new mesh comes from. -/
theorem source (h : Outcome s t isQ ms id) (p : Plan s isQ ms) {f : FRef} (hf : Live t f) {a b : Nat} (hs : HasSide t f a b) :
    ∃ g, Live s g ∧ HasSide s g a b ∧ a ∉ goneOf ms ∧ b ∉ goneOf ms ∧
      ((f = g ∧ g ∉ removed ms) ∨ ∃ m ∈ ms, f = ref isQ (id m) ∧ (g = .quad m.q ∨ g = m.nbr)) := by
  rcases (h.live f).mp hf with ⟨h1, h2⟩ | ⟨m, hm, rfl⟩
  · rw [h.old_side h1] at hs
    obtain ⟨i, hi, hs'⟩ := hs
    have hmem := side_mem hs'
    have hng : ∀ x, x ∈ (s.F f).corners → x ∉ goneOf ms := fun x hx hg => h2 ((p.removed_iff h1).mpr ⟨x, hg, hx⟩)
    exact ⟨f, h1, ⟨i, hi, hs'⟩, hng _ hmem.1, hng _ hmem.2, Or.inl ⟨rfl, h2⟩⟩
  · have hst : a ∉ goneOf ms ∧ b ∉ goneOf ms := by
      obtain ⟨i, hi, hs'⟩ := hs
      have hmem := side_mem hs'
      rw [h.new m hm] at hmem
      exact ⟨(p.cor_stay hm hmem.1).2, (p.cor_stay hm hmem.2).2⟩
    obtain ⟨k | k, -, -⟩ := (h.new_side p hm a b).mp hs
    · exact ⟨_, p.liveR hm (Or.inl rfl), k, hst.1, hst.2, Or.inr ⟨m, hm, rfl, Or.inl rfl⟩⟩
    · exact ⟨_, p.liveR hm (Or.inr rfl), k, hst.1, hst.2, Or.inr ⟨m, hm, rfl, Or.inr rfl⟩⟩

theorem covered (h : Outcome s t isQ ms id) (p : Plan s isQ ms) (a b : Nat) :
    Covered t a b ↔ Covered s a b ∧ a ∉ goneOf ms ∧ b ∉ goneOf ms := by
  constructor
  · rintro ⟨f, hf, hs⟩
    obtain ⟨g, g1, g2, g3, g4, -⟩ := h.source p hf hs
    exact ⟨⟨g, g1, g2⟩, g3, g4⟩
  · rintro ⟨⟨f, hf, hs⟩, ha, hb⟩
    by_cases hr : f ∈ removed ms
    · obtain ⟨m, hm, hf'⟩ := Plan.mem_removed.mp hr
      have hg : m.v2 ∈ goneOf ms := List.mem_map_of_mem hm
      refine ⟨ref isQ (id m), (h.live _).mpr (Or.inr ⟨m, hm, rfl⟩), (h.new_side p hm a b).mpr ⟨?_, ?_, ?_⟩⟩
      · rcases hf' with rfl | rfl
        · exact Or.inl hs
        · exact Or.inr hs
      · rintro rfl; exact ha hg
      · rintro rfl; exact hb hg
    · exact ⟨f, (h.live f).mpr (Or.inl ⟨hf, hr⟩), (h.old_side hf a b).mpr hs⟩

theorem connects (h : Outcome s t isQ ms id) (e a b : Nat) : Connects t e a b ↔ Connects s e a b := by
  unfold Connects; rw [h.bits.E]

theorem conforming (h : Outcome s t isQ ms id) (p : Plan s isQ ms) : Conforming t where
  wf := h.wf
  dir := by
    intro f g a b hf hg h1 h2
    obtain ⟨f', l1, k1, a1, b1, c1⟩ := h.source p hf h1
    obtain ⟨g', l2, k2, a2, b2, c2⟩ := h.source p hg h2
    have := p.comp.dir f' g' a b l1 l2 k1 k2
    subst this
    rcases c1 with ⟨rfl, c1⟩ | ⟨m, hm, rfl, c1⟩ <;> rcases c2 with ⟨rfl, c2⟩ | ⟨m', hm', rfl, c2⟩
    · rfl
    · exact absurd (Plan.mem_removed.mpr ⟨m', hm', c2⟩) c1
    · exact absurd (Plan.mem_removed.mpr ⟨m, hm, c1⟩) c2
    · rw [p.once hm hm' c1 c2]
  sides := by
    intro a b hc
    obtain ⟨hc, ha, hb⟩ := (h.covered p a b).mp hc
    obtain ⟨e, he, hce⟩ := p.comp.sides a b hc
    refine ⟨e, ?_, (h.connects e a b).mpr hce⟩
    rcases he with he | he
    · refine Or.inl ?_
      rw [h.intr, List.mem_filter]
      refine ⟨he, decide_eq_true fun hin => ?_⟩
      rcases (p.mem_edges he).mp hin with hg | hg <;> rcases hce with ⟨rfl, rfl⟩ | ⟨rfl, rfl⟩ <;> first | exact ha hg | exact hb hg
    · exact Or.inr (by rw [h.lists _ (by simp)]; exact he)
  right := by
    intro e he hc
    rw [h.lists _ (by simp)] at he
    rw [h.bits.E] at hc
    exact p.comp.right e he ((h.covered p _ _).mp hc).1
  unique := by
    intro e he e' he' hs
    have sub : ∀ e, (e ∈ t.es .intr ∨ e ∈ t.es .bdry) → (e ∈ s.es .intr ∨ e ∈ s.es .bdry) := by
      intro e he
      rw [h.intr, h.lists .bdry (by simp)] at he
      exact he.imp_left fun k => (List.mem_filter.mp k).1
    refine p.comp.unique e (sub e he) e' (sub e' he') ?_
    unfold SameEnds at hs ⊢
    rwa [h.bits.E] at hs
  intrFull := by
    intro e he
    rw [h.intr, List.mem_filter] at he
    obtain ⟨he, hn⟩ := he
    simp only [decide_eq_true_eq] at hn
    have hg : (s.E e).v1 ∉ goneOf ms ∧ (s.E e).v2 ∉ goneOf ms := by
      rw [p.mem_edges he, not_or] at hn; exact hn
    obtain ⟨c1, c2⟩ := p.comp.intrFull e he
    rw [h.bits.E]
    exact ⟨(h.covered p _ _).mpr ⟨c1, hg⟩, (h.covered p _ _).mpr ⟨c2, hg.2, hg.1⟩⟩
  bdryFull := by
    intro e he
    rw [h.lists _ (by simp)] at he
    rw [h.bits.E]
    exact (h.covered p _ _).mpr ⟨p.comp.bdryFull e he, p.bdry_stay he⟩

theorem posF (h : Outcome s t isQ ms id) : t.pos = s.pos := funext h.pos

theorem complete (h : Outcome s t isQ ms id) (p : Plan s isQ ms) : Complete t where
  toConforming := h.conforming p
  front := by rw [h.lists _ (by simp)]; exact p.comp.front
  bdry := by
    have : pairs t .bdry = pairs s .bdry := by unfold pairs; rw [h.lists _ (by simp), h.bits.E]
    rw [this, h.posF]; exact p.comp.bdry
  ccw := by
    intro x hx
    obtain ⟨hl, hx⟩ := mem_pieces.mp hx
    rw [h.posF] at hx ⊢
    rcases (h.live x.1).mp hl with ⟨h1, h2⟩ | ⟨m, hm, hf⟩
    · rw [h.old _ h1] at hx
      exact p.comp.ccw x (mem_pieces.mpr ⟨h1, hx⟩)
    · obtain ⟨v1, v3, tw⟩ := p.twins m hm
      obtain ⟨-, g1, g2⟩ := twin_geo (complete_meshing p.comp) tw
      have hc : (t.F x.1).corners = corOf s isQ m := by rw [hf, h.new m hm]
      rw [hc, twin_cor p.wf tw] at hx
      cases isQ with
      | true =>
        simp only [if_true, halves] at hx
        have k := (g1 rfl).2
        split_ifs at hx with hcut
        · simp only [List.mem_cons, List.not_mem_nil, or_false] at hx
          rcases hx with hx | hx <;> rw [hx]
          · exact hcut.1
          · exact hcut.2
        · simp only [List.mem_cons, List.not_mem_nil, or_false] at hx
          rcases hx with hx | hx <;> rw [hx]
          · exact (k hcut).1
          · exact (k hcut).2
      | false =>
        simp only [Bool.false_eq_true, if_false, halves, List.mem_singleton] at hx
        rw [hx]
        exact g2 rfl
  plain := by
    intro b hb
    rw [h.lists _ (by simp)] at hb
    have := p.comp.plain b hb
    unfold isInterior isGhost at *
    rwa [h.bits.E]

/-- Pointers. -/
theorem pointers (h : Outcome s t isQ ms id) (p : Plan s isQ ms) (hl : NbrLen s) (hf : FreshPointers s) : NbrLen t ∧ FreshPointers t := by
  constructor
  · intro f hlf
    rcases (h.live f).mp hlf with ⟨h1, -⟩ | ⟨m, hm, rfl⟩
    · rw [h.old f h1]; exact hl f h1
    · rw [h.new m hm]; simp
  · intro f a b g hlf hn hx
    rcases (h.live f).mp hlf with ⟨h1, h2⟩ | ⟨m, hm, rfl⟩
    · have hx' : NbrAcross s f g a b := by
        unfold NbrAcross at hx ⊢; rwa [h.old f h1] at hx
      by_cases hi : IntrEdge s a b
      · exfalso
        obtain ⟨e, he, hc⟩ := hi
        have hin : e ∈ ms.flatMap fun m => [m.e1, m.e2] := by
          by_contra hni
          exact hn ⟨e, by rw [h.intr, List.mem_filter]; exact ⟨he, decide_eq_true hni⟩, by rw [h.bits.E]; exact hc⟩
        have hcor : a ∈ (s.F f).corners ∧ b ∈ (s.F f).corners := by
          obtain ⟨i, -, hs | hs, -⟩ := hx'
          · exact side_mem hs
          · exact (side_mem hs).symm
        apply h2
        rw [p.removed_iff h1]
        rcases (p.mem_edges he).mp hin with hg | hg <;> rcases hc with ⟨rfl, rfl⟩ | ⟨rfl, rfl⟩
        · exact ⟨_, hg, hcor.1⟩
        · exact ⟨_, hg, hcor.2⟩
        · exact ⟨_, hg, hcor.2⟩
        · exact ⟨_, hg, hcor.1⟩
      · exact hf f a b g h1 hi hx'
    · obtain ⟨i, -, -, hg⟩ := hx
      rw [h.new m hm] at hg
      have := List.mem_of_getElem? hg
      simp only [List.mem_replicate] at this
      exact this.2

end Outcome
end TQ.Whole

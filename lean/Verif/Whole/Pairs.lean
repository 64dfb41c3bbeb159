import Verif.Whole.Clean

/-! # Lemmas: merging pairs and stars of triangles in completely meshed domains -/

set_option linter.unusedSectionVars false
set_option linter.unusedSimpArgs false
set_option linter.unusedVariables false

namespace TQ.Whole
open TQ TQ.MS TQ.MS.St TQ.MeshSpec TQ.FUSpec TQ.MCSpec TQ.WholeSpec TQ.FU TQ.Sm TQ.MC TQ.RefSpec TQ.CleanSpec TQ.MM
variable {K : Type*} [Field K] [LinearOrder K] [IsStrictOrderedRing K]

theorem complete_tiled {s : St K} (h : Complete s) : Tiled s := by
  have hm := complete_meshing h
  refine ⟨fun p x hx hp y hy hpy => (meshing_in hm hx hp).1 y hy hpy, fun p x hx hp => (meshing_in hm hx hp).2.2, ?_⟩
  intro p hp hg
  have hc := meshing_cover hm (q := p) (by
    intro x hx e he
    obtain ⟨g1, g2, g3⟩ := hg x hx
    unfold pieceSides at he
    simp only [List.mem_cons, List.not_mem_nil, or_false] at he
    rcases he with rfl | rfl | rfl
    · exact g1
    · exact g2
    · exact g3)
  have h0 : winding s.pos (pairs s .front) p = 0 := by
    unfold pairs; rw [h.front]; rfl
  rw [h0, hp] at hc
  have : 0 < (pieces s).countP fun x => decide (InPiece s p x) := by omega
  obtain ⟨x, hx, hq⟩ := List.countP_pos_iff.mp this
  exact ⟨x, hx, by simpa using hq⟩

/-- Pointers of a mesh that consists of old elements and new ones without neighbours. -/
theorem pointers_keep {s u : St K} (hl : NbrLen s) (hf : FreshPointers s)
    (hF : ∀ f, Live u f → (Live s f ∧ u.F f = s.F f) ∨
      ((u.F f).nbrs.length = (u.F f).corners.length ∧ ∀ g ∈ (u.F f).nbrs, g = .null))
    (hi : ∀ a b, Covered u a b → IntrEdge s a b → IntrEdge u a b) : NbrLen u ∧ FreshPointers u := by
  constructor
  · intro f hlf
    rcases hF f hlf with ⟨h1, h2⟩ | ⟨h1, -⟩
    · rw [h2]; exact hl f h1
    · exact h1
  · intro f a b g hlf hn hx
    rcases hF f hlf with ⟨h1, h2⟩ | ⟨-, h2⟩
    · have hx' : NbrAcross s f g a b := by unfold NbrAcross at hx ⊢; rwa [h2] at hx
      refine hf f a b g h1 (fun hs => hn ?_) hx'
      obtain ⟨i, h3, h4, -⟩ := hx
      rcases h4 with h4 | h4
      · exact hi a b ⟨f, hlf, i, h3, h4⟩ hs
      · obtain ⟨e, e1, e2⟩ := hi b a ⟨f, hlf, i, h3, h4⟩ (by obtain ⟨e, e1, e2⟩ := hs; exact ⟨e, e1, e2.symm⟩)
        exact ⟨e, e1, e2.symm⟩
    · obtain ⟨i, -, -, hg⟩ := hx
      exact h2 g (List.mem_of_getElem? hg)

/-! ### Pairs -/

variable {col : FData → Int} {s u : St K}

theorem pairs_live (p : PairsMerged col s u) {f : FRef} (hf : Live u f) : (Live s f ∧ u.F f = s.F f) ∨
    ∃ q, f = .quad q ∧ ∃ a b c d, (u.F f).corners = [a, b, c, d] ∧ 0 < St.triArea (s.pos b) (s.pos d) (s.pos a) ∧
      0 < St.triArea (s.pos d) (s.pos b) (s.pos c) := by
  cases f with
  | null => exact absurd hf (by simp [Live])
  | tri x => exact Or.inl ⟨p.tris.1.subset hf, p.tris.2 x hf⟩
  | quad q =>
    obtain ⟨new, hn, hp⟩ := p.newQuads
    have hq : q ∈ u.quads := hf
    rw [hn] at hq
    rcases List.mem_append.mp hq with hq | hq
    · exact Or.inl ⟨hq, p.oldQuads q hq⟩
    · obtain ⟨a, b, c, d, x, y, h1, -, -, -, -, -, -, -, -, -, h2, h3, -⟩ := hp q hq
      exact Or.inr ⟨q, rfl, a, b, c, d, h1, h2, h3⟩

theorem pairs_gone (wf : WF s) (p : PairsMerged col s u) (hu : ∀ e, (e ∈ s.es .intr ∨ e ∈ s.es .bdry) → ∀ e', (e' ∈ s.es .intr ∨ e' ∈ s.es .bdry) → SameEnds s e e' → e = e')
    {e : Nat} (he : e ∈ u.es .intr ∨ e ∈ u.es .bdry) {a b : Nat} (hc : Connects s e a b) (hcov : Covered s a b) : Covered u a b := by
  rw [p.sides]
  refine ⟨hcov, ?_⟩
  rintro ⟨e', h1, h2, h3⟩
  have he' : e ∈ s.es .intr ∨ e ∈ s.es .bdry := by
    rw [p.lists .bdry (by simp)] at he
    exact he.imp_left fun h => p.intr.subset h
  have := hu e he' e' (Or.inl h1) (connects_same hc h3)
  subst this
  rcases he with he | he
  · exact h2 he
  · rw [p.lists .bdry (by simp)] at he
    have k1 := ((wf.ends .intr).2 e h1).1
    have k2 := ((wf.ends .bdry).2 e he).1
    rw [k1] at k2; cases k2

theorem pairs_complete (h : Complete s) (p : PairsMerged col s u) (wf : WF u) (hd : DirUnique u) : Complete u where
  wf := wf
  dir := hd
  sides := by
    intro a b hc
    obtain ⟨h1, h2⟩ := (p.sides a b).mp hc
    obtain ⟨e, he, hce⟩ := h.sides a b h1
    refine ⟨e, ?_, by unfold Connects at hce ⊢; rwa [(p.edata e).1, (p.edata e).2.1]⟩
    rcases he with he | he
    · left; by_contra hn; exact h2 ⟨e, he, hn, hce⟩
    · right; rw [p.lists _ (by simp)]; exact he
  right := by
    intro e he hc
    rw [p.lists _ (by simp)] at he
    rw [(p.edata e).1, (p.edata e).2.1] at hc
    exact h.right e he ((p.sides _ _).mp hc).1
  unique := by
    intro e he e' he' hs
    have sub : ∀ e, (e ∈ u.es .intr ∨ e ∈ u.es .bdry) → (e ∈ s.es .intr ∨ e ∈ s.es .bdry) := by
      intro e he
      rw [p.lists .bdry (by simp)] at he
      exact he.imp_left fun k => p.intr.subset k
    refine h.unique e (sub e he) e' (sub e' he') ?_
    unfold SameEnds at hs ⊢
    simpa only [(p.edata e).1, (p.edata e).2.1, (p.edata e').1, (p.edata e').2.1] using hs
  intrFull := by
    intro e he
    obtain ⟨c1, c2⟩ := h.intrFull e (p.intr.subset he)
    rw [(p.edata e).1, (p.edata e).2.1]
    exact ⟨pairs_gone h.wf p h.unique (Or.inl he) (Or.inl ⟨rfl, rfl⟩) c1, pairs_gone h.wf p h.unique (Or.inl he) (Or.inr ⟨rfl, rfl⟩) c2⟩
  bdryFull := by
    intro e he
    rw [(p.edata e).1, (p.edata e).2.1]
    exact pairs_gone h.wf p h.unique (Or.inr he) (Or.inl ⟨rfl, rfl⟩) (h.bdryFull e (p.lists .bdry (by simp) ▸ he))
  front := by rw [p.lists _ (by simp)]; exact h.front
  bdry := by
    have : pairs u .bdry = pairs s .bdry := by
      unfold pairs; rw [p.lists _ (by simp)]; exact List.map_congr_left fun e _ => by rw [(p.edata e).1, (p.edata e).2.1]
    rw [this, show u.pos = s.pos from funext fun v => (p.vdata v).1]; exact h.bdry
  ccw := by
    have hpos : u.pos = s.pos := funext fun v => (p.vdata v).1
    intro x hx
    obtain ⟨hl, hx⟩ := mem_pieces.mp hx
    rw [hpos] at hx ⊢
    rcases pairs_live p hl with ⟨h1, h2⟩ | ⟨q, -, a, b, c, d, hc, k1, k2⟩
    · rw [h2] at hx; exact h.ccw x (mem_pieces.mpr ⟨h1, hx⟩)
    · rw [hc] at hx
      simp only [halves] at hx
      split_ifs at hx with hcut
      · simp only [List.mem_cons, List.not_mem_nil, or_false] at hx
        rcases hx with hx | hx <;> rw [hx]
        · exact hcut.1
        · exact hcut.2
      · simp only [St.triArea, Pt.cross, Pt.sub_x, Pt.sub_y] at k1 k2
        simp only [List.mem_cons, List.not_mem_nil, or_false] at hx
        rcases hx with hx | hx <;> rw [hx] <;> unfold side <;> dsimp only <;> linarith
  plain := by
    intro b hb
    rw [p.lists _ (by simp)] at hb
    have := h.plain b hb
    unfold isInterior isGhost at *
    rwa [(p.edata b).2.2.2]

theorem pairs_pointers (h : WF s) (p : PairsMerged col s u) (wf : WF u)
    (hn : ∀ q ∈ u.quads, q ∈ s.quads ∨ (u.F (.quad q)).nbrs = [.null, .null, .null, .null])
    (hl : NbrLen s) (hf : FreshPointers s) : NbrLen u ∧ FreshPointers u := by
  refine pointers_keep hl hf ?_ ?_
  · intro f hlf
    cases f with
    | null => exact absurd hlf (by simp [Live])
    | tri x => exact Or.inl ⟨p.tris.1.subset hlf, p.tris.2 x hlf⟩
    | quad q =>
      rcases hn q hlf with hq | hq
      · exact Or.inl ⟨hq, p.oldQuads q hq⟩
      · exact Or.inr ⟨by rw [hq, wf.qcor q hlf]; rfl, by rw [hq]; simp⟩
  · rintro a b hc ⟨e, he, hce⟩
    refine ⟨e, ?_, by rwa [(p.edata e).1, (p.edata e).2.1]⟩
    by_contra hn'
    exact ((p.sides a b).mp hc).2 ⟨e, he, hn', hce⟩

/-! ### Stars -/

variable {t : St K} {gone : List Nat}

theorem stars_complete (h : Complete s) (p : StarsMerged s t gone) (hp : Proper t) (hccw : TrisCCW t) : Complete t where
  toProper := hp
  unique := by
    intro e he e' he' hs
    have sub : ∀ e, (e ∈ t.es .intr ∨ e ∈ t.es .bdry) → (e ∈ s.es .intr ∨ e ∈ s.es .bdry) := by
      intro e he
      rw [p.intr, p.lists .bdry (by simp)] at he
      exact he.imp_left fun k => (List.mem_filter.mp k).1
    refine h.unique e (sub e he) e' (sub e' he') ?_
    unfold SameEnds at hs ⊢
    rwa [p.edata] at hs
  intrFull := by
    intro e he
    rw [p.intr, List.mem_filter] at he
    obtain ⟨he, hn⟩ := he
    have hn := of_decide_eq_true hn
    obtain ⟨c1, c2⟩ := h.intrFull e he
    rw [p.edata]
    exact ⟨(p.sides _ _).mpr ⟨c1, hn⟩, (p.sides _ _).mpr ⟨c2, hn.2, hn.1⟩⟩
  bdryFull := by
    intro e he
    obtain ⟨-, h1, h2, -⟩ := (hp.wf.ends .bdry).2 e he
    rw [p.verts, List.mem_filter, p.edata] at h1 h2
    rw [p.lists _ (by simp)] at he
    rw [p.edata]
    exact (p.sides _ _).mpr ⟨h.bdryFull e he, of_decide_eq_true h1.2, of_decide_eq_true h2.2⟩
  front := by rw [p.lists _ (by simp)]; exact h.front
  bdry := by
    have : pairs t .bdry = pairs s .bdry := by unfold pairs; rw [p.lists _ (by simp), p.edata]
    rw [this, show t.pos = s.pos from funext fun v => (p.vdata v).1]; exact h.bdry
  ccw := by
    have hpos : t.pos = s.pos := funext fun v => (p.vdata v).1
    rintro ⟨f, x⟩ hx
    obtain ⟨hl, hx⟩ := mem_pieces.mp hx
    cases f with
    | null => exact absurd hl (by simp [Live])
    | tri z =>
      have hlen := hp.wf.tcor z hl
      obtain ⟨a, b, c, hc⟩ : ∃ a b c, (t.F (.tri z)).corners = [a, b, c] := by
        match hm : (t.F (.tri z)).corners, hlen with
        | [a, b, c], _ => exact ⟨a, b, c, rfl⟩
      dsimp only at hx
      rw [hc] at hx
      simp only [halves, List.mem_singleton] at hx
      rw [hx]
      have := hccw z hl a b c hc
      simp only [St.triArea, Pt.cross, Pt.sub_x, Pt.sub_y] at this
      unfold side; dsimp only; linarith
    | quad q =>
      have hq : q ∈ s.quads := p.quads.1 ▸ hl
      dsimp only at hx
      rw [p.quads.2, hpos] at hx
      rw [hpos]
      exact h.ccw _ (mem_pieces.mpr ⟨show Live s (.quad q) from hq, hx⟩)
  plain := by
    intro b hb
    rw [p.lists _ (by simp)] at hb
    have := h.plain b hb
    unfold isInterior isGhost at *
    rwa [p.edata]

theorem mergeBads_nulls {eps : K} : ∀ (l : List Nat) (s t : St K), Proper s → BigTris eps s → l.Nodup →
    (∀ z ∈ l, z ∈ s.verts ∧ isBad s z = true) → mergeBads eps l s = some t →
    ∀ x ∈ t.tris, (x ∈ s.tris ∧ t.F (.tri x) = s.F (.tri x)) ∨ (t.F (.tri x)).nbrs = [.null, .null, .null] := by
  intro l
  induction l with
  | nil => intro s t h hb _ _ ht x hx; cases ht; exact Or.inl ⟨hx, rfl⟩
  | cons v l ih =>
    intro s t h hb hn hl ht x hx
    obtain ⟨hvn, hn'⟩ := List.nodup_cons.mp hn
    obtain ⟨a, b, c, x1, x2, x3, u, hm, hr, hs⟩ := mergeBad_step h hb (hl v (by simp)).1 (hl v (by simp)).2
    simp only [mergeBads, hm, Option.bind_some] at ht
    have rest : ∀ z ∈ l, z ∈ u.verts ∧ isBad u z = true := by
      intro z hz
      have := hl z (by simp [hz])
      exact (starred_bad h hb hr hs this.1 this.2 (by rintro rfl; exact hvn hz)).2
    rcases ih u t (starred_proper h hr hs) (starred_big h.wf hb hr hs) hn' rest ht x hx with ⟨k1, k2⟩ | k
    · rcases (hs.tris x).mp k1 with ⟨k3, -⟩ | rfl
      · exact Or.inl ⟨k3, k2.trans (hs.F _ (by
          intro hh; cases hh; exact absurd (h.wf.tlt _ k3) (lt_irrefl _)))⟩
      · right; rw [k2, hs.Fn]
    · exact Or.inr k

theorem stars_pointers (p : StarsMerged s t gone) (wf : WF t)
    (hn : ∀ x ∈ t.tris, (x ∈ s.tris ∧ t.F (.tri x) = s.F (.tri x)) ∨ (t.F (.tri x)).nbrs = [.null, .null, .null])
    (hl : NbrLen s) (hf : FreshPointers s) : NbrLen t ∧ FreshPointers t := by
  refine pointers_keep hl hf ?_ ?_
  · intro f hlf
    cases f with
    | null => exact absurd hlf (by simp [Live])
    | tri x =>
      rcases hn x hlf with hq | hq
      · exact Or.inl hq
      · exact Or.inr ⟨by rw [hq, wf.tcor x hlf]; rfl, by rw [hq]; simp⟩
    | quad q => exact Or.inl ⟨show q ∈ s.quads from p.quads.1 ▸ (show q ∈ t.quads from hlf), p.quads.2 q⟩
  · rintro a b hc ⟨e, he, hce⟩
    refine ⟨e, ?_, by rwa [p.edata]⟩
    obtain ⟨-, ha, hb⟩ := (p.sides a b).mp hc
    rw [p.intr, List.mem_filter]
    refine ⟨he, decide_eq_true ?_⟩
    rcases hce with ⟨rfl, rfl⟩ | ⟨rfl, rfl⟩
    · exact ⟨ha, hb⟩
    · exact ⟨hb, ha⟩

/-- Removing all vertices of degree three. -/
theorem degenerate_spec {eps : K} (h : Settled s) (hb : BigTris eps s) :
    ∃ t, mergeDegenerate eps s = some (setupConnectivity eps t) ∧ StarsMerged s t (s.verts.filter (isBad s)) ∧ Complete t ∧
      Settled (setupConnectivity eps t) ∧ BigTris eps t := by
  have hz : ∀ z ∈ s.verts.filter (isBad s), z ∈ s.verts ∧ isBad s z = true := fun z hz => List.mem_filter.mp hz
  obtain ⟨t, h1, h2, h3, h4⟩ := mergeBads_loop (eps := eps) (s.verts.filter (isBad s)) s h.comp.toProper hb (h.comp.wf.vnd.filter _) hz
  have hn := mergeBads_nulls (eps := eps) _ s t h.comp.toProper hb (h.comp.wf.vnd.filter _) hz h1
  obtain ⟨l1, l2⟩ := stars_pointers h2 h3.wf hn h.ready.len h.fresh
  have hc := stars_complete h.comp h2 h3 (by
    intro x hx a b c hcor
    have := (h4 x hx a b c hcor).1
    unfold area2 at this
    simp only [St.triArea, Pt.cross, Pt.sub_x, Pt.sub_y]
    linarith)
  exact ⟨t, by unfold mergeDegenerate; rw [h1]; rfl, h2, hc, settle hc l1 l2, h4⟩

/-! ### Sizes of triangles -/

theorem quad_pos (h : Complete s) {q a b c d : Nat} (hq : q ∈ s.quads) (hc : (s.F (.quad q)).corners = [a, b, c, d]) :
    0 < side (s.pos a) (s.pos b) (s.pos c) + side (s.pos c) (s.pos d) (s.pos a) := by
  by_cases hcut : 0 < side (s.pos a) (s.pos b) (s.pos c) ∧ 0 < side (s.pos c) (s.pos d) (s.pos a)
  · exact add_pos hcut.1 hcut.2
  · have hp : ∀ x ∈ halves s.pos (.quad q) [a, b, c, d], 0 < side (s.pos x.2.1) (s.pos x.2.2.1) (s.pos x.2.2.2) := by
      intro x hx
      have hf := halves_fst hx
      refine h.ccw x (mem_pieces.mpr ⟨by rw [hf]; exact hq, ?_⟩)
      rw [hf, hc]; exact hx
    simp only [halves, if_neg hcut, List.mem_cons, List.not_mem_nil, or_false, forall_eq_or_imp, forall_eq] at hp
    obtain ⟨h1, h2⟩ := hp
    unfold side at *
    linarith

theorem quadIs_pos (h : Complete s) {q a b c d : Nat} (hq : q ∈ s.quads) (hc : QuadIs s q a b c d) :
    0 < side (s.pos a) (s.pos b) (s.pos c) + side (s.pos c) (s.pos d) (s.pos a) := by
  rcases hc with hc | hc | hc | hc <;> have := quad_pos h hq hc <;> unfold side at * <;> linarith

theorem doubles_big {eps : K} {isQ : Bool} (h : Complete s) (p : DoublesMerged isQ s t gone) (wf : WF t) (hb : BigTris eps s) : BigTris eps t := by
  intro x hx a b c hc
  have hpos : t.pos = s.pos := funext fun v => (p.vdata v).1
  rw [hpos]
  rcases p.fresh (.tri x) hx with ⟨h1, h2⟩ | ⟨v, hv, a', b', c', q, hq, hqi, -, -, hh⟩
  · rw [(p.kept _ h1 h2).2.1] at hc
    exact hb x h1 a b c hc
  · rcases hh with ⟨-, d, q', -, -, -, hcor⟩ | ⟨-, y, hy, hty, hcor⟩
    · have := wf.tcor x hx; rw [hcor] at this; simp at this
    · rw [hcor] at hc
      simp only [List.cons.injEq, and_true] at hc
      obtain ⟨rfl, rfl, rfl⟩ := hc
      have k := quadIs_pos h hq hqi
      have big : 0 < area2 (s.pos a') (s.pos v) (s.pos c') ∧ eps ≤ area2 (s.pos a') (s.pos v) (s.pos c') ^ 2 := by
        rcases hty with hty | hty | hty <;> have hh := hb y hy _ _ _ hty
        · exact hh
        · rw [show area2 (s.pos a') (s.pos v) (s.pos c') = area2 (s.pos v) (s.pos c') (s.pos a') by unfold area2; ring]; exact hh
        · rw [show area2 (s.pos a') (s.pos v) (s.pos c') = area2 (s.pos c') (s.pos a') (s.pos v) by unfold area2; ring]; exact hh
      have le : area2 (s.pos a') (s.pos v) (s.pos c') ≤ area2 (s.pos a') (s.pos b') (s.pos c') := by
        unfold side at k; unfold area2; linarith
      exact ⟨lt_of_lt_of_le big.1 le, big.2.trans (pow_le_pow_left₀ big.1.le le 2)⟩

end TQ.Whole

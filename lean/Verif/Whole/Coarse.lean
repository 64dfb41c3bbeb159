import Verif.Whole.Pairs

/-! # Lemmas: clean-up passes in sequence -/

set_option linter.unusedSectionVars false
set_option linter.unusedSimpArgs false
set_option linter.unusedVariables false

namespace TQ.Whole
open TQ TQ.MS TQ.MS.St TQ.MeshSpec TQ.FUSpec TQ.MCSpec TQ.WholeSpec TQ.FU TQ.Sm TQ.MC TQ.RefSpec TQ.CleanSpec TQ.MM
variable {K : Type*} [Field K] [LinearOrder K] [IsStrictOrderedRing K] {s t u : St K} {gone : List Nat}

theorem coarsened_refl (s : St K) : Coarsened s s :=
  ⟨List.Sublist.refl _, fun _ => ⟨rfl, rfl⟩, fun _ _ => rfl, fun _ => ⟨rfl, rfl, rfl, rfl⟩, List.Sublist.refl _, rfl, rfl, le_refl _, 0, rfl⟩

theorem coarsened_trans (a : Coarsened s t) (b : Coarsened t u) : Coarsened s u where
  verts := b.verts.trans a.verts
  vdata := fun v => ⟨(b.vdata v).1.trans (a.vdata v).1, (b.vdata v).2.trans (a.vdata v).2⟩
  lists := fun l hl => (b.lists l hl).trans (a.lists l hl)
  edata := fun e => by
    obtain ⟨x1, x2, x3, x4⟩ := a.edata e
    obtain ⟨y1, y2, y3, y4⟩ := b.edata e
    exact ⟨y1.trans x1, y2.trans x2, y3.trans x3, y4.trans x4⟩
  intr := b.intr.trans a.intr
  area := b.area.trans a.area
  euler := b.euler.trans a.euler
  fewer := b.fewer.trans a.fewer
  tris := by
    obtain ⟨k, hk⟩ := a.tris
    obtain ⟨m, hm⟩ := b.tris
    exact ⟨k + m, by omega⟩

theorem sbp_coarsened (b : SameButPointers s t) : Coarsened s t where
  verts := by rw [b.verts]
  vdata := fun v => by rw [sbp_pos b, b.V]; exact ⟨rfl, rfl⟩
  lists := fun l _ => by rw [b.es]
  edata := fun e => by
    obtain ⟨x1, x2, -, x4, x5, -⟩ := b.ends e
    exact ⟨x1, x2, x4, x5⟩
  intr := by rw [b.es]
  area := sbp_meshArea b
  euler := by unfold RefSpec.euler; rw [b.verts, b.es, b.tris, b.quads]
  fewer := by rw [b.tris, b.quads]
  tris := ⟨0, by rw [b.tris]; rfl⟩

theorem filter_notMem_length {α : Type*} [DecidableEq α] {l g : List α} (hl : l.Nodup) (hg : g.Nodup) (hs : ∀ v ∈ g, v ∈ l) :
    (l.filter fun v => decide (v ∉ g)).length + g.length = l.length := by
  have h1 := (filter_in_perm hl hg hs).length_eq
  have h2 := List.length_eq_length_filter_add (l := l) (fun v => decide (v ∈ g))
  have h3 : (l.filter fun v => !decide (v ∈ g)) = l.filter fun v => decide (v ∉ g) := by
    refine List.filter_congr fun v _ => ?_
    simp
  rw [h3] at h2
  omega

theorem doubles_coarsened {isQ : Bool} (wf : WF s) (h : DoublesMerged isQ s t gone) : Coarsened s t where
  verts := by rw [h.verts]; exact List.filter_sublist
  vdata := h.vdata
  lists := h.lists
  edata := h.edata
  intr := by rw [h.intr]; exact List.filter_sublist
  area := h.area
  euler := by
    have h1 := filter_notMem_length wf.vnd h.nodup fun v hv => (h.inner v hv).1
    rw [← h.verts] at h1
    have h2 := h.nEdges
    have h3 := h.nTris
    have h4 := h.nQuads
    have h5 := h.lists .bdry (by simp)
    unfold RefSpec.euler
    rw [h5]
    omega
  fewer := by have := h.nTris; have := h.nQuads; omega
  tris := ⟨0, h.nTris⟩

theorem pairs_coarsened {col : FData → Int} (h : PairsMerged col s u) : Coarsened s u where
  verts := by rw [h.verts]
  vdata := h.vdata
  lists := h.lists
  edata := h.edata
  intr := h.intr
  area := h.area
  euler := by
    have h2 := h.nEdges
    have h3 := h.nElems
    have h5 := h.lists .bdry (by simp)
    unfold RefSpec.euler
    rw [h5, h.verts]
    omega
  fewer := by
    have h3 := h.nElems
    obtain ⟨new, hn, -⟩ := h.newQuads
    have : u.quads.length = s.quads.length + new.length := by rw [hn, List.length_append]
    omega
  tris := by
    have h3 := h.nElems
    obtain ⟨new, hn, -⟩ := h.newQuads
    have : u.quads.length = s.quads.length + new.length := by rw [hn, List.length_append]
    exact ⟨new.length, by omega⟩

theorem stars_coarsened (wf : WF s) (hn : gone.Nodup) (hs : ∀ v ∈ gone, v ∈ s.verts) (h : StarsMerged s t gone) : Coarsened s t where
  verts := by rw [h.verts]; exact List.filter_sublist
  vdata := h.vdata
  lists := h.lists
  edata := fun e => by rw [h.edata]; exact ⟨rfl, rfl, rfl, rfl⟩
  intr := by rw [h.intr]; exact List.filter_sublist
  area := h.area
  euler := by
    have h1 := filter_notMem_length wf.vnd hn hs
    rw [← h.verts] at h1
    have h2 := h.nEdges
    have h3 := h.nTris
    have h5 := h.lists .bdry (by simp)
    unfold RefSpec.euler
    rw [h5, h.quads.1]
    omega
  fewer := by have := h.nTris; have := h.quads.1; rw [this]; omega
  tris := ⟨_, h.nTris⟩

/-! ### The passes with `init` -/

theorem clearDoubleQuads_spec {eps : K} (ix0 : FRef → Nat) (h : Complete s) (hl : NbrLen s) (hf : FreshPointers s) :
    ∃ t gone, clearDoubleQuads eps ix0 s = some t ∧ DoublesMerged true s t gone ∧ Settled t := by
  have hs := settle (eps := eps) h hl hf
  obtain ⟨t, gone, h1, h2, h3⟩ := doubleQuads_spec (eps := eps) hs (indexed_of hs.comp.wf ix0)
  exact ⟨t, gone, h1, sbp_merged (setup_sbp eps h.wf) (sbp_refl t) h2, h3⟩

theorem clearDoubleTris_spec {eps : K} (ix0 : FRef → Nat) (h : Complete s) (hl : NbrLen s) (hf : FreshPointers s) :
    ∃ t gone, clearDoubleTris eps ix0 s = some t ∧ DoublesMerged false s t gone ∧ Settled t := by
  have hs := settle (eps := eps) h hl hf
  obtain ⟨t, gone, h1, h2, h3⟩ := doubleTris_spec (eps := eps) hs (indexed_of hs.comp.wf ix0)
  exact ⟨t, gone, h1, sbp_merged (setup_sbp eps h.wf) (sbp_refl t) h2, h3⟩

theorem conf_null (h : Conforming s) : NullWhereOpen s := by
  intro e he
  obtain ⟨⟨f, f1, f2⟩, g, g1, g2⟩ := h.intrFull e he
  exact ⟨fun k => absurd f2 (k f f1), fun k => absurd g2 (k g g1)⟩

theorem complete_ccw (h : Complete s) : TrisCCW s := by
  intro x hx a b c hc
  have := h.ccw (.tri x, a, b, c) (mem_pieces.mpr ⟨hx, by rw [hc]; simp [halves]⟩)
  simp only [St.triArea, Pt.cross, Pt.sub_x, Pt.sub_y]
  unfold side at this
  dsimp only at this
  linarith

theorem improve_spec {eps : K} (ix0 : FRef → Nat) (h : Complete s) (hl : NbrLen s) (hf : FreshPointers s) (hb : BigTris eps s) :
    ∃ t, improve eps ix0 s = some t ∧ Complete t ∧ NbrLen t ∧ FreshPointers t ∧ BigTris eps t ∧ Coarsened s t := by
  unfold improve
  split_ifs
  · obtain ⟨a, g1, a1, a2, a3⟩ := clearDoubleQuads_spec (eps := eps) ix0 h hl hf
    have ab := doubles_big h a2 a3.comp.wf hb
    obtain ⟨b, g2, b1, b2, b3⟩ := clearDoubleTris_spec (eps := eps) ix0 a3.comp a3.ready.len a3.fresh
    have bb := doubles_big a3.comp b2 b3.comp.wf ab
    obtain ⟨c, c1, c2, c3, c4, c5⟩ := degenerate_spec b3 bb
    refine ⟨_, by rw [a1, Option.bind_some, b1, Option.bind_some, c1], c4.comp, c4.ready.len, c4.fresh, ?_, ?_⟩
    · have sb := setup_sbp eps c3.wf
      intro x hx p q r hc
      rw [sb.tris] at hx
      rw [(sb.corners _).1] at hc
      simp only [sbp_pos sb]
      exact c5 x hx p q r hc
    · exact coarsened_trans (doubles_coarsened h.wf a2) (coarsened_trans (doubles_coarsened a3.comp.wf b2)
        (coarsened_trans (stars_coarsened b3.comp.wf (b3.comp.wf.vnd.filter _) (fun v hv => (List.mem_filter.mp hv).1) c2)
          (sbp_coarsened (setup_sbp eps c3.wf))))
  · exact ⟨s, rfl, h, hl, hf, hb, coarsened_refl s⟩

theorem fresh_setup {eps : K} (h : Complete s) (hl : NbrLen s) (hf : FreshPointers s) : FreshPointers (setupConnectivity eps s) :=
  (settle h hl hf).fresh

theorem tri2quad_spec {eps : K} (ix0 : FRef → Nat) (h : Complete s) (hl : NbrLen s) (hf : FreshPointers s) (hlf : LeftFacets eps s)
    {l : List Nat} (hp : l.Perm (triEdges (setupConnectivity eps s))) :
    ∃ u v t g1 g2, tri2quad eps ix0 l s = some t ∧ PairsMerged FData.color (setupConnectivity eps s) u ∧ Complete u ∧
      DoublesMerged true u v g1 ∧ Complete v ∧ DoublesMerged false v t g2 ∧ Complete t ∧ NbrLen t ∧ FreshPointers t := by
  have hs := settle (eps := eps) h hl hf
  obtain ⟨u, u1, u2⟩ := merge_minv FData.color h.wf h.dir (conf_uniqueIntr h.toConforming) (complete_ccw h) hlf (conf_null h.toConforming) hp
  have uc := pairs_complete hs.comp u2.merged u2.wf u2.dir
  obtain ⟨l1, l2⟩ := pairs_pointers hs.comp.wf u2.merged u2.wf u2.nulls hs.ready.len hs.fresh
  obtain ⟨v, g1, v1, v2, v3⟩ := clearDoubleQuads_spec (eps := eps) ix0 uc l1 l2
  obtain ⟨t, g2, t1, t2, t3⟩ := doubleTris_spec (eps := eps) v3 (indexed_of v3.comp.wf ix0)
  exact ⟨u, v, t, g1, g2, by unfold tri2quad; rw [u1, Option.bind_some, v1, Option.bind_some, t1], u2.merged, uc, v2, v3.comp, t2, t3.comp,
    t3.ready.len, t3.fresh⟩

end TQ.Whole

import Verif.Whole.Doubles3
import Verif.Whole.CleanModel
import Verif.Cleanup.Props

/-! # Lemmas: clean-up passes on completely meshed domains -/

set_option linter.unusedSectionVars false
set_option linter.unusedSimpArgs false
set_option linter.unusedVariables false

namespace TQ.Whole
open TQ TQ.MS TQ.MS.St TQ.MeshSpec TQ.FUSpec TQ.MCSpec TQ.WholeSpec TQ.FU TQ.Sm TQ.MC TQ.RefSpec TQ.CleanSpec TQ.MM
variable {K : Type*} [Field K] [LinearOrder K] [IsStrictOrderedRing K]

/-! ### Pointers do not matter -/

theorem sbp_conforming {s t : St K} (b : SameButPointers s t) (h : Conforming s) : Conforming t where
  toProper := sbp_proper b h.toProper
  unique := by
    intro e he e' he' hs
    rw [b.es] at he he'
    refine h.unique e he e' he' ?_
    unfold SameEnds at hs ⊢
    rwa [(b.ends e).1, (b.ends e).2.1, (b.ends e').1, (b.ends e').2.1] at hs
  intrFull := by
    intro e he
    rw [b.es] at he
    rw [(b.ends e).1, (b.ends e).2.1, sbp_covered b, sbp_covered b]
    exact h.intrFull e he
  bdryFull := by
    intro e he
    rw [b.es] at he
    rw [(b.ends e).1, (b.ends e).2.1, sbp_covered b]
    exact h.bdryFull e he

theorem sbp_posF {s t : St K} (b : SameButPointers s t) : t.pos = s.pos := funext (sbp_pos b)

theorem sbp_facets {s t : St K} (b : SameButPointers s t) : facets t = facets s := by unfold facets; rw [b.tris, b.quads]

theorem sbp_pieces {s t : St K} (b : SameButPointers s t) : pieces t = pieces s := by
  unfold pieces
  rw [sbp_facets b, sbp_posF b]
  congr 1
  funext f
  rw [(b.corners f).1]

theorem sbp_pairs {s t : St K} (b : SameButPointers s t) (l : EL) : pairs t l = pairs s l := by
  unfold pairs
  rw [b.es]
  refine List.map_congr_left fun e _ => ?_
  rw [(b.ends e).1, (b.ends e).2.1]

theorem sbp_complete {s t : St K} (b : SameButPointers s t) (h : Complete s) : Complete t where
  toConforming := sbp_conforming b h.toConforming
  front := by rw [b.es]; exact h.front
  bdry := by rw [sbp_pairs b, sbp_posF b]; exact h.bdry
  ccw := by rw [sbp_pieces b, sbp_posF b]; exact h.ccw
  plain := by
    intro x hx
    rw [b.es] at hx
    have := h.plain x hx
    unfold isInterior isGhost at *
    rwa [(b.ends x).2.2.2.2.1]

theorem sbp_len {s t : St K} (b : SameButPointers s t) (h : NbrLen s) : NbrLen t := by
  intro f hf
  rw [(b.corners f).2.2.2, (b.corners f).1]
  exact h f ((sbp_live b f).mp hf)

theorem sbp_intrEdge {s t : St K} (b : SameButPointers s t) (x y : Nat) : IntrEdge t x y ↔ IntrEdge s x y := by
  unfold IntrEdge
  rw [b.es]
  refine exists_congr fun e => and_congr_right fun _ => ?_
  rw [(b.ends e).1, (b.ends e).2.1]

theorem sbp_meshArea {s t : St K} (b : SameButPointers s t) : meshArea t = meshArea s := by
  rw [meshArea_facets, meshArea_facets, sbp_facets b]
  congr 1
  exact List.map_congr_left fun f _ => sbp_fArea b f

theorem sbp_merged {s s' t t' : St K} {isQ : Bool} {gone : List Nat} (a : SameButPointers s s') (b : SameButPointers t t')
    (h : DoublesMerged isQ s' t gone) : DoublesMerged isQ s t' gone where
  nodup := h.nodup
  inner := by
    have := h.inner
    intro v hv
    rw [a.verts] at this
    refine ⟨(this v hv).1, fun x hx => ?_⟩
    rw [a.es] at this
    rw [← (a.ends x).1, ← (a.ends x).2.1]
    exact (this v hv).2 x hx
  verts := by rw [b.verts, h.verts, a.verts]
  vdata := fun v => by rw [sbp_pos b, b.V, (h.vdata v).1, (h.vdata v).2, sbp_pos a, a.V]; exact ⟨rfl, rfl⟩
  lists := fun l hl => by rw [b.es, h.lists l hl, a.es]
  edata := fun e => by
    obtain ⟨x1, x2, -, x4, x5, -⟩ := b.ends e
    obtain ⟨y1, y2, -, y4, y5, -⟩ := a.ends e
    obtain ⟨z1, z2, z3, z4⟩ := h.edata e
    exact ⟨by rw [x1, z1, y1], by rw [x2, z2, y2], by rw [x4, z3, y4], by rw [x5, z4, y5]⟩
  intr := by
    rw [b.es, h.intr, a.es]
    refine List.filter_congr fun e _ => ?_
    rw [(a.ends e).1, (a.ends e).2.1]
  nEdges := by rw [b.es, ← a.es]; exact h.nEdges
  nTris := by rw [b.tris, ← a.tris]; exact h.nTris
  nQuads := by rw [b.quads, ← a.quads]; exact h.nQuads
  area := by rw [sbp_meshArea b, h.area, sbp_meshArea a]
  kept := by
    intro f hf hv
    obtain ⟨k1, k2, k3, k4⟩ := h.kept f ((sbp_live a f).mpr hf) (by rw [(a.corners f).1]; exact hv)
    refine ⟨(sbp_live b f).mpr k1, ?_, ?_, ?_⟩
    · rw [(b.corners f).1, k2, (a.corners f).1]
    · rw [(b.corners f).2.1, k3, (a.corners f).2.1]
    · rw [(b.corners f).2.2.1, k4, (a.corners f).2.2.1]
  fresh := by
    intro f hf
    rcases h.fresh f ((sbp_live b f).mp hf) with ⟨k1, k2⟩ | ⟨v, hv, x, y, z, q, hq, k1, k2, k3, k4⟩
    · exact Or.inl ⟨(sbp_live a f).mp k1, by rw [← (a.corners f).1]; exact k2⟩
    · refine Or.inr ⟨v, hv, x, y, z, q, by rw [← a.quads]; exact hq, ?_, by rw [(b.corners f).2.2.1]; exact k2,
        by rw [(b.corners f).2.1, k3, a.color], ?_⟩
      · unfold QuadIs at k1 ⊢; rwa [(a.corners _).1] at k1
      · rcases k4 with ⟨r, d, q', hq', hne, k5, k6⟩ | ⟨r, x', hx', k5, k6⟩
        · refine Or.inl ⟨r, d, q', by rw [← a.quads]; exact hq', hne, ?_, by rw [(b.corners f).1]; exact k6⟩
          unfold QuadIs at k5 ⊢; rwa [(a.corners _).1] at k5
        · refine Or.inr ⟨r, x', by rw [← a.tris]; exact hx', ?_, by rw [(b.corners f).1]; exact k6⟩
          unfold TriIs at k5 ⊢; rwa [(a.corners _).1] at k5
  sides := fun x y => by rw [sbp_covered b, h.sides, sbp_covered a]

/-! ### After setting up the connectivity -/

/-- A completely meshed domain with pointers that are up to date. -/
structure Settled (s : St K) : Prop where
  comp : Complete s
  ready : Ready s
  fresh : FreshPointers s

theorem conf_uniqueIntr {s : St K} (h : Conforming s) : UniqueIntr s := fun e he e' he' hs => h.unique e (Or.inl he) e' (Or.inl he') hs

theorem settle {eps : K} {s : St K} (h : Complete s) (hl : NbrLen s) (hf : FreshPointers s) : Settled (setupConnectivity eps s) := by
  have b := setup_sbp eps h.wf
  have hu := conf_uniqueIntr h.toConforming
  refine ⟨sbp_complete b h, ⟨sbp_conforming b h.toConforming, sbp_len b hl, ?_⟩, ?_⟩
  · intro f g x y hfl hg hx
    obtain ⟨k1, k2, k3⟩ := C48_symmetric h.wf h.dir hu hl hf ((sbp_live b f).mp hfl) hg hx
    exact ⟨(sbp_live b g).mpr k1, k2, k3⟩
  · intro f x y g hfl hn hx
    rw [sbp_intrEdge b] at hn
    obtain ⟨i, hi, hs, hg⟩ := hx
    rw [(b.corners f).1] at hi hs
    refine hf f x y g ((sbp_live b f).mp hfl) hn ⟨i, hi, hs, ?_⟩
    rcases hs with hs | hs
    · rwa [setup_nbr_keep h.wf h.dir hs hn] at hg
    · rwa [setup_nbr_keep h.wf h.dir hs (fun k => hn (by obtain ⟨e, e1, e2⟩ := k; exact ⟨e, e1, e2.symm⟩))] at hg

theorem good_plan {s : St K} (h : Settled s) {isQ : Bool} {c : Scan} (hg : Good s isQ c) : Plan s isQ c.out := ⟨h.comp, hg.1, hg.2⟩

theorem doubleQuads_spec {eps : K} {s : St K} (h : Settled s) {ix : FRef → Nat} (hix : Indexed s ix) :
    ∃ t gone, doubleQuads eps ix s = some t ∧ DoublesMerged true s t gone ∧ Settled t := by
  obtain ⟨c, hc, hg⟩ := good_scan h.ready true hix
  have p := good_plan h hg
  obtain ⟨id, ha⟩ := added_quads c.out h.comp.wf p.msnd fun m hm =>
    ⟨(p.cor_nodup hm).1, fun x hx => (p.cor_stay hm hx).1⟩
  have o := outcome p (isQ := true) ha
  obtain ⟨l1, l2⟩ := o.pointers p h.ready.len h.fresh
  refine ⟨_, goneOf c.out, by unfold doubleQuads; rw [hc], ?_, settle (o.complete p) l1 l2⟩
  exact sbp_merged (sbp_refl s) (setup_sbp eps o.wf) (o.merged p)

theorem doubleTris_spec {eps : K} {s : St K} (h : Settled s) {ix : FRef → Nat} (hix : Indexed s ix) :
    ∃ t gone, doubleTris eps ix s = some t ∧ DoublesMerged false s t gone ∧ Settled t := by
  obtain ⟨c, hc, hg⟩ := good_scan h.ready false hix
  have p := good_plan h hg
  obtain ⟨id, u, hu, ha⟩ := added_tris c.out h.comp.wf p.msnd (fun m hm => h.comp.wf.qlt _ (p.liveR hm (Or.inl rfl))) fun m hm =>
    ⟨(p.cor_nodup hm).2, (p.cor_nodup hm).1, fun x hx => (p.cor_stay hm hx).1⟩
  have o := outcome p (isQ := false) ha
  obtain ⟨l1, l2⟩ := o.pointers p h.ready.len h.fresh
  refine ⟨_, goneOf c.out, by unfold doubleTris; rw [hc]; dsimp only; rw [hu]; rfl, ?_, settle (o.complete p) l1 l2⟩
  exact sbp_merged (sbp_refl s) (setup_sbp eps o.wf) (o.merged p)

theorem indexed_of {s : St K} (h : WF s) (ixF : FRef → Nat) : Indexed s (assignIndices s (fun _ => 0) ixF).2 := indexed_assign h _ _

end TQ.Whole

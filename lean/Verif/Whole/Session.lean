import Verif.Whole.Converse
import Verif.Whole.Model
import Verif.Cleanup.Props
import Verif.Cleanup.DegreeProps

/-! # Lemmas: meshing steps one after another, and the check of the mesh -/

set_option linter.unusedSectionVars false
set_option linter.unusedSimpArgs false

namespace TQ.Whole
open TQ.MS TQ.MeshSpec TQ.FUSpec TQ.MS.St TQ.GeoSpec TQ.FU TQ.Sm TQ.MCSpec TQ.WholeSpec TQ.RefSpec
variable {K : Type*} [Field K] [LinearOrder K] [IsStrictOrderedRing K]

theorem resolved_mono {e e' : K} (h : e ≤ e') {s : St K} (hr : Resolved e' s) : Resolved e s :=
  fun a ha b hb c hc hlt => hr a ha b hb c hc (lt_of_lt_of_le hlt h)

/-- In a resolved mesh of counter-clockwise triangles, elements are found on the left of their sides. -/
theorem resolved_left {eps : K} {s : St K} (h : Meshing s) (hq : s.quads = []) (hr : Resolved (9 * eps) s) : LeftFacets eps s := by
  refine C48_left_geometry h.wf ⟨fun t ht a b c hc => ?_, fun q hq' => by rw [hq] at hq'; simp at hq'⟩
  have h1 : 0 < side (s.pos a) (s.pos b) (s.pos c) :=
    h.ccw (.tri t, a, b, c) (mem_pieces.mpr ⟨ht, by simp [hc, halves]⟩)
  have hv := (h.wf.cor (.tri t) ht).2
  rw [hc] at hv
  have h2 : 9 * eps ≤ side (s.pos a) (s.pos b) (s.pos c) * side (s.pos a) (s.pos b) (s.pos c) := by
    by_contra hlt
    have := hr a (hv a (by simp)) b (hv b (by simp)) c (hv c (by simp)) (not_le.mp hlt)
    rw [this] at h1
    exact lt_irrefl _ h1
  have e : area2 (s.pos a) (s.pos b) (s.pos c) = side (s.pos a) (s.pos b) (s.pos c) := by
    unfold area2 side; ring
  rw [e, pow_two]
  exact ⟨h1, h2⟩

theorem enclosed_perm {pos : Nat → Pt K} {xs ys : List (Nat × Nat)} (h : xs.Perm ys) : enclosed pos xs = enclosed pos ys := by
  unfold enclosed; exact (h.map _).sum_eq

theorem bare_meshing (eps : K) {s : St K} (h : Bare s) : Meshing (MC.startStep eps s) :=
  meshing_bare eps h.wf h.tris h.quads h.intr h.front h.null h.plain h.simple

/-- What holds in every state of a session. -/
structure Inv (s0 s : St K) : Prop where
  mesh : Meshing s
  quads : s.quads = []
  bdry : pairs s .bdry = pairs s0 .bdry
  verts : ∀ v ∈ s0.verts, v ∈ s.verts
  pos : ∀ v ∈ s0.verts, s.pos v = s0.pos v
  area : s.area + enclosed s.pos (pairs s .front) = s0.area + enclosed s0.pos (pairs s0 .bdry)

theorem session_inv {env : Env K} (he : 0 < env.eps) (hq : QueryExact env) (hs : SortOK env)
    (hn : ∀ p, 0 ≤ env.norm p ∧ Pt.normSq p ≤ env.norm p * env.norm p) {s0 s : St K} (h0 : Bare s0)
    (h : Session env s0 s) : Inv s0 s := by
  induction h with
  | start =>
    obtain ⟨d1, d2, d3, d4, d5, d6, d7, -⟩ := start_bare env.eps h0.wf h0.tris h0.quads h0.intr h0.front h0.null
    refine ⟨bare_meshing _ h0, by rw [d2.quads, h0.quads], ?_, fun v hv => by rw [d2.verts]; exact hv, fun v _ => d2.pos v, ?_⟩
    · unfold pairs
      rw [d4]
      exact List.map_congr_left fun e hem => by rw [d6 e hem]
    · rw [d2.area, d3, funext d2.pos]
  | @run s s' log hss hrun hres hreach ih =>
    have hle : env.eps ≤ 9 * env.eps := by linarith
    have hres' := resolved_mono hle hres
    have hql := queryExact_live hq
    obtain ⟨w, fr⟩ := run_frame he hql hs ih.mesh.wf hrun
    obtain ⟨ho, -⟩ := C140_stays_simple he hq hs hn ih.mesh.wf ih.mesh.front hrun hres' hreach
    refine ⟨meshing_run he hq hs hn ih.mesh hrun hres' hreach, by rw [fr.quads, ih.quads], ?_, fun v hv => fr.verts v (ih.verts v hv),
      fun v hv => (fr.pos v (ih.verts v hv)).trans (ih.pos v hv), ?_⟩
    · rw [← ih.bdry]
      unfold pairs
      rw [fr.bdry]
      exact List.map_congr_left fun e hem => by rw [fr.E e hem]
    · rw [C34_area_conserved he hql hs ih.mesh.wf hrun ho, ih.area]
  | @resume s hss hres ih =>
    have hlf := resolved_left ih.mesh ih.quads hres
    obtain ⟨m1, m2, m3⟩ := meshing_resume ih.mesh hlf
    obtain ⟨-, -, -, c4, c5, -⟩ := TQ.MC.resume (meshing_remaining ih.mesh).1 hlf
    refine ⟨m1, by rw [m2.quads, ih.quads], ?_, fun v hv => by rw [m2.verts]; exact ih.verts v hv, fun v hv => (m2.pos v).trans (ih.pos v hv), ?_⟩
    · rw [← ih.bdry]
      unfold pairs
      rw [c4]
      exact List.map_congr_left fun e hem => (c5 e (Or.inr hem)).1
    · rw [m2.area, funext m2.pos, enclosed_perm m3, ih.area]

/-! ### The check -/

theorem finish_complete {s : St K} (h : s.es .front = []) : MC.finishStep s = s := by
  have h1 : MC.addRemaining s = s := by unfold MC.addRemaining; rw [h]; rfl
  unfold MC.finishStep
  rw [h1]
  unfold MC.clearFront
  rw [h]; rfl

theorem live_ne_null {s : St K} {f : FRef} (h : Live s f) : f ≠ .null := by rintro rfl; exact h

theorem frontEdges_conforming {eps : K} {s : St K} (h : Conforming s) (hlf : LeftFacets eps s) :
    MC.frontEdges (MC.setupConnectivity eps s) = [] := by
  have hsb := TQ.MC.setup_sbp eps (s := s) h.wf
  unfold MC.frontEdges
  rw [hsb.es, List.append_eq_nil_iff, List.filter_eq_nil_iff, List.filter_eq_nil_iff]
  constructor
  · intro e he
    obtain ⟨⟨f, f1, f2⟩, g, g1, g2⟩ := h.intrFull e he
    have q := TQ.MC.setup_intr (eps := eps) h.wf h.dir hlf he
    rw [q.1 f f1 f2, q.2.1 g g1 g2, decide_eq_true_eq]
    rintro (hh | hh)
    · exact live_ne_null f1 hh
    · exact live_ne_null g1 hh
  · intro e he
    obtain ⟨f, f1, f2⟩ := h.bdryFull e he
    have q := TQ.MC.setup_bdry (eps := eps) h.wf hlf he (fun g hg hgs => h.right e he ⟨g, hg, hgs⟩) h.dir
    rw [q.2.1 f f1 f2, decide_eq_true_eq]
    exact live_ne_null f1

theorem frontEdges_sound {eps : K} {s : St K} (h : Proper s)
    (hu : ∀ e, (e ∈ s.es .intr ∨ e ∈ s.es .bdry) → ∀ e', (e' ∈ s.es .intr ∨ e' ∈ s.es .bdry) → SameEnds s e e' → e = e')
    (hlf : LeftFacets eps s) (hn : NullWhereOpen s)
    (hb : ∀ b ∈ s.es .bdry, ¬ Covered s (s.E b).v1 (s.E b).v2 → (s.E b).fl = .null)
    (hc : MC.frontEdges (MC.setupConnectivity eps s) = []) : Conforming s := by
  have hsb := TQ.MC.setup_sbp eps (s := s) h.wf
  unfold MC.frontEdges at hc
  rw [hsb.es, List.append_eq_nil_iff, List.filter_eq_nil_iff, List.filter_eq_nil_iff] at hc
  obtain ⟨hi, hbd⟩ := hc
  refine ⟨h, hu, ?_, ?_⟩
  · intro e he
    have q := TQ.MC.setup_intr (eps := eps) h.wf h.dir hlf he
    have h1 := hi e he
    simp only [decide_eq_true_eq, not_or] at h1
    constructor
    · by_contra hh
      have hno : ∀ f, Live s f → ¬ HasSide s f (s.E e).v1 (s.E e).v2 := fun f hf hfs => hh ⟨f, hf, hfs⟩
      exact h1.1 ((q.2.2.1 hno).trans ((hn e he).1 hno))
    · by_contra hh
      have hno : ∀ f, Live s f → ¬ HasSide s f (s.E e).v2 (s.E e).v1 := fun f hf hfs => hh ⟨f, hf, hfs⟩
      exact h1.2 ((q.2.2.2 hno).trans ((hn e he).2 hno))
  · intro e he
    have q := TQ.MC.setup_bdry (eps := eps) h.wf hlf he (fun g hg hgs => h.right e he ⟨g, hg, hgs⟩) h.dir
    have h1 := hbd e he
    simp only [decide_eq_true_eq] at h1
    by_contra hh
    exact h1 ((q.2.2 fun f hf hfs => hh ⟨f, hf, hfs⟩).trans (hb e he hh))

theorem validity_conforming {eps : K} {s : St K} (h : Conforming s) : MC.checkMeshValidity (MC.setupConnectivity eps s) = true := by
  have hsb := TQ.MC.setup_sbp eps (s := s) h.wf
  have hse := TQ.MC.se_sbp hsb
  rw [C96_check_partial (TQ.MC.sbp_wf hsb h.wf)]
  intro e he
  rw [hsb.es] at he
  obtain ⟨e1, e2, -⟩ := hsb.ends e
  rw [e1, e2]
  have : Covered s (s.E e).v1 (s.E e).v2 := by
    rcases he with he | he
    · exact (h.intrFull e he).1
    · exact h.bdryFull e he
  obtain ⟨f, hf, hs⟩ := this
  exact ⟨f, (TQ.MC.se_live hse f).mpr hf, Or.inl ((TQ.MC.se_hasSide hse f _ _).mpr hs)⟩

end TQ.Whole

import Verif.Whole.Next

/-! # Property C163: the application with several mesh definitions -/

set_option linter.unusedSectionVars false
set_option linter.unusedSimpArgs false

namespace TQ
open QL MS MeshSpec MCSpec MC MS.St FUSpec WholeSpec RefSpec CleanSpec Whole QLSpec SmSpec Sm GN MM MergeSpec CK FU AM AppSpec
variable {K : Type*} [Field K] [LinearOrder K] [IsStrictOrderedRing K]

/-- The steps of a run for a further mesh definition. -/
theorem generateNext_steps {L : LEnv K} {fuel : Nat} {J : Job K} {D : Dom.Domain K} {w : World K} {ni oi : Nat} {T : NextTrace K}
    (h : generateNext L fuel J D w ni oi = .done T) :
    layerAll L fuel J.layers (w ni) = some T.layered ∧ (∃ ok, triangulate L.env J.par 0 fuel J.ix1 T.layered = .ret ok T.meshed) ∧
    (if J.toQuad then tri2quad L.env.eps J.ix2 (J.order T.meshed) T.meshed else some T.meshed) = some T.modified ∧
    merge L.env.eps (upd w ni fun _ => T.modified) ni oi false = some (T.merged, true) ∧
    refineAll J.refinements (T.merged ni) = some T.refined ∧
    (∃ x, smoothMixed J.nearest L.env.norm J.cfg J.torsion J.laplace J.decay J.smoothing (T.refined, J.step) = some (T.smoothed, x)) ∧
    T.ok = (checkCompleteness L.env.eps J.thr D true T.smoothed).2 := by
  unfold generateNext at h
  split at h
  · simp at h
  rename_i a ha
  split at h
  · simp at h
  · simp at h
  rename_i ok b hb
  split at h
  · simp at h
  rename_i c hc
  split at h
  · simp at h
  · simp at h
  rename_i w' hm
  split at h
  · simp at h
  rename_i d hd
  split at h
  · simp at h
  rename_i e he
  simp only [NextRes.done.injEq] at h
  rw [← h]
  exact ⟨ha, ⟨ok, hb⟩, hc, hm, hd, ⟨e.2, he⟩, rfl⟩

section
variable {L : LEnv K} (he : 0 < L.env.eps) (hq : QueryExact L.env) (hso : SortOK L.env)
  (hn : ∀ p, 0 ≤ L.env.norm p ∧ Pt.normSq p ≤ L.env.norm p * L.env.norm p)
include he hq hso hn

/-- The meshing of a definition, up to the merging of triangles to quads. -/
theorem meshed_part {fuel : Nat} {J : Job K} {s0 a b c : St K} (h0 : Prepared s0) (h1 : layerAll L fuel J.layers s0 = some a)
    (h3 : (if J.toQuad then tri2quad L.env.eps J.ix2 (J.order b) b else some b) = some c) (g : GoodRun L fuel J s0 a b) :
    MeshOf s0 c ∧ c.area = enclosed s0.pos (pairs s0 .bdry) ∧ (RimKept s0 a → RimKept s0 c) := by
  have hst := layerAll_staged .prepared g.layers h1
  obtain ⟨m1, a1⟩ := C160_complete he hq hso hn h0.bare h0.flagged hst g.well g.ok
  have hwa : WF a := by
    rcases hst with _ | ⟨hw, hl⟩
    · exact h0.bare.wf
    · obtain ⟨new, R⟩ := MC.rinv_all (meshing_remaining (work_inv he hq hso hn h0.bare hw).mesh).1
      exact (MC.clearFront_spec R.wf).1
  have r1 := same_triangulate he hq hso hn h0.bare h0.flagged hst hwa g.well g.ok
  rw [h0.area, zero_add] at a1
  by_cases ht : J.toQuad = true
  · rw [if_pos ht] at h3
    obtain ⟨k1, k2⟩ := g.quads ht
    obtain ⟨v, g1, g2, -, g4, g5, g6⟩ := C154_modify J.ix2 m1.complete m1.len m1.fresh k1 k2
    rw [h3] at g1
    obtain rfl := Option.some.inj g1
    exact ⟨coarsened_meshOf m1 g2 g4 g5 g6, (area_tri2quad h3).trans a1,
      fun r0 => rim_trans (rim_trans r0 (rim_same r1)) (rim_same (same_coarsened g4 (tw_tri2quad h3)))⟩
  · rw [if_neg ht] at h3
    rw [← Option.some.inj h3]
    exact ⟨m1, a1, fun r0 => rim_trans r0 (rim_same r1)⟩

/-- **C163.** The application with a further mesh definition, beside the complete mesh of the definitions before: it is
meshed, takes over the old mesh, is refined and smoothed.  The merged, the refined and (unless the smoothing folded a
quad, C159) the smoothed mesh are complete meshes of the old and the new domain together.  The application reports
success: the area counter still has the area of the new domain (C55), which is what the check compares it with. -/
theorem C163_next {fuel : Nat} {J : Job K} {D : Dom.Domain K} {w : World K} {ni oi : Nat} {b : St K} {T : NextTrace K}
    (h0 : Prepared (w ni)) (hb : MeshOf b (w oi)) (B : Beside w ni oi) (ld : LeftFacets L.env.eps (w oi))
    (h : generateNext L fuel J D w ni oi = .done T) (g : GoodRun L fuel J (w ni) T.layered T.meshed) (hrim : RimKept (w ni) T.layered)
    (lr : LeftFacets L.env.eps T.modified) (hconv : J.refinements = 0 ∨ ConvexElements (T.merged ni)) (hfold : Unfolded T.smoothed) :
    (∀ t ∈ [T.merged ni, T.refined, T.smoothed], Complete t ∧ Tiled t ∧
      meshArea t = enclosed (w ni).pos (pairs (w ni) .bdry) + enclosed b.pos (pairs b .bdry) ∧
      ∀ p, winding t.pos (pairs t .bdry) p = winding (w ni).pos (pairs (w ni) .bdry) p + winding b.pos (pairs b .bdry) p) ∧
    MeshOf (T.merged ni) T.smoothed ∧
    (LeftFacets L.env.eps T.smoothed → 0 < J.thr → Dom.area D = enclosed (w ni).pos (pairs (w ni) .bdry) →
      (Dom.extent D).1.1 ≠ (Dom.extent D).1.2 → (Dom.extent D).2.1 ≠ (Dom.extent D).2.2 → T.ok = true) := by
  obtain ⟨h1, -, h3, h4, h5, ⟨x, h6⟩, h7⟩ := generateNext_steps h
  obtain ⟨m1, a1, r1⟩ := meshed_part he hq hso hn h0 h1 h3 g
  obtain ⟨S, hex⟩ := beside_done B (r1 hrim) m1.region m1.complete hb.complete
  have e1 : (upd w ni fun _ => T.modified) ni = T.modified := by simp [upd]
  have e2 : (upd w ni fun _ => T.modified) oi = w oi := by simp [upd, Ne.symm B.ne]
  obtain ⟨m2, a2, w2, -⟩ := C162_merge (a := w ni) (b := b) (by rw [e1]; exact m1) (by rw [e2]; exact hb) S (by rw [e1]; exact lr)
    (by rw [e2]; exact ld) h4
  have c2 := (C55_area_partial S.adj (by rw [e1]; exact lr) (by rw [e2]; exact ld) h4).2
  rw [e1] at c2
  obtain ⟨m3, a3, -⟩ := refineAll_mesh m2 hconv h5
  have m4 := (C159_mixed_partial m3 h6).2 hfold
  have sp := (mixed_facts m3.complete m3.len m3.fresh h6).1
  have key : ∀ t, MeshOf (T.merged ni) t → Complete t ∧ Tiled t ∧
      meshArea t = enclosed (w ni).pos (pairs (w ni) .bdry) + enclosed b.pos (pairs b .bdry) ∧
      ∀ p, winding t.pos (pairs t .bdry) p = winding (w ni).pos (pairs (w ni) .bdry) p + winding b.pos (pairs b .bdry) p :=
    fun t ht => ⟨ht.complete, ht.tiled, by rw [ht.area, ← m2.area, a2], fun p => by rw [ht.region p, w2 p]⟩
  refine ⟨?_, m4, fun hl hthr harea hx hy => ?_⟩
  · intro t ht
    simp only [List.mem_cons, List.not_mem_nil, or_false] at ht
    rcases ht with rfl | rfl | rfl
    · exact key _ m2
    · exact key _ m3
    · exact key _ m4
  · rw [h7]
    refine C144_conforming_passes hthr m4.complete.toConforming hl ?_ hx hy
    rw [sp.area]
    show T.refined.area = _
    rw [a3, c2, a1, harea]

/-- **C163.** Then the merge is not refused: the assertion after it does not fail. -/
theorem C163_merges {fuel : Nat} {J : Job K} {D : Dom.Domain K} {w : World K} {ni oi : Nat} {b a m c : St K}
    (h0 : Prepared (w ni)) (hb : MeshOf b (w oi)) (B : Beside w ni oi) (ld : LeftFacets L.env.eps (w oi))
    (h1 : layerAll L fuel J.layers (w ni) = some a) (g : GoodRun L fuel J (w ni) a m) (hrim : RimKept (w ni) a)
    (h3 : (if J.toQuad then tri2quad L.env.eps J.ix2 (J.order m) m else some m) = some c) (lr : LeftFacets L.env.eps c) :
    generateNext L fuel J D w ni oi ≠ .abort ∧
    ∃ w', merge L.env.eps (upd w ni fun _ => c) ni oi false = some (w', true) ∧ MeshOf (w' ni) (w' ni) := by
  obtain ⟨m1, a1, r1⟩ := meshed_part he hq hso hn h0 h1 h3 g
  obtain ⟨S, hex⟩ := beside_done B (r1 hrim) m1.region m1.complete hb.complete
  have e1 : (upd w ni fun _ => c) ni = c := by simp [upd]
  have e2 : (upd w ni fun _ => c) oi = w oi := by simp [upd, Ne.symm B.ne]
  obtain ⟨w', φ, hm, -⟩ := C53_merge S.adj (by rw [e1]; exact lr) (by rw [e2]; exact ld) hex
  refine ⟨?_, w', hm, (C162_merge (a := w ni) (b := b) (by rw [e1]; exact m1) (by rw [e2]; exact hb) S (by rw [e1]; exact lr)
    (by rw [e2]; exact ld) hm).1⟩
  unfold generateNext
  rw [h1]
  dsimp only
  rw [g.ok]
  dsimp only
  rw [h3]
  dsimp only
  rw [hm]
  dsimp only
  split
  · simp
  · split <;> simp

/-- **C163.** Any number of mesh definitions: the mesh of the generator is a complete mesh of all domains together, its
elements have their total area. -/
theorem C163_definitions {ds : List (St K)} {w : World K} {a : Nat} (h : Definitions L ds w a) :
    Complete (w a) ∧ Tiled (w a) ∧ meshArea (w a) = (ds.map fun s => enclosed s.pos (pairs s .bdry)).sum ∧
    ∀ p, winding (w a).pos (pairs (w a) .bdry) p = (ds.map fun s => winding s.pos (pairs s .bdry) p).sum := by
  have key : MeshOf (w a) (w a) ∧ meshArea (w a) = (ds.map fun s => enclosed s.pos (pairs s .bdry)).sum ∧
      ∀ p, winding (w a).pos (pairs (w a) .bdry) p = (ds.map fun s => winding s.pos (pairs s .bdry) p).sum := by
    induction h with
    | first h0 h g hconv hfold hw =>
      obtain ⟨-, -, -, m4, -⟩ := C161_application he hq hso hn h0.bare h0.flagged h0.area h g.layers g.well g.ok g.quads hconv hfold
      rw [hw]
      refine ⟨meshOf_self m4.complete m4.flagged m4.len m4.fresh, ?_, ?_⟩
      · rw [m4.area]; simp
      · intro p; rw [m4.region]; simp
    | @next ds w w1 w2 oi ni fuel J D T _ ht h0 B ld h g hrim lr hconv hfold hw ih =>
      obtain ⟨i1, i2, i3⟩ := ih
      obtain ⟨k1, m4, -⟩ := C163_next he hq hso hn h0 (meshOf_twins i1 ht) B ld h g hrim lr hconv hfold
      obtain ⟨-, -, k3, k4⟩ := k1 T.smoothed (by simp)
      rw [hw]
      refine ⟨meshOf_self m4.complete m4.flagged m4.len m4.fresh, ?_, ?_⟩
      · rw [k3, ← i1.area, i2]; simp
      · intro p; rw [k4 p, i3 p]; simp
  exact ⟨key.1.complete, key.1.tiled, key.2.1, key.2.2⟩
end

/-- Decidable form of `Beside` for meshes on both sides of the line `x = c`. -/
theorem beside_of_line {w : World K} {ni oi : Nat} (ne : ni ≠ oi) (wn : WF (w ni)) (wo : WF (w oi))
    (link : ((w ni).es .bdry).all (fun e => ((w ni).E e).twin.all fun x => decide (x.1 = oi →
      x.2 ∈ (w oi).es .bdry ∧ ((w oi).E x.2).twin = some (ni, e) ∧
      (w ni).pos ((w ni).E e).v1 = (w oi).pos ((w oi).E x.2).v2 ∧ (w ni).pos ((w ni).E e).v2 = (w oi).pos ((w oi).E x.2).v1)) = true)
    (back : ((w oi).es .bdry).all (fun e => ((w oi).E e).twin.all fun x => decide (x.1 = ni ∧
      x.2 ∈ (w ni).es .bdry ∧ ((w ni).E x.2).twin = some (oi, e))) = true)
    (apartN : ∀ u ∈ (w ni).verts, ∀ v ∈ (w ni).verts, (w ni).pos u = (w ni).pos v → u = v)
    (apartO : ∀ u ∈ (w oi).verts, ∀ v ∈ (w oi).verts, (w oi).pos u = (w oi).pos v → u = v)
    (sn : SimpleFront (w ni).pos (pairs (w ni) .bdry)) (so : SimpleFront (w oi).pos (pairs (w oi) .bdry)) {c : K}
    (h1 : ∀ e ∈ (w ni).es .bdry, c ≤ ((w ni).pos ((w ni).E e).v1).x ∧ c ≤ ((w ni).pos ((w ni).E e).v2).x)
    (h2 : ∀ e ∈ (w oi).es .bdry, ((w oi).pos ((w oi).E e).v1).x ≤ c ∧ ((w oi).pos ((w oi).E e).v2).x ≤ c)
    (h3 : ∀ e ∈ (w ni).es .bdry, ¬ Iface w ni oi e → c < ((w ni).pos ((w ni).E e).v1).x ∨ c < ((w ni).pos ((w ni).E e).v2).x)
    (h4 : ∀ e ∈ (w oi).es .bdry, ¬ Iface w oi ni e → ((w oi).pos ((w oi).E e).v1).x < c ∨ ((w oi).pos ((w oi).E e).v2).x < c)
    (shared : ∃ e ∈ (w ni).es .bdry, Iface w ni oi e) : Beside w ni oi := by
  have back' : ∀ e ∈ (w oi).es .bdry, ∀ x, ((w oi).E e).twin = some x →
      x.1 = ni ∧ x.2 ∈ (w ni).es .bdry ∧ ((w ni).E x.2).twin = some (oi, e) := by
    intro e he x hh
    have := List.all_eq_true.mp back e he
    rw [hh] at this
    simpa using this
  refine { ne := ne, link := ?_, back := fun e he e' hh => (back' e he _ hh).2, apartN := ?_, apartO := ?_, self := fun e he x hh => (back' e he x hh).1,
           disjoint := disjoint_of_line sn so h1 h2, rims := ?_, shared := shared }
  · intro e he e' hh
    have := List.all_eq_true.mp link e he
    rw [hh] at this
    simp only [Option.all_some, decide_eq_true_eq, forall_const] at this
    exact this
  · exact fun u v hu hv hp => apartN u (onIface_verts wn hu) v (onIface_verts wn hv) hp
  · exact fun u v hu hv hp => apartO u (onIface_verts wo hu) v (onIface_verts wo hv) hp
  · exact fun e he hi e' he' hi' _ hx hx' => rims_of_line (h1 e he) (h2 e' he') (h3 e he hi) (h4 e' he' hi') hx hx'

end TQ

#print axioms TQ.C163_next
#print axioms TQ.C163_merges
#print axioms TQ.C163_definitions

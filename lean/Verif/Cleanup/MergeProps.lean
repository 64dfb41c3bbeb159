import Verif.Cleanup.Merge
import Verif.Cleanup.Props

/-! # Properties C51, C101: merging triangles to quads -/

set_option linter.unusedSectionVars false
set_option linter.unusedSimpArgs false

namespace TQ
open MS MeshSpec MCSpec MC MS.St
variable {K : Type*} [Field K] [LinearOrder K] [IsStrictOrderedRing K]

namespace MCEx
/-- The pentagon with three triangles (10, 11, 12) and the interior edges 13 (0-2) and 14 (0-3). -/
def fan : St ℚ := ((((pent.addTri 0 1 2 5).addTri 0 2 3 6).addTri 0 3 4 7).addIntr 0 2).addIntr 3 0
theorem built_fan : Built 1 fan := by
  refine Built.addEdge _ _ _ _ _ (Built.addEdge _ _ _ _ _ (Built.addTri _ _ _ _ (Built.addTri _ _ _ _
    (Built.addTri _ _ _ _ built_pent ?_ ?_ ?_ ?_) ?_ ?_ ?_ ?_) ?_ ?_ ?_ ?_) ?_ ?_ ?_) ?_ ?_ ?_ <;> decide
theorem fan_dir : DirUnique fan := dirUnique_of (by decide +kernel)
theorem fan_shapes : SoundShapes (1 / 1000000) fan := shapes_of (by decide +kernel)
theorem fan_intr : UniqueIntr fan := by unfold UniqueIntr; decide +kernel
theorem fan_null : NullWhereOpen fan := by
  unfold NullWhereOpen; simp only [all_live]; decide +kernel
end MCEx

theorem area2_tri (p q r : Pt K) : area2 p q r = 2 * St.triArea p q r := by
  unfold area2 St.triArea Pt.cross; simp only [Pt.sub_x, Pt.sub_y]; ring

theorem ccw_of_shapes {eps : K} {s : St K} (h : SoundShapes eps s) : TrisCCW s := by
  intro t ht a b c hc
  have := (h.1 t ht a b c hc).1
  rw [area2_tri] at this
  linarith

/-- The edges collected for the merge are linked with the elements on both sides. -/
theorem triEdges_linked {eps : K} {s : St K} (h : WF s) (hd : DirUnique s) (hlf : LeftFacets eps s) (hn : NullWhereOpen s) {e : Nat}
    (he : e ∈ triEdges (setupConnectivity eps s)) :
    e ∈ (setupConnectivity eps s).es .intr ∧ Linked (setupConnectivity eps s) e := by
  have hb := setup_sbp eps h
  unfold triEdges at he
  obtain ⟨he1, he2⟩ := List.mem_filter.mp he
  simp only [Bool.and_eq_true, decide_eq_true_eq] at he2
  refine ⟨he1, ?_⟩
  rw [hb.es] at he1
  obtain ⟨i1, i2, i3, i4⟩ := setup_intr (eps := eps) h hd hlf he1
  obtain ⟨n1, n2⟩ := hn e he1
  have l : ∃ f, Live s f ∧ HasSide s f (s.E e).v1 (s.E e).v2 := by
    by_contra hc
    have hc' : ∀ f, Live s f → ¬ HasSide s f (s.E e).v1 (s.E e).v2 := fun f h1 h2 => hc ⟨f, h1, h2⟩
    exact he2.1.1 ((i3 hc').trans (n1 hc'))
  have r : ∃ f, Live s f ∧ HasSide s f (s.E e).v2 (s.E e).v1 := by
    by_contra hc
    have hc' : ∀ f, Live s f → ¬ HasSide s f (s.E e).v2 (s.E e).v1 := fun f h1 h2 => hc ⟨f, h1, h2⟩
    exact he2.2.1 ((i4 hc').trans (n2 hc'))
  obtain ⟨f, f1, f2⟩ := l
  obtain ⟨g, g1, g2⟩ := r
  obtain ⟨x1, x2, -⟩ := hb.ends e
  unfold Linked
  rw [i1 f f1 f2, i2 g g1 g2, x1, x2, sbp_live hb, sbp_live hb, sbp_hasSide hb, sbp_hasSide hb]
  exact ⟨⟨f1, f2⟩, ⟨g1, g2⟩⟩

/-- The loop over the collected edges, in any order. -/
theorem merge_minv (col : FData → Int) {eps : K} {s : St K} (h : WF s) (hd : DirUnique s) (hu : UniqueIntr s) (hc : TrisCCW s)
    (hlf : LeftFacets eps s) (hn : NullWhereOpen s) {l : List Nat} (hl : l.Perm (triEdges (setupConnectivity eps s))) :
    ∃ u, mergeTriangles col l (setupConnectivity eps s) = some u ∧ MInv col (setupConnectivity eps s) u l [] := by
  have hb := setup_sbp eps h
  generalize hs : setupConnectivity eps s = p at *
  have wp : WF p := sbp_wf hb h
  have up : UniqueIntr p := by
    intro x hx y hy hh
    rw [hb.es] at hx hy
    obtain ⟨x1, x2, -⟩ := hb.ends x
    obtain ⟨y1, y2, -⟩ := hb.ends y
    rw [x1, x2, y1, y2] at hh
    exact hu x hx y hy hh
  have dp : DirUnique p := by
    intro f g a b hf hg h1 h2
    rw [sbp_live hb] at hf hg
    rw [sbp_hasSide hb] at h1 h2
    exact hd f g a b hf hg h1 h2
  have cp : TrisCCW p := by
    intro t ht a b c hcs
    rw [hb.tris] at ht
    rw [(hb.corners _).1] at hcs
    simp only [sbp_pos hb]
    exact hc t ht a b c hcs
  have hlk : ∀ e ∈ l, e ∈ p.es .intr ∧ Linked p e := by
    intro e he
    have := triEdges_linked (eps := eps) h hd hlf hn (e := e) (by rw [hs]; exact hl.mem_iff.mp he)
    rwa [hs] at this
  have hnd : l.Nodup := hl.nodup_iff.mpr ((wp.ends .intr).1.filter _)
  exact minv_loop wp l [] p (minv_start (col := col) wp up dp cp hlk) hnd

/-- **C51.** The merging step of `Tri2QuadModification` (and of the variant in `MeshCleanup`, with another
colour), for every order in which the collected edges are processed: it runs through without accessing a missing
entity, the result is a consistent mesh that differs from the given one by merged pairs of triangles
(`PairsMerged`: triangles + 2 quads and the total area conserved, one interior edge removed per quad, quads
composed of two counter-clockwise triangles, boundary and vertices untouched), and no further merge is possible:
no remaining interior edge lies between two triangles. -/
theorem C51_merge (col : FData → Int) {eps : K} {s : St K} (h : WF s) (hd : DirUnique s) (hu : UniqueIntr s) (hc : TrisCCW s)
    (hlf : LeftFacets eps s) (hn : NullWhereOpen s) {l : List Nat} (hl : l.Perm (triEdges (setupConnectivity eps s))) :
    ∃ u, mergeTriangles col l (setupConnectivity eps s) = some u ∧ WF u ∧ DirUnique u ∧ UniqueIntr u ∧ TrisCCW u ∧
      PairsMerged col (setupConnectivity eps s) u ∧
      ∀ e ∈ u.es .intr, ∀ x ∈ u.tris, ∀ y ∈ u.tris,
        ¬ (HasSide u (.tri x) (u.E e).v1 (u.E e).v2 ∧ HasSide u (.tri y) (u.E e).v2 (u.E e).v1) := by
  obtain ⟨u, h1, h2⟩ := merge_minv col h hd hu hc hlf hn hl
  have hb := setup_sbp eps h
  generalize hs : setupConnectivity eps s = p at *
  have wp : WF p := sbp_wf hb h
  refine ⟨u, h1, h2.wf, h2.dir, h2.uniq, h2.ccw, h2.merged, ?_⟩
  rintro e he x hx y hy ⟨hsx, hsy⟩
  have pm := h2.merged
  have hep : e ∈ p.es .intr := pm.intr.subset he
  obtain ⟨d1, d2, -⟩ := pm.edata e
  have sideP : ∀ z a b, HasSide u (.tri z) a b → HasSide p (.tri z) a b := by
    intro z a b hz; unfold HasSide at hz ⊢; rwa [h2.F z] at hz
  have hin : e ∈ l := by
    rw [hl.mem_iff]
    unfold triEdges
    rw [List.mem_filter]
    refine ⟨hep, ?_⟩
    have hes : e ∈ s.es .intr := by rw [← hb.es]; exact hep
    obtain ⟨i1, i2, -, -⟩ := setup_intr (eps := eps) h hd hlf hes
    rw [hs] at i1 i2
    have tx : x ∈ p.tris := pm.tris.1.subset hx
    have ty : y ∈ p.tris := pm.tris.1.subset hy
    obtain ⟨x1, x2, -⟩ := hb.ends e
    have a1 := i1 (.tri x) ((sbp_live hb _).mp (show Live p (.tri x) from tx)) ((sbp_hasSide hb _ _ _).mp (by
      have := sideP x _ _ hsx; rwa [d1, d2, x1, x2] at this))
    have a2 := i2 (.tri y) ((sbp_live hb _).mp (show Live p (.tri y) from ty)) ((sbp_hasSide hb _ _ _).mp (by
      have := sideP y _ _ hsy; rwa [d1, d2, x1, x2] at this))
    rw [a1, a2]
    simp [nVerts, wp.tcor x tx, wp.tcor y ty]
  obtain ⟨q, q1, q2⟩ := h2.done e (by simpa using hin) he
  rcases q2 with q2 | q2
  · have := h2.dir (.quad q) (.tri x) _ _ q1 hx q2 hsx; cases this
  · have := h2.dir (.quad q) (.tri y) _ _ q1 hy q2 hsy; cases this

namespace MCEx
/-- Triangles, corners and colours of the quads, interior edges. -/
def shown (o : Option (St ℚ)) (tris : List Nat) (quads : List (List Nat)) (cols : List Int) (intr : List Nat) : Bool :=
  o.any fun u => decide (u.tris = tris) && decide ((u.quads.map fun q => (u.F (.quad q)).corners) = quads) &&
    decide ((u.quads.map fun q => (u.F (.quad q)).color) = cols) && decide (u.es .intr = intr)
end MCEx

example : MCEx.shown (mergeTriangles FData.color [13, 14] (setupConnectivity (1 / 1000000) MCEx.fan)) [12] [[3, 0, 1, 2]] [6] [14] = true ∧
    MCEx.shown (mergeTriangles FData.color [14, 13] (setupConnectivity (1 / 1000000) MCEx.fan)) [10] [[2, 3, 4, 0]] [6] [13] = true := by
  decide +kernel

example : [14, 13].Perm (triEdges (setupConnectivity (1 / 1000000) MCEx.fan)) ∧ WF MCEx.fan ∧ DirUnique MCEx.fan ∧ UniqueIntr MCEx.fan ∧
    TrisCCW MCEx.fan ∧ LeftFacets (1 / 1000000) MCEx.fan ∧ NullWhereOpen MCEx.fan :=
  ⟨by decide +kernel, built_wf MCEx.built_fan, MCEx.fan_dir, MCEx.fan_intr, ccw_of_shapes MCEx.fan_shapes,
   C48_left_geometry (built_wf MCEx.built_fan) MCEx.fan_shapes, MCEx.fan_null⟩

/-! ### C101: shape of merged quads -/

namespace MCEx
/-- Two counter-clockwise triangles (8, 9) with the common edge 10. -/
def dart : St ℚ :=
  (((((((((((St.empty 1).addVertex ⟨0, 0⟩).addVertex ⟨0, 10⟩).addVertex ⟨-5, -5⟩).addVertex ⟨5, -5⟩).addBdry 2 0 1).addBdry 0 3 1).addBdry 3
    1 1).addBdry 1 2 1).addTri 0 1 2 1).addTri 1 0 3 1).addIntr 0 1
theorem built_dart : Built 1 dart := by
  refine Built.addEdge _ _ _ _ _ (Built.addTri _ _ _ _ (Built.addTri _ _ _ _ (Built.addEdge _ _ _ _ _ (Built.addEdge _ _ _ _ _
    (Built.addEdge _ _ _ _ _ (Built.addEdge _ _ _ _ _ ((((Built.empty.addVertex _).addVertex _).addVertex _).addVertex _)
    ?_ ?_ ?_) ?_ ?_ ?_) ?_ ?_ ?_) ?_ ?_ ?_) ?_ ?_ ?_ ?_) ?_ ?_ ?_ ?_) ?_ ?_ ?_ <;> decide
theorem dart_dir : DirUnique dart := dirUnique_of (by decide +kernel)
theorem dart_shapes : SoundShapes (1 / 1000000) dart := shapes_of (by decide +kernel)
theorem dart_intr : UniqueIntr dart := by unfold UniqueIntr; decide +kernel
theorem dart_null : NullWhereOpen dart := by
  unfold NullWhereOpen; simp only [all_live]; decide +kernel
end MCEx

/-- **C101 is violated.** A valid mesh of two counter-clockwise triangles is merged into a quad that is not
convex: the merge does not check the shape of the quad. -/
theorem C101_convex_violated : WF MCEx.dart ∧ DirUnique MCEx.dart ∧ UniqueIntr MCEx.dart ∧ SoundShapes (1 / 1000000) MCEx.dart ∧
    NullWhereOpen MCEx.dart ∧ triEdges (setupConnectivity (1 / 1000000) MCEx.dart) = [10] ∧
    ∃ u, mergeTriangles FData.color [10] (setupConnectivity (1 / 1000000) MCEx.dart) = some u ∧ u.quads = [11] ∧
      (u.F (.quad 11)).corners = [2, 0, 3, 1] ∧ area2 (u.pos 2) (u.pos 0) (u.pos 3) < 0 := by
  refine ⟨built_wf MCEx.built_dart, MCEx.dart_dir, MCEx.dart_intr, MCEx.dart_shapes, MCEx.dart_null, by decide +kernel, ?_⟩
  have h : (mergeTriangles FData.color [10] (setupConnectivity (1 / 1000000) MCEx.dart)).any (fun u =>
      decide (u.quads = [11] ∧ (u.F (.quad 11)).corners = [2, 0, 3, 1] ∧ area2 (u.pos 2) (u.pos 0) (u.pos 3) < 0)) = true := by
    decide +kernel
  obtain ⟨u, h1, h2⟩ := (Option.any_eq_true _ _).mp h
  exact ⟨u, h1, by simpa using h2⟩

/-- **C101 (partial).** The angles of a merged quad at the two corners opposite to the removed edge are convex.  (The full property fails, see `C101_convex_violated`.) -/
theorem C101_convex_partial (col : FData → Int) {eps : K} {s : St K} (h : WF s) (hd : DirUnique s) (hu : UniqueIntr s) (hc : TrisCCW s)
    (hlf : LeftFacets eps s) (hn : NullWhereOpen s) {l : List Nat} (hl : l.Perm (triEdges (setupConnectivity eps s)))
    {u : St K} (hm : mergeTriangles col l (setupConnectivity eps s) = some u) {q a b c d : Nat} (hq : q ∈ u.quads) (hq' : q ∉ s.quads)
    (hcs : (u.F (.quad q)).corners = [a, b, c, d]) :
    0 < area2 (u.pos d) (u.pos a) (u.pos b) ∧ 0 < area2 (u.pos b) (u.pos c) (u.pos d) := by
  obtain ⟨u', h1, -, -, -, -, h2, -⟩ := C51_merge col h hd hu hc hlf hn hl
  rw [hm] at h1; cases h1
  obtain ⟨new, n1, n2⟩ := h2.newQuads
  have hqn : q ∈ new := by
    rw [n1, (setup_sbp eps h).quads, List.mem_append] at hq
    exact hq.resolve_left hq'
  obtain ⟨a', b', c', d', x, y, c1, -, -, -, -, -, -, -, -, -, p1, p2, -⟩ := n2 q hqn
  rw [hcs] at c1
  simp only [List.cons.injEq, and_true] at c1
  obtain ⟨rfl, rfl, rfl, rfl⟩ := c1
  simp only [(h2.vdata _).1, area2_tri]
  have r : ∀ p q r : Pt K, St.triArea q r p = St.triArea p q r := by
    intro p q r; unfold St.triArea Pt.cross; simp only [Pt.sub_x, Pt.sub_y]; ring
  have e1 : 0 < St.triArea ((setupConnectivity eps s).pos d) ((setupConnectivity eps s).pos a) ((setupConnectivity eps s).pos b) := by
    rw [r]; exact p1
  have e2 : 0 < St.triArea ((setupConnectivity eps s).pos b) ((setupConnectivity eps s).pos c) ((setupConnectivity eps s).pos d) := by
    rw [r]; rw [r] at p2; rw [← r]; first | exact p2 | (rw [r]; exact p2) | (rw [r, r]; exact p2)
  refine ⟨by linarith, by linarith⟩

end TQ

#print axioms TQ.C51_merge
#print axioms TQ.C101_convex_violated
#print axioms TQ.C101_convex_partial

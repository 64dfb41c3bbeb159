import Verif.Whole.FileStart
import Verif.Whole.AppProps
import Verif.Config.Props

/-!
# Properties of input files and their meshes: C172 (the domain drawn), C173 (the mesh)
-/

set_option linter.unusedSectionVars false
set_option linter.unusedSimpArgs false

namespace TQ
open MS MS.St MeshSpec FUSpec MCSpec RefSpec WholeSpec Whole GN MM CK FU OutlSpec Outl FrSpec CleanSpec QL QLSpec AM AppSpec FlSpec Fl PR PRSpec Cf CfSpec
variable {K : Type} [Field K] [LinearOrder K] [IsStrictOrderedRing K]

/-! ### C172 -/

/-- **C172.** The domain built for a mesh definition is the one drawn in it: its vertices begin with those listed, with their sizes; its boundaries are, in order, the polygon and
the holes, each one closed, with the sides of the polygon counter-clockwise and those of the holes clockwise; fixed vertices and edges are those listed; its area is that of the
polygon without the holes, and its extent is not degenerate. -/
theorem C172_domain {D : DEnv K} {c : Cfg K} {d : Dm K} {b : BDef K} {bs : List (BDef K)} {ps : List (Pt K)} {hs : List (List (Pt K))}
    (H : Drawing D c b bs ps hs) (h : makeDomain D c = .ok d) :
    (∀ (i : Nat) (v : VertDef K), c.verts[i]? = some v → d.verts[i]? = some (⟨v.xy, v.s.x, v.s.y⟩ : BVert K)) ∧
    (∃ L Ls, d.bdries = (.exterior, L) :: Ls ∧ BdSpec.Loop L.edges ∧ (L.edges.map fun e => (storePos d.verts e.v1, storePos d.verts e.v2)).Perm (ring ps) ∧
      List.Forall₂ (fun L q => L.1 = .interior ∧ BdSpec.Loop L.2.edges ∧ (L.2.edges.map fun e => (storePos d.verts e.v1, storePos d.verts e.v2)).Perm ((ring q).map Prod.swap)) Ls hs) ∧
    (∀ i, d.isFixed i = true ↔ ∃ v, c.verts[i]? = some v ∧ v.fixed = true) ∧
    (∀ fs, FixedDrawn c fs → d.fixedSources.map (fun e => (e.p1, e.p2)) = fs) ∧
    Dom.area d.dom = polygonArea ps - (hs.map polygonArea).sum ∧
    (Dom.extent d.dom).1.1 ≠ (Dom.extent d.dom).1.2 ∧ (Dom.extent d.dom).2.1 ≠ (Dom.extent d.dom).2.2 := by
  obtain ⟨h1, L, Ls, e, m, ms⟩ := drawing_bdries H h
  refine ⟨?_, ⟨L, Ls, e, m.loop, by simpa using m.segs, ?_⟩, ?_, fun fs hf => fixed_drawn h H.few hf, (drawing_area H h).2, drawing_extent H h⟩
  · intro i v hv
    obtain ⟨r, hr⟩ := h1
    have hi := (List.getElem?_eq_some_iff.mp hv).1
    rw [← hr, List.getElem?_append_left (by simpa [initVerts] using hi)]
    unfold initVerts
    rw [List.getElem?_map, hv]
    rfl
  · exact ms.imp fun _ _ hm => ⟨hm.1, hm.2.loop, by simpa using hm.2.segs⟩
  · intro i
    unfold Dm.isFixed
    rw [decide_eq_true_eq, (makeDomain_ok h).2.2, List.mem_filter, List.mem_range]
    constructor
    · rintro ⟨hi, hx⟩
      rw [List.getElem?_eq_getElem hi] at hx ⊢
      exact ⟨_, rfl, by simpa using hx⟩
    · rintro ⟨v, hv, hf⟩
      exact ⟨(List.getElem?_eq_some_iff.mp hv).1, by rw [hv]; simpa using hf⟩

/-- **C172.** A table of edges is taken over row by row, with the markers. -/
theorem C172_table {D : DEnv K} {ext : K} {bt : BdryType} {st st' : List (BVert K)} {rows : List (Int × Int × Int)} {L : EList K}
    (h : makeBdry D ext bt st (.edges rows) = .ok (st', L)) :
    st' = st ∧ List.Forall₂ (fun r e => (r.1 % 2 ^ 64 : Int) = (e.v1 : Int) ∧ (r.2.1 % 2 ^ 64 : Int) = (e.v2 : Int) ∧ r.2.2 = e.color ∧ e.v1 < st.length ∧ e.v2 < st.length) rows L.edges := by
  rw [makeBdry] at h
  cases hr : addRows (badIndex bt st.length) st rows emptyBoundary with
  | error f => rw [hr] at h; cases h
  | ok L1 =>
    rw [hr] at h
    change Except.ok (st, L1) = _ at h
    simp only [Except.ok.injEq, Prod.mk.injEq] at h
    obtain ⟨rfl, rfl⟩ := h
    obtain ⟨r1, r2⟩ := addRows_ok hr
    obtain ⟨ts, e1, e2, -⟩ := runCalls_ok _ _ _ L1 rfl (by unfold AreaInv; simp [emptyBoundary, computeArea]) r2
    have e1 : ts = rows.map rowCall := by
      have := congrArg (List.map (Option.getD · (0, 0, 0))) e1
      simpa [List.map_map, Function.comp_def] using this.symm
    refine ⟨rfl, ?_⟩
    rw [e2, e1]
    simp only [emptyBoundary, List.nil_append, List.map_map]
    rw [List.forall₂_map_right_iff]
    refine List.forall₂_same.mpr fun r hr => ?_
    refine ⟨?_, ?_, rfl, r1 r hr⟩ <;>
    · show _ = ((App.toSize _ : Nat) : Int)
      unfold App.toSize
      rw [Int.toNat_of_nonneg (Int.emod_nonneg _ (by norm_num))]

/-- **C172.** The domain can be built, if no corner is listed twice, the markers are not negative, the fixed edges have a length, and the corners of shapes are in the square in which
vertices are searched. -/
theorem C172_progress_partial {D : DEnv K} {c : Cfg K} {b : BDef K} {bs : List (BDef K)} {ps : List (Pt K)} {hs : List (List (Pt K))} {fs : List (Pt K × Pt K)}
    (H : Drawing D c b bs ps hs) (C : Constructible D c ps hs fs) : ∃ d, makeDomain D c = .ok d :=
  drawing_progress H C

/-- **C172.** The mesh of a drawing is prepared successfully, if the outline is simple, no corner is listed twice and no three corners are nearly on a line; its boundary is the one
drawn. -/
theorem C172_prepared {D : DEnv K} {c : Cfg K} {d : Dm K} {b : BDef K} {bs : List (BDef K)} {ps : List (Pt K)} {hs : List (List (Pt K))}
    (H : Drawing D c b bs ps hs) (h : makeDomain D c = .ok d) (hsim : SimpleOutline (withHoles ps hs)) (hnd : ∀ q ∈ ps :: hs, q.Nodup)
    {fs : List (Pt K × Pt K)} (hf : FixedDrawn c fs) {eps : K} (he : 0 < eps) (hsh : Sharp eps (ps ++ hs.flatten))
    {sub : List (Fr.MVert K) → Fr.FEdge → Option (List (Pt K))} (hS : PartSub sub) (hsub : Divisible sub (withHoles ps hs ++ fs)) (m : Int) :
    ∃ w, prepareMesh (d.prep eps sub) (fun _ => St.empty m) 0 = .ret true w ∧ Bare (w 0) ∧ SmSpec.BdryFlagged (w 0) ∧ (w 0).area = 0 ∧
      enclosed (w 0).pos (pairs (w 0) .bdry) = polygonArea ps - (hs.map polygonArea).sum ∧
      ∀ p, winding (w 0).pos (pairs (w 0) .bdry) p = segWinding (withHoles ps hs) p := by
  obtain ⟨w, hw⟩ := drawing_prepared H h hsim hnd hf he hsh hsub m
  have hdd := drawing_data H h hsim.proper
  have hout := drawing_outline H h
  have hr : ∀ x ∈ (d.prep eps sub).refs, x.1 ≠ 0 := by intro x hx; simp [Dm.prep] at hx
  have hwf : WF ((fun _ => St.empty m : World K) 0) := wf_empty m
  obtain ⟨k1, k2⟩ := C170_simple hdd (P := d.prep eps sub) rfl hS hwf hr hw
  obtain ⟨-, -, -, -, -, -, c7, c8, -, c10, -⟩ := C115_prepared hdd (P := d.prep eps sub) rfl (partSub_line hS) hwf hr hw
  refine ⟨w, hw, prepared_bare hdd (P := d.prep eps sub) rfl (partSub_line hS) (c := m) rfl hr hw (k1 (simple_of_perm hout.symm hsim)), c8, c10,
    c7.trans (drawing_area H h).1, fun p => ?_⟩
  rw [k2, segWinding_wind, segWinding_wind, wind_perm hout]

/-! ### C173 -/

/-- **C173.** From the text of an input file to the start of the meshing: the first mesh definition of a well-written file draws a polygon with holes. Then the application builds this
domain, prepares its mesh, and meshes it. -/
theorem C173_start (E : Cf.Env K) (big : K) (file : List Line) (m : MeshText) (ms : List MeshText) (tail : List Line)
    (hc : readContent file = (m :: ms).flatMap MeshText.lines ++ tail) (ht : ∀ l ∈ tail, ¬"Define mesh:".toList <:+: l) (hm : ∀ x ∈ m :: ms, x.OK ∧ WellWritten E x.items)
    {D : DEnv K} {b : BDef K} {bs : List (BDef K)} {ps : List (Pt K)} {hs : List (List (Pt K))} {fs : List (Pt K × Pt K)}
    (H : Drawing D (described E big m.items) b bs ps hs) (C : Constructible D (described E big m.items) ps hs fs) (hsim : SimpleOutline (withHoles ps hs))
    (ha : (described E big m.items).algorithm = "Tri-to-Quad".toList ∨ (described E big m.items).algorithm = "Triangulation".toList)
    {L : LEnv K} (he : 0 < L.env.eps) (hsh : Sharp L.env.eps (ps ++ hs.flatten)) {sub : Cfg K → Dm K → List (Fr.MVert K) → Fr.FEdge → Option (List (Pt K))}
    (hS : ∀ d, makeDomain D (described E big m.items) = .ok d → PartSub (sub (described E big m.items) d) ∧ Divisible (sub (described E big m.items) d) (withHoles ps hs ++ fs)) (J : Job K) (fuel : Nat) :
    ∃ d s0, makeDomain D (described E big m.items) = .ok d ∧ Bare s0 ∧ SmSpec.BdryFlagged s0 ∧ s0.area = 0 ∧
      enclosed s0.pos (pairs s0 .bdry) = polygonArea ps - (hs.map polygonArea).sum ∧ (∀ p, winding s0.pos (pairs s0 .bdry) p = segWinding (withHoles ps hs) p) ∧
      runFirst E big D L J sub fuel file = some (match generateMesh L fuel (jobOf J (described E big m.items)) d.dom s0 with
        | .undef => .fail .ub
        | .fuel => .fuel
        | .done t => .done d s0 t) := by
  obtain ⟨d, hd⟩ := C172_progress_partial H C
  obtain ⟨w, h1, h2, h3, h4, h5, h6⟩ := C172_prepared H hd hsim C.corners C.fixed he hsh (hS d hd).1 (hS d hd).2 (described E big m.items).color
  refine ⟨d, w 0, hd, h2, h3, h4, h5, h6, ?_⟩
  unfold runFirst
  rw [C169_file_partial E big file (m :: ms) tail hc ht hm, List.map_cons]
  change some (constructFirst D L J sub fuel (described E big m.items)) = _
  unfold constructFirst
  rw [hd]
  dsimp only
  rw [h1]
  dsimp only
  rw [if_neg (fun n => ha.elim n.1 n.2)]
  generalize generateMesh L fuel (jobOf J (described E big m.items)) d.dom (w 0) = r
  cases r <;> rfl

/-- **C173.** From the text of an input file to the mesh: if the application comes to the end for such a file, and nothing got in the way of the run, the mesh covers the polygon without
the holes exactly, its areas add up to that area, and the application reports success. -/
theorem C173_mesh (E : Cf.Env K) (big : K) (file : List Line) (m : MeshText) (ms : List MeshText) (tail : List Line)
    (hc : readContent file = (m :: ms).flatMap MeshText.lines ++ tail) (ht : ∀ l ∈ tail, ¬"Define mesh:".toList <:+: l) (hm : ∀ x ∈ m :: ms, x.OK ∧ WellWritten E x.items)
    {D : DEnv K} {b : BDef K} {bs : List (BDef K)} {ps : List (Pt K)} {hs : List (List (Pt K))} {fs : List (Pt K × Pt K)}
    (H : Drawing D (described E big m.items) b bs ps hs) (C : Constructible D (described E big m.items) ps hs fs) (hsim : SimpleOutline (withHoles ps hs))
    (ha : (described E big m.items).algorithm = "Tri-to-Quad".toList ∨ (described E big m.items).algorithm = "Triangulation".toList)
    {L : LEnv K} (he : 0 < L.env.eps) (hq : QueryExact L.env) (hso : SortOK L.env) (hn : ∀ p, 0 ≤ L.env.norm p ∧ Pt.normSq p ≤ L.env.norm p * L.env.norm p)
    (hsh : Sharp L.env.eps (ps ++ hs.flatten)) {sub : Cfg K → Dm K → List (Fr.MVert K) → Fr.FEdge → Option (List (Pt K))}
    (hS : ∀ d, makeDomain D (described E big m.items) = .ok d → PartSub (sub (described E big m.items) d) ∧ Divisible (sub (described E big m.items) d) (withHoles ps hs ++ fs)) {J : Job K} {fuel : Nat}
    {d : Dm K} {s0 : St K} {T : Trace K} (h : runFirst E big D L J sub fuel file = some (.done d s0 T)) (hg : GoodRun L fuel (jobOf J (described E big m.items)) s0 T) :
    Conforming T.smoothed ∧ CoversOutline (withHoles ps hs) T.smoothed ∧ meshArea T.smoothed = polygonArea ps - (hs.map polygonArea).sum ∧
    (LeftFacets L.env.eps T.smoothed → 0 < J.thr → T.ok = true) := by
  obtain ⟨d', s', hd, h1, h2, h3, h4, h5, h6⟩ := C173_start E big file m ms tail hc ht hm H C hsim ha he hsh hS J fuel
  rw [h, Option.some.injEq] at h6
  split at h6
  · cases h6
  · cases h6
  · rename_i T' hgen
    simp only [MRes.done.injEq] at h6
    obtain ⟨rfl, rfl, rfl⟩ := h6
    obtain ⟨-, -, -, m4, m5⟩ := C161_application he hq hso hn h1 h2 h3 hgen hg.layers hg.well hg.all hg.merging hg.convex hg.unfolded
    have hb : ∀ p, winding T.smoothed.pos (pairs T.smoothed .bdry) p = segWinding (withHoles ps hs) p := fun p => by rw [m4.region, h5]
    obtain ⟨x1, x2⟩ := drawing_extent H hd
    exact ⟨m4.complete.toConforming, ⟨m4.tiled.apart, fun p x hx hp => by rw [← hb]; exact m4.tiled.within p x hx hp,
      fun p hp hg => m4.tiled.full p (by rw [hb]; exact hp) hg, hb⟩, by rw [m4.area, h4], fun hl hthr => m5 hl hthr (by rw [(drawing_area H hd).2, h4]) x1 x2⟩

/-- **C173.** For a definition with "Triangulation", without quad layers and refinements, only the triangulation has to be good; nothing has to be known of the smoothing. -/
theorem C173_triangles (E : Cf.Env K) (big : K) (file : List Line) (m : MeshText) (ms : List MeshText) (tail : List Line)
    (hc : readContent file = (m :: ms).flatMap MeshText.lines ++ tail) (ht : ∀ l ∈ tail, ¬"Define mesh:".toList <:+: l) (hm : ∀ x ∈ m :: ms, x.OK ∧ WellWritten E x.items)
    {D : DEnv K} {b : BDef K} {bs : List (BDef K)} {ps : List (Pt K)} {hs : List (List (Pt K))} {fs : List (Pt K × Pt K)}
    (H : Drawing D (described E big m.items) b bs ps hs) (C : Constructible D (described E big m.items) ps hs fs) (hsim : SimpleOutline (withHoles ps hs))
    (ha : (described E big m.items).algorithm = "Triangulation".toList) (hl : (described E big m.items).layers = []) (hr : (described E big m.items).refinements = 0)
    {L : LEnv K} (he : 0 < L.env.eps) (hq : QueryExact L.env) (hso : SortOK L.env) (hn : ∀ p, 0 ≤ L.env.norm p ∧ Pt.normSq p ≤ L.env.norm p * L.env.norm p)
    (hsh : Sharp L.env.eps (ps ++ hs.flatten)) {sub : Cfg K → Dm K → List (Fr.MVert K) → Fr.FEdge → Option (List (Pt K))}
    (hS : ∀ d, makeDomain D (described E big m.items) = .ok d → PartSub (sub (described E big m.items) d) ∧ Divisible (sub (described E big m.items) d) (withHoles ps hs ++ fs)) {J : Job K} {fuel : Nat}
    {d : Dm K} {s0 : St K} {T : Trace K} (h : runFirst E big D L J sub fuel file = some (.done d s0 T)) (hwell : MeshedWell L.env J.par 0 fuel s0)
    (hall : triangulate L.env J.par 0 fuel J.ix1 s0 = .ret true T.meshed) :
    T.smoothed.quads = [] ∧ Conforming T.smoothed ∧ CoversOutline (withHoles ps hs) T.smoothed ∧ meshArea T.smoothed = polygonArea ps - (hs.map polygonArea).sum ∧
    (LeftFacets L.env.eps T.smoothed → 0 < J.thr → T.ok = true) := by
  obtain ⟨d', s', hd, h1, h2, h3, h4, h5, h6⟩ := C173_start E big file m ms tail hc ht hm H C hsim (Or.inr ha) he hsh hS J fuel
  rw [h, Option.some.injEq] at h6
  split at h6
  · cases h6
  · cases h6
  · rename_i T' hgen
    simp only [MRes.done.injEq] at h6
    obtain ⟨rfl, rfl, rfl⟩ := h6
    have hj : (jobOf J (described E big m.items)).layers = [] ∧ (jobOf J (described E big m.items)).toQuad = false ∧ (jobOf J (described E big m.items)).refinements = 0 := by
      refine ⟨by simp [jobOf, hl], ?_, hr⟩
      show decide _ = false
      rw [ha]
      decide
    obtain ⟨m3, m4, m5⟩ := C161_triangles he hq hso hn h1 h2 h3 hgen hj hwell hall
    have hb : ∀ p, winding T.smoothed.pos (pairs T.smoothed .bdry) p = segWinding (withHoles ps hs) p := fun p => by rw [m4.region, h5]
    obtain ⟨x1, x2⟩ := drawing_extent H hd
    exact ⟨m3, m4.complete.toConforming, ⟨m4.tiled.apart, fun p x hx hp => by rw [← hb]; exact m4.tiled.within p x hx hp,
      fun p hp hg => m4.tiled.full p (by rw [hb]; exact hp) hg, hb⟩, by rw [m4.area, h4], fun hl hthr => m5 hl hthr (by rw [(drawing_area H hd).2, h4]) x1 x2⟩

/-! ### A file -/

namespace FLEx
/-- The unit square, "Tri-to-Quad" and one refinement. -/
def items : List Item := [
  .single .size "  ".toList " 1".toList,
  .single .color "  ".toList " 1".toList,
  .single .algorithm "  ".toList " Tri-to-Quad".toList,
  .single .refinements "  ".toList " 1".toList,
  .single .smoothing "  ".toList " 1".toList,
  .single .outFormat "  ".toList " VTU".toList,
  .single .outPrefix "  ".toList " a".toList,
  .single (.rect .exterior) "  ".toList " 1, 0.5, 0.5, 1, 1".toList]
def text : MeshText := ⟨[], [], [], items, "End mesh".toList⟩
def file : List Line := [
  "# unit square".toList,
  "Define mesh:".toList,
  "  Element size: 1".toList,
  "  Element color: 1".toList,
  "  Meshing algorithm: Tri-to-Quad".toList,
  "  Number of quad refinements: 1".toList,
  "  Number of smoothing iterations: 1".toList,
  "  Output file format: VTU".toList,
  "  Output file prefix: a".toList,
  "  Define exterior rectangular boundary: 1, 0.5, 0.5, 1, 1".toList,
  "End mesh".toList]
/-- Vertices are searched in the square of the domain. -/
def D : DEnv ℚ := ⟨fun ext st p => if (App.domainBox ext).has p = true then exactNearest st p else .ub, fun _ _ => ⟨0, 0⟩, 1, fun _ => none, fun _ => none, fun _ => none⟩
def unit : List (Pt ℚ) := [⟨0, 0⟩, ⟨1, 0⟩, ⟨1, 1⟩, ⟨0, 1⟩]
def sub : Cfg ℚ → Dm ℚ → List (Fr.MVert ℚ) → Fr.FEdge → Option (List (Pt ℚ)) := fun _ _ => GNEx.noSub
def J : Job ℚ := APEx.job
def res : Option (MRes ℚ) := runFirst demoEnv 1000 D FNEx.Lf J sub 20 file
def parts : Dm ℚ × St ℚ × Trace ℚ := match res with
  | some (.done d s t) => (d, s, t)
  | _ => (⟨[], [], [], ⟨false, [], 0⟩⟩, St.empty 1, ⟨St.empty 1, St.empty 1, St.empty 1, St.empty 1, St.empty 1, false⟩)

end FLEx

namespace FLEx
set_option maxRecDepth 4000 in
theorem file_ok : readContent file = [text].flatMap MeshText.lines ++ [] ∧ (∀ m ∈ [text], m.OK ∧ WellWritten demoEnv m.items) := by decide +kernel
def cfg : Cfg ℚ := ⟨"a".toList, "VTU".toList, "1".toList, 1000, [], [(.exterior, .rect 1 ⟨1 / 2, 1 / 2⟩ 1 1 ⟨-1, -1⟩)], [], [], 1, "Tri-to-Quad".toList, 1, 1, false⟩
set_option maxRecDepth 4000 in
theorem cfg_eq : described demoEnv 1000 text.items = cfg := by decide +kernel
set_option maxRecDepth 4000 in
theorem checks : parts.2.2.ok = true ∧
    (match TG.generate FUEx.env TGEx.par 0 20 (MC.startStep FUEx.env.eps parts.2.2.layered) with
      | .ret _ u _ => APEx.wellOK FUEx.env (MC.startStep FUEx.env.eps parts.2.2.layered) u
      | _ => false) = true ∧
    (match triangulate FUEx.env TGEx.par 0 20 (fun _ => 0) parts.2.2.layered with
      | .ret ok _ => ok
      | _ => false) = true ∧
    (facets parts.2.2.meshed).all (shapeOK FUEx.env.eps parts.2.2.meshed) = true ∧ (facets parts.2.2.smoothed).all (shapeOK FUEx.env.eps parts.2.2.smoothed) = true ∧
    (facets parts.2.2.modified).all (shapeOK 0 parts.2.2.modified) = true ∧
    (parts.2.2.smoothed.quads.all fun q => match (parts.2.2.smoothed.F (.quad q)).corners with
      | [a, b, c, d] => decide (0 < side (parts.2.2.smoothed.pos a) (parts.2.2.smoothed.pos b) (parts.2.2.smoothed.pos c)) &&
        decide (0 < side (parts.2.2.smoothed.pos c) (parts.2.2.smoothed.pos d) (parts.2.2.smoothed.pos a))
      | _ => false) = true ∧ parts.2.2.meshed.tris.length = 2 ∧ parts.2.2.smoothed.quads.length = 4 := by decide +kernel
theorem res_eq : res = some (.done parts.1 parts.2.1 parts.2.2) := by
  have h := checks.1
  unfold parts at h ⊢
  generalize res = r at h ⊢
  match r, h with
  | some (.done d s t), _ => rfl
  | none, h => exact absurd h Bool.false_ne_true
  | some (.fail _), h => exact absurd h Bool.false_ne_true
  | some .fuel, h => exact absurd h Bool.false_ne_true
theorem run_eq : runFirst demoEnv 1000 D FNEx.Lf J sub 20 file = some (.done parts.1 parts.2.1 parts.2.2) := res_eq
attribute [irreducible] parts
theorem rect_eq : rectangle (⟨1 / 2, 1 / 2⟩ : Pt ℚ) 1 1 = unit := by decide +kernel
theorem drawing : Drawing D cfg (.rect 1 ⟨1 / 2, 1 / 2⟩ 1 1 ⟨-1, -1⟩) [] unit [] where
  bdries := rfl
  outer := .shape (.rect _ _ _ _ _) (Or.inl rect_eq)
  holes := .nil
  ccw := by intro q hq; rw [List.mem_singleton] at hq; subst hq; decide +kernel
  few := by decide
theorem constructible : Constructible D cfg unit [] [] where
  corners := by intro q hq; rw [List.mem_singleton] at hq; subst hq; decide +kernel
  markers := by decide +kernel
  fixed := .nil
  proper := by simp
  search := by
    intro b hb q hw p hp st
    rw [show cfg.bdries = [(.exterior, .rect 1 ⟨1 / 2, 1 / 2⟩ 1 1 ⟨-1, -1⟩)] from rfl, List.mem_singleton] at hb
    subst hb
    cases hw
    rw [rect_eq] at hp
    have : ∀ p ∈ unit, (App.domainBox (1000 : ℚ)).has p = true := by decide +kernel
    exact ⟨_, if_pos (this p hp)⟩
theorem simple : SimpleOutline (withHoles unit []) := by
  have := convex_simple (Sh.convex_rect (K := ℚ) (x0 := 0) (x1 := 1) (y0 := 0) (y1 := 1) (by norm_num))
  simpa [withHoles, unit] using this
theorem sharp : Sharp (1 / 1000) unit := by unfold Sharp; decide +kernel
theorem divisible (ss : List (Pt ℚ × Pt ℚ)) : Divisible GNEx.noSub ss := fun _ _ _ => ⟨_, rfl⟩
theorem well : MeshedWell FUEx.env TGEx.par 0 20 parts.2.2.layered := by
  intro ok u c hg
  have key := checks.2.1
  rw [hg] at key
  exact APEx.well_of key
theorem start : Bare parts.2.1 ∧ SmSpec.BdryFlagged parts.2.1 ∧
    triangulate FUEx.env TGEx.par 0 20 (fun _ => 0) parts.2.2.layered = .ret true parts.2.2.meshed ∧ parts.2.2.layered = parts.2.1 := by
  have e := cfg_eq
  obtain ⟨d', s', hd, h1, h2, h3, h4, h5, h6⟩ := C173_start demoEnv 1000 file text [] [] file_ok.1 (by simp) file_ok.2
    (by rw [e]; exact drawing) (by rw [e]; exact constructible) simple (by rw [e]; exact Or.inl rfl) (L := FNEx.Lf) FUEx.epsPos sharp (sub := sub)
    (fun _ _ => ⟨OutlEx.noSub_part, divisible _⟩) J 20
  have h6 := run_eq.symm.trans h6
  rw [Option.some.injEq] at h6
  split at h6
  · cases h6
  · cases h6
  · rename_i T' hgen
    simp only [MRes.done.injEq] at h6
    obtain ⟨-, e2, h6⟩ := h6
    rw [← h6, ← e2] at hgen
    rw [← e2] at h1 h2
    obtain ⟨h0, ⟨ok, h7⟩, -⟩ := generateMesh_steps hgen
    have h0 : some parts.2.1 = some parts.2.2.layered := by
      rw [e] at h0
      exact h0
    have h7 : triangulate FUEx.env TGEx.par 0 20 (fun _ => 0) parts.2.2.layered = .ret ok parts.2.2.meshed := h7
    have key := checks.2.2.1
    refine ⟨h1, h2, ?_, (Option.some.inj h0).symm⟩
    rw [h7] at key ⊢
    obtain rfl : ok = true := key
    rfl
theorem meshed_wf : WF parts.2.2.meshed := by
  obtain ⟨h1, h2, h3, h4⟩ := start
  have h5 := well
  rw [h4] at h3 h5
  exact (C160_complete (L := FNEx.Lf) FUEx.epsPos FUEx.exact FUEx.sortOK FUEx.norm_ok h1 h2 .prepared h5 h3).1.complete.wf
theorem meshed_shapes : SoundShapes FUEx.env.eps parts.2.2.meshed := shapes_of checks.2.2.2.1
theorem smoothed_shapes : SoundShapes FUEx.env.eps parts.2.2.smoothed := shapes_of checks.2.2.2.2.1
theorem modified_convex : ConvexElements parts.2.2.modified := SMEx.convex_of checks.2.2.2.2.2.1
theorem smoothed_unfolded : Unfolded parts.2.2.smoothed := APEx.unfolded_of checks.2.2.2.2.2.2.1
theorem good : GoodRun FNEx.Lf 20 (jobOf J cfg) parts.2.1 parts.2.2 where
  layers := trivial
  well := well
  all := start.2.2.1
  merging := fun _ => ⟨C48_left_geometry meshed_wf meshed_shapes, List.Perm.refl _⟩
  convex := Or.inr modified_convex
  unfolded := smoothed_unfolded
theorem unit_area : polygonArea unit - (([] : List (List (Pt ℚ))).map polygonArea).sum = 1 := by decide +kernel
theorem thr_pos : 0 < J.thr := by decide +kernel
end FLEx

/-- The file of the unit square: two triangles, one quad, four quads; they cover the square, and the application reports success. -/
example : CoversOutline (withHoles FLEx.unit []) FLEx.parts.2.2.smoothed ∧ meshArea FLEx.parts.2.2.smoothed = 1 ∧ FLEx.parts.2.2.ok = true ∧
    FLEx.parts.2.2.meshed.tris.length = 2 ∧ FLEx.parts.2.2.smoothed.quads.length = 4 := by
  have e : described demoEnv 1000 FLEx.text.items = FLEx.cfg := FLEx.cfg_eq
  obtain ⟨k1, k2, k3, k4⟩ := C173_mesh demoEnv 1000 FLEx.file FLEx.text [] [] FLEx.file_ok.1 (by simp) FLEx.file_ok.2
      (by rw [e]; exact FLEx.drawing) (by rw [e]; exact FLEx.constructible) FLEx.simple (by rw [e]; exact Or.inl rfl) (L := FNEx.Lf) FUEx.epsPos FUEx.exact FUEx.sortOK FUEx.norm_ok FLEx.sharp (sub := FLEx.sub)
      (fun _ _ => ⟨OutlEx.noSub_part, FLEx.divisible _⟩) FLEx.run_eq (by rw [e]; exact FLEx.good)
  exact ⟨k2, k3.trans FLEx.unit_area, k4 (C48_left_geometry k1.wf FLEx.smoothed_shapes) FLEx.thr_pos, FLEx.checks.2.2.2.2.2.2.2⟩

/-! ### Drawings -/

namespace FLEx
/-- A table with the outer boundary, a square hole, a fixed vertex and a fixed edge. -/
def plate : Cfg ℚ where
  outPrefix := "a".toList
  outFormat := "VTU".toList
  size := "1".toList
  extent := 147 / 10
  verts := [⟨⟨0, 0⟩, ⟨-1, -1⟩, false⟩, ⟨⟨7, 0⟩, ⟨1, 2⟩, false⟩, ⟨⟨7, 7⟩, ⟨-1, -1⟩, false⟩, ⟨⟨0, 7⟩, ⟨-1, -1⟩, false⟩, ⟨⟨5, 5⟩, ⟨-1, -1⟩, true⟩, ⟨⟨5, 6⟩, ⟨-1, -1⟩, true⟩]
  bdries := [(.exterior, .edges [(0, 1, 1), (1, 2, 2), (2, 3, 3), (3, 0, 4)]), (.interior, .square 5 ⟨2, 2⟩ 2 ⟨-1, -1⟩)]
  fixedEdges := [[(4, 5)]]
  layers := []
  color := 0
  algorithm := "Triangulation".toList
  refinements := 0
  smoothing := 2
  smoothLayers := false
def outer : List (Pt ℚ) := [⟨0, 0⟩, ⟨7, 0⟩, ⟨7, 7⟩, ⟨0, 7⟩]
def hole : List (Pt ℚ) := [⟨1, 1⟩, ⟨3, 1⟩, ⟨3, 3⟩, ⟨1, 3⟩]
theorem hole_eq : rectangle (⟨2, 2⟩ : Pt ℚ) 2 2 = hole := by decide +kernel
theorem plate_drawing : Drawing D plate (.edges [(0, 1, 1), (1, 2, 2), (2, 3, 3), (3, 0, 4)]) [.square 5 ⟨2, 2⟩ 2 ⟨-1, -1⟩] outer [hole] where
  bdries := rfl
  outer := .edges [0, 1, 2, 3] rfl rfl (.cons rfl (.cons rfl (.cons rfl (.cons rfl .nil))))
  holes := .cons (.shape (.square _ _ _ _) (Or.inl hole_eq)) .nil
  ccw := by decide +kernel
  few := by decide
theorem plate_constructible : Constructible D plate outer [hole] [(⟨5, 5⟩, ⟨5, 6⟩)] where
  corners := by decide +kernel
  markers := by decide +kernel
  fixed := .cons ⟨4, 5, rfl, rfl, rfl⟩ .nil
  proper := by decide +kernel
  search := by
    intro b hb q hw p hp st
    rw [show plate.bdries = [(.exterior, .edges [(0, 1, 1), (1, 2, 2), (2, 3, 3), (3, 0, 4)]), (.interior, .square 5 ⟨2, 2⟩ 2 ⟨-1, -1⟩)] from rfl, List.mem_pair] at hb
    rcases hb with rfl | rfl
    · cases hw
    · cases hw
      rw [hole_eq] at hp
      have : ∀ p ∈ hole, (App.domainBox (147 / 10 : ℚ)).has p = true := by decide +kernel
      exact ⟨_, if_pos (this p hp)⟩
theorem plate_simple : SimpleOutline (withHoles outer [hole]) := by
  refine holes_simple ⟨Sh.convex_rect (by norm_num), ?_, ?_, List.pairwise_singleton _ _⟩
  · intro q hq
    rw [List.mem_singleton] at hq
    subst hq
    exact Sh.convex_rect (by norm_num)
  · unfold LeftOfAll; decide +kernel
theorem plate_sharp : Sharp (1 / 1000) (outer ++ [hole].flatten) := by unfold Sharp; decide +kernel

/-- A small hole by a table, in a large square. -/
def wide : Cfg ℚ where
  outPrefix := "a".toList
  outFormat := "VTU".toList
  size := "4".toList
  extent := 21 / 5
  verts := [⟨⟨1, 1⟩, ⟨-1, -1⟩, false⟩, ⟨⟨2, 1⟩, ⟨-1, -1⟩, false⟩, ⟨⟨1, 2⟩, ⟨-1, -1⟩, false⟩]
  bdries := [(.exterior, .square 1 ⟨0, 0⟩ 10 ⟨-1, -1⟩), (.interior, .edges [(0, 2, 2), (2, 1, 2), (1, 0, 2)])]
  fixedEdges := []
  layers := []
  color := 0
  algorithm := "Triangulation".toList
  refinements := 0
  smoothing := 2
  smoothLayers := false
end FLEx

set_option maxRecDepth 4000 in
/-- **C172**, negation: a square of side 10 with a triangular hole given by a table of vertices. The tree in which vertices are searched is made for the vertices of the table, and the corners of the square
are outside of it: undefined behaviour (`TQ.C06_outside_ub_violated`). Without the table, everything is inside. -/
theorem C172_extent_violated :
    (readFile demoEnv 1000 (demoWith ["Define boundary vertices:".toList, "1, 1".toList, "2, 1".toList, "1, 2".toList, "End boundary vertices".toList,
      "Define exterior squared boundary: 1, 0, 0, 10".toList,
      "Define interior boundary edges:".toList, "0, 2, 2".toList, "2, 1, 2".toList, "1, 0, 2".toList, "End interior boundary edges".toList])).toOption = some [FLEx.wide] ∧
    Drawing FLEx.D FLEx.wide (.square 1 ⟨0, 0⟩ 10 ⟨-1, -1⟩) [.edges [(0, 2, 2), (2, 1, 2), (1, 0, 2)]] [⟨-5, -5⟩, ⟨5, -5⟩, ⟨5, 5⟩, ⟨-5, 5⟩] [[⟨2, 1⟩, ⟨1, 2⟩, ⟨1, 1⟩]] ∧
    (App.domainBox FLEx.wide.extent).has ⟨-5, -5⟩ = false ∧ makeDomain FLEx.D FLEx.wide = .error .ub := by
  refine ⟨by decide +kernel, ⟨rfl, .shape (.square _ _ _ _) (Or.inl (by decide +kernel)), ?_, by decide +kernel, by decide⟩, by decide +kernel, ?_⟩
  · refine .cons (.edges [0, 2, 1] rfl rfl ?_) .nil
    exact .cons rfl (.cons rfl (.cons rfl .nil))
  · have : (match makeDomain FLEx.D FLEx.wide with | .error .ub => true | _ => false) = true := by decide +kernel
    revert this
    rcases makeDomain FLEx.D FLEx.wide with (_ | _ | _) | _ <;> simp

set_option maxRecDepth 4000 in
/-- **C172**, negation: an exterior circle with two corners is accepted; the boundary is left empty without notice, and the preparation of the mesh is undefined. -/
theorem C172_circle_violated :
    ∃ c d, (readFile demoEnv 1000 (demoWith ["Define exterior circular boundary: 1, 0, 0, 1, 2".toList])).toOption = some [c] ∧ makeDomain FLEx.D c = .ok d ∧
      d.bdries.map (fun b => b.2.edges) = [[]] ∧ (match constructFirst FLEx.D FNEx.Lf FLEx.J FLEx.sub 20 c with | .fail .ub => true | _ => false) = true := by
  refine ⟨⟨"a".toList, "VTU".toList, "4".toList, 1000, [], [(.exterior, .circ 1 ⟨0, 0⟩ 1 2 ⟨-1, -1⟩)], [], [], 0, "Triangulation".toList, 0, 2, false⟩,
    ⟨[], [(.exterior, emptyBoundary)], [], ⟨false, [], 0⟩⟩, by decide +kernel, rfl, rfl, by decide +kernel⟩

set_option maxRecDepth 4000 in
/-- **C172**, negation: an edge of the exterior boundary to the vertex 3 of 3 vertices (0, 1, 2) is not refused with an error message, as it is for interior boundaries, but fails in the container. -/
theorem C172_index_violated :
    makeBdry FLEx.D 1000 .exterior [(⟨⟨0, 0⟩, 0, 0⟩ : BVert ℚ), ⟨⟨1, 0⟩, 0, 0⟩, ⟨⟨0, 1⟩, 0, 0⟩] (.edges [(0, 1, 1), (1, 3, 1), (3, 0, 1)]) = .error .abort ∧
    makeBdry FLEx.D 1000 .interior [(⟨⟨0, 0⟩, 0, 0⟩ : BVert ℚ), ⟨⟨1, 0⟩, 0, 0⟩, ⟨⟨0, 1⟩, 0, 0⟩] (.edges [(0, 1, 1), (1, 3, 1), (3, 0, 1)]) = .error .error := ⟨rfl, rfl⟩

/-- The plate: vertices with sizes, boundaries, the fixed edge and the area. -/
example : ∃ d, makeDomain FLEx.D FLEx.plate = .ok d ∧ d.verts[1]? = some ⟨⟨7, 0⟩, 1, 2⟩ ∧ d.isFixed 4 = true ∧ Dom.area d.dom = 45 ∧
    d.fixedSources.map (fun e => (e.p1, e.p2)) = [(⟨5, 5⟩, ⟨5, 6⟩)] := by
  obtain ⟨d, hd⟩ := C172_progress_partial FLEx.plate_drawing FLEx.plate_constructible
  obtain ⟨h1, -, h3, h4, h5, -⟩ := C172_domain FLEx.plate_drawing hd
  exact ⟨d, hd, h1 1 _ rfl, (h3 4).mpr ⟨_, rfl, rfl⟩, h5.trans (by decide +kernel), h4 _ FLEx.plate_constructible.fixed⟩

/-- The mesh of the plate is prepared; a point in the hole is outside. -/
example : ∃ d w, makeDomain FLEx.D FLEx.plate = .ok d ∧ prepareMesh (d.prep (1 / 1000) GNEx.noSub) (fun _ => St.empty 0) 0 = .ret true w ∧
    enclosed (w 0).pos (pairs (w 0) .bdry) = 45 ∧ winding (w 0).pos (pairs (w 0) .bdry) ⟨2, 2⟩ = 0 ∧ winding (w 0).pos (pairs (w 0) .bdry) ⟨5, 2⟩ = 1 := by
  obtain ⟨d, hd⟩ := C172_progress_partial FLEx.plate_drawing FLEx.plate_constructible
  obtain ⟨w, h1, -, -, -, h5, h6⟩ := C172_prepared FLEx.plate_drawing hd FLEx.plate_simple FLEx.plate_constructible.corners FLEx.plate_constructible.fixed
    (by norm_num) FLEx.plate_sharp OutlEx.noSub_part (FLEx.divisible _) 0
  exact ⟨d, w, hd, h1, h5.trans (by decide +kernel), (h6 _).trans (by decide +kernel), (h6 _).trans (by decide +kernel)⟩

/-- A table. -/
example : ∃ r, makeBdry FLEx.D 1000 .exterior [(⟨⟨0, 0⟩, 0, 0⟩ : BVert ℚ), ⟨⟨1, 0⟩, 0, 0⟩, ⟨⟨0, 1⟩, 0, 0⟩] (.edges [(0, 1, 1), (1, 2, 2), (2, 0, 3)]) = .ok r := ⟨_, rfl⟩

set_option maxRecDepth 4000 in
/-- "Triangulation": the same file without the lines for the algorithm and the refinements. -/
example : ∃ file m, readContent file = [m].flatMap MeshText.lines ++ [] ∧ (described demoEnv 1000 m.items).algorithm = "Triangulation".toList ∧
    (described demoEnv 1000 m.items).layers = [] ∧ (described demoEnv 1000 m.items).refinements = 0 ∧
    (match runFirst demoEnv 1000 FLEx.D FNEx.Lf FLEx.J FLEx.sub 20 file with
      | some (.done _ _ t) => t.ok && decide (t.smoothed.tris.length = 2)
      | _ => false) = true := by
  refine ⟨demoWith ["  Element color: 1".toList, "  Define exterior rectangular boundary: 1, 0.5, 0.5, 1, 1".toList],
    ⟨[], [], [], [.single .size "  ".toList " 4".toList, .single .outFormat "  ".toList " VTU".toList, .single .outPrefix "  ".toList " a".toList,
      .single .color "  ".toList " 1".toList, .single (.rect .exterior) "  ".toList " 1, 0.5, 0.5, 1, 1".toList], "End mesh".toList⟩, ?_, ?_, ?_, ?_, ?_⟩ <;> decide +kernel

end TQ

#print axioms TQ.C172_domain
#print axioms TQ.C172_table
#print axioms TQ.C172_progress_partial
#print axioms TQ.C172_prepared
#print axioms TQ.C173_start
#print axioms TQ.C173_mesh
#print axioms TQ.C173_triangles
#print axioms TQ.C172_extent_violated
#print axioms TQ.C172_circle_violated
#print axioms TQ.C172_index_violated

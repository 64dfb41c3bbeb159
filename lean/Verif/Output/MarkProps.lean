import Verif.Output.TxtProps
import Verif.Output.MarkSpec
import Verif.Whole.KeptProps
import Verif.Whole.BdryProps
import Verif.Whole.ColourProps
import Verif.Whole.SeveralExample

/-! # C190: the markers and colours in the exported files are those of the input file -/

set_option linter.unusedSectionVars false

namespace TQ
open QL MS MeshSpec MCSpec MC MS.St FUSpec WholeSpec RefSpec CleanSpec Whole QLSpec SmSpec Sm MM MergeSpec CK FU AM AppSpec OutlSpec Outl SevSpec FlSpec Cf CfSpec Fl PR PRSpec TQ.Sev VT VTSpec OutSpec Out

namespace Out

/-- The boundary edges and vertices as they are read from the text file. -/
theorem text_rows (W : WEnv) {eps : ℚ} (id : Int) (twin : Nat × Nat → Int × Int) {s : St ℚ} (h : Conforming s) (hl : LeftFacets eps s)
    (hn : NbrLen s) (hf : FreshPointers s) :
    ∃ ss pts, readTxt (writeTxt W eps id twin s) = some (id, ss) ∧ decRows "VERTICES".toList ss = some pts ∧ (∀ v ∈ s.verts, NearNo pts (vNo s v) (s.pos v)) ∧
      intRows "BOUNDARYEDGES".toList ss = some ((s.es .bdry).map fun e => [vNo s (s.E e).v1, vNo s (s.E e).v2, fNo s ((setupConnectivity eps s).E e).fl, (s.E e).color]) := by
  have hw := h.wf
  obtain ⟨p1, p2, p3, p4⟩ := pointers h hl hn hf
  set s' := setupConnectivity eps s with hs'
  have sbp := setup_sbp eps hw
  rw [← hs'] at sbp
  have live : ∀ f, Live s' f ↔ Live s f := fun f => by cases f <;> simp [Live, sbp.tris, sbp.quads]
  have nn : ∀ f, Live s f → f ≠ .null := by rintro f hf rfl; exact hf
  have hptr : PtrLive s' := by
    refine ⟨fun e he => ?_, fun f hf' g hg => ?_⟩
    · rw [sbp.es] at he
      rw [live, live, sbp.es]
      rcases List.mem_append.mp he with he | he
      · exact ⟨Or.inr (p1 e he).1.1, fun _ => Or.inr (p1 e he).2.1⟩
      · exact ⟨Or.inr (p2 e he).1, fun hi => Or.inr (p1 e hi).2.1⟩
    · rw [live] at hf' ⊢
      obtain ⟨i, hi, hgi⟩ := List.getElem_of_mem hg
      have hlen : (s'.F f).nbrs.length = (s.F f).corners.length := by rw [p3 f ((live f).mpr hf'), (sbp.corners f).1]
      rw [hlen] at hi
      obtain ⟨v, w, hs⟩ := sideAt_some hi
      rcases p4 f hf' i v w g hi hs (by rw [← hgi]; exact List.getElem?_eq_getElem _) with ⟨k, -⟩ | ⟨k, -⟩
      · exact Or.inr k
      · exact Or.inl k
  obtain ⟨ss, h1, ⟨pts, h2, -, h3⟩, -, h4, -⟩ := C125_read_back W eps id twin hw hs' hptr p3
  have f2 : (s.es .bdry).filter (fun e => decide ((s'.E e).fl ≠ .null)) = s.es .bdry :=
    List.filter_eq_self.mpr fun e he => by simp [nn _ (p2 e he).1]
  rw [f2] at h4
  refine ⟨ss, pts, h1, h2, fun v hv => ?_, h4⟩
  obtain ⟨x, y, k1, k2, k3⟩ := h3 (no s v) v (no_get hv)
  exact ⟨by rw [vNo_eq]; exact Int.natCast_nonneg _, x, y, by rw [vNo_eq, Int.toNat_natCast]; exact k1, k2, k3⟩

/-- The exact places of the points in the file. -/
def places (s : St ℚ) : List (Pt ℚ) := s.verts.map s.pos

theorem places_no {s : St ℚ} {v : Nat} (hv : v ∈ s.verts) : place (places s) (no s v) = s.pos v := by
  unfold OutSpec.place places
  rw [List.getD_eq_getElem?_getD, List.getElem?_map, no_get hv]; rfl

theorem cut_places {s : St ℚ} (h : WF s) {f : FRef} (hf : Live s f) :
    cut (place (places s)) ((s.F f).corners.map (no s)) = (halves s.pos f (s.F f).corners).map (no3 s) := by
  have hc := (h.cor f hf).2
  rcases corners_cases h hf with ⟨a, b, c, e⟩ | ⟨a, b, c, d, e⟩
  · rw [e]; rfl
  · rw [e] at hc ⊢
    simp only [List.map_cons, List.map_nil, OutSpec.cut, halves]
    rw [places_no (hc a (by simp)), places_no (hc b (by simp)), places_no (hc c (by simp)), places_no (hc d (by simp))]
    split_ifs <;> rfl

theorem places_piece {s : St ℚ} (h : WF s) {x : FRef × Nat × Nat × Nat} (hx : x ∈ WholeSpec.pieces s) :
    place (places s) (no3 s x).1 = s.pos x.2.1 ∧ place (places s) (no3 s x).2.1 = s.pos x.2.2.1 ∧ place (places s) (no3 s x).2.2 = s.pos x.2.2.2 := by
  obtain ⟨h1, h2⟩ := mem_pieces.mp hx
  have hc := (h.cor x.1 h1).2
  obtain ⟨a, b, c⟩ := halves_mem h2
  exact ⟨places_no (hc _ a), places_no (hc _ b), places_no (hc _ c)⟩

theorem halves_facet {x : Nat → Pt ℚ} {f : FRef} {l : List Nat} {r : FRef × Nat × Nat × Nat} (h : r ∈ halves x f l) : r.1 = f := by
  unfold halves at h
  split at h
  · simp only [List.mem_singleton] at h; rw [h]
  · split_ifs at h <;> simp only [List.mem_cons, List.not_mem_nil, or_false] at h <;> rcases h with h | h <;> rw [h]
  · simp at h

theorem text_marked (W : WEnv) {eps : ℚ} (id : Int) (twin : Nat × Nat → Int × Int) {D : DEnv ℚ} {xs : List (Drawn ℚ)} {s : St ℚ} (h : Conforming s) (hl : LeftFacets eps s)
    (hn : NbrLen s) (hf : FreshPointers s) (hm : MarkedAs D xs s) (hk : SidesKept D xs s) : TextMarked D xs (writeTxt W eps id twin s) := by
  obtain ⟨ss, pts, h1, h2, h3, h4⟩ := text_rows W id twin h hl hn hf
  have ev : ∀ e ∈ s.es .bdry, (s.E e).v1 ∈ s.verts ∧ (s.E e).v2 ∈ s.verts := fun e he => by
    obtain ⟨-, a, b, -⟩ := (h.wf.ends .bdry).2 e he
    exact ⟨a, b⟩
  refine ⟨id, ss, pts, _, h1, h2, h4, fun r hr => ?_, fun l x l' hs b hb p q m hd z hz => ?_⟩
  · obtain ⟨e, he, rfl⟩ := List.mem_map.mp hr
    obtain ⟨x, hx, b, hb, p, q, g1, g2, g3⟩ := hm e he
    exact ⟨_, _, _, _, rfl, x, hx, b, hb, p, q, g1, _, _, g2, g3, h3 _ (ev e he).1, h3 _ (ev e he).2⟩
  · rcases hk l x l' hs b hb p q m hd z hz with k | ⟨e, he, rfl, k⟩
    · exact Or.inl k
    · exact Or.inr ⟨_, _, _, _, _, List.mem_map.mpr ⟨e, he, rfl⟩, h3 _ (ev e he).1, h3 _ (ev e he).2, k⟩

theorem cells_coloured {W : WEnv} (hW : ∀ x, Clean (W.show6 x)) (eps : ℚ) {xs : List (Drawn ℚ)} {s : St ℚ} (h : WF s) (hc : ColouredAs xs s) :
    ∃ t, writeVtu W eps s = some t ∧ CellsColoured xs t := by
  obtain ⟨t, h1, h2⟩ := written hW eps h
  obtain ⟨t', h3, h4, -⟩ := C66_data hW eps h
  rw [h1] at h3
  obtain rfl := Option.some.inj h3
  refine ⟨t, h1, _, _, _, places s, h2, h4, by simp [rows], by simp [places, points], fun i hi => ?_, ?_, ?_⟩
  · have hi' : i < s.verts.length := by simpa [points] using hi
    have e1 : place (points s) i = (rounded s).pos s.verts[i] := by
      unfold OutSpec.place points; rw [List.getD_eq_getElem?_getD, List.getElem?_map, List.getElem?_eq_getElem hi']; rfl
    have e2 : place (places s) i = s.pos s.verts[i] := by
      unfold OutSpec.place places; rw [List.getD_eq_getElem?_getD, List.getElem?_map, List.getElem?_eq_getElem hi']; rfl
    rw [e1, e2]
    exact ⟨dec5_near _, dec5_near _⟩
  · intro k c m hk hm r hr p hp
    unfold rows at hk
    rw [List.getElem?_map] at hk hm
    obtain ⟨f, hf, rfl⟩ := Option.map_eq_some_iff.mp hk
    rw [hf] at hm
    obtain rfl := Option.some.inj hm
    have hlv := elem_live.mp (List.mem_of_getElem? hf)
    rw [cut_places h hlv] at hr
    obtain ⟨x, hx, rfl⟩ := List.mem_map.mp hr
    have hxf := halves_facet hx
    have hxp : x ∈ WholeSpec.pieces s := mem_pieces.mpr (by rw [hxf]; exact ⟨hlv, hx⟩)
    obtain ⟨e1, e2, e3⟩ := places_piece h hxp
    obtain ⟨d, d1, d2, d3⟩ := hc.within p x hxp (by
      unfold Inside at hp
      rw [e1, e2, e3] at hp
      exact hp)
    exact ⟨d, d1, by rw [← d2, hxf], d3⟩
  · intro d hd p hp hg
    obtain ⟨x, hx, hi, hcol⟩ := hc.full d hd p hp fun x hx => by
      obtain ⟨e1, e2, e3⟩ := places_piece h hx
      obtain ⟨k1, k2⟩ := mem_pieces.mp hx
      have := hg (no3 s x) (by
        unfold triangles rows
        rw [List.flatMap_map]
        refine List.mem_flatMap.mpr ⟨x.1, elem_live.mpr k1, ?_⟩
        rw [cut_places h k1]
        exact List.mem_map.mpr ⟨x, k2, rfl⟩)
      rw [e1, e2, e3] at this
      exact this
    obtain ⟨e1, e2, e3⟩ := places_piece h hx
    obtain ⟨k1, k2⟩ := mem_pieces.mp hx
    obtain ⟨k, hk, hke⟩ := List.getElem_of_mem (elem_live.mpr k1)
    have hget : (s.quads.map FRef.quad ++ s.tris.map FRef.tri)[k]? = some x.1 := by rw [List.getElem?_eq_getElem hk, hke]
    refine ⟨k, (s.F x.1).corners.map (no s), by unfold rows; rw [List.getElem?_map, hget]; rfl, by rw [List.getElem?_map, hget]; exact congrArg some hcol, no3 s x, ?_, ?_⟩
    · rw [cut_places h k1]; exact List.mem_map.mpr ⟨x, k2, rfl⟩
    · unfold Inside; rw [e1, e2, e3]; exact hi

end Out

/-- **C190.** The application reads the input file, meshes its definitions, and the text file of the final mesh shows the drawing: each of its boundary edges lies on a side drawn in the
input file and has the marker written there, and each drawn side that is not shared with another definition is found with its marker. -/
theorem C190_text (E : Cf.Env ℚ) (big : ℚ) (file : List Line) (ms : List MeshText) (tail : List Line)
    (hc : readContent file = ms.flatMap MeshText.lines ++ tail) (ht : ∀ l ∈ tail, ¬"Define mesh:".toList <:+: l) (hm : ∀ x ∈ ms, x.OK ∧ WellWritten E x.items)
    {D : DEnv ℚ} {L : LEnv ℚ} (he : 0 < L.env.eps) (hq : QueryExact L.env) (hso : SortOK L.env)
    (hn : ∀ p, 0 ≤ L.env.norm p ∧ Pt.normSq p ≤ L.env.norm p * L.env.norm p) {J : Job ℚ}
    {sub : Cfg ℚ → Dm ℚ → List (Fr.MVert ℚ) → Fr.FEdge → Option (List (Pt ℚ))} {fuel : Nat} {xs : List (Drawn ℚ)} (hx : xs.map Drawn.cfg = ms.map fun m => described E big m.items)
    {w : World ℚ} {a : Nat} {ok : Bool} (h : GoodRuns D L J sub fuel xs.reverse w a ok) (hal : ∀ m ∈ ms, ∀ b ∈ (described E big m.items).bdries, Aligned D b)
    (W : WEnv) (id : Int) (twin : Nat × Nat → Int × Int) (hg : SoundShapes L.env.eps (w a)) :
    runAll E big D L J sub fuel file = some (.done w a ok) ∧ TextMarked D xs (writeTxt W L.env.eps id twin (w a)) := by
  obtain ⟨h1, h2⟩ := C188_file E big file ms tail hc ht hm he hq hso hn hx h hal
  have hk := (C189_file E big file ms tail hc ht hm he hq hso hn hx h hal).2
  have m := (goodRuns_mesh he hq hso hn h).1
  exact ⟨h1, text_marked W id twin m.complete.toConforming (C48_left_geometry m.complete.wf hg) m.len m.fresh h2 hk⟩

/-- **C190.** The VTU file of the final mesh shows the regions of the definitions in their colours. -/
theorem C190_vtu (E : Cf.Env ℚ) (big : ℚ) (file : List Line) (ms : List MeshText) (tail : List Line)
    (hc : readContent file = ms.flatMap MeshText.lines ++ tail) (ht : ∀ l ∈ tail, ¬"Define mesh:".toList <:+: l) (hm : ∀ x ∈ ms, x.OK ∧ WellWritten E x.items)
    {D : DEnv ℚ} {L : LEnv ℚ} (he : 0 < L.env.eps) (hq : QueryExact L.env) (hso : SortOK L.env)
    (hn : ∀ p, 0 ≤ L.env.norm p ∧ Pt.normSq p ≤ L.env.norm p * L.env.norm p) {J : Job ℚ}
    {sub : Cfg ℚ → Dm ℚ → List (Fr.MVert ℚ) → Fr.FEdge → Option (List (Pt ℚ))} {fuel : Nat} {xs : List (Drawn ℚ)} (hx : xs.map Drawn.cfg = ms.map fun m => described E big m.items)
    {w : World ℚ} {a : Nat} {ok : Bool} (h : GoodRuns D L J sub fuel xs.reverse w a ok) (hcol : ∀ m ∈ ms, 0 ≤ (described E big m.items).color)
    {W : WEnv} (hW : ∀ x, Clean (W.show6 x)) :
    runAll E big D L J sub fuel file = some (.done w a ok) ∧ ∃ t, writeVtu W L.env.eps (w a) = some t ∧ CellsColoured xs t := by
  obtain ⟨h1, h2⟩ := C187_file E big file ms tail hc ht hm he hq hso hn hx h hcol
  exact ⟨h1, cells_coloured hW _ (goodRuns_mesh he hq hso hn h).1.complete.wf h2⟩

namespace MarkEx
theorem file_ok : readContent FLEx.file = [FLEx.text].flatMap MeshText.lines ++ [] ∧ (∀ m ∈ [FLEx.text], m.OK ∧ WellWritten demoEnv m.items) := by decide +kernel
theorem shapes : SoundShapes FNEx.Lf.env.eps (SVEx.w 0) := by rw [SVEx.w_zero]; exact shapes_of (by decide +kernel)
theorem aligned : ∀ m ∈ [FLEx.text], ∀ b ∈ (described demoEnv 1000 m.items).bdries, Aligned FLEx.D b := by
  intro m hm
  simp only [List.mem_singleton] at hm
  subst hm
  rw [FLEx.cfg_eq]
  intro b hb
  simp only [FLEx.cfg, List.mem_singleton] at hb
  rw [hb]
  exact fun ps _ => Or.inl (by simp [markers])

/-- The input file with one square: all hypotheses hold, and the markers in the text file. -/
example : TextMarked FLEx.D [SVEx.x1] (writeTxt W0 FNEx.Lf.env.eps 1 (fun _ => (0, 0)) (SVEx.w 0)) ∧
    (readTxt (writeTxt W0 FNEx.Lf.env.eps 1 (fun _ => (0, 0)) FLEx.parts.2.2.smoothed)).bind (fun r => (intRows "BOUNDARYEDGES".toList r.2).map (List.map List.getLast?)) =
      some [some 1, some 1, some 1, some 1, some 1, some 1, some 1, some 1] :=
  ⟨(C190_text demoEnv 1000 FLEx.file [FLEx.text] [] file_ok.1 (by simp) file_ok.2 (L := FNEx.Lf) FUEx.epsPos FUEx.exact FUEx.sortOK FUEx.norm_ok (xs := [SVEx.x1])
    (by simp only [List.map_cons, List.map_nil, FLEx.cfg_eq]; rfl) SVEx.first aligned W0 1 (fun _ => (0, 0)) shapes).2, by decide +kernel⟩

/-- The colours in its VTU file. -/
example : ∃ t, writeVtu W0 FNEx.Lf.env.eps (SVEx.w 0) = some t ∧ CellsColoured [SVEx.x1] t :=
  (C190_vtu demoEnv 1000 FLEx.file [FLEx.text] [] file_ok.1 (by simp) file_ok.2 (L := FNEx.Lf) FUEx.epsPos FUEx.exact FUEx.sortOK FUEx.norm_ok (xs := [SVEx.x1])
    (by simp only [List.map_cons, List.map_nil, FLEx.cfg_eq]; rfl) SVEx.first (by simp only [List.mem_singleton, forall_eq]; rw [FLEx.cfg_eq]; decide) VT.clean_W0).2
end MarkEx

end TQ

#print axioms TQ.C190_text
#print axioms TQ.C190_vtu

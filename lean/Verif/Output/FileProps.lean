import Verif.Output.MarkProps

/-! # C195: from the input file to the exported file -/

set_option linter.unusedSectionVars false

namespace TQ
open QL MS MeshSpec MCSpec MC MS.St FUSpec WholeSpec RefSpec CleanSpec Whole QLSpec SmSpec Sm MM MergeSpec CK FU AM AppSpec OutlSpec Outl SevSpec FlSpec Cf CfSpec Fl PR PRSpec TQ.Sev VT VTSpec OutSpec Out

/-- **C195.** The input file describes the meshes `xs`, and every mesh is constructed without an incident. Then the program
finishes with one joined mesh, and its VTU file, read back, is a conforming mesh. If the coordinates of the boundary vertices have
at most five decimals, the areas of the cells in the file add up to the areas drawn in the input file. If also every
triangle of the mesh is larger than the rounding, the cells in the file tile exactly the points around which the curves drawn in
the input file wind once. Nothing is assumed about the place of the inner vertices. -/
theorem C195_vtu (E : Cf.Env ℚ) (big : ℚ) (file : List Line) (ms : List MeshText) (tail : List Line)
    (hc : readContent file = ms.flatMap MeshText.lines ++ tail) (ht : ∀ l ∈ tail, ¬"Define mesh:".toList <:+: l) (hm : ∀ x ∈ ms, x.OK ∧ WellWritten E x.items)
    {D : DEnv ℚ} {L : LEnv ℚ} (he : 0 < L.env.eps) (hq : QueryExact L.env) (hso : SortOK L.env)
    (hn : ∀ p, 0 ≤ L.env.norm p ∧ Pt.normSq p ≤ L.env.norm p * L.env.norm p) {J : Job ℚ}
    {sub : Cfg ℚ → Dm ℚ → List (Fr.MVert ℚ) → Fr.FEdge → Option (List (Pt ℚ))} {fuel : Nat} {xs : List (Drawn ℚ)} (hx : xs.map Drawn.cfg = ms.map fun m => described E big m.items)
    {w : World ℚ} {a : Nat} {ok : Bool} (h : GoodRuns D L J sub fuel xs.reverse w a ok) {W : WEnv} (hW : ∀ x, Clean (W.show6 x)) :
    runAll E big D L J sub fuel file = some (.done w a ok) ∧
    ∃ t pts cells, writeVtu W L.env.eps (w a) = some t ∧ readMesh t = some (pts, cells) ∧ Conform pts.length cells ∧
      ((∀ e ∈ (w a).es .bdry, Printable ((w a).pos ((w a).E e).v1) ∧ Printable ((w a).pos ((w a).E e).v2)) →
        totalArea (place pts) cells = (xs.map Drawn.area).sum ∧
        ((∀ x ∈ WholeSpec.pieces (w a), Broad ((w a).pos x.2.1) ((w a).pos x.2.2.1) ((w a).pos x.2.2.2)) →
          Positive (place pts) cells ∧ Tiles (place pts) cells (fun p => segWinding (xs.flatMap Drawn.segs) p = 1) ∧
          ∀ p, winding (place pts) (rim cells) p = segWinding (xs.flatMap Drawn.segs) p)) := by
  obtain ⟨k1, -, -, k4, -⟩ := C178_file E big file ms tail hc ht hm he hq hso hn hx h
  obtain ⟨m, -, hw, -⟩ := goodRuns_mesh he hq hso hn h
  have hwd : ∀ p, winding (w a).pos (pairs (w a) .bdry) p = segWinding (xs.flatMap Drawn.segs) p := fun p => by
    rw [hw, segWinding_wind, segWinding_wind, wind_perm ((List.reverse_perm xs).flatMap_right _)]
  have hcf := m.complete.toConforming
  obtain ⟨t, pts, cells, h1, h2, h3, -⟩ := C167_conforming hW L.env.eps hcf
  refine ⟨k1, t, pts, cells, h1, h2, h3, fun hp => ⟨by rw [C167_area hW hcf hp h1 h2, k4], fun hb => ?_⟩⟩
  have hpos := C167_positive hW hcf hb h1 h2
  obtain ⟨T, R, -⟩ := C167_tiles_partial hW m hp h1 h2 hpos
  exact ⟨hpos, ⟨T.apart, fun p t ht hi => by rw [← hwd]; exact T.within p t ht hi, fun p hp hg => T.full p (by rw [hwd]; exact hp) hg⟩, fun p => by rw [R, hwd]⟩

/-- **C195.** Without a condition on the coordinates: the area of the cells in the file differs from the area drawn in the input
file by at most `2 R / 200000 + 1 / 200000²` for every side of a cell on the rim, where `R` bounds the coordinates. -/
theorem C195_near (E : Cf.Env ℚ) (big : ℚ) (file : List Line) (ms : List MeshText) (tail : List Line)
    (hc : readContent file = ms.flatMap MeshText.lines ++ tail) (ht : ∀ l ∈ tail, ¬"Define mesh:".toList <:+: l) (hm : ∀ x ∈ ms, x.OK ∧ WellWritten E x.items)
    {D : DEnv ℚ} {L : LEnv ℚ} (he : 0 < L.env.eps) (hq : QueryExact L.env) (hso : SortOK L.env)
    (hn : ∀ p, 0 ≤ L.env.norm p ∧ Pt.normSq p ≤ L.env.norm p * L.env.norm p) {J : Job ℚ}
    {sub : Cfg ℚ → Dm ℚ → List (Fr.MVert ℚ) → Fr.FEdge → Option (List (Pt ℚ))} {fuel : Nat} {xs : List (Drawn ℚ)} (hx : xs.map Drawn.cfg = ms.map fun m => described E big m.items)
    {w : World ℚ} {a : Nat} {ok : Bool} (h : GoodRuns D L J sub fuel xs.reverse w a ok) {W : WEnv} (hW : ∀ x, Clean (W.show6 x)) {R : ℚ}
    (hR : ∀ v ∈ (w a).verts, |((w a).pos v).x| ≤ R ∧ |((w a).pos v).y| ≤ R) :
    runAll E big D L J sub fuel file = some (.done w a ok) ∧
    ∃ t pts cells, writeVtu W L.env.eps (w a) = some t ∧ readMesh t = some (pts, cells) ∧ Conform pts.length cells ∧
      |totalArea (place pts) cells - (xs.map Drawn.area).sum| ≤ (rim cells).length * (2 * R * (1 / 200000) + (1 / 200000) ^ 2) := by
  obtain ⟨k1, -, -, k4, -⟩ := C178_file E big file ms tail hc ht hm he hq hso hn hx h
  obtain ⟨m, -⟩ := goodRuns_mesh he hq hso hn h
  have hcf := m.complete.toConforming
  obtain ⟨t, pts, cells, h1, h2, h3, h4, -⟩ := C167_conforming hW L.env.eps hcf
  refine ⟨k1, t, pts, cells, h1, h2, h3, ?_⟩
  rw [← k4, h4.length_eq, List.length_map]
  exact C167_area_near hW hcf hR h1 h2

/-- **C195.** The text file of the same run: its elements, sides and neighbours fit together if every element of the mesh has a
sound shape. -/
theorem C195_text (E : Cf.Env ℚ) (big : ℚ) (file : List Line) (ms : List MeshText) (tail : List Line)
    (hc : readContent file = ms.flatMap MeshText.lines ++ tail) (ht : ∀ l ∈ tail, ¬"Define mesh:".toList <:+: l) (hm : ∀ x ∈ ms, x.OK ∧ WellWritten E x.items)
    {D : DEnv ℚ} {L : LEnv ℚ} (he : 0 < L.env.eps) (hq : QueryExact L.env) (hso : SortOK L.env)
    (hn : ∀ p, 0 ≤ L.env.norm p ∧ Pt.normSq p ≤ L.env.norm p * L.env.norm p) {J : Job ℚ}
    {sub : Cfg ℚ → Dm ℚ → List (Fr.MVert ℚ) → Fr.FEdge → Option (List (Pt ℚ))} {fuel : Nat} {xs : List (Drawn ℚ)} (hx : xs.map Drawn.cfg = ms.map fun m => described E big m.items)
    {w : World ℚ} {a : Nat} {ok : Bool} (h : GoodRuns D L J sub fuel xs.reverse w a ok) (W : WEnv) (id : Int) (twin : Nat × Nat → Int × Int)
    (hg : SoundShapes L.env.eps (w a)) :
    runAll E big D L J sub fuel file = some (.done w a ok) ∧ ∃ T, readTopology (writeTxt W L.env.eps id twin (w a)) = some T ∧ Fits T :=
  ⟨(C178_file E big file ms tail hc ht hm he hq hso hn hx h).1, C168_mesh_partial W id twin (goodRuns_mesh he hq hso hn h).1 hg⟩

namespace FileEx
theorem printable : ∀ e ∈ (SVEx.w 0).es .bdry, Printable ((SVEx.w 0).pos ((SVEx.w 0).E e).v1) ∧ Printable ((SVEx.w 0).pos ((SVEx.w 0).E e).v2) := by
  rw [SVEx.w_zero]
  have : ∀ e ∈ FLEx.parts.2.2.smoothed.es .bdry, (dec5 (FLEx.parts.2.2.smoothed.pos (FLEx.parts.2.2.smoothed.E e).v1).x = (FLEx.parts.2.2.smoothed.pos (FLEx.parts.2.2.smoothed.E e).v1).x ∧ dec5 (FLEx.parts.2.2.smoothed.pos (FLEx.parts.2.2.smoothed.E e).v1).y = (FLEx.parts.2.2.smoothed.pos (FLEx.parts.2.2.smoothed.E e).v1).y) ∧
      (dec5 (FLEx.parts.2.2.smoothed.pos (FLEx.parts.2.2.smoothed.E e).v2).x = (FLEx.parts.2.2.smoothed.pos (FLEx.parts.2.2.smoothed.E e).v2).x ∧ dec5 (FLEx.parts.2.2.smoothed.pos (FLEx.parts.2.2.smoothed.E e).v2).y = (FLEx.parts.2.2.smoothed.pos (FLEx.parts.2.2.smoothed.E e).v2).y) := by decide +kernel
  exact fun e he => ⟨OutEx.printable_of (this e he).1, OutEx.printable_of (this e he).2⟩

theorem broad : ∀ x ∈ WholeSpec.pieces (SVEx.w 0), Broad ((SVEx.w 0).pos x.2.1) ((SVEx.w 0).pos x.2.2.1) ((SVEx.w 0).pos x.2.2.2) := by
  rw [SVEx.w_zero]
  have : ∀ x ∈ WholeSpec.pieces FLEx.parts.2.2.smoothed, |(FLEx.parts.2.2.smoothed.pos x.2.2.1).x - (FLEx.parts.2.2.smoothed.pos x.2.1).x| ≤ 8 ∧ |(FLEx.parts.2.2.smoothed.pos x.2.2.1).y - (FLEx.parts.2.2.smoothed.pos x.2.1).y| ≤ 8 ∧
      |(FLEx.parts.2.2.smoothed.pos x.2.2.2).x - (FLEx.parts.2.2.smoothed.pos x.2.1).x| ≤ 8 ∧ |(FLEx.parts.2.2.smoothed.pos x.2.2.2).y - (FLEx.parts.2.2.smoothed.pos x.2.1).y| ≤ 8 ∧
      4 * 8 * (1 / 100000) + 2 * (1 / 100000) ^ 2 < side (FLEx.parts.2.2.smoothed.pos x.2.1) (FLEx.parts.2.2.smoothed.pos x.2.2.1) (FLEx.parts.2.2.smoothed.pos x.2.2.2) := by decide +kernel
  exact fun x hx => ⟨8, this x hx⟩

/-- The input file with one square: all hypotheses hold. -/
example : ∃ t pts cells, writeVtu W0 FNEx.Lf.env.eps (SVEx.w 0) = some t ∧ readMesh t = some (pts, cells) ∧ Conform pts.length cells ∧
    totalArea (place pts) cells = ([SVEx.x1].map Drawn.area).sum ∧ Tiles (place pts) cells (fun p => segWinding ([SVEx.x1].flatMap Drawn.segs) p = 1) := by
  obtain ⟨-, t, pts, cells, h1, h2, h3, h4⟩ := C195_vtu demoEnv 1000 FLEx.file [FLEx.text] [] MarkEx.file_ok.1 (by simp) MarkEx.file_ok.2 (L := FNEx.Lf) FUEx.epsPos FUEx.exact FUEx.sortOK FUEx.norm_ok (xs := [SVEx.x1])
    (by simp only [List.map_cons, List.map_nil, FLEx.cfg_eq]; rfl) SVEx.first VT.clean_W0
  exact ⟨t, pts, cells, h1, h2, h3, (h4 printable).1, ((h4 printable).2 broad).2.1⟩

/-- What is drawn in it and how many cells are in the file. -/
example : ([SVEx.x1].map Drawn.area).sum = 1 ∧ ((writeVtu W0 FNEx.Lf.env.eps FLEx.parts.2.2.smoothed).bind readMesh).map (fun r => (r.1.length, r.2.length)) = some (9, 4) := by
  decide +kernel

/-- Its text file. -/
example : ∃ T, readTopology (writeTxt W0 FNEx.Lf.env.eps 1 (fun _ => (0, 0)) (SVEx.w 0)) = some T ∧ Fits T :=
  (C195_text demoEnv 1000 FLEx.file [FLEx.text] [] MarkEx.file_ok.1 (by simp) MarkEx.file_ok.2 (L := FNEx.Lf) FUEx.epsPos FUEx.exact FUEx.sortOK FUEx.norm_ok (xs := [SVEx.x1])
    (by simp only [List.map_cons, List.map_nil, FLEx.cfg_eq]; rfl) SVEx.first W0 1 (fun _ => (0, 0)) MarkEx.shapes).2
end FileEx

end TQ

#print axioms TQ.C195_vtu
#print axioms TQ.C195_near
#print axioms TQ.C195_text

import Verif.Whole.ColourSpec
import Verif.Whole.ColourRegions
import Verif.Whole.SeveralProps

/-! # C187: the colours of the elements -/

set_option linter.unusedSectionVars false
set_option linter.unusedSimpArgs false

namespace TQ
open QL MS MeshSpec MCSpec MC MS.St FUSpec WholeSpec RefSpec CleanSpec Whole QLSpec SmSpec Sm GN MM MergeSpec CK FU AM AppSpec LinkSpec OutlSpec Outl SevSpec FlSpec Cf CfSpec Fl PR PRSpec TQ.Sev
variable {K : Type} [Field K] [LinearOrder K] [IsStrictOrderedRing K]

/-- The winding number of the outlines of the definitions of a colour. -/
def colourRegion (xs : List (Drawn K)) (k : Int) (p : Pt K) : Int := (xs.map fun d => if d.cfg.color = k then segWinding d.segs p else 0).sum

theorem region_congr {r1 r2 : Int → Pt K → Int} {s : St K} (h : Painted r1 s) (e : ∀ k p, r1 k p = r2 k p) : Painted r2 s :=
  ⟨fun k p => by rw [h.region, e], h.guarded, h.nonneg⟩

/-- The mesh of a single definition up to the quads. -/
theorem col_part {L : LEnv K} {fuel : Nat} {J : Job K} {s0 a b c : St K} {κ : Int} {ok : Bool} (h0 : Col κ s0) (h1 : layerAll L fuel J.layers s0 = some a)
    (h2 : triangulate L.env J.par 0 fuel J.ix1 a = .ret ok b) (h3 : (if J.toQuad then tri2quad L.env.eps J.ix2 (J.order b) b else some b) = some c) : Col κ c := by
  have a2 := col_triangulate (col_layerAll _ h0 h1) h2
  split_ifs at h3
  · exact col_tri2quad a2 h3
  · simp only [Option.some.injEq] at h3
    rw [← h3]; exact a2

theorem painted_smooth {nearest : St K → Pt K → Option Nat} {norm : Pt K → K} {c : SmoothCfg K} {r1 r2 : Rule K} {decay step x : K} {n : Nat} {s t : St K} {reg : Int → Pt K → Int}
    (hw : WF s) (hf : BdryFlagged s) (hr : smoothMixed nearest norm c r1 r2 decay n (s, step) = some (t, x)) (hp : Painted reg s) : Painted reg t := by
  obtain ⟨r, h1, h2, h3, -⟩ := C58_mixed nearest norm c r1 r2 decay n hw step
  rw [hr] at h1
  simp only [Option.some.injEq] at h1
  rw [← h1] at h2 h3
  exact painted_places hp hf h2 h3

theorem next_colour {D : DEnv K} {L : LEnv K} {J : Job K} {sub : Cfg K → Dm K → List (Fr.MVert K) → Fr.FEdge → Option (List (Pt K))} {fuel : Nat} {w w1 : World K} {a : Nat} {c : Cfg K}
    {d : Dm K} {T : NextTrace K} (h : constructNext D L J sub fuel w a c = .done d w1 T) : Col c.color (w1 (a + 1)) := by
  unfold constructNext at h
  split at h
  · simp at h
  · dsimp only at h
    split at h
    · simp at h
    · simp at h
    · rename_i ok w2 hp
      have : Col c.color (w2 (a + 1)) := by
        refine col_prepare ?_ hp
        simp only [upd, if_true]
        exact col_empty
      split_ifs at h
      split at h <;> simp only [reduceCtorEq, NRes.done.injEq] at h
      rw [← h.2.1]; exact this

theorem painted_runs {D : DEnv K} {L : LEnv K} (he : 0 < L.env.eps) (hq : QueryExact L.env) (hso : SortOK L.env)
    (hn : ∀ p, 0 ≤ L.env.norm p ∧ Pt.normSq p ≤ L.env.norm p * L.env.norm p) {J : Job K}
    {sub : Cfg K → Dm K → List (Fr.MVert K) → Fr.FEdge → Option (List (Pt K))} {fuel : Nat} {xs : List (Drawn K)} {w : World K} {a : Nat} {ok : Bool}
    (h : GoodRuns D L J sub fuel xs w a ok) (hc : ∀ d ∈ xs, 0 ≤ d.cfg.color) :
    Painted (colourRegion xs) (w a) ∧ ∀ d ∈ xs, SimpleOutline d.segs := by
  induction h with
  | @first x d s0 T P h g =>
    obtain ⟨b, bs, H⟩ := P.drawing
    obtain ⟨fs, C, hS⟩ := P.fixed
    obtain ⟨d', hd⟩ := C172_progress_partial H C
    obtain ⟨w1, h1, h2, h3, h4, h5, h6⟩ := C172_prepared H hd P.simple C.corners C.fixed he P.sharp (hS d' hd).1 (hS d' hd).2 x.cfg.color
    unfold constructFirst at h
    rw [hd] at h
    dsimp only at h
    rw [h1] at h
    dsimp only at h
    rw [if_neg (fun n => P.known.elim n.1 n.2)] at h
    cases hgen : generateMesh L fuel (jobOf J x.cfg) d'.dom (w1 0) with
    | undef => rw [hgen] at h; simp at h
    | fuel => rw [hgen] at h; simp at h
    | done T' =>
      rw [hgen] at h
      simp only [MRes.done.injEq] at h
      obtain ⟨rfl, rfl, rfl⟩ := h
      obtain ⟨-, m2, m3, m4, -⟩ := C161_application he hq hso hn h2 h3 h4 hgen g.layers g.well g.all g.merging g.convex g.unfolded
      obtain ⟨g1, ⟨ok, g2⟩, g3, g4, ⟨y, g5⟩, -⟩ := generateMesh_steps hgen
      simp only [if_true]
      refine ⟨?_, by simpa using P.simple⟩
      have c0 : Col x.cfg.color (w1 0) := col_prepare (by exact col_empty) h1
      have p1 := painted_first m2.complete.toConforming (hc x (by simp)) (col_part c0 g1 g2 g3)
      have p2 := painted_smooth m3.complete.wf m3.flagged g5 (painted_refineAll m2 g.convex g4 p1)
      refine region_congr p2 fun k p => ?_
      unfold colourRegion
      simp only [List.map_cons, List.map_nil, List.sum_cons, List.sum_nil, add_zero]
      rw [m2.region, h6]
      simp only [eq_comm (a := k)]
      rfl
  | @next xs w w1 a ok x d T hruns P R F disj ld h g hrim lr hconv hfold ih =>
    obtain ⟨ip, is⟩ := ih fun d hd => hc d (List.mem_cons_of_mem _ hd)
    obtain ⟨i1, i2, i3, i4, i5⟩ := goodRuns_mesh he hq hso hn hruns
    have R : SevSpec.Ready (w a) := ⟨fun e he => (lk_none (i5 e he)).1, fun e he => (lk_none (i5 e he)).2, R⟩
    obtain ⟨d', w2, hd, k1, k2, k3, k4, k5, k6, k7, k8, k9⟩ := C178_next he P i1.complete R F (by intro p; rw [i3]; exact disj p) J fuel
    rw [h] at k9
    cases hgen : generateNext L fuel (jobOf J x.cfg) d'.dom w2 (a + 1) a with
    | undef => rw [hgen] at k9; simp at k9
    | abort => rw [hgen] at k9; simp at k9
    | fuel => rw [hgen] at k9; simp at k9
    | done T' =>
      rw [hgen] at k9
      simp only [NRes.done.injEq] at k9
      obtain ⟨rfl, rfl, rfl⟩ := k9
      refine ⟨?_, ?_⟩
      · have e1 : (upd w1 (a + 1) fun _ => T.smoothed) (a + 1) = T.smoothed := by simp [upd]
        rw [e1]
        have ld' : LeftFacets L.env.eps (w1 a) := leftFacets_twins ld k2
        have hb := meshOf_twins i1 k2
        obtain ⟨h1, ⟨ok, h2⟩, h3, h4, h5, ⟨y, h6⟩, -⟩ := generateNext_steps hgen
        obtain ⟨m1, a1, r1⟩ := meshed_part he hq hso hn k1 h1 h3 g
        obtain ⟨S, hex⟩ := beside_done k3 (r1 hrim) m1.region m1.complete hb.complete
        have e1 : (upd w1 (a + 1) fun _ => T.modified) (a + 1) = T.modified := by simp [upd]
        have e2 : (upd w1 (a + 1) fun _ => T.modified) a = w1 a := by simp [upd]
        obtain ⟨m2, -, -, -⟩ := C162_merge (a := w1 (a + 1)) (b := w a) (by rw [e1]; exact m1) (by rw [e2]; exact hb) S (by rw [e1]; exact lr) (by rw [e2]; exact ld') h4
        obtain ⟨m3, -, -⟩ := refineAll_mesh m2 hconv h5
        obtain ⟨φ, κ, ρ, δ, G, -, -⟩ := merged_of S.adj (by rw [e1]; exact lr) (by rw [e2]; exact ld') h4
        have c0 : Col x.cfg.color (w1 (a + 1)) := next_colour h
        have p1 := painted_first m1.complete.toConforming (hc x (by simp)) (col_part c0 h1 h2 h3)
        have p2 := painted_merge G (by rw [e1]; exact p1) (by rw [e2]; exact painted_twins ip k2)
        have p3 := painted_smooth m3.complete.wf m3.flagged h6 (painted_refineAll m2 hconv h5 p2)
        refine region_congr p3 fun k p => ?_
        unfold colourRegion
        rw [List.map_cons, List.sum_cons, m1.region, k5]
        simp only [eq_comm (a := k)]
      · intro d hd
        rcases List.mem_cons.mp hd with rfl | hd
        · exact P.simple
        · exact is d hd

/-- Some summand is positive. -/
theorem region_pos {xs : List (Drawn K)} {k : Int} {p : Pt K} (h : 1 ≤ colourRegion xs k p) : ∃ d ∈ xs, d.cfg.color = k ∧ 1 ≤ segWinding d.segs p := by
  unfold colourRegion at h
  induction xs with
  | nil => simp at h
  | cons d xs ih =>
    rw [List.map_cons, List.sum_cons] at h
    by_cases hd : d.cfg.color = k ∧ 1 ≤ segWinding d.segs p
    · exact ⟨d, by simp, hd⟩
    · have : (if d.cfg.color = k then segWinding d.segs p else 0) ≤ 0 := by
        split_ifs with hk
        · by_contra hn
          exact hd ⟨hk, by omega⟩
        · exact le_rfl
      obtain ⟨d', h1, h2⟩ := ih (by omega)
      exact ⟨d', List.mem_cons_of_mem _ h1, h2⟩

theorem region_ge {xs : List (Drawn K)} (hs : ∀ d ∈ xs, SimpleOutline d.segs) {d : Drawn K} (hd : d ∈ xs) {p : Pt K} (h : segWinding d.segs p = 1) : 1 ≤ colourRegion xs d.cfg.color p := by
  have nn : ∀ ys : List (Drawn K), (∀ d ∈ ys, SimpleOutline d.segs) → 0 ≤ (ys.map fun d' => if d'.cfg.color = d.cfg.color then segWinding d'.segs p else 0).sum := by
    intro ys hy
    refine List.sum_nonneg fun z hz => ?_
    obtain ⟨d', hd', rfl⟩ := List.mem_map.mp hz
    split_ifs
    · rcases (hy d' hd').once p with h | h <;> rw [h] <;> decide
    · exact le_rfl
  unfold colourRegion
  induction xs with
  | nil => simp at hd
  | cons c xs ih =>
    rw [List.map_cons, List.sum_cons]
    have hs' : ∀ d ∈ xs, SimpleOutline d.segs := fun d hd => hs d (List.mem_cons_of_mem _ hd)
    rcases List.mem_cons.mp hd with rfl | hd
    · have := nn xs hs'
      rw [if_pos rfl, h]
      omega
    · have h1 := ih hs' hd
      have h2 := nn [c] (by simpa using hs c (by simp))
      simp only [List.map_cons, List.map_nil, List.sum_cons, List.sum_nil, add_zero] at h2
      omega

/-- **C187.** Any number of definitions with colours that are not negative: every element of the mesh has the colour of the definition in whose region it lies, and the region
of every definition is covered by elements with its colour, whatever was merged, refined and smoothed. -/
theorem C187_colours {D : DEnv K} {L : LEnv K} (he : 0 < L.env.eps) (hq : QueryExact L.env) (hso : SortOK L.env)
    (hn : ∀ p, 0 ≤ L.env.norm p ∧ Pt.normSq p ≤ L.env.norm p * L.env.norm p) {J : Job K}
    {sub : Cfg K → Dm K → List (Fr.MVert K) → Fr.FEdge → Option (List (Pt K))} {fuel : Nat} {xs : List (Drawn K)} {w : World K} {a : Nat} {ok : Bool}
    (h : GoodRuns D L J sub fuel xs w a ok) (hc : ∀ d ∈ xs, 0 ≤ d.cfg.color) : ColouredAs xs (w a) := by
  obtain ⟨hp, hs⟩ := painted_runs he hq hso hn h hc
  have hm := (goodRuns_mesh he hq hso hn h).1.complete
  refine ⟨fun p x hx hi => ?_, fun d hd p hw hg => ?_⟩
  · have := colour_in hm hx hi
    rw [hp.region] at this
    obtain ⟨d, h1, h2, h3⟩ := region_pos this
    refine ⟨d, h1, h2.symm, ?_⟩
    rcases (hs d h1).once p with h | h
    · rw [h] at h3; exact absurd h3 (by decide)
    · exact h
  · refine colour_full hm (by rw [hp.region]; exact region_ge hs hd hw) fun x hx e hm => ?_
    obtain ⟨g1, g2, g3⟩ := hg x hx
    simp only [pieceSides, List.mem_cons, List.not_mem_nil, or_false] at hm
    rcases hm with rfl | rfl | rfl
    · exact g1
    · exact g2
    · exact g3

/-- **C187.** From the text of an input file with any number of mesh definitions to one mesh whose elements have the colours of the definitions in whose regions they lie. -/
theorem C187_file (E : Cf.Env K) (big : K) (file : List Line) (ms : List MeshText) (tail : List Line)
    (hc : readContent file = ms.flatMap MeshText.lines ++ tail) (ht : ∀ l ∈ tail, ¬"Define mesh:".toList <:+: l) (hm : ∀ x ∈ ms, x.OK ∧ WellWritten E x.items)
    {D : DEnv K} {L : LEnv K} (he : 0 < L.env.eps) (hq : QueryExact L.env) (hso : SortOK L.env)
    (hn : ∀ p, 0 ≤ L.env.norm p ∧ Pt.normSq p ≤ L.env.norm p * L.env.norm p) {J : Job K}
    {sub : Cfg K → Dm K → List (Fr.MVert K) → Fr.FEdge → Option (List (Pt K))} {fuel : Nat} {xs : List (Drawn K)} (hx : xs.map Drawn.cfg = ms.map fun m => described E big m.items)
    {w : World K} {a : Nat} {ok : Bool} (h : GoodRuns D L J sub fuel xs.reverse w a ok) (hcol : ∀ m ∈ ms, 0 ≤ (described E big m.items).color) :
    runAll E big D L J sub fuel file = some (.done w a ok) ∧ ColouredAs xs (w a) := by
  refine ⟨(C178_file E big file ms tail hc ht hm he hq hso hn hx h).1, ?_⟩
  have hxc : ∀ d ∈ xs.reverse, 0 ≤ d.cfg.color := by
    intro d hd
    have h1 : d.cfg ∈ xs.map Drawn.cfg := List.mem_map_of_mem (List.mem_reverse.mp hd)
    rw [hx] at h1
    obtain ⟨m, hm, e⟩ := List.mem_map.mp h1
    rw [← e]; exact hcol m hm
  obtain ⟨k1, k2⟩ := C187_colours he hq hso hn h hxc
  refine ⟨fun p x hx hp => ?_, fun d hd => k2 d (List.mem_reverse.mpr hd)⟩
  obtain ⟨d, hd, h⟩ := k1 p x hx hp
  exact ⟨d, List.mem_reverse.mp hd, h⟩

namespace COEx
open MCEx MMEx
/-- Two triangles left of the house, with the colour -1 of a definition. -/
def left : St ℚ := build [.v (-4) 0, .v 0 0, .v 0 4, .v (-4) 4,
  .bdry 0 1 1, .bdry 1 2 1, .bdry 2 3 3, .bdry 3 0 4, .intr 0 2, .tri 0 1 2 (-1), .tri 0 2 3 (-1)] (St.empty (-1))
def two : World ℚ := fun m => match m with
  | 0 => setTwin (flagged house) 9 (1, 5)
  | 1 => setTwin (flagged left) 5 (0, 9)
  | _ => St.empty 1
theorem wf1 : WF (two 1) := wf_setTwin (remark_spec _ (built_wf (c := -1) (built_of _ _ Built.empty (by decide +kernel)))).1 _ _
theorem conf1 : Conforming (two 1) :=
  conforming_of (proper_of wf1 (by decide +kernel) (by decide +kernel) (by decide +kernel)) (by decide +kernel) (by decide +kernel) (by decide +kernel)
end COEx

/-- **C187.** Negative colours are not kept: the elements of a definition with colour -1 get the colour of the definition that is meshed next to it. -/
theorem C187_negative_violated : Conforming (COEx.two 0) ∧ Conforming (COEx.two 1) ∧
    ((COEx.two 0).color ≠ -1 ∧ (COEx.two 1).color = -1 ∧ (COEx.two 1).tris.map (fun t => ((COEx.two 1).F (.tri t)).color) = [-1, -1]) ∧
    (merge (1 / 1000000) COEx.two 0 1 false).any (fun r => r.2 && decide ((r.1 0).tris.length = 3 ∧ ∀ t ∈ (r.1 0).tris, ((r.1 0).F (.tri t)).color ≠ -1)) = true :=
  ⟨MMEx.conf0, COEx.conf1, by decide +kernel, by decide +kernel⟩

end TQ

#print axioms TQ.C187_negative_violated
#print axioms TQ.C187_colours

#print axioms TQ.C187_file

import Verif.Whole.BdrySpec
import Verif.Whole.BdryMade
import Verif.Whole.BdryFront
import Verif.Whole.ColourProps

/-! # C188: the markers of the boundary edges -/

set_option linter.unusedSectionVars false
set_option linter.unusedSimpArgs false

namespace TQ
open QL MS MeshSpec MCSpec MC MS.St FUSpec WholeSpec RefSpec CleanSpec Whole QLSpec SmSpec Sm GN MM MergeSpec CK FU AM AppSpec LinkSpec OutlSpec Outl SevSpec FlSpec Cf CfSpec Fl PR PRSpec TQ.Sev
variable {K : Type} [Field K] [LinearOrder K] [IsStrictOrderedRing K]

/-- Both places are on a drawn side with the marker. -/
def onDrawn (D : DEnv K) (xs : List (Drawn K)) (a b : Pt K) (m : Int) : Prop :=
  ∃ x ∈ xs, ∃ d ∈ x.cfg.bdries, ∃ p q, MarkedSide D (x.cfg.verts.map (·.xy)) d.2 p q m ∧ OnClosed p q a ∧ OnClosed p q b

theorem drawn_parts {D : DEnv K} {xs : List (Drawn K)} : Parts (onDrawn D xs) := by
  rintro p q c x y ⟨d, h1, b, h2, u, v, h3, h4, h5⟩ hx hy
  exact ⟨d, h1, b, h2, u, v, h3, closed_trans h4 h5 hx, closed_trans h4 h5 hy⟩

theorem drawn_mono {D : DEnv K} {xs ys : List (Drawn K)} (h : ∀ x ∈ xs, x ∈ ys) {s : St K} (hm : Mk (onDrawn D xs) s) : Mk (onDrawn D ys) s := by
  intro e he
  obtain ⟨x, hx, r⟩ := hm e he
  exact ⟨x, h x hx, r⟩

theorem drawn_own {D : DEnv K} {xs : List (Drawn K)} {x : Drawn K} (hx : x ∈ xs) {d : BdryType × BDef K} (hd : d ∈ x.cfg.bdries) {p q : Pt K} {m : Int}
    (h : OnMarked D (x.cfg.verts.map (·.xy)) d.2 p q m) : onDrawn D xs p q m := by
  rcases h with h | h
  · exact ⟨x, hx, d, hd, p, q, h, closed_left _ _, closed_right _ _⟩
  · exact ⟨x, hx, d, hd, q, p, h, closed_right _ _, closed_left _ _⟩

theorem mk_smooth {nearest : St K → Pt K → Option Nat} {norm : Pt K → K} {c : SmoothCfg K} {r1 r2 : Rule K} {decay step x : K} {n : Nat} {s t : St K} {M : Pt K → Pt K → Int → Prop}
    (hM : Parts M) (hw : WF s) (hf : BdryFlagged s) (hr : smoothMixed nearest norm c r1 r2 decay n (s, step) = some (t, x)) (hp : Mk M s) : Mk M t := by
  obtain ⟨r, h1, h2, h3, -⟩ := C58_mixed nearest norm c r1 r2 decay n hw step
  rw [hr] at h1
  simp only [Option.some.injEq] at h1
  rw [← h1] at h2 h3
  exact mk_cut hM hp (cut_places hf h2 h3)

theorem next_mk {D : DEnv K} {L : LEnv K} (he : 0 < L.env.eps) {sub : Cfg K → Dm K → List (Fr.MVert K) → Fr.FEdge → Option (List (Pt K))} {x : Drawn K}
    (P : Proper D L.env.eps sub x) (ha : ∀ b ∈ x.cfg.bdries, Aligned D b) {w : World K} {a : Nat} (hc : Complete (w a)) (R : SevSpec.Ready (w a)) (F : Fits L.env.eps (w a) x.segs)
    (disj : ∀ p, segWinding x.segs p + winding (w a).pos (pairs (w a) .bdry) p ≤ 1) {J : Job K} {fuel : Nat} {d : Dm K} {w1 : World K} {T : NextTrace K}
    (h : constructNext D L J sub fuel w a x.cfg = .done d w1 T) {xs : List (Drawn K)} (hm : Mk (onDrawn D xs) (w a)) : Mk (onDrawn D (x :: xs)) (w1 (a + 1)) := by
  obtain ⟨b, bs, H⟩ := P.drawing
  obtain ⟨fs, C, hS⟩ := P.fixed
  obtain ⟨d', hd⟩ := C172_progress_partial H C
  have ho : (upd w (a + 1) fun _ => St.empty x.cfg.color) a = w a := by simp [upd]
  obtain ⟨w2, h1, -⟩ := next_prepared H hd P.simple C.corners C.fixed he P.sharp (hS d' hd).1 (hS d' hd).2 (w := upd w (a + 1) fun _ => St.empty x.cfg.color) (oi := a)
    (a := a + 1) (m := x.cfg.color) (by omega) (by simp [upd]) (by rw [ho]; exact hc) (by rw [ho]; exact R) (by rw [ho]; exact F) (by rw [ho]; exact disj)
  have e1 : w1 = w2 := by
    unfold constructNext at h
    rw [hd] at h
    dsimp only at h
    rw [h1] at h
    dsimp only at h
    split_ifs at h
    split at h <;> simp only [reduceCtorEq, NRes.done.injEq] at h
    exact h.2.1.symm
  rw [e1]
  have hout := drawing_outline H hd
  rw [sides_outline] at hout
  have D0 := drawing_data H hd P.simple.proper
  have D' := fits_data (w := upd w (a + 1) fun _ => St.empty x.cfg.color) (oi := a) D0 (by rw [ho]; exact fits_perm hout.symm F) (by rw [ho]; exact R)
  have hwf : WF ((upd w (a + 1) fun _ => St.empty x.cfg.color) (a + 1)) := by simp only [upd, if_true]; exact wf_empty _
  refine mk_prepared D' rfl (hS d' hd).1 hwf ?_ h1 drawn_parts ?_ ?_
  · intro y hy
    simp only [Dm.prepNext, refsOf, List.mem_flatMap, List.mem_map] at hy
    obtain ⟨b, -, e, -, n, hn, rfl⟩ := hy
    have := (nbrA_mem hn).1
    simp only [List.mem_singleton] at this
    omega
  · intro l hl e he
    obtain ⟨b, hb, hmk⟩ := drawing_marked H ha hd l hl e he
    exact drawn_own (by simp) hb hmk
  · intro l hl e he n hn
    obtain ⟨n', hn', rfl⟩ := List.mem_map.mp hn
    obtain ⟨n1, n2, n3⟩ := nbrA_mem hn'
    simp only [List.mem_singleton] at n1
    rw [n1, ho] at n2 n3
    rw [n3]
    obtain ⟨y, hy, b, hb, u, v, m1, m2, m3⟩ := hm _ n2
    exact ⟨y, List.mem_cons_of_mem _ hy, b, hb, u, v, m1, m3, m2⟩

/-- **C188.** Any number of definitions: each boundary edge of the mesh lies on a side that is drawn in one of the definitions and has the marker of this side, whatever was divided,
covered with layers, meshed, merged, refined and smoothed; for definitions in which the markers are not shifted when the boundaries are built (see C19). -/
theorem C188_markers {D : DEnv K} {L : LEnv K} (he : 0 < L.env.eps) (hq : QueryExact L.env) (hso : SortOK L.env)
    (hn : ∀ p, 0 ≤ L.env.norm p ∧ Pt.normSq p ≤ L.env.norm p * L.env.norm p) {J : Job K}
    {sub : Cfg K → Dm K → List (Fr.MVert K) → Fr.FEdge → Option (List (Pt K))} {fuel : Nat} {xs : List (Drawn K)} {w : World K} {a : Nat} {ok : Bool}
    (h : GoodRuns D L J sub fuel xs w a ok) (hal : ∀ x ∈ xs, ∀ b ∈ x.cfg.bdries, Aligned D b) : MarkedAs D xs (w a) := by
  change Mk (onDrawn D xs) (w a)
  induction h with
  | @first x d s0 T P h g =>
    obtain ⟨b, bs, H⟩ := P.drawing
    obtain ⟨fs, C, hS⟩ := P.fixed
    obtain ⟨d', hd⟩ := C172_progress_partial H C
    obtain ⟨w1, h1, h2, h3, h4, h5, h6⟩ := C172_prepared H hd P.simple C.corners C.fixed he P.sharp (hS d' hd).1 (hS d' hd).2 x.cfg.color
    unfold constructFirst at h
    rw [hd] at h
    dsimp only at h
    rw [h1] at h
    dsimp only at h
    rw [if_neg (fun n => P.known.elim n.1 n.2)] at h
    cases hgen : generateMesh L fuel (jobOf J x.cfg) d'.dom (w1 0) with
    | undef => rw [hgen] at h; simp at h
    | fuel => rw [hgen] at h; simp at h
    | done T' =>
      rw [hgen] at h
      simp only [MRes.done.injEq] at h
      obtain ⟨rfl, rfl, rfl⟩ := h
      obtain ⟨-, m2, m3, m4, -⟩ := C161_application he hq hso hn h2 h3 h4 hgen g.layers g.well g.all g.merging g.convex g.unfolded
      obtain ⟨g1, ⟨ok, g2⟩, g3, g4, ⟨y, g5⟩, -⟩ := generateMesh_steps hgen
      simp only [if_true]
      have c0 : Mk (onDrawn D [x]) (w1 0) := by
        refine mk_prepared (drawing_data H hd P.simple.proper) rfl (hS d' hd).1 (wf_empty _) (by simp [Dm.prep]) h1 drawn_parts ?_ (by simp)
        intro l hl e he
        obtain ⟨b, hb, hmk⟩ := drawing_marked H (hal x (by simp)) hd l hl e he
        exact drawn_own (by simp) hb hmk
      have c1 := mk_cut drawn_parts c0 (cut_part he hq hso hn h2 h3 g1 g3 g.layers g.well g.all g.merging)
      exact mk_smooth drawn_parts m3.complete.wf m3.flagged g5 (mk_cut drawn_parts c1 (cut_refineAll m2 g.convex g4))
  | @next xs w w1 a ok x d T hruns P R F disj ld h g hrim lr hconv hfold ih =>
    have ip := ih fun d hd => hal d (List.mem_cons_of_mem _ hd)
    obtain ⟨i1, i2, i3, i4, i5⟩ := goodRuns_mesh he hq hso hn hruns
    have R : SevSpec.Ready (w a) := ⟨fun e he => (lk_none (i5 e he)).1, fun e he => (lk_none (i5 e he)).2, R⟩
    have dj : ∀ p, segWinding x.segs p + winding (w a).pos (pairs (w a) .bdry) p ≤ 1 := by intro p; rw [i3]; exact disj p
    have c0 := next_mk he P (hal x (by simp)) i1.complete R F dj h ip
    obtain ⟨d', w2, hd, k1, k2, k3, k4, k5, k6, k7, k8, k9⟩ := C178_next he P i1.complete R F dj J fuel
    rw [h] at k9
    cases hgen : generateNext L fuel (jobOf J x.cfg) d'.dom w2 (a + 1) a with
    | undef => rw [hgen] at k9; simp at k9
    | abort => rw [hgen] at k9; simp at k9
    | fuel => rw [hgen] at k9; simp at k9
    | done T' =>
      rw [hgen] at k9
      simp only [NRes.done.injEq] at k9
      obtain ⟨rfl, rfl, rfl⟩ := k9
      have e1 : (upd w1 (a + 1) fun _ => T.smoothed) (a + 1) = T.smoothed := by simp [upd]
      rw [e1]
      have ld' : LeftFacets L.env.eps (w1 a) := leftFacets_twins ld k2
      have hb := meshOf_twins i1 k2
      obtain ⟨h1, ⟨ok, h2⟩, h3, h4, h5, ⟨y, h6⟩, -⟩ := generateNext_steps hgen
      obtain ⟨m1, a1, r1⟩ := meshed_part he hq hso hn k1 h1 h3 g
      obtain ⟨S, hex⟩ := beside_done k3 (r1 hrim) m1.region m1.complete hb.complete
      have e1 : (upd w1 (a + 1) fun _ => T.modified) (a + 1) = T.modified := by simp [upd]
      have e2 : (upd w1 (a + 1) fun _ => T.modified) a = w1 a := by simp [upd]
      obtain ⟨m2, -, -, -⟩ := C162_merge (a := w1 (a + 1)) (b := w a) (by rw [e1]; exact m1) (by rw [e2]; exact hb) S (by rw [e1]; exact lr) (by rw [e2]; exact ld') h4
      obtain ⟨m3, -, -⟩ := refineAll_mesh m2 hconv h5
      obtain ⟨φ, κ, ρ, δ, G, -, -⟩ := merged_of S.adj (by rw [e1]; exact lr) (by rw [e2]; exact ld') h4
      have c1 := mk_cut drawn_parts c0 (cut_part he hq hso hn k1.bare k1.flagged h1 h3 g.layers g.well g.ok g.quads)
      have o1 := mk_cut drawn_parts (drawn_mono (ys := x :: xs) (fun y hy => List.mem_cons_of_mem _ hy) ip) (cut_twins k2)
      have c2 := mk_merge G.mer (by rw [e1]; exact m1.complete.wf) (by rw [e2]; exact hb.complete.wf) (by rw [e1]; exact c1) (by rw [e2]; exact o1)
      exact mk_smooth drawn_parts m3.complete.wf m3.flagged h6 (mk_cut drawn_parts c2 (cut_refineAll m2 hconv h5))

/-- **C188.** From the text of an input file with any number of mesh definitions to one mesh whose boundary edges have the markers of the sides on which they lie. -/
theorem C188_file (E : Cf.Env K) (big : K) (file : List Line) (ms : List MeshText) (tail : List Line)
    (hc : readContent file = ms.flatMap MeshText.lines ++ tail) (ht : ∀ l ∈ tail, ¬"Define mesh:".toList <:+: l) (hm : ∀ x ∈ ms, x.OK ∧ WellWritten E x.items)
    {D : DEnv K} {L : LEnv K} (he : 0 < L.env.eps) (hq : QueryExact L.env) (hso : SortOK L.env)
    (hn : ∀ p, 0 ≤ L.env.norm p ∧ Pt.normSq p ≤ L.env.norm p * L.env.norm p) {J : Job K}
    {sub : Cfg K → Dm K → List (Fr.MVert K) → Fr.FEdge → Option (List (Pt K))} {fuel : Nat} {xs : List (Drawn K)} (hx : xs.map Drawn.cfg = ms.map fun m => described E big m.items)
    {w : World K} {a : Nat} {ok : Bool} (h : GoodRuns D L J sub fuel xs.reverse w a ok) (hal : ∀ m ∈ ms, ∀ b ∈ (described E big m.items).bdries, Aligned D b) :
    runAll E big D L J sub fuel file = some (.done w a ok) ∧ MarkedAs D xs (w a) := by
  refine ⟨(C178_file E big file ms tail hc ht hm he hq hso hn hx h).1, ?_⟩
  have hxc : ∀ d ∈ xs.reverse, ∀ b ∈ d.cfg.bdries, Aligned D b := by
    intro d hd
    have h1 : d.cfg ∈ xs.map Drawn.cfg := List.mem_map_of_mem (List.mem_reverse.mp hd)
    rw [hx] at h1
    obtain ⟨m, hm, e⟩ := List.mem_map.mp h1
    rw [← e]; exact hal m hm
  intro e he'
  obtain ⟨d, hd, r⟩ := C188_markers he hq hso hn h hxc e he'
  exact ⟨d, List.mem_reverse.mp hd, r⟩

namespace BMEx
/-- A square whose corners are listed clockwise, with a marker for each side. -/
def square : List (Pt ℚ × Int × Pt ℚ) := [(⟨0, 0⟩, 1, ⟨-1, -1⟩), (⟨0, 2⟩, 2, ⟨-1, -1⟩), (⟨2, 2⟩, 3, ⟨-1, -1⟩), (⟨2, 0⟩, 4, ⟨-1, -1⟩)]
def cfg : Cfg ℚ := { FLEx.cfg with bdries := [(.exterior, .coords square)] }
theorem drawing : Drawing FLEx.D cfg (.coords square) [] [⟨2, 0⟩, ⟨2, 2⟩, ⟨0, 2⟩, ⟨0, 0⟩] [] where
  bdries := rfl
  outer := .shape (.coords square) (Or.inr (by decide +kernel))
  holes := .nil
  ccw := by decide +kernel
  few := by decide
/-- The plate is a table with four markers and a square with one. -/
theorem aligned : ∀ b ∈ FLEx.plate.bdries, Aligned FLEx.D b := by
  intro b hb
  simp only [FLEx.plate, List.mem_cons, List.not_mem_nil, or_false] at hb
  rcases hb with rfl | rfl
  · intro ps hw; cases hw
  · intro ps hw; exact Or.inl (by simp [markers])
end BMEx

/-- **C188.** The orientation matters: a boundary given by its corners in clockwise order, with the marker 1 for the side from (0, 0) to (0, 2), becomes a domain in which the edge between these corners has
the marker 2, and no side from (0, 0) to (0, 2) with this marker is drawn. -/
theorem C188_shifted_violated : Drawing FLEx.D BMEx.cfg (.coords BMEx.square) [] [⟨2, 0⟩, ⟨2, 2⟩, ⟨0, 2⟩, ⟨0, 0⟩] [] ∧
    MarkedSide FLEx.D [] (.coords BMEx.square) ⟨0, 0⟩ ⟨0, 2⟩ 1 ∧
    ((makeDomain FLEx.D BMEx.cfg).toOption.any fun d => d.sources.flatten.map (fun e => (e.p1, e.p2, e.color)) = [(⟨0, 0⟩, ⟨2, 0⟩, 1), (⟨2, 0⟩, ⟨2, 2⟩, 4), (⟨2, 2⟩, ⟨0, 2⟩, 3), (⟨0, 2⟩, ⟨0, 0⟩, 2)]) = true ∧
    ¬ OnMarked FLEx.D [] (.coords BMEx.square) ⟨0, 2⟩ ⟨0, 0⟩ 2 := by
  refine ⟨BMEx.drawing, .side (i := 0) (.coords _) rfl rfl (Or.inr rfl), by decide +kernel, ?_⟩
  have key : ∀ i < 4, ∀ p q : Pt ℚ, (BMEx.square.map (·.1))[i]? = some p → (BMEx.square.map (·.1))[(i + 1) % 4]? = some q →
      (markers FLEx.D (.coords BMEx.square))[i]? = some 2 → p ≠ ⟨0, 0⟩ ∧ q ≠ ⟨0, 0⟩ := by
    intro i hi p q h1 h2 h3
    interval_cases i <;> simp [BMEx.square, markers] at h1 h2 h3 ⊢
    subst h1 h2
    decide +kernel
  rintro (h | h)
  · cases h with
    | side hw hp hq hm =>
      cases hw
      rcases hm with hm | hm
      · simp [markers, BMEx.square] at hm
      · exact (key _ (by have := (List.getElem?_eq_some_iff.mp hp).1; simpa [BMEx.square] using this) _ _ hp hq hm).2 rfl
  · cases h with
    | side hw hp hq hm =>
      cases hw
      rcases hm with hm | hm
      · simp [markers, BMEx.square] at hm
      · exact (key _ (by have := (List.getElem?_eq_some_iff.mp hp).1; simpa [BMEx.square] using this) _ _ hp hq hm).1 rfl

/-- The plate with a hole: the sides of the table have the markers of the rows, those of the square its marker. -/
example : (∀ b ∈ FLEx.plate.bdries, Aligned FLEx.D b) ∧ ((makeDomain FLEx.D FLEx.plate).toOption.any fun d => d.sources.map (fun l => l.map (·.color)) = [[1, 2, 3, 4], [5, 5, 5, 5]]) = true :=
  ⟨BMEx.aligned, by decide +kernel⟩

end TQ

#print axioms TQ.C188_markers
#print axioms TQ.C188_file
#print axioms TQ.C188_shifted_violated

import Verif.Whole.SeveralLemmas
import Verif.Whole.ReadyLemmas
import Verif.Whole.FileProps

/-! # C178: input files with several mesh definitions -/

set_option linter.unusedSectionVars false
set_option linter.unusedSimpArgs false

namespace TQ
open QL MS MeshSpec MCSpec MC MS.St FUSpec WholeSpec RefSpec CleanSpec Whole QLSpec SmSpec Sm GN MM MergeSpec CK FU AM AppSpec LinkSpec OutlSpec Outl SevSpec FlSpec Cf CfSpec Fl PR PRSpec TQ.Sev
variable {K : Type} [Field K] [LinearOrder K] [IsStrictOrderedRing K]

theorem segWinding_append (l m : List (Pt K × Pt K)) (p : Pt K) : segWinding (l ++ m) p = segWinding l p + segWinding m p := by
  rw [segWinding_wind, segWinding_wind, segWinding_wind, wind_append]

/-- **C178.** A further mesh definition, whose domain fits to the mesh of the definitions before and has no region in common with it: the domain is built, its
mesh is prepared beside the mesh of the definitions before as needed for the following steps (see C163), its boundary is the one drawn, and the meshing starts from there. -/
theorem C178_next {D : DEnv K} {L : LEnv K} (he : 0 < L.env.eps) {sub : Cfg K → Dm K → List (Fr.MVert K) → Fr.FEdge → Option (List (Pt K))} {x : Drawn K}
    (P : Proper D L.env.eps sub x) {w : World K} {a : Nat} (hc : Complete (w a)) (R : SevSpec.Ready (w a)) (F : Fits L.env.eps (w a) x.segs)
    (disj : ∀ p, segWinding x.segs p + winding (w a).pos (pairs (w a) .bdry) p ≤ 1) (J : Job K) (fuel : Nat) :
    ∃ d w1, makeDomain D x.cfg = .ok d ∧ Prepared (w1 (a + 1)) ∧ SameButTwins (w a) (w1 a) ∧ Beside w1 (a + 1) a ∧
      enclosed (w1 (a + 1)).pos (pairs (w1 (a + 1)) .bdry) = x.area ∧ (∀ p, winding (w1 (a + 1)).pos (pairs (w1 (a + 1)) .bdry) p = segWinding x.segs p) ∧
      Dom.area d.dom = x.area ∧ (Dom.extent d.dom).1.1 ≠ (Dom.extent d.dom).1.2 ∧ (Dom.extent d.dom).2.1 ≠ (Dom.extent d.dom).2.2 ∧
      constructNext D L J sub fuel w a x.cfg = match generateNext L fuel (jobOf J x.cfg) d.dom w1 (a + 1) a with
        | .undef => .fail .ub
        | .abort => .fail .abort
        | .fuel => .fuel
        | .done t => .done d w1 t := by
  obtain ⟨b, bs, H⟩ := P.drawing
  obtain ⟨fs, C, hS⟩ := P.fixed
  obtain ⟨d, hd⟩ := C172_progress_partial H C
  have ho : (upd w (a + 1) fun _ => St.empty x.cfg.color) a = w a := by simp [upd]
  obtain ⟨w1, h1, h2, h3, h4, h5, h6⟩ := next_prepared H hd P.simple C.corners C.fixed he P.sharp (hS d hd).1 (hS d hd).2 (w := upd w (a + 1) fun _ => St.empty x.cfg.color) (oi := a)
    (a := a + 1) (m := x.cfg.color) (by omega) (by simp [upd]) (by rw [ho]; exact hc) (by rw [ho]; exact R) (by rw [ho]; exact F) (by rw [ho]; exact disj)
  rw [ho] at h3
  obtain ⟨x1, x2⟩ := drawing_extent H hd
  refine ⟨d, w1, hd, h2, h3, h4, h5, h6, (drawing_area H hd).2, x1, x2, ?_⟩
  unfold constructNext
  rw [hd]
  dsimp only
  rw [h1]
  dsimp only
  rw [if_neg (fun n => P.known.elim n.1 n.2)]
  generalize generateNext L fuel (jobOf J x.cfg) d.dom w1 (a + 1) a = r
  cases r <;> rfl

theorem lk_none {p : BitVec 8} {t : Option (Nat × Nat)} (h : Lk (fun _ => False) p t) : t = none ∧ Flags.has p Flags.eIsFixed = false := by
  refine ⟨?_, h.1⟩
  cases t with
  | none => rfl
  | some x => exact absurd (h.2 x rfl) not_false

theorem empty_lk (S : Nat → Prop) (c : Int) {e : Nat} : Lk S ((St.empty c : St K).E e).props ((St.empty c : St K).E e).twin := (marks_lk S).zero

theorem next_links {D : DEnv K} {L : LEnv K} {J : Job K} {sub : Cfg K → Dm K → List (Fr.MVert K) → Fr.FEdge → Option (List (Pt K))} {fuel : Nat} {w w1 : World K} {a : Nat} {c : Cfg K}
    {d : Dm K} {T : NextTrace K} (h : constructNext D L J sub fuel w a c = .done d w1 T) : All (Lk (· = a)) (w1 (a + 1)) := by
  unfold constructNext at h
  split at h
  · simp at h
  · dsimp only at h
    split at h
    · simp at h
    · simp at h
    · rename_i ok w2 hp
      have : All (Lk (· = a)) (w2 (a + 1)) := by
        refine all_prepare (by omega) ?_ (fun x hx => ?_) hp
        · simp only [upd, if_true]
          exact fun _ => empty_lk _ _
        · simp only [Dm.prepNext, refsOf, List.mem_flatMap, List.mem_map] at hx
          obtain ⟨b, -, e, -, n, hn, rfl⟩ := hx
          simpa using (nbrA_mem hn).1
      split_ifs at h
      split at h <;> simp only [reduceCtorEq, NRes.done.injEq] at h
      rw [← h.2.1]; exact this

/-- What is kept along the definitions. -/
theorem goodRuns_mesh {D : DEnv K} {L : LEnv K} (he : 0 < L.env.eps) (hq : QueryExact L.env) (hso : SortOK L.env)
    (hn : ∀ p, 0 ≤ L.env.norm p ∧ Pt.normSq p ≤ L.env.norm p * L.env.norm p) {J : Job K}
    {sub : Cfg K → Dm K → List (Fr.MVert K) → Fr.FEdge → Option (List (Pt K))} {fuel : Nat} {xs : List (Drawn K)} {w : World K} {a : Nat} {ok : Bool}
    (h : GoodRuns D L J sub fuel xs w a ok) :
    MeshOf (w a) (w a) ∧ meshArea (w a) = (xs.map Drawn.area).sum ∧ (∀ p, winding (w a).pos (pairs (w a) .bdry) p = segWinding (xs.flatMap Drawn.segs) p) ∧
    (LeftFacets L.env.eps (w a) → 0 < J.thr → ok = true) ∧ Lst (Lk fun _ => False) (w a) := by
  induction h with
  | @first x d s0 T P h g =>
    obtain ⟨b, bs, H⟩ := P.drawing
    obtain ⟨fs, C, hS⟩ := P.fixed
    obtain ⟨d', hd⟩ := C172_progress_partial H C
    obtain ⟨w1, h1, h2, h3, h4, h5, h6⟩ := C172_prepared H hd P.simple C.corners C.fixed he P.sharp (hS d' hd).1 (hS d' hd).2 x.cfg.color
    unfold constructFirst at h
    rw [hd] at h
    dsimp only at h
    rw [h1] at h
    dsimp only at h
    rw [if_neg (fun n => P.known.elim n.1 n.2)] at h
    cases hgen : generateMesh L fuel (jobOf J x.cfg) d'.dom (w1 0) with
    | undef => rw [hgen] at h; simp at h
    | fuel => rw [hgen] at h; simp at h
    | done T' =>
      rw [hgen] at h
      simp only [MRes.done.injEq] at h
      obtain ⟨rfl, rfl, rfl⟩ := h
      obtain ⟨-, -, m3, m4, m5⟩ := C161_application he hq hso hn h2 h3 h4 hgen g.layers g.well g.all g.merging g.convex g.unfolded
      obtain ⟨x1, x2⟩ := drawing_extent H hd
      simp only [if_true]
      refine ⟨meshOf_self m4.complete m4.flagged m4.len m4.fresh, by rw [m4.area, h5]; simp [Drawn.area], fun p => ?_,
        fun hl hthr => m5 hl hthr (by rw [(drawing_area H hd).2, h5]) x1 x2, ?_⟩
      · rw [m4.region, h6]
        simp [Drawn.segs]
      · exact lst_first hgen (all_prepare (by simp) (fun _ => empty_lk _ _) (by simp [Dm.prep]) h1) m3.complete.wf
  | @next xs w w1 a ok x d T _ P R F disj ld h g hrim lr hconv hfold ih =>
    obtain ⟨i1, i2, i3, i4, i5⟩ := ih
    have R : SevSpec.Ready (w a) := ⟨fun e he => (lk_none (i5 e he)).1, fun e he => (lk_none (i5 e he)).2, R⟩
    obtain ⟨d', w2, hd, k1, k2, k3, k4, k5, k6, k7, k8, k9⟩ := C178_next he P i1.complete R F (by intro p; rw [i3]; exact disj p) J fuel
    rw [h] at k9
    cases hgen : generateNext L fuel (jobOf J x.cfg) d'.dom w2 (a + 1) a with
    | undef => rw [hgen] at k9; simp at k9
    | abort => rw [hgen] at k9; simp at k9
    | fuel => rw [hgen] at k9; simp at k9
    | done T' =>
      rw [hgen] at k9
      simp only [NRes.done.injEq] at k9
      obtain ⟨rfl, rfl, rfl⟩ := k9
      have e1 : (upd w1 (a + 1) fun _ => T.smoothed) (a + 1) = T.smoothed := by simp [upd]
      have ld' : LeftFacets L.env.eps (w1 a) := leftFacets_twins ld k2
      obtain ⟨j1, m4, j3⟩ := C163_next he hq hso hn k1 (meshOf_twins i1 k2) k3 ld' hgen g hrim lr hconv hfold
      obtain ⟨-, -, j4, j5⟩ := j1 T.smoothed (by simp)
      rw [e1]
      refine ⟨meshOf_self m4.complete m4.flagged m4.len m4.fresh, ?_, ?_, fun hl hthr => ?_, ?_⟩
      · rw [j4, k4, ← i1.area, i2, List.map_cons, List.sum_cons]
      · intro p
        rw [j5, k5, i3, List.flatMap_cons, segWinding_append]
      · rw [i4 ld hthr, j3 hl hthr (by rw [k6, k4]) k7 k8]
        rfl
      · refine lst_next he hq hso hn k1 (meshOf_twins i1 k2) k3 ld' hgen g hrim lr (next_links h) (fun e he => ?_) (j1 T.refined (by simp)).1.wf
        rw [k2.1] at he
        rw [k2.2 e]
        exact R.unfixed e he

/-- **C178.** Any number of definitions: the mesh of the generator is a complete mesh, hence a conforming one, that covers all the polygons without their holes exactly, the areas of its elements add up to the total
area, and success is reported. No boundary edge is left linked to another mesh or marked as fixed, so further definitions can follow. -/
theorem C178_mesh {D : DEnv K} {L : LEnv K} (he : 0 < L.env.eps) (hq : QueryExact L.env) (hso : SortOK L.env)
    (hn : ∀ p, 0 ≤ L.env.norm p ∧ Pt.normSq p ≤ L.env.norm p * L.env.norm p) {J : Job K}
    {sub : Cfg K → Dm K → List (Fr.MVert K) → Fr.FEdge → Option (List (Pt K))} {fuel : Nat} {xs : List (Drawn K)} {w : World K} {a : Nat} {ok : Bool}
    (h : GoodRuns D L J sub fuel xs w a ok) :
    Complete (w a) ∧ CoversOutline (xs.flatMap Drawn.segs) (w a) ∧ meshArea (w a) = (xs.map Drawn.area).sum ∧
    (LeftFacets L.env.eps (w a) → 0 < J.thr → ok = true) ∧
    ∀ e ∈ (w a).es .bdry, ((w a).E e).twin = none ∧ Flags.has ((w a).E e).props Flags.eIsFixed = false := by
  obtain ⟨m, h2, h3, h4, h5⟩ := goodRuns_mesh he hq hso hn h
  exact ⟨m.complete, ⟨m.tiled.apart, fun p x hx hp => by rw [← h3]; exact m.tiled.within p x hx hp,
    fun p hp hg => m.tiled.full p (by rw [h3]; exact hp) hg, h3⟩, h2, h4, fun e he => lk_none (h5 e he)⟩

/-- The run for the definitions, in the order of the file. -/
theorem goodRuns_run {D : DEnv K} {L : LEnv K} {J : Job K} {sub : Cfg K → Dm K → List (Fr.MVert K) → Fr.FEdge → Option (List (Pt K))} {fuel : Nat} {xs : List (Drawn K)} {w : World K}
    {a : Nat} {ok : Bool} (h : GoodRuns D L J sub fuel xs w a ok) (cs : List (Cfg K)) :
    runCfgs D L J sub fuel (xs.reverse.map Drawn.cfg ++ cs) = some (runNext D L J sub fuel cs w a ok) := by
  induction h generalizing cs with
  | first P h g =>
    simp only [List.reverse_singleton, List.map_singleton, List.singleton_append]
    unfold runCfgs
    dsimp only
    rw [h]
  | @next xs w w1 a ok x d T _ P R F disj ld h g hrim lr hconv hfold ih =>
    rw [List.reverse_cons, List.map_append, List.append_assoc, List.map_singleton, List.singleton_append, ih, runNext, h]

/-- **C178.** From the text of an input file with any number of mesh definitions to one mesh: for a well-written file whose definitions draw polygons with holes that fit to each other, and for
which the runs are good, the application returns one conforming mesh that covers all polygons without their holes exactly. -/
theorem C178_file (E : Cf.Env K) (big : K) (file : List Line) (ms : List MeshText) (tail : List Line)
    (hc : readContent file = ms.flatMap MeshText.lines ++ tail) (ht : ∀ l ∈ tail, ¬"Define mesh:".toList <:+: l) (hm : ∀ x ∈ ms, x.OK ∧ WellWritten E x.items)
    {D : DEnv K} {L : LEnv K} (he : 0 < L.env.eps) (hq : QueryExact L.env) (hso : SortOK L.env)
    (hn : ∀ p, 0 ≤ L.env.norm p ∧ Pt.normSq p ≤ L.env.norm p * L.env.norm p) {J : Job K}
    {sub : Cfg K → Dm K → List (Fr.MVert K) → Fr.FEdge → Option (List (Pt K))} {fuel : Nat} {xs : List (Drawn K)} (hx : xs.map Drawn.cfg = ms.map fun m => described E big m.items)
    {w : World K} {a : Nat} {ok : Bool} (h : GoodRuns D L J sub fuel xs.reverse w a ok) :
    runAll E big D L J sub fuel file = some (.done w a ok) ∧
    Conforming (w a) ∧ CoversOutline (xs.flatMap Drawn.segs) (w a) ∧ meshArea (w a) = (xs.map Drawn.area).sum ∧
    (LeftFacets L.env.eps (w a) → 0 < J.thr → ok = true) := by
  obtain ⟨k1, k2, k3, k4, -⟩ := C178_mesh he hq hso hn h
  have hwd : ∀ p, segWinding (xs.reverse.flatMap Drawn.segs) p = segWinding (xs.flatMap Drawn.segs) p := fun p => by
    rw [segWinding_wind, segWinding_wind, wind_perm ((List.reverse_perm xs).flatMap_right _)]
  refine ⟨?_, k1.toConforming, ⟨k2.apart, fun p x hx hp => by rw [← hwd]; exact k2.within p x hx hp, fun p hp hg => k2.full p (by rw [hwd]; exact hp) hg, fun p => by rw [k2.bdry, hwd]⟩,
    by rw [k3, ((List.reverse_perm xs).map _).sum_eq], k4⟩
  unfold runAll
  rw [C169_file_partial E big file ms tail hc ht hm, ← hx]
  have := goodRuns_run h []
  rw [List.reverse_reverse, List.append_nil] at this
  exact this

end TQ

#print axioms TQ.C178_next
#print axioms TQ.C178_mesh
#print axioms TQ.C178_file

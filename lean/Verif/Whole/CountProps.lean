import Verif.Whole.SeveralProps
import Verif.Whole.CountSpec
import Verif.Whole.SeveralExample

/-! # C186: refinements asked for in an input file take effect -/

set_option linter.unusedSectionVars false
set_option linter.unusedSimpArgs false

namespace TQ
open QL MS MeshSpec MCSpec MC MS.St FUSpec WholeSpec RefSpec CleanSpec Whole QLSpec SmSpec Sm GN MM MergeSpec CK FU AM AppSpec LinkSpec OutlSpec Outl SevSpec FlSpec Cf CfSpec Fl PR PRSpec TQ.Sev CountSpec
variable {K : Type} [Field K] [LinearOrder K] [IsStrictOrderedRing K]

theorem refinedBy_front {n : Nat} {s t u : St K} (h : s.refine = some (t, true)) (hr : RefinedBy n t u) : RefinedBy (n + 1) s u := by
  induction hr with
  | zero => exact .succ (.zero s) h
  | succ _ h2 ih => exact .succ (ih h) h2

/-- The loop over the refinements: if no boundary edge is linked at the end, none was refused. -/
theorem refineAll_refinedBy : ∀ {n : Nat} {s t : St K}, MCSpec.Proper s → NoTwins t → refineAll n s = some t → NoTwins s ∧ RefinedBy n s t
  | 0, s, t, _, ht, hr => by
    simp only [refineAll, Option.some.injEq] at hr
    subst hr
    exact ⟨ht, .zero s⟩
  | n + 1, s, t, hp, ht, hr => by
    simp only [refineAll, Option.bind_eq_some_iff] at hr
    obtain ⟨⟨u, b⟩, h1, h2⟩ := hr
    by_cases hs : NoTwins s
    · obtain ⟨v, N, k1, _, k3, _, _⟩ := C56_refine hp hs
      rw [h1] at k1
      simp only [Option.some.injEq, Prod.mk.injEq] at k1
      obtain ⟨rfl, rfl⟩ := k1
      exact ⟨hs, refinedBy_front h1 (refineAll_refinedBy k3 ht h2).2⟩
    · have := C56_refused hs
      rw [h1] at this
      simp only [Option.some.injEq, Prod.mk.injEq] at this
      obtain ⟨rfl, rfl⟩ := this
      exact absurd (refineAll_refinedBy hp ht h2).1 hs

theorem multiplied_of {n : Nat} {s r t : St K} (hp : MCSpec.Proper s) (hr : refineAll n s = some r) (k : SameButPlaces r t) (ht : NoTwins t) : Multiplied n s t := by
  have hn : NoTwins r := fun e he => by
    obtain ⟨-, -, -, -, -, k2⟩ := k.ends e
    rw [← k2]
    exact ht e (by rw [k.es]; exact he)
  obtain ⟨h1, h2⟩ := refineAll_refinedBy hp hn hr
  have ee : RefSpec.euler t = RefSpec.euler r := by unfold RefSpec.euler; rw [k.verts, k.es, k.tris, k.quads]
  cases n with
  | zero =>
    simp only [refineAll, Option.some.injEq] at hr
    subst hr
    exact ⟨fun _ => ⟨k.tris, k.quads⟩, fun k h => absurd h (by omega), by rw [k.es]; simp, ee⟩
  | succ n =>
    obtain ⟨c1, c2, c3, c4⟩ := C56_iterate_counts hp h1 h2
    refine ⟨fun h => absurd h (by omega), fun j hj => ?_, by rw [k.es]; exact c3, ee.trans c4⟩
    obtain rfl : n = j := by omega
    rw [k.tris, k.quads]
    exact ⟨c1, c2⟩

/-- **C186.** The first definition of a file: the refinements asked for are all carried out, so the final mesh has the numbers of elements and boundary edges of the mesh before them, multiplied accordingly. -/
theorem C186_first {D : DEnv K} {L : LEnv K} (he : 0 < L.env.eps) (hq : QueryExact L.env) (hso : SortOK L.env)
    (hn : ∀ p, 0 ≤ L.env.norm p ∧ Pt.normSq p ≤ L.env.norm p * L.env.norm p) {J : Job K}
    {sub : Cfg K → Dm K → List (Fr.MVert K) → Fr.FEdge → Option (List (Pt K))} {fuel : Nat} {x : Drawn K} {d : Dm K} {s0 : St K} {T : Trace K}
    (P : Proper D L.env.eps sub x) (h : constructFirst D L J sub fuel x.cfg = .done d s0 T) (g : FlSpec.GoodRun L fuel (jobOf J x.cfg) s0 T) :
    Multiplied x.cfg.refinements T.modified T.smoothed := by
  obtain ⟨-, -, -, -, hl⟩ := C178_mesh he hq hso hn (GoodRuns.first P h g)
  have ht : NoTwins T.smoothed := fun e hm => (hl e hm).1
  obtain ⟨b, bs, H⟩ := P.drawing
  obtain ⟨fs, C, hS⟩ := P.fixed
  obtain ⟨d', hd⟩ := C172_progress_partial H C
  obtain ⟨w1, h1, h2, h3, h4, h5, h6⟩ := C172_prepared H hd P.simple C.corners C.fixed he P.sharp (hS d' hd).1 (hS d' hd).2 x.cfg.color
  unfold constructFirst at h
  rw [hd] at h
  dsimp only at h
  rw [h1] at h
  dsimp only at h
  rw [if_neg (fun n => P.known.elim n.1 n.2)] at h
  cases hgen : generateMesh L fuel (jobOf J x.cfg) d'.dom (w1 0) with
  | undef => rw [hgen] at h; simp at h
  | fuel => rw [hgen] at h; simp at h
  | done T' =>
    rw [hgen] at h
    simp only [MRes.done.injEq] at h
    obtain ⟨rfl, rfl, rfl⟩ := h
    obtain ⟨-, m2, m3, -, -⟩ := C161_application he hq hso hn h2 h3 h4 hgen g.layers g.well g.all g.merging g.convex g.unfolded
    obtain ⟨-, -, -, k4, ⟨y, k5⟩, -⟩ := generateMesh_steps hgen
    exact multiplied_of m2.complete.toConforming.toProper k4 (mixed_facts m3.complete m3.len m3.fresh k5).1 ht

/-- **C186.** A further definition: its refinements are carried out on the mesh of all definitions up to this one. -/
theorem C186_next {D : DEnv K} {L : LEnv K} (he : 0 < L.env.eps) (hq : QueryExact L.env) (hso : SortOK L.env)
    (hn : ∀ p, 0 ≤ L.env.norm p ∧ Pt.normSq p ≤ L.env.norm p * L.env.norm p) {J : Job K}
    {sub : Cfg K → Dm K → List (Fr.MVert K) → Fr.FEdge → Option (List (Pt K))} {fuel : Nat} {xs : List (Drawn K)} {w w1 : World K} {a : Nat} {ok : Bool} {x : Drawn K} {d : Dm K} {T : NextTrace K}
    (hxs : GoodRuns D L J sub fuel xs w a ok) (P : Proper D L.env.eps sub x) (hends : EndsApart (w a)) (F : Fits L.env.eps (w a) x.segs)
    (disj : ∀ p, segWinding x.segs p + segWinding (xs.flatMap Drawn.segs) p ≤ 1) (ld : LeftFacets L.env.eps (w a))
    (h : constructNext D L J sub fuel w a x.cfg = .done d w1 T) (g : AppSpec.GoodRun L fuel (jobOf J x.cfg) (w1 (a + 1)) T.layered T.meshed)
    (hrim : RimKept (w1 (a + 1)) T.layered) (lr : LeftFacets L.env.eps T.modified) (hconv : (jobOf J x.cfg).refinements = 0 ∨ ConvexElements (T.merged (a + 1))) (hfold : Unfolded T.smoothed) :
    Multiplied x.cfg.refinements (T.merged (a + 1)) T.smoothed := by
  have hall := GoodRuns.next hxs P hends F disj ld h g hrim lr hconv hfold
  obtain ⟨-, -, -, -, hl⟩ := C178_mesh he hq hso hn hall
  have e1 : (upd w1 (a + 1) fun _ => T.smoothed) (a + 1) = T.smoothed := by simp [upd]
  rw [e1] at hl
  have ht : NoTwins T.smoothed := fun e hm => (hl e hm).1
  obtain ⟨i1, i2, i3, i4, i5⟩ := goodRuns_mesh he hq hso hn hxs
  have R : SevSpec.Ready (w a) := ⟨fun e he => (lk_none (i5 e he)).1, fun e he => (lk_none (i5 e he)).2, hends⟩
  obtain ⟨d', w2, hd, k1, k2, k3, k4, k5, k6, k7, k8, k9⟩ := C178_next he P i1.complete R F (by intro p; rw [i3]; exact disj p) J fuel
  rw [h] at k9
  cases hgen : generateNext L fuel (jobOf J x.cfg) d'.dom w2 (a + 1) a with
  | undef => rw [hgen] at k9; simp at k9
  | abort => rw [hgen] at k9; simp at k9
  | fuel => rw [hgen] at k9; simp at k9
  | done T' =>
    rw [hgen] at k9
    simp only [NRes.done.injEq] at k9
    obtain ⟨rfl, rfl, rfl⟩ := k9
    obtain ⟨j1, m4, -⟩ := C163_next he hq hso hn k1 (meshOf_twins i1 k2) k3 (leftFacets_twins ld k2) hgen g hrim lr hconv hfold
    obtain ⟨h1, -, h3, h4, h5, ⟨y, h6⟩, -⟩ := generateNext_steps hgen
    have w5 : WF T.refined := (j1 T.refined (by simp)).1.wf
    obtain ⟨r, hr, k, -⟩ := C58_mixed (jobOf J x.cfg).nearest L.env.norm (jobOf J x.cfg).cfg (jobOf J x.cfg).torsion (jobOf J x.cfg).laplace (jobOf J x.cfg).decay (jobOf J x.cfg).smoothing w5 (jobOf J x.cfg).step
    rw [h6] at hr
    simp only [Option.some.injEq] at hr
    rw [← hr] at k
    exact multiplied_of (j1 (T.merged (a + 1)) (by simp)).1.toConforming.toProper h5 k ht

/-- **C186.** If the last definition of a file asks for refinements, the mesh of the whole file has no triangles. -/
theorem C186_quads {D : DEnv K} {L : LEnv K} (he : 0 < L.env.eps) (hq : QueryExact L.env) (hso : SortOK L.env)
    (hn : ∀ p, 0 ≤ L.env.norm p ∧ Pt.normSq p ≤ L.env.norm p * L.env.norm p) {J : Job K}
    {sub : Cfg K → Dm K → List (Fr.MVert K) → Fr.FEdge → Option (List (Pt K))} {fuel : Nat} {x : Drawn K} {xs : List (Drawn K)} {w : World K} {a : Nat} {ok : Bool}
    (h : GoodRuns D L J sub fuel (x :: xs) w a ok) (hr : x.cfg.refinements ≠ 0) : (w a).tris = [] := by
  obtain ⟨n, hr⟩ := Nat.exists_eq_succ_of_ne_zero hr
  cases h with
  | first P h g =>
    simp only [if_true]
    exact ((C186_first he hq hso hn P h g).succ n hr).1
  | next h1 P R F disj ld h g hrim lr hconv hfold =>
    simp only [upd, if_true]
    exact ((C186_next he hq hso hn h1 P R F disj ld h g hrim lr hconv hfold).succ n hr).1

/-- **C186.** The same for the text of a file. -/
theorem C186_file (E : Cf.Env K) (big : K) (file : List Line) (ms : List MeshText) (m : MeshText) (tail : List Line)
    (hc : readContent file = (ms ++ [m]).flatMap MeshText.lines ++ tail) (ht : ∀ l ∈ tail, ¬"Define mesh:".toList <:+: l) (hm : ∀ x ∈ ms ++ [m], x.OK ∧ WellWritten E x.items)
    {D : DEnv K} {L : LEnv K} (he : 0 < L.env.eps) (hq : QueryExact L.env) (hso : SortOK L.env)
    (hn : ∀ p, 0 ≤ L.env.norm p ∧ Pt.normSq p ≤ L.env.norm p * L.env.norm p) {J : Job K}
    {sub : Cfg K → Dm K → List (Fr.MVert K) → Fr.FEdge → Option (List (Pt K))} {fuel : Nat} {xs : List (Drawn K)} (hx : xs.map Drawn.cfg = (ms ++ [m]).map fun m => described E big m.items)
    {w : World K} {a : Nat} {ok : Bool} (h : GoodRuns D L J sub fuel xs.reverse w a ok) (hr : (described E big m.items).refinements ≠ 0) :
    runAll E big D L J sub fuel file = some (.done w a ok) ∧ (w a).tris = [] := by
  refine ⟨(C178_file E big file (ms ++ [m]) tail hc ht hm he hq hso hn hx h).1, ?_⟩
  rcases List.eq_nil_or_concat xs with rfl | ⟨ys, y, rfl⟩
  · simp at hx
  · rw [List.concat_eq_append] at hx h
    rw [List.map_append, List.map_append] at hx
    have := (List.append_inj' hx rfl).2
    simp only [List.map_cons, List.map_nil, List.cons.injEq, and_true] at this
    rw [List.reverse_append] at h
    exact C186_quads he hq hso hn h (by rw [this]; exact hr)

/-! ### The square with "Tri-to-Quad" and one refinement, then the square beside it without refinement -/

example : Multiplied 1 FLEx.parts.2.2.modified FLEx.parts.2.2.smoothed ∧ FLEx.parts.2.2.modified.tris.length = 0 ∧ FLEx.parts.2.2.modified.quads.length = 1 ∧
    FLEx.parts.2.2.smoothed.quads.length = 4 :=
  ⟨C186_first (L := FNEx.Lf) FUEx.epsPos FUEx.exact FUEx.sortOK FUEx.norm_ok SVEx.proper1 SVEx.first_eq FLEx.good, by decide +kernel, by decide +kernel, by decide +kernel⟩

example : FLEx.parts.2.2.smoothed.tris = [] :=
  C186_quads (L := FNEx.Lf) FUEx.epsPos FUEx.exact FUEx.sortOK FUEx.norm_ok SVEx.first (by decide)

example : Multiplied 0 (SVEx.parts.2.2.merged 1) SVEx.parts.2.2.smoothed :=
  C186_next (L := FNEx.Lf) FUEx.epsPos FUEx.exact FUEx.sortOK FUEx.norm_ok SVEx.first SVEx.proper2 SVEx.ends SVEx.fits SVEx.disj SVEx.left0 SVEx.second_eq SVEx.run
    (by rw [SVEx.meshed.1]; exact rim_refl _) SVEx.left (Or.inl rfl) (APEx.unfolded_of SVEx.checks.2.2.2.2.2.2.1)

example : runAll demoEnv 1000 FLEx.D FNEx.Lf FLEx.J FLEx.sub 20 FLEx.file = some (.done SVEx.w 0 FLEx.parts.2.2.ok) ∧ (SVEx.w 0).tris = [] :=
  C186_file demoEnv 1000 FLEx.file [] FLEx.text [] FLEx.file_ok.1 (by simp) FLEx.file_ok.2 (L := FNEx.Lf) FUEx.epsPos FUEx.exact FUEx.sortOK FUEx.norm_ok (xs := [SVEx.x1])
    (by simp only [List.map_cons, List.map_nil, List.nil_append, FLEx.cfg_eq]; rfl) SVEx.first (by rw [FLEx.cfg_eq]; decide)

end TQ

#print axioms TQ.C186_first
#print axioms TQ.C186_next
#print axioms TQ.C186_quads
#print axioms TQ.C186_file

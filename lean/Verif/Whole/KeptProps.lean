import Verif.Whole.KeptSpec
import Verif.Whole.KeptMade
import Verif.Whole.KeptFront
import Verif.Whole.BdryProps

/-! # C189: drawn sides are kept with their markers -/

set_option linter.unusedSectionVars false
set_option linter.unusedSimpArgs false

namespace TQ
open QL MS MeshSpec MCSpec MC MS.St FUSpec WholeSpec RefSpec CleanSpec Whole QLSpec SmSpec Sm GN MM MergeSpec CK FU AM AppSpec LinkSpec OutlSpec Outl SevSpec FlSpec Cf CfSpec Fl PR PRSpec TQ.Sev
variable {K : Type} [Field K] [LinearOrder K] [IsStrictOrderedRing K]

/-- The point is on a boundary edge with the marker. -/
def OnRim (t : St K) (m : Int) (z : Pt K) : Prop := ∃ e ∈ t.es .bdry, (t.E e).color = m ∧ OnClosed (t.pos (t.E e).v1) (t.pos (t.E e).v2) z

theorem rim_cut {s t : St K} {m : Int} {z : Pt K} (h : OnRim s m z) (hc : RimCut s t) : OnRim t m z := by
  obtain ⟨e, he, h1, h2⟩ := h
  obtain ⟨f, hf, f1, f2⟩ := hc.full e he z h2
  exact ⟨f, hf, f1.trans h1, f2⟩

theorem rim_smooth {nearest : St K → Pt K → Option Nat} {norm : Pt K → K} {c : SmoothCfg K} {r1 r2 : Rule K} {decay step x : K} {n : Nat} {s t : St K} {m : Int} {z : Pt K}
    (hw : WF s) (hf : BdryFlagged s) (hr : smoothMixed nearest norm c r1 r2 decay n (s, step) = some (t, x)) (hp : OnRim s m z) : OnRim t m z := by
  obtain ⟨r, h1, h2, h3, -⟩ := C58_mixed nearest norm c r1 r2 decay n hw step
  rw [hr] at h1
  simp only [Option.some.injEq] at h1
  rw [← h1] at h2 h3
  exact rim_cut hp (cut_places hf h2 h3)

theorem closed_swap {p q z : Pt K} (h : OnClosed p q z) : OnClosed q p z := closed_trans (closed_right _ _) (closed_left _ _) h

/-- After merging, points on boundary edges of the receiver are still on such edges, or on edges of the donor. -/
theorem rim_receiver {w w' : World K} {ri di : Nat} {φ : Nat → Nat} (A : Adjacent w ri di) (G : Merged w w' ri di φ) {m : Int} {z : Pt K} (h : OnRim (w ri) m z) :
    OnRim (w' ri) m z ∨ ∃ m', OnRim (w di) m' z := by
  obtain ⟨e, he, h1, h2⟩ := h
  obtain ⟨n1, hb, hf⟩ := G.bdry
  by_cases hi : Iface w ri di e
  · obtain ⟨e', ht⟩ := hi
    obtain ⟨l1, -, l3, l4⟩ := A.link e he e' ht
    rw [l3, l4] at h2
    exact Or.inr ⟨_, e', l1, rfl, closed_swap h2⟩
  · obtain ⟨-, v1, v2, -⟩ := (A.receiver.wf.ends _).2 e he
    obtain ⟨o1, o2, o3, -⟩ := G.oldE .bdry e he
    refine Or.inl ⟨e, ?_, o3.trans h1, ?_⟩
    · rw [hb]
      exact List.mem_append_left _ (List.mem_filter.mpr ⟨he, by simpa using hi⟩)
    · rw [o1, o2, (G.old _ v1).1, (G.old _ v2).1]
      exact h2

/-- After merging, points on boundary edges of the donor are on such edges, or on edges of the receiver. -/
theorem rim_donor {w w' : World K} {ri di : Nat} {φ : Nat → Nat} (A : Adjacent w ri di) (G : Merged w w' ri di φ) {m : Int} {z : Pt K} (h : OnRim (w di) m z) :
    OnRim (w' ri) m z ∨ ∃ m', OnRim (w ri) m' z := by
  obtain ⟨e, he, h1, h2⟩ := h
  obtain ⟨n1, hb, hf⟩ := G.bdry
  by_cases hi : Iface w di ri e
  · obtain ⟨e', ht⟩ := hi
    obtain ⟨b1, b2⟩ := A.back e he e' ht
    obtain ⟨-, -, l3, l4⟩ := A.link e' b1 e b2
    rw [← l3, ← l4] at h2
    exact Or.inr ⟨_, e', b1, rfl, closed_swap h2⟩
  · obtain ⟨-, v1, v2, -⟩ := (A.donor.wf.ends _).2 e he
    obtain ⟨y, hy, hc, hcol, -⟩ := forall₂_mem hf e (List.mem_filter.mpr ⟨he, by simpa using hi⟩)
    refine Or.inl ⟨y, ?_, hcol.trans h1, ?_⟩
    · rw [hb]; exact List.mem_append_right _ hy
    · rw [hc.1, hc.2.1, G.pos _ v1, G.pos _ v2]
      exact h2

/-- Both places are on a side drawn in the definition. -/
def onAny (D : DEnv K) (x : Drawn K) (a b : Pt K) (_ : Int) : Prop :=
  ∃ d ∈ x.cfg.bdries, ∃ p q m, MarkedSide D (x.cfg.verts.map (·.xy)) d.2 p q m ∧ OnClosed p q a ∧ OnClosed p q b

theorem any_parts {D : DEnv K} {x : Drawn K} : Parts (onAny D x) := by
  rintro p q c y z ⟨b, h2, u, v, m, h3, h4, h5⟩ hx hy
  exact ⟨b, h2, u, v, m, h3, closed_trans h4 h5 hx, closed_trans h4 h5 hy⟩

theorem any_rim {D : DEnv K} {x : Drawn K} {t : St K} (h : Mk (onAny D x) t) {m : Int} {z : Pt K} (hz : OnRim t m z) : DrawnAt D x z := by
  obtain ⟨e, he, -, h2⟩ := hz
  obtain ⟨b, hb, p, q, m', k1, k2, k3⟩ := h e he
  exact ⟨b, hb, p, q, m', k1, closed_trans k2 k3 h2⟩

theorem drawn_rim {D : DEnv K} {xs : List (Drawn K)} {t : St K} (h : Mk (onDrawn D xs) t) {m : Int} {z : Pt K} (hz : OnRim t m z) : ∃ y ∈ xs, DrawnAt D y z := by
  obtain ⟨e, he, -, h2⟩ := hz
  obtain ⟨y, hy, b, hb, p, q, k1, k2, k3⟩ := h e he
  exact ⟨y, hy, b, hb, p, q, _, k1, closed_trans k2 k3 h2⟩

/-- A further definition: its sides are on its boundary edges or on those of the mesh, and its boundary edges on its sides. -/
theorem next_full {D : DEnv K} {L : LEnv K} (he : 0 < L.env.eps) {sub : Cfg K → Dm K → List (Fr.MVert K) → Fr.FEdge → Option (List (Pt K))} {x : Drawn K}
    (P : Proper D L.env.eps sub x) (ha : ∀ b ∈ x.cfg.bdries, Aligned D b) {w : World K} {a : Nat} (hc : Complete (w a)) (R : SevSpec.Ready (w a)) (F : Fits L.env.eps (w a) x.segs)
    (disj : ∀ p, segWinding x.segs p + winding (w a).pos (pairs (w a) .bdry) p ≤ 1) {J : Job K} {fuel : Nat} {d : Dm K} {w1 : World K} {T : NextTrace K}
    (h : constructNext D L J sub fuel w a x.cfg = .done d w1 T) :
    (∀ b ∈ x.cfg.bdries, ∀ p q m, MarkedSide D (x.cfg.verts.map (·.xy)) b.2 p q m → ∀ z, OnClosed p q z → (∃ m', OnRim (w a) m' z) ∨ OnRim (w1 (a + 1)) m z) ∧
    Mk (onAny D x) (w1 (a + 1)) := by
  obtain ⟨b, bs, H⟩ := P.drawing
  obtain ⟨fs, C, hS⟩ := P.fixed
  obtain ⟨d', hd⟩ := C172_progress_partial H C
  have ho : (upd w (a + 1) fun _ => St.empty x.cfg.color) a = w a := by simp [upd]
  obtain ⟨w2, h1, -⟩ := next_prepared H hd P.simple C.corners C.fixed he P.sharp (hS d' hd).1 (hS d' hd).2 (w := upd w (a + 1) fun _ => St.empty x.cfg.color) (oi := a)
    (a := a + 1) (m := x.cfg.color) (by omega) (by simp [upd]) (by rw [ho]; exact hc) (by rw [ho]; exact R) (by rw [ho]; exact F) (by rw [ho]; exact disj)
  have e1 : w1 = w2 := by
    unfold constructNext at h
    rw [hd] at h
    dsimp only at h
    rw [h1] at h
    dsimp only at h
    split_ifs at h
    split at h <;> simp only [reduceCtorEq, NRes.done.injEq] at h
    exact h.2.1.symm
  rw [e1]
  have hout := drawing_outline H hd
  rw [sides_outline] at hout
  have D0 := drawing_data H hd P.simple.proper
  have F' : Fits L.env.eps ((upd w (a + 1) fun _ => St.empty x.cfg.color) a) (LinkSpec.sides d'.sources) := by rw [ho]; exact fits_perm hout.symm F
  have D' := fits_data (w := upd w (a + 1) fun _ => St.empty x.cfg.color) (oi := a) D0 F' (by rw [ho]; exact R)
  have hwf : WF ((upd w (a + 1) fun _ => St.empty x.cfg.color) (a + 1)) := by simp only [upd, if_true]; exact wf_empty _
  have hrefs : ∀ y ∈ (d'.prepNext L.env.eps (sub x.cfg d') (upd w (a + 1) fun _ => St.empty x.cfg.color) [a]).refs, y.1 ≠ a + 1 := by
    intro y hy
    simp only [Dm.prepNext, refsOf, List.mem_flatMap, List.mem_map] at hy
    obtain ⟨b, -, e, -, n, hn, rfl⟩ := hy
    have := (nbrA_mem hn).1
    simp only [List.mem_singleton] at this
    omega
  have prop : ∀ l ∈ d'.sources, ∀ e ∈ l, e.p1 ≠ e.p2 := by
    intro l hl e he
    refine D0.ne (e, false) ?_
    unfold Fr.collectCalls
    exact List.mem_append_left _ (List.mem_flatMap.mpr ⟨l, hl, List.mem_flatMap.mpr ⟨e, he, by simp⟩⟩)
  refine ⟨?_, ?_⟩
  · intro b hb p q m hm z hz
    obtain ⟨l, hl, e, hel, hends, rfl⟩ := drawing_full H ha hd hb hm
    have hz' : OnClosed e.p1 e.p2 z := by
      rcases hends with ⟨rfl, rfl⟩ | ⟨rfl, rfl⟩
      · exact hz
      · exact closed_swap hz
    by_cases hn : (nbrA L.env.eps (upd w (a + 1) fun _ => St.empty x.cfg.color) [a] e).map (·.2) = []
    · exact Or.inr (prepared_full D' rfl (hS d' hd).1 hwf hrefs h1 hl hel hn hz')
    · left
      obtain ⟨ls, c1, c2⟩ := piece_cut F' (List.mem_flatten.mpr ⟨l, hl, hel⟩)
      rw [if_neg hn] at c2
      obtain ⟨c, hc, hon⟩ := isCut_cover c1 hz'
      obtain ⟨n, hn, rfl⟩ := List.mem_map.mp (c2.symm.subset hc)
      obtain ⟨n', hn', rfl⟩ := List.mem_map.mp hn
      obtain ⟨n1, n2, n3⟩ := nbrA_mem hn'
      simp only [List.mem_singleton] at n1
      rw [n1, ho] at n2 n3
      rw [n3] at hon
      exact ⟨_, _, n2, rfl, closed_swap hon⟩
  · refine mk_prepared D' rfl (hS d' hd).1 hwf hrefs h1 any_parts ?_ ?_
    · intro l hl e he
      obtain ⟨b, hb, hmk | hmk⟩ := drawing_marked H ha hd l hl e he
      · exact ⟨b, hb, _, _, _, hmk, closed_left _ _, closed_right _ _⟩
      · exact ⟨b, hb, _, _, _, hmk, closed_right _ _, closed_left _ _⟩
    · intro l hl e hel n hn
      obtain ⟨ls, c1, c2⟩ := piece_cut F' (List.mem_flatten.mpr ⟨l, hl, hel⟩)
      rw [if_neg (fun hh => by rw [hh] at hn; simp at hn)] at c2
      have hc := c2.subset (List.mem_map_of_mem (f := fun n : Fr.SrcEdge K => (n.p2, n.p1)) hn)
      have o1 := (isCut_on (prop l hl e hel) c1 hc (closed_left _ _)).1
      have o2 := (isCut_on (prop l hl e hel) c1 hc (closed_right _ _)).1
      obtain ⟨b, hb, hmk | hmk⟩ := drawing_marked H ha hd l hl e hel
      · exact ⟨b, hb, _, _, _, hmk, o1, o2⟩
      · exact ⟨b, hb, _, _, _, hmk, closed_swap o1, closed_swap o2⟩

/-- **C189.** Any number of definitions: each point of a side that is drawn in one of them is on a boundary edge of the mesh with the marker of this side, unless a side of another
definition passes through it; whatever was divided, covered with layers, meshed, merged, refined and smoothed. -/
theorem C189_kept {D : DEnv K} {L : LEnv K} (he : 0 < L.env.eps) (hq : QueryExact L.env) (hso : SortOK L.env)
    (hn : ∀ p, 0 ≤ L.env.norm p ∧ Pt.normSq p ≤ L.env.norm p * L.env.norm p) {J : Job K}
    {sub : Cfg K → Dm K → List (Fr.MVert K) → Fr.FEdge → Option (List (Pt K))} {fuel : Nat} {xs : List (Drawn K)} {w : World K} {a : Nat} {ok : Bool}
    (h : GoodRuns D L J sub fuel xs w a ok) (hal : ∀ x ∈ xs, ∀ b ∈ x.cfg.bdries, Aligned D b) : SidesKept D xs (w a) := by
  induction h with
  | @first x d s0 T P h g =>
    obtain ⟨b, bs, H⟩ := P.drawing
    obtain ⟨fs, C, hS⟩ := P.fixed
    obtain ⟨d', hd⟩ := C172_progress_partial H C
    obtain ⟨w1, h1, h2, h3, h4, h5, h6⟩ := C172_prepared H hd P.simple C.corners C.fixed he P.sharp (hS d' hd).1 (hS d' hd).2 x.cfg.color
    unfold constructFirst at h
    rw [hd] at h
    dsimp only at h
    rw [h1] at h
    dsimp only at h
    rw [if_neg (fun n => P.known.elim n.1 n.2)] at h
    cases hgen : generateMesh L fuel (jobOf J x.cfg) d'.dom (w1 0) with
    | undef => rw [hgen] at h; simp at h
    | fuel => rw [hgen] at h; simp at h
    | done T' =>
      rw [hgen] at h
      simp only [MRes.done.injEq] at h
      obtain ⟨rfl, rfl, rfl⟩ := h
      obtain ⟨-, m2, m3, m4, -⟩ := C161_application he hq hso hn h2 h3 h4 hgen g.layers g.well g.all g.merging g.convex g.unfolded
      obtain ⟨g1, ⟨ok, g2⟩, g3, g4, ⟨y, g5⟩, -⟩ := generateMesh_steps hgen
      simp only [if_true]
      intro l x' l' hx b hb p q m hm z hz
      right
      have hx' : x' = x := by
        have : x' ∈ [x] := by rw [hx]; simp
        simpa using this
      rw [hx'] at hb hm
      obtain ⟨l, hl, e, hel, hends, rfl⟩ := drawing_full H (hal x (by simp)) hd hb hm
      have hz' : OnClosed e.p1 e.p2 z := by
        rcases hends with ⟨rfl, rfl⟩ | ⟨rfl, rfl⟩
        · exact hz
        · exact closed_swap hz
      have c0 : OnRim (w1 0) e.color z :=
        prepared_full (drawing_data H hd P.simple.proper) rfl (hS d' hd).1 (wf_empty _) (by simp [Dm.prep]) h1 hl hel rfl hz'
      have c1 := rim_cut c0 (cut_part he hq hso hn h2 h3 g1 g3 g.layers g.well g.all g.merging)
      exact rim_smooth m3.complete.wf m3.flagged g5 (rim_cut c1 (cut_refineAll m2 g.convex g4))
  | @next xs w w1 a ok x d T hruns P R F disj ld h g hrim lr hconv hfold ih =>
    have ip := ih fun d hd => hal d (List.mem_cons_of_mem _ hd)
    have im : Mk (onDrawn D xs) (w a) := C188_markers he hq hso hn hruns fun d hd => hal d (List.mem_cons_of_mem _ hd)
    obtain ⟨i1, i2, i3, i4, i5⟩ := goodRuns_mesh he hq hso hn hruns
    have R : SevSpec.Ready (w a) := ⟨fun e he => (lk_none (i5 e he)).1, fun e he => (lk_none (i5 e he)).2, R⟩
    have dj : ∀ p, segWinding x.segs p + winding (w a).pos (pairs (w a) .bdry) p ≤ 1 := by intro p; rw [i3]; exact disj p
    obtain ⟨f1, f2⟩ := next_full he P (hal x (by simp)) i1.complete R F dj h
    obtain ⟨d', w2, hd, k1, k2, k3, k4, k5, k6, k7, k8, k9⟩ := C178_next he P i1.complete R F dj J fuel
    rw [h] at k9
    cases hgen : generateNext L fuel (jobOf J x.cfg) d'.dom w2 (a + 1) a with
    | undef => rw [hgen] at k9; simp at k9
    | abort => rw [hgen] at k9; simp at k9
    | fuel => rw [hgen] at k9; simp at k9
    | done T' =>
      rw [hgen] at k9
      simp only [NRes.done.injEq] at k9
      obtain ⟨rfl, rfl, rfl⟩ := k9
      have e1 : (upd w1 (a + 1) fun _ => T.smoothed) (a + 1) = T.smoothed := by simp [upd]
      rw [e1]
      have ld' : LeftFacets L.env.eps (w1 a) := leftFacets_twins ld k2
      have hb := meshOf_twins i1 k2
      obtain ⟨h1, ⟨ok, h2⟩, h3, h4, h5, ⟨y, h6⟩, -⟩ := generateNext_steps hgen
      obtain ⟨m1, a1, r1⟩ := meshed_part he hq hso hn k1 h1 h3 g
      obtain ⟨S, hex⟩ := beside_done k3 (r1 hrim) m1.region m1.complete hb.complete
      have e1 : (upd w1 (a + 1) fun _ => T.modified) (a + 1) = T.modified := by simp [upd]
      have e2 : (upd w1 (a + 1) fun _ => T.modified) a = w1 a := by simp [upd]
      obtain ⟨m2, -, -, -⟩ := C162_merge (a := w1 (a + 1)) (b := w a) (by rw [e1]; exact m1) (by rw [e2]; exact hb) S (by rw [e1]; exact lr) (by rw [e2]; exact ld') h4
      obtain ⟨m3, -, -⟩ := refineAll_mesh m2 hconv h5
      obtain ⟨φ, κ, ρ, δ, G, -, -⟩ := merged_of S.adj (by rw [e1]; exact lr) (by rw [e2]; exact ld') h4
      have cp := cut_part he hq hso hn k1.bare k1.flagged h1 h3 g.layers g.well g.ok g.quads
      have f2' := mk_cut any_parts f2 cp
      have im' := mk_cut drawn_parts im (cut_twins k2)
      intro l x' l' hx b hb p q m hm z hz
      cases l with
      | nil =>
        simp only [List.nil_append, List.cons.injEq] at hx
        obtain ⟨rfl, rfl⟩ := hx
        rcases f1 b hb p q m hm z hz with ⟨m', hr⟩ | hr
        · exact Or.inl (drawn_rim im hr)
        · have hr := rim_cut hr cp
          rw [← e1] at hr
          rcases rim_receiver S.adj G.mer hr with hr | ⟨m', hr⟩
          · exact Or.inr (rim_smooth m3.complete.wf m3.flagged h6 (rim_cut hr (cut_refineAll m2 hconv h5)))
          · rw [e2] at hr
            exact Or.inl (drawn_rim im' hr)
      | cons x0 l =>
        simp only [List.cons_append, List.cons.injEq] at hx
        obtain ⟨rfl, rfl⟩ := hx
        rcases ip l x' l' rfl b hb p q m hm z hz with ⟨y, hy, hd⟩ | hr
        · exact Or.inl ⟨y, List.mem_cons_of_mem _ hy, hd⟩
        · have hr := rim_cut hr (cut_twins k2)
          rw [← e2] at hr
          rcases rim_donor S.adj G.mer hr with hr | ⟨m', hr⟩
          · exact Or.inr (rim_smooth m3.complete.wf m3.flagged h6 (rim_cut hr (cut_refineAll m2 hconv h5)))
          · rw [e1] at hr
            exact Or.inl ⟨_, List.mem_cons_self .., any_rim f2' hr⟩

/-- **C189.** From the text of an input file with any number of mesh definitions to one mesh on whose boundary the drawn sides are found with their markers. -/
theorem C189_file (E : Cf.Env K) (big : K) (file : List Line) (ms : List MeshText) (tail : List Line)
    (hc : readContent file = ms.flatMap MeshText.lines ++ tail) (ht : ∀ l ∈ tail, ¬"Define mesh:".toList <:+: l) (hm : ∀ x ∈ ms, x.OK ∧ WellWritten E x.items)
    {D : DEnv K} {L : LEnv K} (he : 0 < L.env.eps) (hq : QueryExact L.env) (hso : SortOK L.env)
    (hn : ∀ p, 0 ≤ L.env.norm p ∧ Pt.normSq p ≤ L.env.norm p * L.env.norm p) {J : Job K}
    {sub : Cfg K → Dm K → List (Fr.MVert K) → Fr.FEdge → Option (List (Pt K))} {fuel : Nat} {xs : List (Drawn K)} (hx : xs.map Drawn.cfg = ms.map fun m => described E big m.items)
    {w : World K} {a : Nat} {ok : Bool} (h : GoodRuns D L J sub fuel xs.reverse w a ok) (hal : ∀ m ∈ ms, ∀ b ∈ (described E big m.items).bdries, Aligned D b) :
    runAll E big D L J sub fuel file = some (.done w a ok) ∧ SidesKept D xs (w a) := by
  refine ⟨(C178_file E big file ms tail hc ht hm he hq hso hn hx h).1, ?_⟩
  have hxc : ∀ d ∈ xs.reverse, ∀ b ∈ d.cfg.bdries, Aligned D b := by
    intro d hd
    have h1 : d.cfg ∈ xs.map Drawn.cfg := List.mem_map_of_mem (List.mem_reverse.mp hd)
    rw [hx] at h1
    obtain ⟨m, hm, e⟩ := List.mem_map.mp h1
    rw [← e]; exact hal m hm
  intro l x l' hs b hb p q m hk z hz
  rcases C189_kept he hq hso hn h hxc l'.reverse x l.reverse (by rw [hs]; simp) b hb p q m hk z hz with ⟨y, hy, hd⟩ | hr
  · refine Or.inl ⟨y, ?_, hd⟩
    simp only [List.mem_append, List.mem_reverse] at hy ⊢
    exact hy.symm
  · exact Or.inr hr

end TQ

#print axioms TQ.C189_kept
#print axioms TQ.C189_file

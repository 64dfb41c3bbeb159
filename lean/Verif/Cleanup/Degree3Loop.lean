import Verif.Cleanup.Degree3

/-! # Lemmas: the loop over the vertices of degree three -/

set_option linter.unusedSectionVars false
set_option linter.unusedSimpArgs false

namespace TQ.MC
open TQ TQ.MS TQ.MeshSpec TQ.MCSpec MS.St
variable {K : Type*} [Field K] [LinearOrder K] [IsStrictOrderedRing K]

theorem area2_rot (p q r : Pt K) : area2 q r p = area2 p q r := by unfold area2; ring

theorem big_rot {eps : K} {s : St K} (h : BigTris eps s) {x a b c : Nat} (hx : x ∈ s.tris) (hr : Rot3 (s.F (.tri x)).corners a b c) :
    0 < area2 (s.pos a) (s.pos b) (s.pos c) ∧ eps ≤ area2 (s.pos a) (s.pos b) (s.pos c) ^ 2 := by
  rcases hr with hr | hr | hr
  · exact h x hx _ _ _ hr
  · have := h x hx _ _ _ hr; rwa [area2_rot] at this
  · have := h x hx _ _ _ hr; rwa [area2_rot, area2_rot] at this

theorem area2_split (v a b c : Pt K) : area2 a b c = area2 v a b + area2 v b c + area2 v c a := by unfold area2; ring

theorem ring_area {eps : K} {s : St K} (h : BigTris eps s) {v a b c x1 x2 x3 : Nat} (hr : Ring s v a b c x1 x2 x3) :
    0 < area2 (s.pos a) (s.pos b) (s.pos c) ∧ eps ≤ area2 (s.pos a) (s.pos b) (s.pos c) ^ 2 := by
  obtain ⟨p1, q1⟩ := big_rot h hr.live.1 hr.r1
  obtain ⟨p2, -⟩ := big_rot h hr.live.2.1 hr.r2
  obtain ⟨p3, -⟩ := big_rot h hr.live.2.2 hr.r3
  have e := area2_split (s.pos v) (s.pos a) (s.pos b) (s.pos c)
  refine ⟨by rw [e]; linarith, q1.trans ?_⟩
  exact pow_le_pow_left₀ p1.le (by rw [e]; linarith) 2

/-- Each turn of the loop. -/
theorem mergeBad_step {eps : K} {s : St K} (h : Proper s) (hb : BigTris eps s) {v : Nat} (hv : v ∈ s.verts) (hbad : isBad s v = true) :
    ∃ a b c x1 x2 x3 u, mergeBad eps s v = some u ∧ Ring s v a b c x1 x2 x3 ∧ Starred s u v a b c x1 x2 x3 := by
  obtain ⟨t0, t1, t2, v0, v1, v2, e0, e1, e2, hs⟩ := star_of_bad h hv hbad
  have w := h.wf
  have find : ∀ {e a}, e ∈ s.es .intr → Connects s e v a → (∀ e', e' ∈ s.es .intr → Connects s e' v a → e' = e) → s.getEdge .intr v a = some e := by
    intro e a he hc hu
    cases hg : s.getEdge .intr v a with
    | none => exact absurd (hc.imp id fun k => ⟨k.2, k.1⟩) (getEdge_none w hv hg e he)
    | some e' =>
      obtain ⟨g1, g2⟩ := getEdge_some w hv hg
      rw [hu e' g1 (g2.imp id fun k => ⟨k.2, k.1⟩)]
  have nd := hs.nd
  simp at nd
  have cne : ∀ {e a b}, Connects s e v a → Connects s e v b → a = b := by
    intro e a b h1 h2; clear * - h1 h2; unfold Connects at h1 h2; omega
  obtain ⟨c0, c1, c2⟩ := hs.con
  have inE : ∀ {e a}, e ∈ s.es .intr → Connects s e v a → e = e0 ∨ e = e1 ∨ e = e2 := by
    intro e a he hc
    refine (hs.edges e).mp (((w.edges v hv).2 e).mpr ⟨(liveE_iff w.toSound e).mpr ⟨_, he⟩, ?_⟩)
    rcases hc with k | k
    · exact Or.inl k.1
    · exact Or.inr k.2
  have g0 : s.getEdge .intr v v0 = some e0 := find hs.intr.1 c0 (by
    intro e' h1 h2
    rcases inE h1 h2 with rfl | rfl | rfl
    · rfl
    · exact absurd (cne h2 c1) nd.2.1.1
    · exact absurd (cne h2 c2) nd.2.1.2)
  have g1 : s.getEdge .intr v v1 = some e1 := find hs.intr.2.1 c1 (by
    intro e' h1 h2
    rcases inE h1 h2 with rfl | rfl | rfl
    · exact absurd (cne c0 h2) nd.2.1.1
    · rfl
    · exact absurd (cne h2 c2) nd.2.2)
  have g2 : s.getEdge .intr v v2 = some e2 := find hs.intr.2.2 c2 (by
    intro e' h1 h2
    rcases inE h1 h2 with rfl | rfl | rfl
    · exact absurd (cne c0 h2) nd.2.1.2
    · exact absurd (cne c1 h2) nd.2.2
    · rfl)
  have hm : mergeBad eps s v = if orientation eps (s.pos v0) (s.pos v1) (s.pos v2) = .CCW
      then some (((removeFacet (removeFacet (removeFacet (((s.removeIntr e0).removeIntr e1).removeIntr e2) (.tri t0)) (.tri t1)) (.tri t2)).removeVertex v).addTri v0 v1 v2 (s.F (.tri t0)).color)
      else some (((removeFacet (removeFacet (removeFacet (((s.removeIntr e0).removeIntr e1).removeIntr e2) (.tri t0)) (.tri t1)) (.tri t2)).removeVertex v).addTri v0 v2 v1 (s.F (.tri t0)).color) := by
    unfold mergeBad
    rw [hs.facets]
    dsimp only
    rw [hs.succ.1, hs.succ.2.1, hs.succ.2.2]
    dsimp only
    rw [g0, g1, g2]
  rcases star_ring w hv hs with hr | hr
  · obtain ⟨p, q⟩ := ring_area hb hr
    have ho : orientation eps (s.pos v0) (s.pos v1) (s.pos v2) = .CCW := by
      unfold orientation; rw [if_neg (not_lt.mpr (by simpa [sq] using q)), if_pos p]
    rw [if_pos ho] at hm
    exact ⟨_, _, _, _, _, _, _, hm, hr, starred_of w hv hs hr (Or.inl ⟨rfl, rfl, rfl⟩) rfl (Or.inl ⟨rfl, rfl⟩)⟩
  · obtain ⟨p, q⟩ := ring_area hb hr
    have ho : orientation eps (s.pos v0) (s.pos v1) (s.pos v2) ≠ .CCW := by
      have e : area2 (s.pos v0) (s.pos v1) (s.pos v2) = - area2 (s.pos v0) (s.pos v2) (s.pos v1) := by unfold area2; ring
      unfold orientation
      rw [e]
      dsimp only; split_ifs with k1 k2
      · simp
      · linarith
      · simp
    rw [if_neg ho] at hm
    exact ⟨_, _, _, _, _, _, _, hm, hr, starred_of w hv hs hr (Or.inr ⟨rfl, rfl, rfl⟩) rfl (Or.inr ⟨rfl, rfl⟩)⟩

/-! ### Two vertices of degree three are not adjacent -/

theorem rot3_det {cs : List Nat} {v a b a' b' : Nat} (hn : cs.Nodup) (h : Rot3 cs v a b) (h' : Rot3 cs v a' b') : a' = a ∧ b' = b := by
  unfold Rot3 at h h'
  rcases h with rfl | rfl | rfl <;> rcases h' with h' | h' | h' <;> simp at h' hn <;> omega

theorem Rot3.turn {cs : List Nat} {a b c : Nat} (h : Rot3 cs a b c) : Rot3 cs b c a := by
  unfold Rot3 at h ⊢; tauto

theorem ring_not_adjacent {eps : K} {s : St K} (w : WF s) (hb : BigTris eps s) {v a b c x1 x2 x3 : Nat} (hr : Ring s v a b c x1 x2 x3)
    {a' b' c' y1 y2 y3 : Nat} (hr' : Ring s a a' b' c' y1 y2 y3) : False := by
  have key : ∀ {p q r z1 z2 z3}, Ring s a p q r z1 z2 z3 → x1 = z1 → False := by
    intro p q r z1 z2 z3 hk hx
    subst hx
    have hn := (w.cor (.tri x1) hr.live.1).1
    obtain ⟨e1, e2⟩ := rot3_det hn hr.r1.turn hk.r1
    subst e1 e2
    -- the triangle `x3 = (v, c, a)` at `a`
    have a3 : a ∈ (s.F (.tri x3)).corners := (rot3_mem hr.r3 a).mpr (by simp)
    have hn3 := (w.cor (.tri x3) hr.live.2.2).1
    have nd := hr.nd
    simp at nd
    have r3' : Rot3 (s.F (.tri x3)).corners a q c := hr.r3.turn.turn
    rcases hk.only (.tri x3) hr.live.2.2 a3 with k | k | k <;> simp at k <;> rw [k] at r3' hn3
    · obtain ⟨e3, e4⟩ := rot3_det hn3 r3' hk.r1
      exact nd.1.2.1 e3.symm
    · obtain ⟨-, e4⟩ := rot3_det hn3 r3' hk.r2
      subst e4
      obtain ⟨p1, -⟩ := big_rot hb hk.live.2.2 hk.r3
      obtain ⟨p2, -⟩ := ring_area hb hr
      have : area2 (s.pos a) (s.pos p) (s.pos r) = - area2 (s.pos a) (s.pos r) (s.pos p) := by unfold area2; ring
      rw [this] at p2
      linarith
    · obtain ⟨e3, e4⟩ := rot3_det hn3 r3' hk.r3
      exact nd.2.2 (by rw [e4])
  have a1 : a ∈ (s.F (.tri x1)).corners := (rot3_mem hr.r1 a).mpr (by simp)
  rcases hr'.only (.tri x1) hr.live.1 a1 with k | k | k <;> simp at k
  · exact key hr' k
  · exact key hr'.rot k
  · exact key hr'.rot.rot k

/-! ### The state after one turn -/

section
variable {s u : St K} {v a b c x1 x2 x3 : Nat} {eps : K}

theorem starred_live (hs : Starred s u v a b c x1 x2 x3) (f : FRef) :
    Live u f ↔ (Live s f ∧ f ≠ .tri x1 ∧ f ≠ .tri x2 ∧ f ≠ .tri x3) ∨ f = .tri s.nxt := by
  cases f with
  | null => simp [Live]
  | tri x => simp only [Live, hs.tris x, ne_eq, FRef.tri.injEq]
  | quad q => simp [Live, hs.quads]

theorem live_old (w : WF s) {f : FRef} (hf : Live s f) : f ≠ .tri s.nxt := by
  rintro rfl; exact lt_irrefl _ (w.tlt _ hf)

theorem starred_new (hs : Starred s u v a b c x1 x2 x3) (p q : Nat) :
    HasSide u (.tri s.nxt) p q ↔ (p, q) = (a, b) ∨ (p, q) = (b, c) ∨ (p, q) = (c, a) :=
  rot3_side (Or.inl (by rw [hs.Fn])) p q

theorem starred_side (hs : Starred s u v a b c x1 x2 x3) {f : FRef} (hf : f ≠ .tri s.nxt) (p q : Nat) :
    HasSide u f p q ↔ HasSide s f p q := by
  unfold HasSide; rw [hs.F f hf]

theorem hasSide_corner {f : FRef} {p q : Nat} (h : HasSide s f p q) : p ∈ (s.F f).corners ∧ q ∈ (s.F f).corners := by
  obtain ⟨i, -, h⟩ := h
  unfold sideAt at h
  split at h
  · rename_i k1 k2
    simp at h
    obtain ⟨rfl, rfl⟩ := h
    exact ⟨List.mem_of_getElem? k1, List.mem_of_getElem? k2⟩
  · cases h

theorem starred_covered (w : WF s) (hr : Ring s v a b c x1 x2 x3) (hs : Starred s u v a b c x1 x2 x3) (p q : Nat) :
    Covered u p q ↔ Covered s p q ∧ p ≠ v ∧ q ≠ v := by
  have nd := hr.nd
  simp at nd
  constructor
  · rintro ⟨f, hf, hq⟩
    rcases (starred_live hs f).mp hf with ⟨l, n1, n2, n3⟩ | rfl
    · rw [starred_side hs (live_old w l)] at hq
      refine ⟨⟨f, l, hq⟩, ?_, ?_⟩
      · rintro rfl
        rcases hr.only f l (hasSide_corner hq).1 with k | k | k
        exacts [n1 k, n2 k, n3 k]
      · rintro rfl
        rcases hr.only f l (hasSide_corner hq).2 with k | k | k
        exacts [n1 k, n2 k, n3 k]
    · rw [starred_new hs] at hq
      rcases hq with hq | hq | hq <;> cases hq
      · exact ⟨⟨.tri x1, hr.live.1, (rot3_side hr.r1 _ _).mpr (by simp)⟩, by omega, by omega⟩
      · exact ⟨⟨.tri x2, hr.live.2.1, (rot3_side hr.r2 _ _).mpr (by simp)⟩, by omega, by omega⟩
      · exact ⟨⟨.tri x3, hr.live.2.2, (rot3_side hr.r3 _ _).mpr (by simp)⟩, by omega, by omega⟩
  · rintro ⟨⟨f, l, hq⟩, hp, hq'⟩
    by_cases hf : f = .tri x1 ∨ f = .tri x2 ∨ f = .tri x3
    · refine ⟨.tri s.nxt, (starred_live hs _).mpr (Or.inr rfl), (starred_new hs _ _).mpr ?_⟩
      rcases hf with rfl | rfl | rfl
      · rcases (rot3_side hr.r1 _ _).mp hq with k | k | k <;> simp at k
        · exact absurd k.1 hp
        · simp [k]
        · exact absurd k.2 hq'
      · rcases (rot3_side hr.r2 _ _).mp hq with k | k | k <;> simp at k
        · exact absurd k.1 hp
        · simp [k]
        · exact absurd k.2 hq'
      · rcases (rot3_side hr.r3 _ _).mp hq with k | k | k <;> simp at k
        · exact absurd k.1 hp
        · simp [k]
        · exact absurd k.2 hq'
    · rw [not_or, not_or] at hf
      exact ⟨f, (starred_live hs f).mpr (Or.inl ⟨l, hf⟩), (starred_side hs (live_old w l) _ _).mpr hq⟩

theorem starred_proper (h : Proper s) (hr : Ring s v a b c x1 x2 x3) (hs : Starred s u v a b c x1 x2 x3) : Proper u := by
  have w := h.wf
  have newOld : ∀ {g p q}, Live s g → (g ≠ .tri x1 ∧ g ≠ .tri x2 ∧ g ≠ .tri x3) → HasSide s g p q → HasSide u (.tri s.nxt) p q → False := by
    intro g p q hg hn h1 h2
    rw [starred_new hs] at h2
    rcases h2 with k | k | k <;> cases k
    · exact hn.1 (h.dir _ _ _ _ hg (show Live s (.tri x1) from hr.live.1) h1 ((rot3_side hr.r1 _ _).mpr (by simp)))
    · exact hn.2.1 (h.dir _ _ _ _ hg (show Live s (.tri x2) from hr.live.2.1) h1 ((rot3_side hr.r2 _ _).mpr (by simp)))
    · exact hn.2.2 (h.dir _ _ _ _ hg (show Live s (.tri x3) from hr.live.2.2) h1 ((rot3_side hr.r3 _ _).mpr (by simp)))
  refine ⟨hs.wf, ?_, ?_, ?_⟩
  · intro f g p q hf hg h1 h2
    rcases (starred_live hs f).mp hf with ⟨lf, nf⟩ | rfl <;> rcases (starred_live hs g).mp hg with ⟨lg, ng⟩ | rfl
    · rw [starred_side hs (live_old w lf)] at h1
      rw [starred_side hs (live_old w lg)] at h2
      exact h.dir f g p q lf lg h1 h2
    · rw [starred_side hs (live_old w lf)] at h1
      exact (newOld lf nf h1 h2).elim
    · rw [starred_side hs (live_old w lg)] at h2
      exact (newOld lg ng h2 h1).elim
    · rfl
  · intro p q hpq
    rw [starred_covered w hr hs] at hpq
    obtain ⟨e, e1, e2⟩ := h.sides p q hpq.1
    refine ⟨e, ?_, ?_⟩
    · rcases e1 with e1 | e1
      · left
        rw [hs.intr, List.mem_filter]
        refine ⟨e1, ?_⟩
        obtain ⟨-, k1, k2⟩ := hpq
        simp only [decide_eq_true_eq]
        clear * - e2 k1 k2
        unfold Connects at e2
        omega
      · right; rw [hs.others _ (by simp)]; exact e1
    · unfold Connects at e2 ⊢; rw [hs.E]; exact e2
  · intro e he hc
    rw [hs.others _ (by simp)] at he
    rw [hs.E, starred_covered w hr hs] at hc
    exact h.right e he hc.1

theorem starred_big (w : WF s) (hb : BigTris eps s) (hr : Ring s v a b c x1 x2 x3) (hs : Starred s u v a b c x1 x2 x3) : BigTris eps u := by
  intro t ht p q r hc
  simp only [(hs.vdata _).1]
  rcases (hs.tris t).mp ht with ⟨l, -⟩ | rfl
  · rw [hs.F _ (live_old w (show Live s (.tri t) from l))] at hc
    exact hb t l p q r hc
  · rw [hs.Fn] at hc
    simp at hc
    obtain ⟨rfl, rfl, rfl⟩ := hc
    exact ring_area hb hr

theorem starred_area (w : WF s) (hr : Ring s v a b c x1 x2 x3) (hs : Starred s u v a b c x1 x2 x3) : meshArea u = meshArea s := by
  have fa : ∀ f, f ≠ .tri s.nxt → u.fArea f = s.fArea f := by
    intro f hf; unfold fArea; rw [hs.F f hf]; simp only [(hs.vdata _).1]
  have h1 := hs.triArea (fun t => u.fArea (.tri t))
  have new : u.fArea (.tri s.nxt) = triArea (s.pos a) (s.pos b) (s.pos c) := by
    rw [rot3_area (a := a) (b := b) (c := c) (Or.inl (by rw [hs.Fn]))]
    simp only [(hs.vdata _).1]
  have ne : ∀ x ∈ s.tris, FRef.tri x ≠ .tri s.nxt := fun x hx => live_old w (show Live s (.tri x) from hx)
  rw [new, fa _ (ne _ hr.live.1), fa _ (ne _ hr.live.2.1), fa _ (ne _ hr.live.2.2), rot3_area hr.r1, rot3_area hr.r2, rot3_area hr.r3] at h1
  have h2 : (s.tris.map fun t => u.fArea (.tri t)).sum = (s.tris.map fun t => s.fArea (.tri t)).sum := by
    congr 1
    exact List.map_congr_left fun t ht => fa _ (ne t ht)
  rw [h2] at h1
  have h3 : triArea (s.pos a) (s.pos b) (s.pos c) = triArea (s.pos v) (s.pos a) (s.pos b) + triArea (s.pos v) (s.pos b) (s.pos c) +
      triArea (s.pos v) (s.pos c) (s.pos a) := by
    unfold triArea Pt.cross; simp only [Pt.sub_x, Pt.sub_y]; ring
  unfold meshArea
  rw [hs.quads]
  have h4 : (s.quads.map fun q => u.fArea (.quad q)) = (s.quads.map fun q => s.fArea (.quad q)) :=
    List.map_congr_left fun t ht => fa _ (by simp)
  rw [h4]
  linarith

/-- Other vertices of degree three keep their star. -/
theorem starred_bad (h : Proper s) (hb : BigTris eps s) (hr : Ring s v a b c x1 x2 x3) (hs : Starred s u v a b c x1 x2 x3) {z : Nat}
    (hz : z ∈ s.verts) (hbad : isBad s z = true) (hne : z ≠ v) : (z ≠ a ∧ z ≠ b ∧ z ≠ c) ∧ z ∈ u.verts ∧ isBad u z = true := by
  have w := h.wf
  have hd : z ≠ a ∧ z ≠ b ∧ z ≠ c := by
    obtain ⟨t0, t1, t2, v0, v1, v2, e0, e1, e2, hst⟩ := star_of_bad h hz hbad
    have ring : ∃ a' b' c' y1 y2 y3, Ring s z a' b' c' y1 y2 y3 := by
      rcases star_ring w hz hst with k | k <;> exact ⟨_, _, _, _, _, _, k⟩
    obtain ⟨a', b', c', y1, y2, y3, hr'⟩ := ring
    refine ⟨?_, ?_, ?_⟩
    · rintro rfl; exact ring_not_adjacent w hb hr hr'
    · rintro rfl; exact ring_not_adjacent w hb hr.rot hr'
    · rintro rfl; exact ring_not_adjacent w hb hr.rot.rot hr'
  refine ⟨hd, ?_, ?_⟩
  · rw [hs.verts, List.mem_filter]; exact ⟨hz, by simp [hne]⟩
  · have hV := hs.far z hne hd.1 hd.2.1 hd.2.2
    have hF : ∀ f ∈ (s.V z).facets, u.F f = s.F f := by
      intro f hf
      exact hs.F f (live_old w (((w.facets z hz).2 f).mp hf).1)
    unfold isBad at hbad ⊢
    rw [hV]
    match hf : (s.V z).facets, he : (s.V z).edges with
    | [f0, f1, f2], [y0, y1, y2] =>
      rw [hf, he] at hbad
      rw [hf] at hF
      simp only at hbad ⊢
      unfold nVerts at hbad ⊢
      rw [hF f0 (by simp), hF f1 (by simp), hF f2 (by simp)]
      exact hbad
    | [], _ => rw [hf] at hbad; simp at hbad
    | [_], _ => rw [hf] at hbad; simp at hbad
    | [_, _], _ => rw [hf] at hbad; simp at hbad
    | _ :: _ :: _ :: _ :: _, _ => rw [hf] at hbad; simp at hbad
    | [_, _, _], [] => rw [hf, he] at hbad; simp at hbad
    | [_, _, _], [_] => rw [hf, he] at hbad; simp at hbad
    | [_, _, _], [_, _] => rw [hf, he] at hbad; simp at hbad
    | [_, _, _], _ :: _ :: _ :: _ :: _ => rw [hf, he] at hbad; simp at hbad

end

/-! ### The loop -/

theorem stars_nil (s : St K) : StarsMerged s s [] :=
  { verts := by simp, vdata := fun _ => ⟨rfl, rfl⟩, lists := fun _ _ => rfl, edata := rfl, quads := ⟨rfl, fun _ => rfl⟩
    intr := by simp, nEdges := by simp, nTris := by simp, area := rfl, kept := fun x hx _ => ⟨hx, rfl⟩
    fresh := fun x hx => Or.inl ⟨hx, rfl⟩, sides := by simp, color := rfl }

theorem stars_cons {s u t : St K} {v a b c x1 x2 x3 : Nat} {l : List Nat} (w : WF s) (hr : Ring s v a b c x1 x2 x3)
    (hs : Starred s u v a b c x1 x2 x3) (hl : ∀ z ∈ l, z ≠ v ∧ z ≠ a ∧ z ≠ b ∧ z ≠ c) (ht : StarsMerged u t l) :
    StarsMerged s t (v :: l) := by
  have old : ∀ x ∈ s.tris, FRef.tri x ≠ .tri s.nxt := fun x hx => live_old w (show Live s (.tri x) from hx)
  have hfar : ∀ z ∈ l, ∀ x, x ∈ u.tris → z ∈ (u.F (.tri x)).corners → x ∈ s.tris ∧ u.F (.tri x) = s.F (.tri x) := by
    intro z hz x hx hc
    rcases (hs.tris x).mp hx with ⟨k, -⟩ | rfl
    · exact ⟨k, hs.F _ (old x k)⟩
    · rw [hs.Fn] at hc
      simp at hc
      have := hl z hz
      omega
  refine { verts := ?_, vdata := ?_, lists := ?_, edata := ?_, quads := ?_, intr := ?_, nEdges := ?_, nTris := ?_, area := ?_,
           kept := ?_, fresh := ?_, sides := ?_, color := ?_ }
  · rw [ht.verts, hs.verts, List.filter_filter]
    refine List.filter_congr fun z _ => ?_
    by_cases k : z = v <;> by_cases k' : z ∈ l <;> simp [k, k']
  · intro z; exact ⟨(ht.vdata z).1.trans (hs.vdata z).1, (ht.vdata z).2.trans (hs.vdata z).2⟩
  · intro k hk; rw [ht.lists k hk, hs.others k hk]
  · rw [ht.edata, hs.E]
  · exact ⟨ht.quads.1.trans hs.quads, fun q => (ht.quads.2 q).trans (hs.F _ (by simp))⟩
  · rw [ht.intr, hs.intr, List.filter_filter, hs.E]
    refine List.filter_congr fun e _ => ?_
    rw [Bool.eq_iff_iff]
    simp only [Bool.and_eq_true, decide_eq_true_eq, List.mem_cons, not_or]
    tauto
  · have := ht.nEdges; have := hs.nEdges; simp only [List.length_cons]; omega
  · have := ht.nTris; have := hs.nTris; simp only [List.length_cons]; omega
  · rw [ht.area, starred_area w hr hs]
  · intro x hx hn
    have hxn : ∀ y, FRef.tri y ≠ .tri s.nxt → u.F (.tri y) = s.F (.tri y) := fun y hy => hs.F _ hy
    have hv : v ∉ (s.F (.tri x)).corners := hn v (by simp)
    have hxu : x ∈ u.tris := by
      rw [hs.tris]
      refine Or.inl ⟨hx, ?_, ?_, ?_⟩
      · rintro rfl; exact hv ((rot3_mem hr.r1 v).mpr (by simp))
      · rintro rfl; exact hv ((rot3_mem hr.r2 v).mpr (by simp))
      · rintro rfl; exact hv ((rot3_mem hr.r3 v).mpr (by simp))
    obtain ⟨k1, k2⟩ := ht.kept x hxu (by
      intro z hz
      rw [hxn x (old x hx)]
      exact hn z (by simp [hz]))
    exact ⟨k1, k2.trans (hxn x (old x hx))⟩
  · intro x hx
    rcases ht.fresh x hx with ⟨k1, k2⟩ | ⟨z, hz, p, q, r, hc, y1, m1, y2, m2, y3, m3, i1, i2, i3, c1, c2, c3⟩
    · rcases (hs.tris x).mp k1 with ⟨k3, -⟩ | rfl
      · exact Or.inl ⟨k3, k2.trans (hs.F _ (old x k3))⟩
      · refine Or.inr ⟨v, by simp, a, b, c, ?_, x1, hr.live.1, x2, hr.live.2.1, x3, hr.live.2.2, hr.r1, hr.r2, hr.r3, ?_, hr.color⟩
        · rw [k2, hs.Fn]
        · rw [k2, hs.Fn]
    · have mem : ∀ {y p q}, TriIs u y z p q → z ∈ (u.F (.tri y)).corners := fun hi => (rot3_mem (a := z) hi z).mpr (by simp)
      obtain ⟨n1, f1⟩ := hfar z hz y1 m1 (mem i1)
      obtain ⟨n2, f2⟩ := hfar z hz y2 m2 (mem i2)
      obtain ⟨n3, f3⟩ := hfar z hz y3 m3 (mem i3)
      refine Or.inr ⟨z, by simp [hz], p, q, r, hc, y1, n1, y2, n2, y3, n3, ?_, ?_, ?_, ?_, ?_, ?_⟩
      · unfold TriIs at i1 ⊢; rwa [f1] at i1
      · unfold TriIs at i2 ⊢; rwa [f2] at i2
      · unfold TriIs at i3 ⊢; rwa [f3] at i3
      · rw [c1, f1]; unfold newColor; rw [hs.color]
      · rw [← f1, ← f2]; exact c2
      · rw [← f1, ← f3]; exact c3
  · intro p q
    rw [ht.sides, starred_covered w hr hs]
    simp only [List.mem_cons, not_or]
    tauto
  · rw [ht.color, hs.color]

theorem mergeBads_loop {eps : K} : ∀ (l : List Nat) (s : St K), Proper s → BigTris eps s → l.Nodup →
    (∀ z ∈ l, z ∈ s.verts ∧ isBad s z = true) →
    ∃ t, mergeBads eps l s = some t ∧ StarsMerged s t l ∧ Proper t ∧ BigTris eps t := by
  intro l
  induction l with
  | nil => intro s h hb _ _; exact ⟨s, rfl, stars_nil s, h, hb⟩
  | cons v l ih =>
    intro s h hb hn hl
    obtain ⟨hvn, hn'⟩ := List.nodup_cons.mp hn
    obtain ⟨a, b, c, x1, x2, x3, u, hm, hr, hs⟩ := mergeBad_step h hb (hl v (by simp)).1 (hl v (by simp)).2
    have rest : ∀ z ∈ l, (z ≠ a ∧ z ≠ b ∧ z ≠ c) ∧ z ∈ u.verts ∧ isBad u z = true := by
      intro z hz
      have := hl z (by simp [hz])
      exact starred_bad h hb hr hs this.1 this.2 (by rintro rfl; exact hvn hz)
    obtain ⟨t, ht, h1, h2, h3⟩ := ih u (starred_proper h hr hs) (starred_big h.wf hb hr hs) hn' fun z hz => (rest z hz).2
    refine ⟨t, ?_, stars_cons h.wf hr hs ?_ h1, h2, h3⟩
    · simp only [mergeBads, hm, Option.bind_some, ht]
    · intro z hz
      exact ⟨by rintro rfl; exact hvn hz, (rest z hz).1⟩

end TQ.MC

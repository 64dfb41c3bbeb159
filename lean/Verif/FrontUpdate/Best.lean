import Verif.FrontUpdate.Sums

/-! # Lemmas: validity of candidates does not depend on the other candidates; the best one is chosen -/

set_option linter.unusedSectionVars false

namespace TQ.FU
open TQ.MS TQ.MeshSpec TQ.FUSpec TQ.MS.St
variable {K : Type*} [Field K] [LinearOrder K] [IsStrictOrderedRing K]

theorem checkRange_eq (env : Env K) (p q r : Pt K) :
    cppMAX (2 * env.rho (triCentroid p q r)) (maxEdgeLength env p q r) = checkRange env p q r := by
  unfold checkRange maxEdgeLength edgeLength
  generalize max (max (env.norm (q - p)) (env.norm (r - q))) (env.norm (p - r)) = m
  unfold cppMAX
  split_ifs with h
  · exact (max_eq_left (le_of_lt h)).symm
  · exact (max_eq_right (not_lt.mp h)).symm

theorem checkValidity_iff (env : Env K) (p q r : Pt K) : checkValidity env p q r = true ↔
    0 < GeoSpec.triArea p q r ∧ 0 < env.norm (q - p) ∧ 0 < env.norm (r - q) ∧ 0 < env.norm (p - r) := by
  have e : St.triArea p q r = GeoSpec.triArea p q r := by
    unfold St.triArea GeoSpec.triArea
    simp [Pt.cross]; try ring
  unfold checkValidity edgeLength
  rw [e]
  split_ifs with h1 h2
  · simp [not_lt.mpr h1]
  · simp only [Bool.false_eq_true, false_iff, not_and, not_lt]
    intro _ a b
    rcases h2 with h | h | h
    · exact absurd a (not_lt.mpr h)
    · exact absurd b (not_lt.mpr h)
    · exact h
  · simp only [not_or, not_le] at h1 h2
    simp [h1, h2]

theorem and_chain (b : Bool) (p : Prop) [Decidable p] (x : Bool) : (if b = true then false else x) = true ↔ b = false ∧ x = true := by
  cases b <;> simp

theorem valid_iff {env : Env K} (hq : QueryExact env) {s0 s' : St K} (h0 : WF s0) {b1 b2 : Nat} {P : Nat → Prop}
    {ts : List Nat} (h : Cand s0 s' b1 b2 P ts) {t a b c : Nat} (ht : t ∉ s0.tris) :
    triangleIsValid env s' t a b c = true ↔ ValidTriangle env s0 a b c := by
  have hpos : ∀ w, s'.pos w = s0.pos w := h.pos
  have hcen : ∀ f, Live s0 f → s'.fCentroid f = s0.fCentroid f := by
    intro f hf
    exact fCentroid_congr (by rw [h.F f hf]) hpos
  unfold triangleIsValid
  dsimp only
  rw [checkRange_eq]
  simp only [hpos]
  generalize hp : s0.pos a = p
  generalize hqq : s0.pos b = q
  generalize hr : s0.pos c = r
  have vt : ValidTriangle env s0 a b c ↔
      checkValidity env p q r = true ∧
      (∀ e ∈ env.qFront s' (triCentroid p q r) (checkRange env p q r), hitsEdge env.eps s' p q r e = false) ∧
      hitsDomain env p q r = false ∧
      (∀ v ∈ env.qVerts s' (triCentroid p q r) (checkRange env p q r), hitsVertex env.eps s' a b c v = false) ∧
      (∀ u ∈ env.qTris s' (triCentroid p q r) (checkRange env p q r), hitsTri env.eps s' t p q r u = false) ∧
      (∀ u ∈ env.qQuads s' (triCentroid p q r) (checkRange env p q r), hitsQuad env.eps s' p q r u = false) ∧
      env.minQuality ≤ quality env (env.rho (triCentroid p q r)) p q r ∧
      env.maxAngle p q r ≤ env.maxCellAngle := by
    rw [checkValidity_iff]
    constructor
    · rintro ⟨v1, v2, v3, v4, v5, v6, v7, v8, v9⟩
      rw [hp, hqq, hr] at v1 v2 v4 v8 v9
      simp only [hp, hqq, hr] at v3 v5 v6 v7
      refine ⟨⟨v1, v2⟩, ?_, ?_, ?_, ?_, ?_, v8, v9⟩
      · intro e he
        obtain ⟨e1, e2⟩ := (hq.front _ _ _ _).mp he
        rw [h.E, hpos, hpos] at e2
        unfold hitsEdge
        rw [h.E, hpos, hpos]
        exact v3 e (by rw [← h.es]; exact e1) e2
      · unfold hitsDomain
        rw [List.any_eq_false]
        intro x hx
        rw [Bool.not_eq_true]
        exact v4 x hx
      · intro v hv
        obtain ⟨e1, e2⟩ := (hq.verts _ _ _ _).mp hv
        rw [hpos] at e2
        unfold hitsVertex
        split_ifs with hc
        · rfl
        · rw [hpos, hpos, hpos, hpos, hp, hqq, hr]
          simp only [not_or] at hc
          exact v5 v (by rw [← h.verts]; exact e1) hc.1 hc.2.1 hc.2.2 e2
      · intro u hu
        obtain ⟨e1, e2⟩ := (hq.tris _ _ _ _).mp hu
        rw [h.tris, List.mem_append] at e1
        unfold hitsTri
        split_ifs with c1 c2
        · rfl
        · rfl
        · rcases e1 with e1 | e1
          · rw [hcen (.tri u) e1] at e2 ⊢
            rw [h.F (.tri u) e1] at c2 ⊢
            split
            · rename_i x y z hcor
              rw [hpos, hpos, hpos]
              have hc' : s0.fCentroid (.tri u) = triCentroid (s0.pos x) (s0.pos y) (s0.pos z) := by
                unfold fCentroid; rw [hcor]
              rw [hc'] at e2 ⊢
              obtain ⟨x1, x2, x3⟩ := v6 u e1 x y z (by simpa using c2) hcor e2
              rw [x1, x2, x3]; rfl
            · rfl
          · obtain ⟨_, v, hF, _⟩ := h.cor u e1
            rw [hF] at c2
            simp at c2
      · intro u hu
        obtain ⟨e1, e2⟩ := (hq.quads _ _ _ _).mp hu
        rw [h.quads] at e1
        unfold hitsQuad
        rw [hcen (.quad u) e1] at e2 ⊢
        rw [h.F (.quad u) e1]
        split_ifs with c2
        · rfl
        · split
          · rename_i x y z w hcor
            rw [hpos, hpos, hpos, hpos]
            have hc' : s0.fCentroid (.quad u) = quadCentroid (s0.pos x) (s0.pos y) (s0.pos z) (s0.pos w) := by
              unfold fCentroid; rw [hcor]
            rw [hc'] at e2 ⊢
            obtain ⟨x1, x2, x3⟩ := v7 u e1 x y z w (by simpa using c2) hcor e2
            rw [x1, x2, x3]; rfl
          · rfl
    · rintro ⟨⟨v1, v2⟩, v3, v4, v5, v6, v7, v8, v9⟩
      refine ⟨?_, ?_, ?_, ?_, ?_, ?_, ?_, ?_, ?_⟩
      · rw [hp, hqq, hr]; exact v1
      · rw [hp, hqq, hr]; exact v2
      · intro e he hn
        rw [hp, hqq, hr] at hn ⊢
        have := v3 e ((hq.front _ _ _ _).mpr ⟨by rw [h.es]; exact he, by rw [h.E, hpos, hpos]; exact hn⟩)
        unfold hitsEdge at this
        rw [h.E, hpos, hpos] at this
        exact this
      · rw [hp, hqq, hr]
        intro x hx
        unfold hitsDomain at v4
        rw [List.any_eq_false] at v4
        simpa using v4 x hx
      · intro v hv n1 n2 n3 hn
        rw [hp, hqq, hr] at hn ⊢
        have := v5 v ((hq.verts _ _ _ _).mpr ⟨by rw [h.verts]; exact hv, by rw [hpos]; exact hn⟩)
        unfold hitsVertex at this
        rw [if_neg (by simp [n1, n2, n3]), hpos, hpos, hpos, hpos, hp, hqq, hr] at this
        exact this
      · intro u hu x y z hact hcor hn
        rw [hp, hqq, hr] at hn ⊢
        have hc' : s0.fCentroid (.tri u) = triCentroid (s0.pos x) (s0.pos y) (s0.pos z) := by
          unfold fCentroid; rw [hcor]
        have := v6 u ((hq.tris _ _ _ _).mpr ⟨by rw [h.tris]; exact List.mem_append_left _ hu, by
          rw [hcen (.tri u) hu, hc']; exact hn⟩)
        unfold hitsTri at this
        rw [if_neg (show ¬ u = t from fun hh => ht (hh ▸ hu)), h.F (.tri u) hu, hact, hcor, hcen (.tri u) hu, hc'] at this
        simp only [hpos, Bool.not_true, Bool.false_eq_true, if_false, Bool.or_eq_false_iff] at this
        exact this
      · intro u hu x y z w hact hcor hn
        rw [hp, hqq, hr] at hn ⊢
        have hc' : s0.fCentroid (.quad u) = quadCentroid (s0.pos x) (s0.pos y) (s0.pos z) (s0.pos w) := by
          unfold fCentroid; rw [hcor]
        have := v7 u ((hq.quads _ _ _ _).mpr ⟨by rw [h.quads]; exact hu, by
          rw [hcen (.quad u) hu, hc']; exact hn⟩)
        unfold hitsQuad at this
        rw [h.F (.quad u) hu, hact, hcor, hcen (.quad u) hu, hc'] at this
        simp only [hpos, Bool.not_true, Bool.false_eq_true, if_false, Bool.or_eq_false_iff] at this
        exact this
      · rw [hp, hqq, hr]; exact v8
      · rw [hp, hqq, hr]; exact v9
  rw [vt]
  simp only [← not_lt]
  by_cases c1 : checkValidity env p q r = true
  swap
  · simp [c1]
  by_cases c3 : hitsDomain env p q r = true
  · simp [c1, c3]
  by_cases c8 : quality env (env.rho (triCentroid p q r)) p q r < env.minQuality
  · simp [c8]
  by_cases c9 : env.maxCellAngle < env.maxAngle p q r
  · simp [c9]
  simp [c1, c3, c8, c9, List.any_eq_true]

/-- State of the loop over the vertices in range. -/
structure Loop (env : Env K) (s0 : St K) (b1 b2 : Nat) (done : List Nat) (s' : St K) (ts : List Nat) : Prop where
  cand : Cand s0 s' b1 b2 (CandP env s0 b1 b2) ts
  sound : ∀ t ∈ ts, ∃ v ∈ done, (s'.F (.tri t)).corners = [b1, b2, v] ∧ Eligible env s0 b1 b2 v ∧
    ValidTriangle env s0 b1 b2 v
  complete : ∀ v ∈ done, Eligible env s0 b1 b2 v → ValidTriangle env s0 b1 b2 v →
    ∃ t ∈ ts, (s'.F (.tri t)).corners = [b1, b2, v]

theorem loop_fold {env : Env K} (he : 0 < env.eps) (hq : QueryExact env) {s0 : St K} (h0 : WF s0) {b1 b2 : Nat}
    (hb1 : b1 ∈ s0.verts) (hb2 : b2 ∈ s0.verts) (hb : b1 ≠ b2) : ∀ (vs done : List Nat) (s' : St K) (ts : List Nat),
    (∀ v ∈ vs, v ∈ s0.verts) → Loop env s0 b1 b2 done s' ts →
    Loop env s0 b1 b2 (done ++ vs) (vs.foldl (tryVertex env b1 b2) (s', ts)).1
      (vs.foldl (tryVertex env b1 b2) (s', ts)).2 := by
  intro vs
  induction vs with
  | nil => intro done s' ts _ h; simpa using h
  | cons v vs ih =>
    intro done s' ts hvs h
    have hv : v ∈ s0.verts := hvs v (by simp)
    rw [List.foldl_cons]
    have hstep : Loop env s0 b1 b2 (done ++ [v]) (tryVertex env b1 b2 (s', ts) v).1
        (tryVertex env b1 b2 (s', ts) v).2 := by
      have hc := fold_cand he h0 hb1 hb2 hb [v] s' ts (by simpa using hv) h.cand
      rw [List.foldl_cons, List.foldl_nil] at hc
      have hskip : ∀ {s'' : St K}, Cand s0 s'' b1 b2 (CandP env s0 b1 b2) ts → s''.F = s'.F →
          ¬ (Eligible env s0 b1 b2 v ∧ ValidTriangle env s0 b1 b2 v) → Loop env s0 b1 b2 (done ++ [v]) s'' ts := by
        intro s'' hc hF hno
        refine ⟨hc, ?_, ?_⟩
        · intro t ht
          obtain ⟨w, hw, hh⟩ := h.sound t ht
          rw [hF]; exact ⟨w, List.mem_append_left _ hw, hh⟩
        · intro w hw e1 e2
          rw [hF]
          rw [List.mem_append, List.mem_singleton] at hw
          rcases hw with hw | rfl
          · exact h.complete w hw e1 e2
          · exact absurd ⟨e1, e2⟩ hno
      unfold tryVertex at hc ⊢
      dsimp only at hc ⊢
      rw [(h.cand.V v).2.1, h.cand.pos, h.cand.pos, h.cand.pos] at hc ⊢
      by_cases c1 : (!Flags.has (s0.V v).props Flags.vOnFront) = true
      · rw [if_pos c1] at hc ⊢
        exact hskip hc rfl (fun hh => by
          have := hh.1.1
          rw [this] at c1; simp at c1)
      rw [if_neg c1] at hc ⊢
      by_cases c2 : orientation env.eps (s0.pos b1) (s0.pos b2) (s0.pos v) = .CL
      · rw [if_pos c2] at hc ⊢
        exact hskip hc rfl (fun hh => hh.1.2 c2)
      rw [if_neg c2] at hc ⊢
      have hn : [b1, b2, v].Nodup := notCL_nodup (s := s0) he hb c2
      have hadd := (show Cand s0 s' b1 b2 (fun _ => True) ts from
        ⟨h.cand.wf, h.cand.verts, h.cand.es, h.cand.E, h.cand.quads, h.cand.area, h.cand.color, h.cand.tris, h.cand.nxt,
          h.cand.F, h.cand.V, fun t ht => by
            obtain ⟨a, w, b, c, d, _⟩ := h.cand.cor t ht
            exact ⟨a, w, b, c, d, trivial⟩⟩).add h0 hb1 hb2 hv hn trivial
      have htn : s'.nxt ∉ s0.tris := fun hm => absurd (lt_of_lt_of_le (h0.tlt _ hm) h.cand.nxt) (lt_irrefl _)
      have hval := valid_iff hq h0 hadd (a := b1) (b := b2) (c := v) htn
      have hel : Eligible env s0 b1 b2 v := ⟨by simpa using c1, c2⟩
      by_cases c3 : triangleIsValid env (s'.addTri b1 b2 v (-1)) s'.nxt b1 b2 v = true
      · rw [if_pos c3] at hc ⊢
        dsimp only at hc ⊢
        have hF : ∀ t ∈ ts, (s'.addTri b1 b2 v (-1)).F (.tri t) = s'.F (.tri t) := by
          intro t ht
          have : t ≠ s'.nxt := ne_of_lt (h.cand.wf.tlt t (by rw [h.cand.tris]; exact List.mem_append_right _ ht))
          simp [addTri, upd, this]
        have hFn : ((s'.addTri b1 b2 v (-1)).F (.tri s'.nxt)).corners = [b1, b2, v] := by simp [addTri]
        refine ⟨hc, ?_, ?_⟩
        · intro t ht
          rw [List.mem_append, List.mem_singleton] at ht
          rcases ht with ht | rfl
          · obtain ⟨w, hw, hh⟩ := h.sound t ht
            rw [hF t ht]; exact ⟨w, List.mem_append_left _ hw, hh⟩
          · exact ⟨v, by simp, hFn, hel, hval.mp c3⟩
        · intro w hw e1 e2
          rw [List.mem_append, List.mem_singleton] at hw
          rcases hw with hw | rfl
          · obtain ⟨t, ht, hh⟩ := h.complete w hw e1 e2
            exact ⟨t, List.mem_append_left _ ht, by rw [hF t ht]; exact hh⟩
          · exact ⟨s'.nxt, by simp, hFn⟩
      · rw [if_neg c3] at hc ⊢
        dsimp only at hc ⊢
        refine ⟨hc, ?_, ?_⟩
        · intro t ht
          obtain ⟨w, hw, hh, h3⟩ := h.sound t ht
          have : t ≠ s'.nxt := ne_of_lt (h.cand.wf.tlt t (by rw [h.cand.tris]; exact List.mem_append_right _ ht))
          have hF : ((s'.addTri b1 b2 v (-1)).removeTri s'.nxt).F (.tri t) = s'.F (.tri t) := by
            simp [removeTri, addTri, upd, this]
          rw [hF]; exact ⟨w, List.mem_append_left _ hw, hh, h3⟩
        · intro w hw e1 e2
          rw [List.mem_append, List.mem_singleton] at hw
          rcases hw with hw | rfl
          · obtain ⟨t, ht, hh⟩ := h.complete w hw e1 e2
            have : t ≠ s'.nxt := ne_of_lt (h.cand.wf.tlt t (by rw [h.cand.tris]; exact List.mem_append_right _ ht))
            have hF : ((s'.addTri b1 b2 v (-1)).removeTri s'.nxt).F (.tri t) = s'.F (.tri t) := by
              simp [removeTri, addTri, upd, this]
            exact ⟨t, ht, by rw [hF]; exact hh⟩
          · exact absurd (hval.mpr e2) c3
    have := ih (done ++ [v]) _ _ (fun w hw => hvs w (by simp [hw])) hstep
    simpa using this

theorem queryExact_live {env : Env K} (hq : QueryExact env) : QueryLive env where
  verts := fun s p r v hv => ((hq.verts s p r v).mp hv).1
  tris := fun s p r v hv => ((hq.tris s p r v).mp hv).1
  quads := fun s p r v hv => ((hq.quads s p r v).mp hv).1
  front := fun s p r v hv => ((hq.front s p r v).mp hv).1

theorem createPossible_loop {env : Env K} (he : 0 < env.eps) (hq : QueryExact env) {s0 : St K} (h0 : WF s0) {base : Nat}
    (hb : base ∈ s0.es .front) (xy : Pt K) (range : K) :
    Loop env s0 (s0.E base).v1 (s0.E base).v2 (env.qVerts s0 xy range)
      (createPossible env s0 base xy range).1 (createPossible env s0 base xy range).2 := by
  obtain ⟨_, hb1, hb2, hb12, _⟩ := (h0.ends _).2 base hb
  have := loop_fold he hq h0 hb1 hb2 hb12 (env.qVerts s0 xy range) [] s0 [] ((queryExact_live hq).verts _ _ _)
    ⟨Cand.nil h0 _ _ _, by simp, by simp⟩
  simpa [createPossible] using this

theorem cand_key {env : Env K} {s0 s' : St K} {b1 b2 : Nat} {P : Nat → Prop} {ts : List Nat}
    (h : Cand s0 s' b1 b2 P ts) {t v : Nat} (hc : (s'.F (.tri t)).corners = [b1, b2, v]) :
    sortKey env s' t = quality3 env s0 b1 b2 v := by
  unfold sortKey quality3
  rw [hc]
  simp only [h.pos]
  congr 2
  unfold fCentroid
  rw [hc]
  simp only [h.pos]

/-- The state in which the new triangle was judged: the mesh before the step with the new vertex, if any. -/
structure Judged (env : Env K) (s s' sv : St K) (b1 b2 v : Nat) : Prop where
  valid : ValidTriangle env sv b1 b2 v
  verts : sv.verts = s'.verts
  pos : ∀ w, sv.pos w = s'.pos w
  es : sv.es = s.es
  E : sv.E = s.E
  tris : sv.tris = s.tris
  quads : sv.quads = s.quads
  F : ∀ f, Live s f → sv.F f = s.F f

theorem updateFront_judged {env : Env K} (he : 0 < env.eps) (hq : QueryExact env) (hs : SortOK env) {s s' : St K}
    (h : WF s) {base t : Nat} (hb : base ∈ s.es .front) {np sp : Pt K} {r : K}
    (hu : updateFront env s base np sp r = (s', some t)) :
    ∃ v sv, (s'.F (.tri t)).corners = [(s.E base).v1, (s.E base).v2, v] ∧ v ∈ s'.verts ∧
      Judged env s s' sv (s.E base).v1 (s.E base).v2 v := by
  have hl := createPossible_loop he hq h hb sp r
  have hc := hl.cand
  obtain ⟨_, hb1, hb2, hb12, _⟩ := (h.ends _).2 base hb
  unfold updateFront at hu
  dsimp only at hu
  cases hch : chooseBest env (createPossible env s base sp r).1 (createPossible env s base sp r).2 with
  | some x =>
    obtain ⟨s1, t1⟩ := x
    obtain ⟨ht, c1, _⟩ := chooseBest_some hs h hc hch
    obtain ⟨v, hF, hv, _, hp⟩ := c1.prep
    rw [hch] at hu
    dsimp only at hu
    rw [hF] at hu
    simp only [Prod.mk.injEq, Option.some.injEq] at hu
    obtain ⟨rfl, rfl⟩ := hu
    have a := prep_adv hb hp
    have hcor : (s1.F (.tri t1)).corners = [(s.E base).v1, (s.E base).v2, v] := by rw [hF]
    refine ⟨v, s, ?_, ?_, ?_, ?_, ?_, rfl, rfl, rfl, rfl, fun _ _ => rfl⟩
    · rw [a.F, upd_self, hF]
    · rw [a.verts]; exact hp.vmem
    · obtain ⟨w, _, hw, _, hval⟩ := hl.sound t1 ht
      have : w = v := by
        obtain ⟨_, v', hF', _⟩ := c1.cor t1 (by simp)
        have hF1 : s1.F = (createPossible env s base sp r).1.F := by
          unfold chooseBest at hch
          split at hch
          · simp at hch
          · simp only [Option.some.injEq, Prod.mk.injEq] at hch
            rw [← hch.1]
            rename_i _ _ rest _
            have : ∀ (rs : List Nat) (x : St K), (rs.foldl St.removeTri x).F = x.F := by
              intro rs
              induction rs with
              | nil => intro x; rfl
              | cons r rs ih => intro x; rw [List.foldl_cons, ih]; rfl
            exact this _ _
        rw [hF1] at hcor
        rw [hcor] at hw
        simpa using hw.symm
      subst this
      exact hval
    · rw [a.verts, c1.verts]
    · intro w; rw [a.pos, c1.pos]
  | none =>
    rw [hch] at hu
    dsimp only at hu
    have hts := (chooseBest_none hs).mp hch
    rw [hts] at hc
    obtain ⟨q1, _, _, _⟩ := prep_new (env := env) h hc hb1 hb2 hb12 np
    split_ifs at hu with hv
    · simp only [Prod.mk.injEq, Option.some.injEq] at hu
      obtain ⟨rfl, rfl⟩ := hu
      rw [Bool.and_eq_true] at hv
      have hp := q1 (checkValidity_of_valid hv.2)
      have a := prep_adv hb hp
      generalize hs1 : (createPossible env s base sp r).1 = s1 at *
      have hnv : s1.nxt ∉ s1.verts := fun hm => lt_irrefl _ (hc.wf.vlt _ hm)
      have w1 : WF (s1.addVertex np) := wf_addVertex hc.wf np
      have hb1' : (s.E base).v1 ∈ s1.verts := by rw [hc.verts]; exact hb1
      have hb2' : (s.E base).v2 ∈ s1.verts := by rw [hc.verts]; exact hb2
      have n1 : (s.E base).v1 ≠ s1.nxt := fun hh => hnv (hh ▸ hb1')
      have n2 : (s.E base).v2 ≠ s1.nxt := fun hh => hnv (hh ▸ hb2')
      have hn : [(s.E base).v1, (s.E base).v2, s1.nxt].Nodup := by simp [hb12, n1, n2]
      have c1 := (Cand.nil w1 (s.E base).v1 (s.E base).v2 (fun _ => True)).add w1 (List.mem_append_left _ hb1')
        (List.mem_append_left _ hb2') (List.mem_append_right _ (List.mem_singleton.mpr rfl)) hn trivial
      have hval := (valid_iff hq w1 c1 (t := s1.nxt + 1) (a := (s.E base).v1) (b := (s.E base).v2) (c := s1.nxt)
        (fun hm => absurd (w1.tlt _ hm) (lt_irrefl _))).mp hv.2
      refine ⟨s1.nxt, s1.addVertex np, ?_, ?_, hval, ?_, ?_, ?_, ?_, ?_, ?_, ?_⟩
      · change ((advanceFront _ base s1.nxt (s1.nxt + 1)).F (.tri (s1.nxt + 1))).corners = _
        rw [a.F, upd_self, hp.Ft]
      · exact a.verts.symm ▸ hp.vmem
      · exact a.verts.symm
      · intro w
        exact ((a.pos w).trans (c1.pos w)).symm
      · exact hc.es
      · exact hc.E
      · change s1.tris = _; rw [hc.tris, List.append_nil]
      · exact hc.quads
      · exact hc.F
    · simp at hu

theorem updateFrontExhaustive_judged {env : Env K} (he : 0 < env.eps) (hq : QueryExact env) {s s' : St K}
    (h : WF s) {base v t : Nat} (hb : base ∈ s.es .front) (hv : v ∈ s.verts)
    (hu : updateFrontExhaustive env s base v = (s', some t)) :
    (s'.F (.tri t)).corners = [(s.E base).v1, (s.E base).v2, v] ∧ v ∈ s'.verts ∧
      Judged env s s' s (s.E base).v1 (s.E base).v2 v := by
  obtain ⟨_, hb1, hb2, hb12, _⟩ := (h.ends _).2 base hb
  unfold updateFrontExhaustive at hu
  dsimp only at hu
  split_ifs at hu with c1 c2 c3
  · simp at hu
  · simp at hu
  swap
  · simp at hu
  simp only [Prod.mk.injEq, Option.some.injEq] at hu
  obtain ⟨rfl, rfl⟩ := hu
  have hncl : orientation env.eps (s.pos (s.E base).v1) (s.pos (s.E base).v2) (s.pos v) ≠ .CL := by
    rw [not_not.mp c2]; decide
  have hn := notCL_nodup he hb12 hncl
  have c0 := (Cand.nil h (s.E base).v1 (s.E base).v2 (fun _ => True)).add h hb1 hb2 hv hn trivial
  have hval := (valid_iff hq h c0 (t := s.nxt) (fun hm => absurd (h.tlt _ hm) (lt_irrefl _))).mp c3
  have a := advanceFront_spec c0.wf (base := base) (v := v) s.nxt (by rw [c0.es]; exact hb) (by rw [c0.verts]; exact hv)
    (by rw [c0.E]; intro hh; simp [hh] at hn) (by rw [c0.E]; intro hh; simp [hh] at hn)
  refine ⟨?_, ?_, hval, ?_, ?_, rfl, rfl, rfl, rfl, fun _ _ => rfl⟩
  · rw [a.F, upd_self]
    simp [addTri]
  · rw [a.verts]; exact hv
  · rw [a.verts]; rfl
  · intro w; rw [a.pos, c0.pos]

/-! ### Points in a triangle are in range -/

theorem inside_near {a b c p : Pt K} (hA : 0 < side a b c) (h1 : 0 ≤ side a b p) (h2 : 0 ≤ side b c p)
    (h3 : 0 ≤ side c a p) {M : K} (hM : 0 < M) (m1 : Pt.normSq (b - a) ≤ M * M) (m2 : Pt.normSq (c - b) ≤ M * M)
    (m3 : Pt.normSq (a - c) ≤ M * M) : Pt.normSq (p - triCentroid a b c) < M * M := by
  have hsum : side a b c = side a b p + side b c p + side c a p := by unfold side; ring
  have hx : side a b c * p.x = side b c p * a.x + side c a p * b.x + side a b p * c.x := by unfold side; ring
  have hy : side a b c * p.y = side b c p * a.y + side c a p * b.y + side a b p * c.y := by unfold side; ring
  generalize side a b p = n at *
  generalize side b c p = l at *
  generalize side c a p = m at *
  rw [hsum] at hx hy hA
  have hcx : (triCentroid a b c).x = (a.x + b.x + c.x) / 3 := by simp [triCentroid, Pt.smul]; ring
  have hcy : (triCentroid a b c).y = (a.y + b.y + c.y) / 3 := by simp [triCentroid, Pt.smul]; ring
  have e : Pt.normSq (p - triCentroid a b c) =
      (p.x - (a.x + b.x + c.x) / 3) * (p.x - (a.x + b.x + c.x) / 3) +
      (p.y - (a.y + b.y + c.y) / 3) * (p.y - (a.y + b.y + c.y) / 3) := by
    simp only [Pt.normSq, Pt.sub_x, Pt.sub_y, hcx, hcy]
  rw [e]
  simp only [Pt.normSq, Pt.sub_x, Pt.sub_y] at m1 m2 m3
  -- distances of the corners from the centroid
  obtain ⟨gx, hgx⟩ : ∃ gx, gx = (a.x + b.x + c.x) / 3 := ⟨_, rfl⟩
  obtain ⟨gy, hgy⟩ : ∃ gy, gy = (a.y + b.y + c.y) / 3 := ⟨_, rfl⟩
  rw [← hgx, ← hgy]
  have key : ∀ u1 u2 w1 w2 : K, u1 * u1 + u2 * u2 ≤ M * M → w1 * w1 + w2 * w2 ≤ M * M →
      (u1 + w1) * (u1 + w1) + (u2 + w2) * (u2 + w2) ≤ 4 * (M * M) := by
    intro u1 u2 w1 w2 hu hw
    have s1 := mul_self_nonneg (u1 - w1)
    have s2 := mul_self_nonneg (u2 - w2)
    linarith
  have da : 9 * ((a.x - gx) * (a.x - gx) + (a.y - gy) * (a.y - gy)) ≤ 4 * (M * M) := by
    have := key (b.x - a.x) (b.y - a.y) (-(a.x - c.x)) (-(a.y - c.y)) m1 (by linarith)
    have e1 : (a.x - gx) = -((b.x - a.x) + -(a.x - c.x)) / 3 := by rw [hgx]; ring
    have e2 : (a.y - gy) = -((b.y - a.y) + -(a.y - c.y)) / 3 := by rw [hgy]; ring
    rw [e1, e2]; linarith
  have db : 9 * ((b.x - gx) * (b.x - gx) + (b.y - gy) * (b.y - gy)) ≤ 4 * (M * M) := by
    have := key (c.x - b.x) (c.y - b.y) (-(b.x - a.x)) (-(b.y - a.y)) m2 (by linarith)
    have e1 : (b.x - gx) = -((c.x - b.x) + -(b.x - a.x)) / 3 := by rw [hgx]; ring
    have e2 : (b.y - gy) = -((c.y - b.y) + -(b.y - a.y)) / 3 := by rw [hgy]; ring
    rw [e1, e2]; linarith
  have dc : 9 * ((c.x - gx) * (c.x - gx) + (c.y - gy) * (c.y - gy)) ≤ 4 * (M * M) := by
    have := key (a.x - c.x) (a.y - c.y) (-(c.x - b.x)) (-(c.y - b.y)) m3 (by linarith)
    have e1 : (c.x - gx) = -((a.x - c.x) + -(c.x - b.x)) / 3 := by rw [hgx]; ring
    have e2 : (c.y - gy) = -((a.y - c.y) + -(c.y - b.y)) / 3 := by rw [hgy]; ring
    rw [e1, e2]; linarith
  obtain ⟨S, hS⟩ : ∃ S, S = n + l + m := ⟨_, rfl⟩
  rw [← hS] at hx hy hA
  have hMM : 0 < M * M := mul_pos hM hM
  -- convexity
  have conv : ∀ (A B C P g : K), S * P = l * A + m * B + n * C →
      S * ((P - g) * (P - g)) ≤ l * ((A - g) * (A - g)) + m * ((B - g) * (B - g)) + n * ((C - g) * (C - g)) := by
    intro A B C P g hP
    have t1 := mul_nonneg h2 (mul_self_nonneg (A - P))
    have t2 := mul_nonneg h3 (mul_self_nonneg (B - P))
    have t3 := mul_nonneg h1 (mul_self_nonneg (C - P))
    have id : l * ((A - g) * (A - g)) + m * ((B - g) * (B - g)) + n * ((C - g) * (C - g)) =
        S * ((P - g) * (P - g)) + (l * ((A - P) * (A - P)) + m * ((B - P) * (B - P)) + n * ((C - P) * (C - P))) := by
      have hz : l * (A - P) + m * (B - P) + n * (C - P) = 0 := by
        have : l * (A - P) + m * (B - P) + n * (C - P) = l * A + m * B + n * C - (n + l + m) * P := by ring
        rw [this, ← hS, hP]; ring
      have : l * ((A - g) * (A - g)) + m * ((B - g) * (B - g)) + n * ((C - g) * (C - g)) =
        (n + l + m) * ((P - g) * (P - g)) + (l * ((A - P) * (A - P)) + m * ((B - P) * (B - P)) + n * ((C - P) * (C - P))) +
        2 * (P - g) * (l * (A - P) + m * (B - P) + n * (C - P)) := by ring
      rw [this, hz, hS]; ring
    linarith
  have cx := conv a.x b.x c.x p.x gx hx
  have cy := conv a.y b.y c.y p.y gy hy
  have l1 := mul_le_mul_of_nonneg_left da h2
  have l2 := mul_le_mul_of_nonneg_left db h3
  have l3 := mul_le_mul_of_nonneg_left dc h1
  have hfin : S * (9 * ((p.x - gx) * (p.x - gx) + (p.y - gy) * (p.y - gy))) ≤ S * (4 * (M * M)) := by
    have : S * (4 * (M * M)) = n * (4 * (M * M)) + l * (4 * (M * M)) + m * (4 * (M * M)) := by rw [hS]; ring
    linarith
  have := le_of_mul_le_mul_left hfin hA
  linarith

theorem inOn_of_sides {eps : K} (he : 0 < eps) {a b c p : Pt K} (h1 : 0 ≤ side a b p) (h2 : 0 ≤ side b c p)
    (h3 : 0 ≤ side c a p) : inOnTriangle eps p a b c = true := by
  have e : ∀ x y : Pt K, area2 x y p = side x y p := by intro x y; unfold area2 side; ring
  have l : ∀ x y : Pt K, 0 ≤ side x y p → isLefton eps x y p = true := by
    intro x y hh
    unfold isLefton orientation
    rw [e]
    dsimp only
    split_ifs with c1 c2
    · rfl
    · rfl
    · exfalso
      have : side x y p = 0 := le_antisymm (not_lt.mp c2) hh
      rw [this] at c1
      apply c1; simpa using he
  unfold inOnTriangle
  rw [l a b h1, l b c h2, l c a h3]; rfl

end TQ.FU

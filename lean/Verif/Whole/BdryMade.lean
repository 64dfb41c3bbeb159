import Verif.Whole.BdrySpec
import Verif.Whole.FileProps

/-! # Lemmas: the markers of the edges of a domain -/

set_option linter.unusedSectionVars false
set_option linter.unusedSimpArgs false
set_option linter.unusedVariables false

namespace TQ.Fl
open TQ.Cf TQ.OutlSpec TQ.Sh TQ.FlSpec TQ.BdSpec TQ.GeoSpec TQ.GN TQ.SevSpec
variable {K : Type} [Field K] [LinearOrder K] [IsStrictOrderedRing K]

/-- The edges of a shape with their markers: those written, shifted by one side if the orientation is changed. -/
theorem shape_marks {nearest : List (BVert K) → Pt K → Out (Option Nat)} {bt : BdryType} {st st' : List (BVert K)} {coords props : List (Pt K)} {colors : List Int} {L : EList K}
    (h : createShape nearest bt st emptyBoundary coords props colors = .ok (st', L)) {e : BEdge} (he : e ∈ L.edges) :
    ∃ i, i < coords.length ∧
      ((coords[i]? = some (storePos st' e.v1) ∧ coords[(i + 1) % coords.length]? = some (storePos st' e.v2) ∧ colors[i]? = some e.color) ∨
       (¬ (bt = .exterior ↔ 0 < polygonArea coords) ∧ coords[i]? = some (storePos st' e.v2) ∧ coords[(i + 1) % coords.length]? = some (storePos st' e.v1) ∧ e.color ∈ colors)) := by
  unfold createShape at h
  rw [if_neg (by simp [emptyBoundary])] at h
  dsimp only at h
  cases hg : gatherVerts nearest coords props st with
  | ub => rw [hg] at h; simp at h
  | abort => rw [hg] at h; simp at h
  | ok q =>
    obtain ⟨vs, st1⟩ := q
    rw [hg] at h; dsimp only at h
    cases hr : runCalls (storePos st1) (shapeCalls bt (decide (polygonArea coords > 0)) vs colors) emptyBoundary with
    | ub => rw [hr] at h; simp at h
    | abort => rw [hr] at h; simp at h
    | ok L1 =>
      rw [hr] at h; dsimp only at h
      simp only [Out.ok.injEq, Prod.mk.injEq] at h
      obtain ⟨rfl, rfl⟩ := h
      obtain ⟨_, hv⟩ := gatherVerts_ok _ _ _ _ _ _ hg
      have hlen : vs.length = coords.length := by rw [← hv]; simp
      have hpos : ∀ (i v : Nat), vs[i]? = some v → coords[i]? = some (storePos st1 v) := by
        intro i v hi
        rw [← hv, List.getElem?_map, hi]; rfl
      obtain ⟨ts, e1, e2, _, _, _⟩ := runCalls_ok _ _ _ L1 rfl (by unfold AreaInv; simp [emptyBoundary, computeArea]) hr
      have e2 : L1.edges = ts.map mkB := by simpa [emptyBoundary] using e2
      rw [e2] at he
      obtain ⟨t, ht, rfl⟩ := List.mem_map.mp he
      have hs : some t ∈ ts.map some := List.mem_map_of_mem ht
      rw [← e1] at hs
      by_cases hd : (bt = .exterior ∧ decide (polygonArea coords > 0) = true) ∨ (bt = .interior ∧ decide (polygonArea coords > 0) = false)
      · rw [shapeCalls_fwd hd] at hs
        obtain ⟨i, hi, hc⟩ := List.mem_map.mp hs
        rw [List.mem_range] at hi
        refine ⟨i, by omega, Or.inl ?_⟩
        unfold fwdCall at hc
        split at hc
        · rename_i x y z h1 h2 h3
          simp only [Option.some.injEq] at hc
          subst hc
          rw [hlen] at h2
          exact ⟨hpos _ _ h1, hpos _ _ h2, h3⟩
        · simp at hc
      · rw [shapeCalls_bwd hd] at hs
        obtain ⟨i, hi, hc⟩ := List.mem_map.mp hs
        rw [List.mem_reverse, List.mem_range] at hi
        refine ⟨i, by omega, Or.inr ⟨?_, ?_⟩⟩
        · intro hiff
          apply hd
          cases bt
          · exact Or.inl ⟨rfl, by simpa using hiff⟩
          · exact Or.inr ⟨rfl, by simpa using hiff⟩
        · unfold bwdCall at hc
          split at hc
          · rename_i x y z h1 h2 h3
            simp only [Option.some.injEq] at hc
            subst hc
            rw [hlen] at h1
            exact ⟨hpos _ _ h2, hpos _ _ h1, List.mem_of_getElem? h3⟩
          · simp at hc

/-- The markers with which shapes are built. -/
theorem makeBdry_marks {D : DEnv K} {b : BDef K} {q : List (Pt K)} (h : Written D b q) (ext : K) (bt : BdryType) (st : List (BVert K)) :
    ∃ props colors, makeBdry D ext bt st b = lift (createShape (D.nearest ext) bt st emptyBoundary q props colors) ∧
      ((∃ m, markers D b = [m] ∧ ∀ c ∈ colors, c = m) ∨ (markers D b = colors ∧ colors.length = q.length)) := by
  have er : ∀ (c : Pt K) (w h : K), rectangleCoords c w h = rectangle c w h := by
    intro c w h
    unfold rectangleCoords rectangle
    have e1 : 1 / 2 * w = w / 2 := by ring
    have e2 : 1 / 2 * h = h / 2 := by ring
    rw [e1, e2]
  cases h with
  | coords rows => exact ⟨_, _, rfl, Or.inr ⟨rfl, by simp⟩⟩
  | rect m c w h s => exact ⟨_, _, by rw [makeBdry, setRectangle, er], Or.inl ⟨m, rfl, fun c hc => List.eq_of_mem_replicate hc⟩⟩
  | circ m c r s n h3 hn =>
    have hn' : n < 2 ^ 64 := lt_trans hn (by norm_num)
    exact ⟨_, _, by rw [makeBdry, if_neg (by simp), toSize_nat hn', setCircle, if_neg (by omega)]; rfl, Or.inl ⟨m, rfl, by simp⟩⟩
  | square m c a s => exact ⟨_, _, by rw [makeBdry, setSquare, setRectangle, er], Or.inl ⟨m, rfl, fun c hc => List.eq_of_mem_replicate hc⟩⟩
  | triangle m c a s => exact ⟨_, _, by rw [makeBdry, setCircle, if_neg (by omega)]; rfl, Or.inl ⟨m, rfl, by simp⟩⟩
  | csv f t rows hf hr => exact ⟨_, _, by rw [makeBdry, hf]; dsimp only; rw [hr], Or.inr ⟨by simp [markers, hf, hr, Except.toOption], by simp⟩⟩

/-- The edge between two places runs along a side with its marker. -/
def OnMarked (D : DEnv K) (vs : List (Pt K)) (b : BDef K) (p q : Pt K) (m : Int) : Prop := MarkedSide D vs b p q m ∨ MarkedSide D vs b q p m

theorem bdry_marked {D : DEnv K} {ext : K} {bt : BdryType} {vs : List (VertDef K)} {st st' : List (BVert K)} {b : BDef K} {L : EList K} {ps : List (Pt K)}
    (hst : initVerts vs <+: st) (hfew : vs.length < 2 ^ 31) (hd : Draws D (vs.map (·.xy)) bt b ps) (ha : Aligned D (bt, b)) (h : makeBdry D ext bt st b = .ok (st', L)) :
    ∀ e ∈ L.edges, OnMarked D (vs.map (·.xy)) b (storePos st' e.v1) (storePos st' e.v2) e.color := by
  intro e he
  cases hd with
  | @shape _ q _ hw ho =>
    obtain ⟨props, colors, e1, hm⟩ := makeBdry_marks hw ext bt st
    rw [e1] at h
    have h := lift_ok h
    obtain ⟨i, hi, ⟨a1, a2, a3⟩ | ⟨a0, a1, a2, a3⟩⟩ := shape_marks h he
    · refine Or.inl (.side hw a1 a2 ?_)
      rcases hm with ⟨m, m1, m2⟩ | ⟨m1, m2⟩
      · rw [m2 _ (List.mem_of_getElem? a3)]; exact Or.inl m1
      · rw [m1]; exact Or.inr a3
    · refine Or.inr (.side hw a1 a2 ?_)
      rcases hm with ⟨m, m1, m2⟩ | ⟨m1, m2⟩
      · rw [m2 _ a3]; exact Or.inl m1
      · refine Or.inr ?_
        have hall := (ha q hw).resolve_right a0
        dsimp only at hall
        rw [m1] at hall ⊢
        rw [List.getElem?_eq_getElem (by omega), Option.some.injEq]
        exact hall _ (List.getElem_mem _) _ a3
  | @edges rows _ idx h1 h2 hpos =>
    obtain ⟨rfl, hf⟩ := C172_table h
    obtain ⟨r, hr, k1, k2, k3, -⟩ := forall₂_mem (List.Forall₂.flip hf) e he
    obtain ⟨r1, r2, r3⟩ := r
    dsimp only at k1 k2 k3
    have m1 : r1 ∈ rows.map (·.1) := List.mem_map_of_mem (f := (·.1)) hr
    have m2 : r2 ∈ rows.map (·.2.1) := List.mem_map_of_mem (f := (·.2.1)) hr
    rw [h1] at m1
    rw [h2] at m2
    obtain ⟨i, hi, rfl⟩ := List.mem_map.mp m1
    obtain ⟨j, hj, rfl⟩ := List.mem_map.mp m2
    rw [List.mem_rotate] at hj
    obtain ⟨p, -, hp⟩ := forall₂_mem hpos i hi
    obtain ⟨q, -, hq⟩ := forall₂_mem hpos j hj
    obtain ⟨b1, b2⟩ := storePos_init hst hp
    obtain ⟨b3, b4⟩ := storePos_init hst hq
    have e1 : i = e.v1 := by omega
    have e2 : j = e.v2 := by omega
    subst e1 e2 k3
    rw [b2, b4]
    exact Or.inl (.row hr hp hq)

theorem bdries_marked {D : DEnv K} {ext : K} {vs : List (VertDef K)} (hfew : vs.length < 2 ^ 31) {bs : List (BdryType × BDef K)} {qs : List (List (Pt K))}
    {st st' : List (BVert K)} {Ls : List (BdryType × EList K)} (hst : initVerts vs <+: st)
    (hd : List.Forall₂ (fun b q => Draws D (vs.map (·.xy)) b.1 b.2 q) bs qs) (hp : ∀ q ∈ qs, 0 < polygonArea q) (ha : ∀ b ∈ bs, Aligned D b)
    (h : makeBdries D ext bs st = .ok (st', Ls)) :
    ∀ L ∈ Ls, ∀ e ∈ L.2.edges, ∃ b ∈ bs, OnMarked D (vs.map (·.xy)) b.2 (storePos st' e.v1) (storePos st' e.v2) e.color := by
  induction hd generalizing st Ls with
  | nil =>
    simp only [makeBdries, Except.ok.injEq, Prod.mk.injEq] at h
    rw [← h.2]
    simp
  | @cons b q bs qs hb _ ih =>
    obtain ⟨bt, b⟩ := b
    obtain ⟨st1, L, Ls', h1, h2, rfl⟩ := makeBdries_cons h
    intro L' hL e he
    rcases List.mem_cons.mp hL with rfl | hL
    · refine ⟨(bt, b), by simp, ?_⟩
      have M := makeBdry_made hst hfew hb (hp _ (List.mem_cons_self ..)) h1
      have := M.range e he
      have hpre := makeBdries_prefix h2
      rw [storePos_mono hpre this.1, storePos_mono hpre this.2]
      exact bdry_marked hst hfew hb (ha _ (List.mem_cons_self ..)) h1 e he
    · obtain ⟨b', hb', hm⟩ := ih (hst.trans (makeBdry_prefix h1)) (fun q hq => hp q (List.mem_cons_of_mem _ hq)) (fun b hb => ha b (List.mem_cons_of_mem _ hb)) h2 L' hL e he
      exact ⟨b', List.mem_cons_of_mem _ hb', hm⟩

/-- The edges of the domain of a drawing with their markers. -/
theorem drawing_marked {D : DEnv K} {c : Cfg K} {d : Dm K} {b : BDef K} {bs : List (BDef K)} {ps : List (Pt K)} {hs : List (List (Pt K))}
    (H : Drawing D c b bs ps hs) (ha : ∀ b ∈ c.bdries, Aligned D b) (h : makeDomain D c = .ok d) :
    ∀ l ∈ d.sources, ∀ e ∈ l, ∃ b ∈ c.bdries, OnMarked D (c.verts.map (·.xy)) b.2 e.p1 e.p2 e.color := by
  obtain ⟨h1, -, -⟩ := makeDomain_ok h
  have hd : List.Forall₂ (fun b q => Draws D (c.verts.map (·.xy)) b.1 b.2 q) c.bdries (ps :: hs) := by
    rw [H.bdries]
    refine .cons H.outer ?_
    rw [List.forall₂_map_left_iff]
    exact H.holes
  have key := bdries_marked H.few (List.prefix_refl _) hd H.ccw ha h1
  intro l hl e he
  unfold Dm.sources Sh.sources at hl
  obtain ⟨L, hL, rfl⟩ := List.mem_map.mp hl
  obtain ⟨f, hf, rfl⟩ := List.mem_map.mp he
  exact key L hL f hf

end TQ.Fl

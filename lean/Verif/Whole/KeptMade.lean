import Verif.Whole.BdryMade

/-! # Lemmas: each drawn side is an edge of the domain -/

set_option linter.unusedSectionVars false
set_option linter.unusedSimpArgs false
set_option linter.unusedVariables false

namespace TQ.Fl
open TQ.Cf TQ.OutlSpec TQ.Sh TQ.FlSpec TQ.BdSpec TQ.GeoSpec TQ.GN TQ.SevSpec
variable {K : Type} [Field K] [LinearOrder K] [IsStrictOrderedRing K]

theorem bdry_full {D : DEnv K} {ext : K} {bt : BdryType} {vs : List (VertDef K)} {st st' : List (BVert K)} {b : BDef K} {L : EList K}
    (hst : initVerts vs <+: st) (hfew : vs.length < 2 ^ 31) (ha : Aligned D (bt, b)) (h : makeBdry D ext bt st b = .ok (st', L))
    {p q : Pt K} {m : Int} (hm : MarkedSide D (vs.map (·.xy)) b p q m) : HasSegment (storePos st') L.edges p q m := by
  cases hm with
  | @row rows i j m p q hr hp hq =>
    obtain ⟨rfl, hf⟩ := C172_table h
    obtain ⟨e, he, k1, k2, k3, -⟩ := forall₂_mem hf _ hr
    dsimp only at k1 k2 k3
    obtain ⟨b1, b2⟩ := storePos_init hst hp
    obtain ⟨b3, b4⟩ := storePos_init hst hq
    have hi := (List.getElem?_eq_some_iff.mp hp).1
    have hj := (List.getElem?_eq_some_iff.mp hq).1
    rw [List.length_map] at hi hj
    have e1 : i = e.v1 := by omega
    have e2 : j = e.v2 := by omega
    subst e1 e2
    exact ⟨e, he, Or.inl ⟨b2, b4⟩, k3.symm⟩
  | @side _ ps i m p q hw hp hq hm =>
    obtain ⟨props, colors, e1, hc⟩ := makeBdry_marks hw ext bt st
    rw [e1] at h
    have h := lift_ok h
    have hi := (List.getElem?_eq_some_iff.mp hp).1
    obtain ⟨c, s1, s2, s3⟩ := C19_markers_partial _ bt st st' ps props colors L h i hi
    rw [List.getElem?_eq_getElem hi, Option.some.injEq] at hp
    rw [List.getElem?_eq_getElem (Nat.mod_lt _ (by omega)), Option.some.injEq] at hq
    rw [hp, hq] at s1
    have : c = m := by
      have hin : c ∈ colors := by
        by_cases hd : 0 < polygonArea ps
        · cases bt
          · exact List.mem_of_getElem? (s2 (Or.inl ⟨rfl, hd⟩))
          · exact List.mem_of_getElem? (s3 (Or.inr ⟨rfl, hd⟩))
        · cases bt
          · exact List.mem_of_getElem? (s3 (Or.inl ⟨rfl, not_lt.mp hd⟩))
          · exact List.mem_of_getElem? (s2 (Or.inr ⟨rfl, not_lt.mp hd⟩))
      rcases hc with ⟨m', m1, m2⟩ | ⟨m1, m2⟩
      · rw [m1] at hm
        rw [m2 c hin]
        rcases hm with hm | hm
        · simpa using hm
        · have := List.mem_of_getElem? hm
          exact (List.mem_singleton.mp this).symm
      · rw [m1] at hm
        rcases hm with hm | hm
        · rw [hm] at hin
          simpa using hin
        · rcases ha ps hw with hall | hiff
          · dsimp only at hall
            rw [m1] at hall
            exact hall c hin m (List.mem_of_getElem? hm)
          · dsimp only at hiff
            have := s2 (by
              cases bt
              · exact Or.inl ⟨rfl, by simpa using hiff⟩
              · exact Or.inr ⟨rfl, by simpa using hiff⟩)
            rw [this] at hm
            simpa using hm
    rw [this] at s1
    exact s1

theorem bdries_full {D : DEnv K} {ext : K} {vs : List (VertDef K)} (hfew : vs.length < 2 ^ 31) {bs : List (BdryType × BDef K)} {qs : List (List (Pt K))}
    {st st' : List (BVert K)} {Ls : List (BdryType × EList K)} (hst : initVerts vs <+: st)
    (hd : List.Forall₂ (fun b q => Draws D (vs.map (·.xy)) b.1 b.2 q) bs qs) (hp : ∀ q ∈ qs, 0 < polygonArea q) (ha : ∀ b ∈ bs, Aligned D b)
    (h : makeBdries D ext bs st = .ok (st', Ls)) {b : BdryType × BDef K} (hb : b ∈ bs) {p q : Pt K} {m : Int} (hm : MarkedSide D (vs.map (·.xy)) b.2 p q m) :
    ∃ L ∈ Ls, HasSegment (storePos st') L.2.edges p q m := by
  induction hd generalizing st Ls with
  | nil => simp at hb
  | @cons c q' bs qs hc _ ih =>
    obtain ⟨bt, c⟩ := c
    obtain ⟨st1, L, Ls', h1, h2, rfl⟩ := makeBdries_cons h
    rcases List.mem_cons.mp hb with rfl | hb
    · have M := makeBdry_made hst hfew hc (hp _ (List.mem_cons_self ..)) h1
      obtain ⟨e, he, hs, hcol⟩ := bdry_full hst hfew (ha _ (List.mem_cons_self ..)) h1 hm
      have := M.range e he
      have hpre := makeBdries_prefix h2
      refine ⟨_, List.mem_cons_self .., e, he, ?_, hcol⟩
      rw [storePos_mono hpre this.1, storePos_mono hpre this.2]
      exact hs
    · obtain ⟨L', hL', r⟩ := ih (hst.trans (makeBdry_prefix h1)) (fun q hq => hp q (List.mem_cons_of_mem _ hq)) (fun b hb => ha b (List.mem_cons_of_mem _ hb)) h2 hb
      exact ⟨L', List.mem_cons_of_mem _ hL', r⟩

/-- The drawn sides are edges of the domain with their markers. -/
theorem drawing_full {D : DEnv K} {c : Cfg K} {d : Dm K} {b : BDef K} {bs : List (BDef K)} {ps : List (Pt K)} {hs : List (List (Pt K))}
    (H : Drawing D c b bs ps hs) (ha : ∀ b ∈ c.bdries, Aligned D b) (h : makeDomain D c = .ok d) {b : BdryType × BDef K} (hb : b ∈ c.bdries) {p q : Pt K} {m : Int}
    (hm : MarkedSide D (c.verts.map (·.xy)) b.2 p q m) : ∃ l ∈ d.sources, ∃ e ∈ l, ((e.p1 = p ∧ e.p2 = q) ∨ (e.p1 = q ∧ e.p2 = p)) ∧ e.color = m := by
  obtain ⟨h1, -, -⟩ := makeDomain_ok h
  have hd : List.Forall₂ (fun b q => Draws D (c.verts.map (·.xy)) b.1 b.2 q) c.bdries (ps :: hs) := by
    rw [H.bdries]
    refine .cons H.outer ?_
    rw [List.forall₂_map_left_iff]
    exact H.holes
  obtain ⟨L, hL, e, he, r1, r2⟩ := bdries_full H.few (List.prefix_refl _) hd H.ccw ha h1 hb hm
  unfold Dm.sources Sh.sources
  exact ⟨_, List.mem_map_of_mem hL, _, List.mem_map_of_mem he, r1, r2⟩

end TQ.Fl

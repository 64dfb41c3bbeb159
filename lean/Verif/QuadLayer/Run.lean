import Verif.QuadLayer.Steps

/-! # Lemmas on quad layers: histories -/

set_option linter.unusedSectionVars false

namespace TQ.QL
open TQ.MS TQ.MeshSpec TQ.FUSpec TQ.MCSpec TQ.QLSpec TQ.FU MS.St
variable {K : Type*} [Field K] [LinearOrder K] [IsStrictOrderedRing K]

theorem diag_dir {old new : List (Nat × Nat)} {b1 b2 v : Nat} (hr : Replaced old new b1 b2 v) (ho : Simple old) (hn : Simple new)
    (n12 : b1 ≠ b2) (n2 : b2 ≠ v) : (b2, v) ∉ new := by
  intro hm
  obtain ⟨out, inn, rest, p1, p2, p3⟩ := hr
  have hm' := p2.mem_iff.mp hm
  have hrest : (b2, v) ∈ rest := by
    rw [List.mem_append] at hm'
    rcases hm' with hm' | hm'
    · exfalso
      rcases p3 with ⟨_, rfl⟩ | ⟨_, rfl, _⟩ | ⟨_, rfl, _⟩ | ⟨_, rfl, _⟩ <;>
        simp only [List.mem_cons, Prod.mk.injEq, List.not_mem_nil, or_false] at hm'
      · exact n2 hm'.1
      · exact n12 hm'.1.symm
      · rcases hm' with hm' | hm'
        · exact n12 hm'.1.symm
        · exact n2 hm'.1
    · exact hm'
  have dup : (b2, v) ∈ out → False := by
    intro hx
    have := p1.nodup_iff.mp ho.1
    rw [List.nodup_cons, List.nodup_append] at this
    exact this.2.2.2 _ hx _ hrest rfl
  have opp : (v, b2) ∈ inn → False := by
    intro hx
    exact hn.2 _ _ hm (p2.mem_iff.mpr (List.mem_append_left _ hx))
  rcases p3 with ⟨rfl, _⟩ | ⟨_, rfl, _⟩ | ⟨rfl, _, _⟩ | ⟨_, rfl, _⟩
  · exact dup (by simp)
  · exact opp (by simp)
  · exact dup (by simp)
  · exact opp (by simp)

variable {L : LEnv K} (he : 0 < L.env.eps) (hq : QueryLive L.env) (hso : SortOK L.env)
include he hq hso

theorem kept_step {s s' : St K} {l : List (Ev K)} (h : WF s) (st : LStep L s l s') (good : ∀ x ∈ l, Good x) : Kept s l s' := by
  cases st with
  | @fail _ base np sp r hb hu =>
    have ho := updateFront_outcome he hq hso h hb np sp r
    rw [hu] at ho
    cases ho with
    | fail same wf _ => exact kept_same h wf same
  | @tri _ base np sp r t v hb hu hv =>
    obtain ⟨v', d⟩ := updateFront_done he hq hso h hb hu
    have : v' = v := by rw [d.cor] at hv; simpa using hv
    subst this
    have g : GoodEntry _ := good _ (List.mem_singleton.mpr rfl)
    exact kept_done h d g.2.2
  | @quad s1 s2 base np sp r t1 q1 dg np' sp' r' t2 q2 er hb hu1 hq1 hdg hu2 hq2 her =>
    obtain ⟨v', d1⟩ := updateFront_done he hq hso h hb hu1
    have : v' = q1 := by rw [d1.cor] at hq1; simpa using hq1
    subst this
    obtain ⟨hdm, hdd⟩ := getEdge_some d1.wf d1.vmem hdg
    obtain ⟨v'', d2⟩ := updateFront_done he hq hso d1.wf hdm hu2
    have : v'' = q2 := by rw [d2.cor] at hq2; simpa using hq2
    subst this
    have g1 : GoodEntry _ := good _ List.mem_cons_self
    have g2 : GoodEntry _ := good _ (List.mem_cons_of_mem _ (List.mem_singleton.mpr rfl))
    have n1 := d1.ndp
    simp only [List.nodup_cons, List.mem_cons, List.not_mem_nil, or_false, not_or] at n1
    have hdir : (s1.E dg).v1 = v' ∧ (s1.E dg).v2 = (s.E base).v2 := by
      rcases hdd with hdd | hdd
      · exact hdd
      · exfalso
        have hm := mem_pairs hdm
        rw [hdd.1, hdd.2] at hm
        exact diag_dir (d1.front g1.2.2) g1.2.1 g2.2.1 n1.1.1 n1.2.1 hm
    have k1 := kept_done (s'' := s1) h d1 g1.2.2
    have k2 := kept_done (s'' := s2) d1.wf d2 g2.2.2
    have t1m : t1 ∈ s1.tris := by rw [d1.tris]; simp
    have t1m2 : t1 ∈ s2.tris := by rw [d2.tris]; exact List.mem_append_left _ t1m
    have t2m : t2 ∈ s2.tris := by rw [d2.tris]; simp
    have tne : t1 ≠ t2 := by
      rintro rfl
      have := d2.wf.tnd
      rw [d2.tris, List.nodup_append] at this
      exact this.2.2 _ t1m _ (List.mem_singleton.mpr rfl) rfl
    have c1 : (s2.F (.tri t1)).corners = [(s.E base).v1, (s.E base).v2, v'] := by rw [d2.fold (.tri t1) t1m, d1.cor]
    have c2 : (s2.F (.tri t2)).corners = [v', (s.E base).v2, v''] := by rw [d2.cor, hdir.1, hdir.2]
    have hm2 : (s.E base).v2 ∈ s2.verts := by
      have := (d2.wf.cor (.tri t1) t1m2).2
      rw [c1] at this
      exact this _ (by simp)
    obtain ⟨herm, _⟩ := getEdge_some d2.wf hm2 her
    have hqa : v'' ≠ (s.E base).v1 := by
      intro hh
      have p1 := d1.tpos
      have p2 := d2.tpos
      rw [hdir.1, hdir.2, hh] at p2
      have m : ∀ x ∈ [(s.E base).v1, (s.E base).v2, v'], s2.pos x = s1.pos x := by
        intro x hx
        refine d2.pos x ?_
        have := (d1.wf.cor (.tri t1) t1m).2
        rw [d1.cor] at this
        exact this x hx
      rw [m _ (by simp), m (s.E base).v2 (by simp), m (s.E base).v1 (by simp)] at p2
      have : triArea (s1.pos v') (s1.pos (s.E base).v2) (s1.pos (s.E base).v1) =
        - triArea (s1.pos (s.E base).v1) (s1.pos (s.E base).v2) (s1.pos v') := by
        simp only [triArea, Pt.cross, Pt.sub_x, Pt.sub_y]; ring
      rw [this] at p2
      linarith
    have k3 := kept_toQuad d2.wf herm t1m2 t2m tne c1 c2 hqa
    have := (k1.trans k2).trans k3
    simpa using this
  | gapFail hn ha hb hc => exact kept_gapFail h hn ha hb hc
  | gap hn ha hb hc hv hg => exact kept_gap h hn ha hb hc hv hg (good _ (List.mem_singleton.mpr rfl))
  | gap2Fail hn ha hb hc => exact kept_gap2Fail h _ hn ha hb hc
  | gap2 hn ha hb hc hs1 hv1 hv2 hg1 hg2 =>
    have g1 : GoodEntry _ := good _ List.mem_cons_self
    have g2 : GoodEntry _ := good _ (List.mem_cons_of_mem _ (List.mem_singleton.mpr rfl))
    exact kept_gap2 h hn ha hb hc hs1 hv1 hv2 hg1 hg2 g1 g2
  | split hm hsp => exact (split_spec h hm hsp).2.1
  | move hv => exact absurd (good _ (List.mem_singleton.mpr rfl)) (by simp [Good])
  | mark => exact kept_mark h _ _

theorem kept_run {s0 s : St K} {log : List (Ev K)} (h : WF s0) (r : LRun L s0 log s) (good : ∀ x ∈ log, Good x) :
    Kept s0 log s := by
  induction r with
  | start => exact Kept.refl h
  | step _ st ih =>
    have k := ih fun x hx => good x (List.mem_append_left _ hx)
    exact k.trans (kept_step he hq hso k.wf st fun x hx => good x (List.mem_append_right _ hx))

end TQ.QL

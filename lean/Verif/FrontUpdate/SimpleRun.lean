import Verif.FrontUpdate.Free

/-! # Lemmas: histories on a simple front -/

set_option linter.unusedSectionVars false

namespace TQ.FU
open TQ.MS TQ.MeshSpec TQ.FUSpec TQ.MS.St TQ.GeoSpec
variable {K : Type*} [Field K] [LinearOrder K] [IsStrictOrderedRing K]

/-- The vertices of a step are in the list. -/
structure EntryIn (vs : List Nat) (e : Entry) : Prop where
  front : ∀ f ∈ e.front, f.1 ∈ vs ∧ f.2 ∈ vs
  b1 : e.b1 ∈ vs
  b2 : e.b2 ∈ vs
  v : e.v ∈ vs

theorem EntryIn.mono {vs vs' : List Nat} {e : Entry} (h : EntryIn vs e) (hs : ∀ w ∈ vs, w ∈ vs') : EntryIn vs' e :=
  ⟨fun f hf => ⟨hs _ (h.front f hf).1, hs _ (h.front f hf).2⟩, hs _ h.b1, hs _ h.b2, hs _ h.v⟩

theorem free_congr {pos pos' : Nat → Pt K} {vs : List Nat} (h : ∀ w ∈ vs, pos' w = pos w) {e : Entry} (hin : EntryIn vs e)
    (hf : Free pos e.front e.b1 e.b2 e.v) : Free pos' e.front e.b1 e.b2 e.v := by
  intro f hfm
  rw [h _ (hin.front f hfm).1, h _ (hin.front f hfm).2, h _ hin.b1, h _ hin.b2, h _ hin.v]
  exact hf f hfm

theorem reach_congr {env : Env K} {pos pos' : Nat → Pt K} {vs : List Nat} (h : ∀ w ∈ vs, pos' w = pos w) {e : Entry} (hin : EntryIn vs e)
    (hf : Reach env pos e.front e.b1 e.b2 e.v) : Reach env pos' e.front e.b1 e.b2 e.v := by
  intro f hfm
  rw [h _ (hin.front f hfm).1, h _ (hin.front f hfm).2, h _ hin.b1, h _ hin.b2, h _ hin.v]
  exact hf f hfm

theorem simple_congr {pos pos' : Nat → Pt K} {es : List (Nat × Nat)} (h : ∀ e ∈ es, pos' e.1 = pos e.1 ∧ pos' e.2 = pos e.2)
    (hs : SimpleFront pos es) : SimpleFront pos' es := by
  refine ⟨hs.balanced, ?_, ?_, ?_⟩
  · intro e he; rw [(h e he).1, (h e he).2]; exact hs.proper e he
  · refine List.Pairwise.imp_of_mem ?_ hs.apart
    intro a b ha hb hab
    unfold Apart
    rw [(h a ha).1, (h a ha).2, (h b hb).1, (h b hb).2]; exact hab
  · intro p
    have : winding pos' es p = winding pos es p := by
      rw [winding_eq, winding_eq]
      congr 1
      exact List.map_congr_left fun e he => by rw [(h e he).1, (h e he).2]
    rw [this]; exact hs.once p

theorem simple_perm {pos : Nat → Pt K} {es es' : List (Nat × Nat)} (hp : es.Perm es') (hs : SimpleFront pos es) :
    SimpleFront pos es' := by
  refine ⟨?_, fun e he => hs.proper e (hp.mem_iff.mpr he), ?_, ?_⟩
  · intro v; rw [← hp.countP_eq, ← hp.countP_eq]; exact hs.balanced v
  · exact (List.Perm.pairwise_iff (fun {x y} => apart_symm (pos := pos)) hp).mp hs.apart
  · intro p
    have : winding pos es' p = winding pos es p := by unfold winding; rw [hp.countP_eq, hp.countP_eq]
    rw [this]; exact hs.once p

theorem resolved_mono {eps : K} {s s' : St K} (h : ∀ w ∈ s.verts, w ∈ s'.verts) (hp : ∀ w ∈ s.verts, s'.pos w = s.pos w)
    (hr : Resolved eps s') : Resolved eps s := by
  intro a ha b hb c hc
  rw [← hp a ha, ← hp b hb, ← hp c hc]
  exact hr a (h a ha) b (h b hb) c (h c hc)

theorem tpos_side {p q r : Pt K} (h : 0 < St.triArea p q r) : 0 < side p q r := by
  unfold St.triArea Pt.cross at h
  simp only [Pt.sub_x, Pt.sub_y] at h
  unfold side
  linarith

/-- On a simple front, steps whose triangles are free use side edges along the front and keep it simple. -/
theorem run_simple {env : Env K} (he : 0 < env.eps) (hq : QueryLive env) (hs : SortOK env) {s0 : St K} (h0 : WF s0)
    (hsim : SimpleFront s0.pos (pairs s0 .front)) {log : List Entry} {s : St K} (hr : Run env s0 log s) :
    (∀ e ∈ log, EntryIn s.verts e) ∧
      (AllFree s.pos log → AllOriented log ∧ SimpleFront s.pos (pairs s .front)) := by
  refine (run_induct he hq hs h0 (fun log s => (∀ e ∈ log, EntryIn s.verts e) ∧
      (AllFree s.pos log → AllOriented log ∧ SimpleFront s.pos (pairs s .front))) ?_ ?_ ?_ ?_ hr).2
  · exact ⟨by simp, fun _ => ⟨fun e he => by simp at he, hsim⟩⟩
  · intro log s s' base v t hwf hb ih hd _
    obtain ⟨_, hb1, hb2, _, _⟩ := (hwf.ends _).2 base hb
    have hlast : EntryIn s'.verts ⟨pairs s .front, (s.E base).v1, (s.E base).v2, v⟩ :=
      ⟨fun f hf => ⟨hd.verts _ (pairs_verts hwf f hf).1, hd.verts _ (pairs_verts hwf f hf).2⟩, hd.verts _ hb1, hd.verts _ hb2, hd.vmem⟩
    refine ⟨?_, ?_⟩
    · intro e hem
      rcases List.mem_append.mp hem with hem | hem
      · exact (ih.1 e hem).mono hd.verts
      · rw [List.mem_singleton] at hem; subst hem; exact hlast
    · intro hfree
      have hf1 : AllFree s.pos log := fun e hem =>
        free_congr (fun w hw => (hd.pos w hw).symm) (ih.1 e hem) (hfree e (List.mem_append_left _ hem))
      obtain ⟨ho, hsi⟩ := ih.2 hf1
      have hf2 := hfree _ (List.mem_append_right _ (List.mem_singleton.mpr rfl))
      dsimp only at hf2
      have hsi' : SimpleFront s'.pos (pairs s .front) :=
        simple_congr (fun e hem => ⟨hd.pos _ (pairs_verts hwf e hem).1, hd.pos _ (pairs_verts hwf e hem).2⟩) hsi
      have hA := tpos_side hd.tpos
      have hor := free_oriented hsi' (mem_pairs hb) hA hf2
      refine ⟨?_, free_step hsi' (mem_pairs hb) hA hf2 (hd.front hor)⟩
      intro e hem
      rcases List.mem_append.mp hem with hem | hem
      · exact ho e hem
      · rw [List.mem_singleton] at hem; subst hem; exact hor
  · intro log s s' hwf hwf' ih hsame
    have hp : ∀ w ∈ s.verts, s'.pos w = s.pos w := fun w hw => same_pos hsame hw
    refine ⟨fun e hem => by rw [hsame.verts]; exact ih.1 e hem, ?_⟩
    intro hfree
    obtain ⟨ho, hsi⟩ := ih.2 fun e hem => free_congr (fun w hw => (hp w hw).symm) (ih.1 e hem) (hfree e hem)
    refine ⟨ho, ?_⟩
    rw [same_pairs hsame]
    exact simple_congr (fun e hem => ⟨hp _ (pairs_verts hwf e hem).1, hp _ (pairs_verts hwf e hem).2⟩) hsi
  · intro log s l hwf ih hl
    refine ⟨ih.1, ?_⟩
    intro hfree
    obtain ⟨ho, hsi⟩ := ih.2 hfree
    exact ⟨ho, simple_perm (pairs_reorder hl .front).symm hsi⟩

/-- The checks make all new triangles free. -/
theorem run_free {env : Env K} (he : 0 < env.eps) (hq : QueryExact env) (hs : SortOK env)
    (hn : ∀ p, 0 ≤ env.norm p ∧ Pt.normSq p ≤ env.norm p * env.norm p) {s0 : St K} (h0 : WF s0)
    {log : List Entry} {s : St K} (hr : Run env s0 log s) :
    WF s ∧ (∀ e ∈ log, EntryIn s.verts e) ∧ (Resolved env.eps s → AllReach env s.pos log → AllFree s.pos log) := by
  have hql := queryExact_live hq
  -- one successful step
  have step : ∀ {log : List Entry} {s s' sv : St K} {base v t : Nat}, WF s → base ∈ s.es .front →
      (∀ e ∈ log, EntryIn s.verts e) → (Resolved env.eps s → AllReach env s.pos log → AllFree s.pos log) →
      Done env s s' (s.E base).v1 (s.E base).v2 v t → Judged env s s' sv (s.E base).v1 (s.E base).v2 v →
      (∀ e ∈ log ++ [⟨pairs s .front, (s.E base).v1, (s.E base).v2, v⟩], EntryIn s'.verts e) ∧
      (Resolved env.eps s' → AllReach env s'.pos (log ++ [⟨pairs s .front, (s.E base).v1, (s.E base).v2, v⟩]) →
        AllFree s'.pos (log ++ [⟨pairs s .front, (s.E base).v1, (s.E base).v2, v⟩])) := by
    intro log s s' sv base v t hwf hb hin ih hd hj
    obtain ⟨_, hb1, hb2, _, _⟩ := (hwf.ends _).2 base hb
    have hlast : EntryIn s'.verts ⟨pairs s .front, (s.E base).v1, (s.E base).v2, v⟩ :=
      ⟨fun f hf => ⟨hd.verts _ (pairs_verts hwf f hf).1, hd.verts _ (pairs_verts hwf f hf).2⟩, hd.verts _ hb1, hd.verts _ hb2, hd.vmem⟩
    refine ⟨?_, ?_⟩
    · intro e hem
      rcases List.mem_append.mp hem with hem | hem
      · exact (hin e hem).mono hd.verts
      · rw [List.mem_singleton] at hem; subst hem; exact hlast
    · intro hres hreach e hem
      have hfree := ih (resolved_mono hd.verts hd.pos hres) fun e hem =>
        reach_congr (fun w hw => (hd.pos w hw).symm) (hin e hem) (hreach e (List.mem_append_left _ hem))
      rcases List.mem_append.mp hem with hem | hem
      · exact free_congr hd.pos (hin e hem) (hfree e hem)
      · rw [List.mem_singleton] at hem
        subst hem
        dsimp only
        have hpos : sv.pos = s'.pos := funext hj.pos
        have hpairs : pairs sv .front = pairs s .front := by unfold pairs; rw [hj.es, hj.E]
        have hr2 := hreach _ (List.mem_append_right _ (List.mem_singleton.mpr rfl))
        dsimp only at hr2
        have := valid_free he hn hj.valid
          (by intro a ha b hb c hc; rw [hpos]; rw [hj.verts] at ha hb hc; exact hres a ha b hb c hc)
          (by rw [hj.verts]; exact hd.verts _ hb1) (by rw [hj.verts]; exact hd.verts _ hb2) (by rw [hj.verts]; exact hd.vmem)
          (by
            intro e he'
            rw [hj.es] at he'
            obtain ⟨_, q1, q2, q3, _⟩ := (hwf.ends _).2 e he'
            rw [hj.E, hj.verts]
            exact ⟨hd.verts _ q1, hd.verts _ q2, q3⟩)
          (by rw [hpos, hpairs]; exact hr2)
        rw [hpos, hpairs] at this
        exact this
  have same : ∀ {log : List Entry} {s s' : St K}, WF s → (∀ e ∈ log, EntryIn s.verts e) →
      (Resolved env.eps s → AllReach env s.pos log → AllFree s.pos log) → SameMesh s s' →
      (∀ e ∈ log, EntryIn s'.verts e) ∧ (Resolved env.eps s' → AllReach env s'.pos log → AllFree s'.pos log) := by
    intro log s s' _ hin ih hsame
    have hp : ∀ w ∈ s.verts, s'.pos w = s.pos w := fun w hw => same_pos hsame hw
    refine ⟨fun e hem => by rw [hsame.verts]; exact hin e hem, fun hres hreach e hem => ?_⟩
    refine free_congr hp (hin e hem) (ih (resolved_mono (by rw [hsame.verts]; exact fun _ h => h) hp hres) ?_ e hem)
    exact fun e hem => reach_congr (fun w hw => (hp w hw).symm) (hin e hem) (hreach e hem)
  induction hr with
  | start => exact ⟨h0, by simp, fun _ _ e hem => by simp at hem⟩
  | @update log s s' base np sp r t v _ hb hu hv ih =>
    obtain ⟨v1, hd⟩ := updateFront_done he hql hs ih.1 hb hu
    obtain ⟨v2, sv, hc, _, hj⟩ := updateFront_judged he hq hs ih.1 hb hu
    have e1 : v1 = v := by rw [hd.cor] at hv; simpa using hv
    have e2 : v2 = v := by rw [hc] at hv; simpa using hv
    subst e1 e2
    exact ⟨hd.wf, step ih.1 hb ih.2.1 ih.2.2 hd hj⟩
  | @exhaustive log s s' base v t _ hb hv hu ih =>
    have hd := updateFrontExhaustive_done he ih.1 hb hv hu
    obtain ⟨_, _, hj⟩ := updateFrontExhaustive_judged he hq ih.1 hb hv hu
    exact ⟨hd.wf, step ih.1 hb ih.2.1 ih.2.2 hd hj⟩
  | @updateFail log s s' base np sp r _ hb hu ih =>
    have ho := updateFront_outcome he hql hs ih.1 hb np sp r
    rw [hu] at ho
    cases ho with
    | fail hsame wf _ => exact ⟨wf, same ih.1 ih.2.1 ih.2.2 hsame⟩
  | @exhaustiveFail log s s' base v _ hb hv hu ih =>
    have ho := updateFrontExhaustive_outcome he ih.1 hb hv
    rw [hu] at ho
    cases ho with
    | fail hsame wf _ => exact ⟨wf, same ih.1 ih.2.1 ih.2.2 hsame⟩
  | @reorder log s l _ hl ih => exact ⟨wf_reorder ih.1 hl, ih.2.1, ih.2.2⟩

end TQ.FU

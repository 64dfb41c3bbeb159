import Verif.Whole.Work
import Verif.Triangulation.Props

/-! # Lemmas: the front edges of a run are edges of its triangles -/

set_option linter.unusedSectionVars false
set_option linter.unusedSimpArgs false

namespace TQ.WholeSpec
open TQ.MS TQ.MeshSpec TQ.FUSpec
variable {K : Type*} [Field K] [LinearOrder K] [IsStrictOrderedRing K]

/-- Edges that were in the front at some time between `s0` and `s`: those of the first front and the sides of the new
triangles. -/
def usedEdges (s0 s : St K) : List (Nat × Nat) :=
  pairs s0 .front ++ ((s.tris.filter fun t => t ∉ s0.tris).flatMap fun t => (bdryOf (s.F (.tri t)).corners).map Prod.swap)

/-- The ranges of the checks were large enough for all new triangles of the mesh. -/
def Reaching (env : FU.Env K) (s0 s : St K) : Prop :=
  ∀ t ∈ s.tris, t ∉ s0.tris → ∀ a b c, (s.F (.tri t)).corners = [a, b, c] → Reach env s.pos (usedEdges s0 s) a b c

end TQ.WholeSpec

namespace TQ.Whole
open TQ.MS TQ.MeshSpec TQ.FUSpec TQ.MS.St TQ.FU TQ.WholeSpec
variable {K : Type*} [Field K] [LinearOrder K] [IsStrictOrderedRing K]

theorem pairs_removeEdge_sub {s : St K} {e : Nat} {l : EL} {p : Nat × Nat} (h : p ∈ pairs (s.removeEdge e) l) : p ∈ pairs s l := by
  unfold pairs at h ⊢
  obtain ⟨x, hx, rfl⟩ := List.mem_map.mp h
  refine List.mem_map.mpr ⟨x, ((removeEdge_es e l x).mp hx).1, ?_⟩
  rfl

theorem advanceEdges_sub {s : St K} (h : WF s) {b1 b2 v : Nat} (hb1 : b1 ∈ s.verts) (hb2 : b2 ∈ s.verts) (hv : v ∈ s.verts)
    (h1 : v ≠ b1) (h2 : v ≠ b2) {p : Nat × Nat} (hp : p ∈ pairs (advanceEdges s b1 b2 v) .front) :
    p ∈ pairs s .front ∨ p = (b1, v) ∨ p = (v, b2) := by
  unfold advanceEdges at hp
  have keep : ∀ {e : Nat}, e ∈ s.es .front → WF (keepEdge s e) ∧ WF ((keepEdge s e).removeEdge e) := by
    intro e he
    have w1 : WF (keepEdge s e) := wf_keepEdge h he
    refine ⟨w1, wf_removeEdge w1 e ?_⟩
    rw [liveE_iff w1.toSound]; exact ⟨_, keepEdge_es he⟩
  cases hg1 : s.getEdge .front v b1 with
  | none =>
    cases hg2 : s.getEdge .front v b2 with
    | none =>
      rw [hg1, hg2] at hp
      dsimp only at hp
      have w1 : WF (addFront s b1 v) := wf_addEdge h _ _ _ hb1 hv (Ne.symm h1)
      rw [addFront, pairs_addEdge w1.toSound, addFront, pairs_addEdge h.toSound] at hp
      simp only [if_true, List.mem_append, List.mem_singleton] at hp
      rcases hp with (hp | hp) | hp
      · exact Or.inl hp
      · exact Or.inr (Or.inl hp)
      · exact Or.inr (Or.inr hp)
    | some e2 =>
      rw [hg1, hg2] at hp
      dsimp only at hp
      obtain ⟨m2, -⟩ := getEdge_some h hv hg2
      rw [addFront, pairs_addEdge (keep m2).2.toSound] at hp
      simp only [if_true, List.mem_append, List.mem_singleton] at hp
      rcases hp with hp | hp
      · have := pairs_removeEdge_sub hp
        rw [pairs_keepEdge h] at this
        exact Or.inl (by simpa using this)
      · exact Or.inr (Or.inl hp)
  | some e1 =>
    obtain ⟨m1, -⟩ := getEdge_some h hv hg1
    cases hg2 : s.getEdge .front v b2 with
    | none =>
      rw [hg1, hg2] at hp
      dsimp only at hp
      rw [addFront, pairs_addEdge (keep m1).2.toSound] at hp
      simp only [if_true, List.mem_append, List.mem_singleton] at hp
      rcases hp with hp | hp
      · have := pairs_removeEdge_sub hp
        rw [pairs_keepEdge h] at this
        exact Or.inl (by simpa using this)
      · exact Or.inr (Or.inr hp)
    | some e2 =>
      rw [hg1, hg2] at hp
      dsimp only at hp
      have := pairs_removeEdge_sub (pairs_removeEdge_sub hp)
      rw [pairs_keepEdge (keep m1).1, pairs_keepEdge h] at this
      exact Or.inl (by simpa using this)

theorem advanceFront_sub {s : St K} (h : WF s) {base v : Nat} (t : Nat) (hb : base ∈ s.es .front) (hv : v ∈ s.verts)
    (h1 : v ≠ (s.E base).v1) (h2 : v ≠ (s.E base).v2) {p : Nat × Nat} (hp : p ∈ pairs (advanceFront s base v t) .front) :
    p ∈ pairs s .front ∨ p = ((s.E base).v1, v) ∨ p = (v, (s.E base).v2) := by
  obtain ⟨_, hb1, hb2, -, -⟩ := (h.ends _).2 base hb
  rw [advanceFront_eq, pairs_addArea, pairs_activate] at hp
  have := pairs_removeEdge_sub hp
  rw [(beforeRemoval_spec h hb hv h1 h2).2.2.2.2.2] at this
  exact advanceEdges_sub h hb1 hb2 hv h1 h2 this

/-- What is known of the steps of a run. -/
structure RunEdges (s0 : St K) (log : List Entry) (s : St K) : Prop where
  front : ∀ p ∈ pairs s .front, p ∈ usedEdges s0 s
  old : ∀ e ∈ log, ∀ p ∈ e.front, p ∈ usedEdges s0 s
  mono : ∀ t ∈ s0.tris, t ∈ s.tris
  tri : ∀ e ∈ log, ∃ t ∈ s.tris, t ∉ s0.tris ∧ (s.F (.tri t)).corners = [e.b1, e.b2, e.v]

theorem used_mono {s0 s s' : St K} (h : ∀ t ∈ s.tris, t ∈ s'.tris ∧ (s'.F (.tri t)).corners = (s.F (.tri t)).corners)
    {p : Nat × Nat} (hp : p ∈ usedEdges s0 s) : p ∈ usedEdges s0 s' := by
  unfold usedEdges at *
  rw [List.mem_append] at hp ⊢
  rcases hp with hp | hp
  · exact Or.inl hp
  · right
    simp only [List.mem_flatMap, List.mem_filter, decide_eq_true_eq] at hp ⊢
    obtain ⟨t, ⟨ht, hn⟩, hq⟩ := hp
    exact ⟨t, ⟨(h t ht).1, hn⟩, by rw [(h t ht).2]; exact hq⟩

theorem run_edges {env : FU.Env K} (he : 0 < env.eps) (hq : QueryLive env) (hs : SortOK env) {s0 : St K} (h0 : WF s0)
    {log : List Entry} {s : St K} (hr : Run env s0 log s) : RunEdges s0 log s := by
  refine (run_induct he hq hs h0 (fun log s => RunEdges s0 log s) ?_ ?_ ?_ ?_ hr).2
  · exact ⟨fun p hp => List.mem_append_left _ hp, by simp, fun _ h => h, by simp⟩
  · intro log s s' base v t hw hb ih hd hprep
    obtain ⟨s1, prep, rfl⟩ := hprep
    have hmono : ∀ x ∈ s.tris, x ∈ (advanceFront s1 base v t).tris ∧
        ((advanceFront s1 base v t).F (.tri x)).corners = (s.F (.tri x)).corners := by
      intro x hx
      refine ⟨by rw [hd.tris]; exact List.mem_append_left _ hx, ?_⟩
      rw [hd.fold (.tri x) hx]
    have htm : t ∈ (advanceFront s1 base v t).tris := by rw [hd.tris]; simp
    have hfr : t ∉ s0.tris := by
      intro h
      have hn := hd.wf.tnd
      rw [hd.tris, List.nodup_append] at hn
      exact hn.2.2 t (ih.mono t h) t (by simp) rfl
    have hnew : ∀ p, p = ((s.E base).v1, v) ∨ p = (v, (s.E base).v2) → p ∈ usedEdges s0 (advanceFront s1 base v t) := by
      intro p hp
      unfold usedEdges
      rw [List.mem_append]
      right
      simp only [List.mem_flatMap, List.mem_filter, decide_eq_true_eq]
      refine ⟨t, ⟨htm, hfr⟩, ?_⟩
      rw [hd.cor]
      rcases hp with rfl | rfl <;> simp [bdryOf]
    refine ⟨fun p hp => ?_, ?_, fun x hx => (hmono x (ih.mono x hx)).1, ?_⟩
    · have hb' : base ∈ s1.es .front := by rw [prep.es]; exact hb
      have hE : s1.E base = s.E base := by rw [prep.E]
      have hn := prep.ndp
      simp only [List.nodup_cons, List.mem_cons, List.not_mem_nil, or_false, not_or] at hn
      have hwf : WF s1 := prep.wf
      have := advanceFront_sub hwf t hb' prep.vmem (by rw [hE]; exact fun h => hn.1.2 h.symm) (by rw [hE]; exact fun h => hn.2.1 h.symm) hp
      rw [prep_pairs prep, hE] at this
      rcases this with h | h
      · exact used_mono hmono (ih.front p h)
      · exact hnew p h
    · intro e hem p hp
      rw [List.mem_append, List.mem_singleton] at hem
      rcases hem with hem | rfl
      · exact used_mono hmono (ih.old e hem p hp)
      · exact used_mono hmono (ih.front p hp)
    · intro e hem
      rw [List.mem_append, List.mem_singleton] at hem
      rcases hem with hem | rfl
      · obtain ⟨x, hx, hn, hc⟩ := ih.tri e hem
        exact ⟨x, (hmono x hx).1, hn, by rw [(hmono x hx).2]; exact hc⟩
      · exact ⟨t, htm, hfr, hd.cor⟩
  · intro log s s' hw hw' ih hsm
    have hmono : ∀ x ∈ s.tris, x ∈ s'.tris ∧ (s'.F (.tri x)).corners = (s.F (.tri x)).corners := by
      intro x hx
      exact ⟨by rw [hsm.tris]; exact hx, by rw [hsm.fdata (.tri x) hx]⟩
    refine ⟨fun p hp => ?_, fun e hem p hp => used_mono hmono (ih.old e hem p hp), fun x hx => (hmono x (ih.mono x hx)).1, fun e hem => ?_⟩
    · have : pairs s' .front = pairs s .front := by unfold pairs; rw [hsm.es, hsm.edata]
      rw [this] at hp
      exact used_mono hmono (ih.front p hp)
    · obtain ⟨x, hx, hn, hc⟩ := ih.tri e hem
      exact ⟨x, (hmono x hx).1, hn, by rw [(hmono x hx).2]; exact hc⟩
  · intro log s l hw ih hl
    refine ⟨fun p hp => ?_, fun e hem p hp => ih.old e hem p hp, ih.mono, fun e hem => ih.tri e hem⟩
    refine ih.front p ?_
    unfold pairs reorder at *
    simp only [upd, if_true] at hp
    obtain ⟨x, hx, rfl⟩ := List.mem_map.mp hp
    exact List.mem_map.mpr ⟨x, hl.mem_iff.mp hx, rfl⟩

/-- The condition on the ranges, stated for the triangles of the result. -/
theorem reaching_all {env : FU.Env K} (he : 0 < env.eps) (hq : QueryLive env) (hs : SortOK env) {s0 : St K} (h0 : WF s0)
    {log : List Entry} {s : St K} (hr : Run env s0 log s) (h : Reaching env s0 s) : AllReach env s.pos log := by
  have hre := run_edges he hq hs h0 hr
  intro e hem f hf hx
  obtain ⟨t, ht, hn, hc⟩ := hre.tri e hem
  exact h t ht hn _ _ _ hc f (hre.old e hem f hf) hx

end TQ.Whole

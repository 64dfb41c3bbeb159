import Verif.Whole.Doubles2

/-! # Lemmas: numbers, areas and pointers after merging elements with two common edges -/

set_option linter.unusedSectionVars false
set_option linter.unusedSimpArgs false
set_option linter.unusedVariables false

namespace TQ.Whole
open TQ TQ.MS TQ.MS.St TQ.MeshSpec TQ.FUSpec TQ.MCSpec TQ.WholeSpec TQ.FU TQ.Sm TQ.MC TQ.RefSpec TQ.CleanSpec
variable {K : Type*} [Field K] [LinearOrder K] [IsStrictOrderedRing K]

namespace Outcome
variable {s t : St K} {isQ : Bool} {ms : List Merge} {id : Merge → Nat}

theorem facets_perm (h : Outcome s t isQ ms id) :
    (facets t).Perm (((facets s).filter fun f => decide (f ∉ removed ms)) ++ ms.map fun m => ref isQ (id m)) := by
  have f1 : (s.tris.filter fun x => decide (FRef.tri x ∉ removed ms)).map FRef.tri = (s.tris.map FRef.tri).filter fun f => decide (f ∉ removed ms) := by
    rw [List.filter_map]; rfl
  have f2 : (s.quads.filter fun x => decide (FRef.quad x ∉ removed ms)).map FRef.quad = (s.quads.map FRef.quad).filter fun f => decide (f ∉ removed ms) := by
    rw [List.filter_map]; rfl
  unfold facets
  rw [h.tris, h.quads, List.filter_append, List.map_append, List.map_append, f1, f2]
  cases isQ with
  | true =>
    simp only [if_true, List.map_nil, List.append_nil, List.map_map]
    rw [List.append_assoc]
    exact List.Perm.refl _
  | false =>
    simp only [Bool.false_eq_true, if_false, List.map_nil, List.append_nil, List.map_map]
    rw [List.append_assoc, List.append_assoc]
    exact List.Perm.append_left _ List.perm_append_comm

theorem removed_live (p : Plan s isQ ms) : ∀ f ∈ removed ms, f ∈ facets s := by
  intro f hf
  obtain ⟨m, hm, hf'⟩ := Plan.mem_removed.mp hf
  exact mem_facets.mpr (p.liveR hm hf')

theorem removed_length (ms : List Merge) : (removed ms).length = 2 * ms.length := by
  unfold removed
  induction ms with
  | nil => rfl
  | cons m l ih => rw [List.flatMap_cons, List.length_append, ih]; simp; omega

theorem edges_length (ms : List Merge) : (ms.flatMap fun m => [m.e1, m.e2]).length = 2 * ms.length := by
  induction ms with
  | nil => rfl
  | cons m l ih => rw [List.flatMap_cons, List.length_append, ih]; simp; omega

theorem new_area (h : Outcome s t isQ ms id) (p : Plan s isQ ms) {m : Merge} (hm : m ∈ ms) :
    t.fArea (ref isQ (id m)) = s.fArea (.quad m.q) + s.fArea m.nbr := by
  obtain ⟨v1, v3, tw⟩ := p.twins m hm
  have hc : (t.F (ref isQ (id m))).corners = corOf s isQ m := by rw [h.new m hm]
  rw [twin_cor p.wf tw] at hc
  rw [rot4_area tw.qc]
  cases isQ with
  | true =>
    simp only [if_true] at hc
    rw [rot4_area (tw.nc.1 rfl), rot4_area (Or.inl hc), h.posF]
    unfold quadArea Pt.cross
    simp only [Pt.sub_x, Pt.sub_y]
    ring
  | false =>
    simp only [Bool.false_eq_true, if_false] at hc
    rw [rot3_area (tw.nc.2 rfl), rot3_area (Or.inl hc), h.posF]
    unfold quadArea St.triArea Pt.cross
    simp only [Pt.sub_x, Pt.sub_y]
    ring

theorem area (h : Outcome s t isQ ms id) (p : Plan s isQ ms) : meshArea t = meshArea s := by
  rw [meshArea_facets, meshArea_facets, (h.facets_perm.map t.fArea).sum_eq,
    ← ((filter_split_perm (facets_nodup p.wf) p.nd (removed_live p)).map s.fArea).sum_eq, List.map_append, List.map_append, List.sum_append,
    List.sum_append]
  congr 1
  · congr 1
    refine List.map_congr_left fun f hf => ?_
    have hl := mem_facets.mp (List.mem_filter.mp hf).1
    unfold fArea
    rw [h.old f hl, h.posF]
  · rw [List.map_map]
    have key : ∀ l : List Merge, (∀ m ∈ l, m ∈ ms) → (l.map (t.fArea ∘ fun m => ref isQ (id m))).sum = ((removed l).map s.fArea).sum := by
      intro l
      induction l with
      | nil => intro _; rfl
      | cons m l ih =>
        intro hl
        have e : removed (m :: l) = [.quad m.q, m.nbr] ++ removed l := rfl
        rw [List.map_cons, List.sum_cons, ih fun x hx => hl x (List.mem_cons_of_mem _ hx), e, List.map_append, List.sum_append]
        simp only [Function.comp, h.new_area p (hl m (by simp)), List.map_cons, List.map_nil, List.sum_cons, List.sum_nil]
        ring
    exact key ms fun m hm => hm

theorem quad_count (h : Outcome s t false ms id) (p : Plan s false ms) :
    t.quads.length + ms.length = s.quads.length := by
  have hr : ∀ x, FRef.quad x ∈ removed ms ↔ x ∈ ms.map Merge.q := by
    intro x
    rw [Plan.mem_removed]
    simp only [List.mem_map]
    constructor
    · rintro ⟨m, hm, hf | hf⟩
      · exact ⟨m, hm, by simpa using hf.symm⟩
      · obtain ⟨v1, v3, tw⟩ := p.twins m hm
        obtain ⟨n, hn⟩ := tw.kind
        rw [hn] at hf; simp [ref] at hf
    · rintro ⟨m, hm, rfl⟩; exact ⟨m, hm, Or.inl rfl⟩
  rw [h.quads]
  simp only [Bool.false_eq_true, if_false, List.append_nil, hr]
  have := filter_out_length (r := ms.map Merge.q) p.wf.qnd (List.Nodup.map_on (fun m hm m' hm' heq =>
    p.once hm hm' (Or.inl rfl) (Or.inl (by rw [heq]))) p.msnd) (by
      intro x hx
      obtain ⟨m, hm, rfl⟩ := List.mem_map.mp hx
      exact p.liveR hm (Or.inl rfl))
  simpa using this

theorem merged (h : Outcome s t isQ ms id) (p : Plan s isQ ms) : DoublesMerged isQ s t (goneOf ms) where
  nodup := p.v2nd
  inner := by
    intro v hv
    constructor
    · obtain ⟨m, hm, rfl⟩ := List.mem_map.mp hv
      exact (p.wf.cor _ (p.liveR hm (Or.inl rfl))).2 _ (p.at_v2 hm).1
    · intro b hb
      exact ⟨fun hh => (p.bdry_stay hb).1 (hh ▸ hv), fun hh => (p.bdry_stay hb).2 (hh ▸ hv)⟩
  verts := h.verts
  vdata := fun v => ⟨h.pos v, (h.bits.V v).2⟩
  lists := h.lists
  edata := fun e => by rw [h.bits.E]; exact ⟨rfl, rfl, rfl, rfl⟩
  intr := by
    rw [h.intr]
    refine List.filter_congr fun e he => ?_
    rw [decide_eq_decide, p.mem_edges he, not_or]
  nEdges := by
    have hs : ∀ x ∈ (ms.flatMap fun m => [m.e1, m.e2]), x ∈ s.es .intr := by
      intro x hx
      obtain ⟨m, hm, hx⟩ := List.mem_flatMap.mp hx
      obtain ⟨-, -, -, a, b⟩ := p.ends_e hm
      simp only [List.mem_cons, List.not_mem_nil, or_false] at hx
      rcases hx with rfl | rfl
      · exact a
      · exact b
    have := filter_out_length (p.wf.ends .intr).1 p.edges_nodup hs
    rw [h.intr]
    rw [edges_length] at this
    simpa [goneOf] using this
  nTris := by
    have tot : (facets t).length + ms.length = (facets s).length := by
      rw [h.facets_perm.length_eq, List.length_append, List.length_map]
      have := filter_out_length (facets_nodup p.wf) p.nd (removed_live p)
      rw [removed_length] at this
      omega
    cases isQ with
    | true =>
      have : t.tris = s.tris := by
        rw [h.tris]
        simp only [if_true, List.append_nil]
        refine List.filter_eq_self.mpr fun x hx => decide_eq_true fun hin => ?_
        obtain ⟨m, hm, hf | hf⟩ := Plan.mem_removed.mp hin
        · cases hf
        · obtain ⟨v1, v3, tw⟩ := p.twins m hm
          obtain ⟨n, hn⟩ := tw.kind
          rw [hn] at hf; simp [ref] at hf
      rw [this]
    | false =>
      have hq := h.quad_count p
      unfold facets at tot
      simp only [List.length_append, List.length_map] at tot
      omega
  nQuads := by
    have tot : (facets t).length + ms.length = (facets s).length := by
      rw [h.facets_perm.length_eq, List.length_append, List.length_map]
      have := filter_out_length (facets_nodup p.wf) p.nd (removed_live p)
      rw [removed_length] at this
      omega
    have hg : (goneOf ms).length = ms.length := by simp [goneOf]
    rw [hg]
    cases isQ with
    | true =>
      have : t.tris = s.tris := by
        rw [h.tris]
        simp only [if_true, List.append_nil]
        refine List.filter_eq_self.mpr fun x hx => decide_eq_true fun hin => ?_
        obtain ⟨m, hm, hf | hf⟩ := Plan.mem_removed.mp hin
        · cases hf
        · obtain ⟨v1, v3, tw⟩ := p.twins m hm
          obtain ⟨n, hn⟩ := tw.kind
          rw [hn] at hf; simp [ref] at hf
      unfold facets at tot
      simp only [List.length_append, List.length_map, this] at tot
      omega
    | false => exact h.quad_count p
  area := h.area p
  kept := by
    intro f hf hv
    have hr : f ∉ removed ms := by
      rw [p.removed_iff hf]; rintro ⟨v, a, b⟩; exact hv v a b
    refine ⟨(h.live f).mpr (Or.inl ⟨hf, hr⟩), ?_⟩
    rw [h.old f hf]
    exact ⟨rfl, rfl, rfl⟩
  fresh := by
    intro f hf
    rcases (h.live f).mp hf with ⟨h1, h2⟩ | ⟨m, hm, rfl⟩
    · refine Or.inl ⟨h1, fun v hv hc => h2 ((p.removed_iff h1).mpr ⟨v, hv, hc⟩)⟩
    · obtain ⟨v1, v3, tw⟩ := p.twins m hm
      have hc : (t.F (ref isQ (id m))).corners = corOf s isQ m := by rw [h.new m hm]
      rw [twin_cor p.wf tw] at hc
      refine Or.inr ⟨m.v2, List.mem_map_of_mem hm, v3, m.o1, v1, m.q, tw.q, tw.qc, by rw [h.new m hm], by rw [h.new m hm], ?_⟩
      obtain ⟨n, hn⟩ := tw.kind
      cases isQ with
      | true =>
        have hl := tw.live
        have hne := tw.ne
        have hr := tw.nc.1 rfl
        simp only [ref, if_true] at hn
        rw [hn] at hl hne hr
        exact Or.inl ⟨rfl, m.o2, n, hl, fun hh => hne (by rw [hh]), hr, hc⟩
      | false =>
        have hl := tw.live
        have hr := tw.nc.2 rfl
        simp only [ref, Bool.false_eq_true, if_false] at hn
        rw [hn] at hl hr
        exact Or.inr ⟨rfl, n, hl, hr, hc⟩
  sides := h.covered p

end Outcome
end TQ.Whole

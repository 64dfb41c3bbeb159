import Verif.Refinement.Facets

/-! # The result of a refinement -/

set_option linter.unusedSectionVars false
set_option linter.unusedSimpArgs false

namespace TQ.MS.St
open TQ.MeshSpec TQ.MCSpec TQ.RefSpec
variable {K : Type*} [Field K] [LinearOrder K]

/-- What the removals keep. -/
structure Kept (s t : St K) : Prop where
  wf : WF t
  verts : t.verts = s.verts
  E : t.E = s.E
  F : t.F = s.F
  V : ∀ v, t.pos v = s.pos v ∧ (t.V v).props = (s.V v).props
  area : t.area = s.area
  color : t.color = s.color

theorem Kept.trans {s t u : St K} (h1 : Kept s t) (h2 : Kept t u) : Kept s u where
  wf := h2.wf
  verts := h2.verts.trans h1.verts
  E := h2.E.trans h1.E
  F := h2.F.trans h1.F
  V := fun v => ⟨(h2.V v).1.trans (h1.V v).1, (h2.V v).2.trans (h1.V v).2⟩
  area := h2.area.trans h1.area
  color := h2.color.trans h1.color

theorem filter_filter_cons (l : List Nat) (e : Nat) (es : List Nat) :
    (l.filter (· ≠ e)).filter (· ∉ es) = l.filter (· ∉ e :: es) := by
  rw [List.filter_filter]
  apply List.filter_congr
  intro x _
  simp only [List.mem_cons, not_or, ne_eq, decide_not, Bool.decide_and, Bool.decide_or, Bool.not_or]
  cases decide (x = e) <;> cases decide (x ∈ es) <;> rfl

theorem removeEdges_spec (l : EL) (rem : St K → Nat → St K) (hrem : ∀ s e, (s.E e).list = l → rem s e = s.removeEdge e) :
    ∀ (es : List Nat) (s : St K), WF s → (∀ e ∈ es, e ∈ s.es l) → es.Nodup →
    let t := es.foldl rem s
    Kept s t ∧ t.tris = s.tris ∧ t.quads = s.quads ∧ t.es l = (s.es l).filter (· ∉ es) ∧ ∀ k, k ≠ l → t.es k = s.es k := by
  intro es
  induction es with
  | nil => intro s h _ _; exact ⟨⟨h, rfl, rfl, rfl, fun _ => ⟨rfl, rfl⟩, rfl, rfl⟩, rfl, rfl, by simp, fun _ _ => rfl⟩
  | cons e es ih =>
    intro s h hes hn t
    rw [List.nodup_cons] at hn
    have he := hes e (List.mem_cons_self ..)
    have hel := ((h.ends l).2 e he).1
    have hr := hrem s e hel
    have hw : WF (s.removeEdge e) := wf_removeEdge h e (by unfold LiveE; rw [hel]; exact he)
    have hk : Kept s (s.removeEdge e) := by
      refine ⟨hw, rfl, rfl, rfl, fun v => ?_, rfl, rfl⟩
      unfold pos
      rw [removeEdge_V]; split_ifs <;> exact ⟨rfl, rfl⟩
    have hes' : ∀ k, (s.removeEdge e).es k = if k = l then (s.es l).filter (· ≠ e) else s.es k := by
      intro k
      by_cases hkl : k = l
      · subst hkl; simp [removeEdge, upd, hel]
      · simp [removeEdge, upd, hel, hkl]
    have hmem : ∀ x ∈ es, x ∈ (s.removeEdge e).es l := by
      intro x hx
      rw [hes', if_pos rfl, List.mem_filter]
      exact ⟨hes x (List.mem_cons_of_mem _ hx), by simpa using fun hh : x = e => hn.1 (hh ▸ hx)⟩
    obtain ⟨g1, g2, g3, g4, g5⟩ := ih (s.removeEdge e) hw hmem hn.2
    have ht : t = es.foldl rem (s.removeEdge e) := by
      change es.foldl rem (rem s e) = _
      rw [hr]
    rw [← ht] at g1 g2 g3 g4 g5
    refine ⟨hk.trans g1, g2, g3, ?_, ?_⟩
    · rw [g4, hes', if_pos rfl, filter_filter_cons]
    · intro k hkl
      rw [g5 k hkl, hes', if_neg hkl]

theorem removeTris_spec : ∀ (ts : List Nat) (s : St K), WF s →
    let t := ts.foldl (fun t x => t.removeTri x) s
    Kept s t ∧ t.es = s.es ∧ t.quads = s.quads ∧ t.tris = s.tris.filter (· ∉ ts) := by
  intro ts
  induction ts with
  | nil => intro s h; exact ⟨⟨h, rfl, rfl, rfl, fun _ => ⟨rfl, rfl⟩, rfl, rfl⟩, rfl, rfl, by simp⟩
  | cons x ts ih =>
    intro s h t
    have hk : Kept s (s.removeTri x) := by
      refine ⟨wf_removeTri h x, rfl, rfl, rfl, fun v => ?_, rfl, rfl⟩
      change (unregFacet s.V _ _ v).xy = _ ∧ (unregFacet s.V _ _ v).props = _
      rw [unregFacet_apply]; split_ifs <;> exact ⟨rfl, rfl⟩
    obtain ⟨g1, g2, g3, g4⟩ := ih (s.removeTri x) hk.wf
    refine ⟨hk.trans g1, g2, g3, ?_⟩
    change (ts.foldl (fun t x => t.removeTri x) (s.removeTri x)).tris = _
    rw [g4, ← filter_filter_cons]; rfl

theorem removeQuads_spec : ∀ (ts : List Nat) (s : St K), WF s →
    let t := ts.foldl (fun t x => t.removeQuad x) s
    Kept s t ∧ t.es = s.es ∧ t.tris = s.tris ∧ t.quads = s.quads.filter (· ∉ ts) := by
  intro ts
  induction ts with
  | nil => intro s h; exact ⟨⟨h, rfl, rfl, rfl, fun _ => ⟨rfl, rfl⟩, rfl, rfl⟩, rfl, rfl, by simp⟩
  | cons x ts ih =>
    intro s h t
    have hk : Kept s (s.removeQuad x) := by
      refine ⟨wf_removeQuad h x, rfl, rfl, rfl, fun v => ?_, rfl, rfl⟩
      change (unregFacet s.V _ _ v).xy = _ ∧ (unregFacet s.V _ _ v).props = _
      rw [unregFacet_apply]; split_ifs <;> exact ⟨rfl, rfl⟩
    obtain ⟨g1, g2, g3, g4⟩ := ih (s.removeQuad x) hk.wf
    refine ⟨hk.trans g1, g2, g3, ?_⟩
    change (ts.foldl (fun t x => t.removeQuad x) (s.removeQuad x)).quads = _
    rw [g4, ← filter_filter_cons]; rfl

theorem filter_old {old new : List Nat} {n : Nat} (h1 : ∀ x ∈ old, x < n) (h2 : ∀ x ∈ new, n ≤ x) :
    (old ++ new).filter (· ∉ old) = new := by
  rw [List.filter_append]
  have a : old.filter (· ∉ old) = [] := by
    rw [List.filter_eq_nil_iff]; intro x hx; simpa using hx
  have b : new.filter (· ∉ old) = new := by
    rw [List.filter_eq_self]
    intro x hx
    have := h2 x hx
    simpa using fun hh => by have := h1 x hh; omega
  rw [a, b]; rfl

theorem filter_all (l : List Nat) : l.filter (· ∉ l) = [] := by
  rw [List.filter_eq_nil_iff]; intro x hx; simpa using hx

variable [IsStrictOrderedRing K]

/-- The refinement of a mesh whose element sides lie on edges. -/
theorem refine_spec {s : St K} (h : WF s) (hs : ∀ a b, Covered s a b → ∃ e, (e ∈ s.es .intr ∨ e ∈ s.es .bdry) ∧ Connects s e a b)
    (ht : ∀ e ∈ s.es .bdry, (s.E e).twin = none) :
    ∃ t N, s.refine = some (t, true) ∧ Refined s t N ∧ WF t ∧
      (∀ f, Live s f → ∀ e, (e ∈ s.es .intr ∨ e ∈ s.es .bdry) → N.ctr f ≠ N.mid e) ∧
      (∀ e, (e ∈ s.es .intr ∨ e ∈ s.es .bdry) → s.nxt ≤ N.mid e) ∧ (∀ f, Live s f → s.nxt ≤ N.ctr f) := by
  have hdis : ∀ e ∈ s.es .bdry, e ∉ s.es .intr := by
    intro e he he'
    have a := ((h.ends _).2 e he).1
    have b := ((h.ends _).2 e he').1
    rw [a] at b; exact absurd b (by decide)
  obtain ⟨m1, i1⟩ := rinv_intr_loop h (s.es .intr) [] _ (fun _ => 0) (rinv_start h _ (fun _ => 0)) (fun _ hx => hx)
    (by simpa using (h.ends .intr).1)
  rw [List.nil_append] at i1
  obtain ⟨m, i2⟩ := rinv_bdry_loop h (s.es .bdry) [] _ m1 i1 (fun _ hx => hx) hdis (by simpa using (h.ends .bdry).1)
  rw [List.nil_append] at i2
  obtain ⟨r3, z3, e3, i3⟩ := rinv_tri_loop h hs s.tris [] _ _ i2 (by simp) (fun _ hx => hx)
    (by simpa using List.Nodup.map (fun a b hh => by simpa using hh) h.tnd)
  rw [List.nil_append] at i3
  obtain ⟨r, z, e4, i⟩ := rinv_quad_loop h hs s.quads _ _ _ i3 (by simp [Live]) (fun _ hx => hx)
    (by
      rw [List.nodup_append]
      refine ⟨List.Nodup.map (fun a b hh => by simpa using hh) h.tnd, List.Nodup.map (fun a b hh => by simpa using hh) h.qnd, ?_⟩
      intro a ha b hb
      obtain ⟨_, _, rfl⟩ := List.mem_map.mp ha
      obtain ⟨_, _, rfl⟩ := List.mem_map.mp hb
      simp)
  change RInv s (s.es .intr) (s.es .bdry) (facets s) r m z at i
  have helt : ∀ l, ∀ e ∈ s.es l, e < s.nxt := fun l e he => ((h.ends l).2 e he).2.2.2.2
  have hlv : ∀ f, Live s f → f ∈ facets s := fun f hf => mem_facets.mpr hf
  -- removal
  have k1 := removeEdges_spec .intr (fun (t : St K) e => t.removeIntr e)
    (fun t e he => by unfold removeIntr; rw [if_neg (by simp [he])]) (s.es .intr) r.1 i.wf
    (fun e he => by rw [i.intr]; simp [he]) (h.ends .intr).1
  obtain ⟨u1, hu1⟩ : ∃ u, u = (s.es .intr).foldl (fun (t : St K) e => t.removeIntr e) r.1 := ⟨_, rfl⟩
  rw [← hu1] at k1
  obtain ⟨k11, k12, k13, k14, k15⟩ := k1
  have k2 := removeEdges_spec .bdry (fun (t : St K) e => t.removeBdry e)
    (fun t e he => by unfold removeBdry; rw [if_neg (by simp [he])]) (s.es .bdry) u1 k11.wf
    (fun e he => by rw [k15 .bdry (by decide), i.bdry]; simp [he]) (h.ends .bdry).1
  obtain ⟨u2, hu2⟩ : ∃ u, u = (s.es .bdry).foldl (fun (t : St K) e => t.removeBdry e) u1 := ⟨_, rfl⟩
  rw [← hu2] at k2
  obtain ⟨k21, k22, k23, k24, k25⟩ := k2
  have k3 := removeTris_spec s.tris u2 k21.wf
  obtain ⟨u3, hu3⟩ : ∃ u, u = s.tris.foldl (fun (t : St K) e => t.removeTri e) u2 := ⟨_, rfl⟩
  rw [← hu3] at k3
  obtain ⟨k31, k32, k33, k34⟩ := k3
  have k4 := removeQuads_spec s.quads u3 k31.wf
  obtain ⟨u4, hu4⟩ : ∃ u, u = s.quads.foldl (fun (t : St K) e => t.removeQuad e) u3 := ⟨_, rfl⟩
  rw [← hu4] at k4
  obtain ⟨k41, k42, k43, k44⟩ := k4
  have hfin : r.1.removeOld (s.es .intr) (s.es .bdry) s.tris s.quads = u4 := by rw [hu4, hu3, hu2, hu1]; rfl
  have K := ((k11.trans k21).trans k31).trans k41
  refine ⟨u4, ⟨m, z, fun e => (m e + 1, m e + 2), fun f j => z f + 1 + j, fun f j => z f + 1 + s.nc f + j, s.eo⟩, ?_, ?_, K.wf, ?_, ?_, ?_⟩
  · unfold refine
    rw [if_neg]
    · simp only [e3, e4, hfin]
    · rw [List.any_eq_true]
      rintro ⟨e, he, hh⟩
      rw [ht e he] at hh; simp at hh
  · refine { verts := K.verts.trans i.verts, old := ?_, midPos := ?_, ctrPos := ?_, midIntr := ?_, midBdry := ?_, ctrProps := ?_,
             intr := ?_, bdry := ?_, front := ?_, halves := ?_, markers := ?_, spokes := ?_, edge := ?_, tris := ?_, quads := ?_,
             subs := ?_, area := K.area.trans i.area, color := K.color.trans i.color }
    · intro v hv
      exact ⟨(K.V v).1.trans (i.V v hv).1, (K.V v).2.trans (i.V v hv).2.1⟩
    · intro l hl e he
      have he' : e ∈ s.es .intr ++ s.es .bdry := by
        cases l
        · exact List.mem_append_left _ he
        · exact List.mem_append_right _ he
        · exact absurd rfl hl
      rw [(K.V _).1, i.midPos e he']
      unfold edgeMid
      constructor
      · change 2 * (1 / 2 * _) = _
        rw [← mul_assoc]; norm_num
      · change 2 * (1 / 2 * _) = _
        rw [← mul_assoc]; norm_num
    · intro f hf
      rw [(K.V _).1, i.ctrPos f (hlv f hf)]
      unfold fCentroid
      rcases live_corners h hf with ⟨a, b, c, hc⟩ | ⟨a, b, c, d, hc⟩
      · rw [hc]
        simp only [List.length_cons, List.length_nil, List.map_cons, List.map_nil, List.sum_cons, List.sum_nil, triCentroid]
        constructor
        · change _ * (1 / 3 * _) = _
          rw [← mul_assoc]; norm_num; change _ + _ + _ = _; ring
        · change _ * (1 / 3 * _) = _
          rw [← mul_assoc]; norm_num; change _ + _ + _ = _; ring
      · rw [hc]
        simp only [List.length_cons, List.length_nil, List.map_cons, List.map_nil, List.sum_cons, List.sum_nil, quadCentroid]
        constructor
        · change _ * (1 / 4 * _) = _
          rw [← mul_assoc]; norm_num; change _ + _ + _ + _ = _; ring
        · change _ * (1 / 4 * _) = _
          rw [← mul_assoc]; norm_num; change _ + _ + _ + _ = _; ring
    · intro e he; rw [(K.V _).2]; exact i.midI e he
    · intro e he; rw [(K.V _).2]; exact i.midB e he
    · intro f hf; rw [(K.V _).2]; exact i.ctrProps f (hlv f hf)
    · rw [k42, k32, k25 .intr (by decide), k14, i.intr, List.append_assoc]
      apply filter_old (n := s.nxt) (helt _)
      intro x hx
      rcases List.mem_append.mp hx with hx | hx
      · obtain ⟨e, he, hxe⟩ := List.mem_flatMap.mp hx
        have := (i.fresh e (List.mem_append_left _ he)).1
        simp only [List.mem_cons, List.not_mem_nil, or_false] at hxe
        omega
      · obtain ⟨f, hf, hxf⟩ := List.mem_flatMap.mp hx
        obtain ⟨j, _, rfl⟩ := List.mem_map.mp hxf
        have := (i.freshz f hf).1
        omega
    · rw [k42, k32, k24, k15 .bdry (by decide), i.bdry]
      apply filter_old (n := s.nxt) (helt _)
      intro x hx
      obtain ⟨e, he, hxe⟩ := List.mem_flatMap.mp hx
      have := (i.fresh e (List.mem_append_right _ he)).1
      simp only [List.mem_cons, List.not_mem_nil, or_false] at hxe
      omega
    · rw [k42, k32, k25 .front (by decide), k15 .front (by decide)]; exact i.front
    · intro l hl e he
      simp only [K.E]
      cases l with
      | intr => obtain ⟨h1, h2⟩ := i.halvesI e he; rw [h1, h2]; exact ⟨⟨rfl, rfl⟩, rfl, rfl⟩
      | bdry => obtain ⟨h1, h2⟩ := i.halvesB e he; rw [h1, h2]; exact ⟨⟨rfl, rfl⟩, rfl, rfl⟩
      | front => exact absurd rfl hl
    · intro e he x hx
      obtain ⟨h1, h2⟩ := i.halvesB e he
      simp only [List.mem_cons, List.not_mem_nil, or_false] at hx
      rw [K.E]
      rcases hx with rfl | rfl
      · rw [h1]; exact ⟨rfl, rfl, rfl⟩
      · rw [h2]; exact ⟨rfl, rfl, rfl⟩
    · intro f hf j p hp
      simp [K.E, i.spokes f (hlv f hf) j p hp]
    · intro a b hc
      exact ⟨(eo_spec h hs hc).2.1, (eo_spec h hs hc).2.2.1⟩
    · rw [k43, k34, k22, k12, i.tris, filter_all]
    · rw [k44, k33, k23, k13, i.quads]
      apply filter_old (n := s.nxt) h.qlt
      intro x hx
      obtain ⟨f, hf, hxf⟩ := List.mem_flatMap.mp hx
      obtain ⟨j, _, rfl⟩ := List.mem_map.mp hxf
      have := (i.freshz f hf).1
      omega
    · intro f hf j p hp
      simp [K.F, i.subs f (hlv f hf) j p hp]
  · intro f hf e he hh
    have hnd := K.wf.vnd
    rw [K.verts, i.verts, List.append_assoc s.verts, ← List.map_append, List.nodup_append] at hnd
    refine hnd.2.2 (m e) ?_ (z f) (List.mem_map_of_mem (hlv f hf)) hh.symm
    exact List.mem_append_right _ (List.mem_map_of_mem (List.mem_append.mpr he))
  · intro e he; exact (i.fresh e (List.mem_append.mpr he)).1
  · intro f hf; exact (i.freshz f (hlv f hf)).1

end TQ.MS.St

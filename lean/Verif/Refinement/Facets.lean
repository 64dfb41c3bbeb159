import Verif.Refinement.Loop

/-! # The loops over the elements and the removal of the old entities -/

set_option linter.unusedSectionVars false
set_option linter.unusedSimpArgs false

namespace TQ.MS.St
open TQ.MeshSpec TQ.MCSpec TQ.RefSpec
variable {K : Type*} [Field K] [LinearOrder K]

/-- New edges have a new end. -/
theorem rinv_new {s : St K} {di db : List Nat} {df : List FRef} {r : RS K} {m : Nat → Nat} {z : FRef → Nat}
    (hi : RInv s di db df r m z) (hdf : ∀ f ∈ df, (around (s.F f).corners).length = s.nc f) (l : EL) (x : Nat) (hx : x ∈ r.1.es l) :
    x ∈ s.es l ∨ (s.nxt ≤ x ∧ (s.nxt ≤ (r.1.E x).v1 ∨ s.nxt ≤ (r.1.E x).v2)) := by
  cases l with
  | front => rw [hi.front] at hx; exact Or.inl hx
  | bdry =>
    rw [hi.bdry] at hx
    rcases List.mem_append.mp hx with hx | hx
    · exact Or.inl hx
    · obtain ⟨e, he, hxe⟩ := List.mem_flatMap.mp hx
      have hf := (hi.fresh e (List.mem_append_right _ he)).1
      obtain ⟨h1, h2⟩ := hi.halvesB e he
      simp only [List.mem_cons, List.not_mem_nil, or_false] at hxe
      rcases hxe with rfl | rfl
      · rw [h1]; exact Or.inr ⟨by omega, Or.inr hf⟩
      · rw [h2]; exact Or.inr ⟨by omega, Or.inl hf⟩
  | intr =>
    rw [hi.intr] at hx
    rcases List.mem_append.mp hx with hx | hx
    · rcases List.mem_append.mp hx with hx | hx
      · exact Or.inl hx
      · obtain ⟨e, he, hxe⟩ := List.mem_flatMap.mp hx
        have hf := (hi.fresh e (List.mem_append_left _ he)).1
        obtain ⟨h1, h2⟩ := hi.halvesI e he
        simp only [List.mem_cons, List.not_mem_nil, or_false] at hxe
        rcases hxe with rfl | rfl
        · rw [h1]; exact Or.inr ⟨by omega, Or.inr hf⟩
        · rw [h2]; exact Or.inr ⟨by omega, Or.inl hf⟩
    · obtain ⟨f, hf, hxf⟩ := List.mem_flatMap.mp hx
      obtain ⟨i, hir, rfl⟩ := List.mem_map.mp hxf
      rw [List.mem_range, ← hdf f hf] at hir
      have := hi.spokes f hf i _ (List.getElem?_eq_getElem hir)
      have hz := (hi.freshz f hf).1
      rw [this]
      exact Or.inr ⟨by omega, Or.inr hz⟩

theorem find?_congr' {α : Type*} {p q : α → Bool} : ∀ {l : List α}, (∀ x ∈ l, p x = q x) → l.find? p = l.find? q := by
  intro l
  induction l with
  | nil => intro _; rfl
  | cons x l ih =>
    intro h
    rw [List.find?_cons, List.find?_cons, h x (List.mem_cons_self ..), ih fun y hy => h y (List.mem_cons_of_mem _ hy)]

/-- Lookups of coarse edges are not changed by the refinement. -/
theorem rinv_getEdge {s : St K} (h : WF s) {di db : List Nat} {df : List FRef} {r : RS K} {m : Nat → Nat} {z : FRef → Nat}
    (hi : RInv s di db df r m z) (hdf : ∀ f ∈ df, (around (s.F f).corners).length = s.nc f) (l : EL) {a b : Nat}
    (ha : a ∈ s.verts) (hb : b ∈ s.verts) : r.1.getEdge l a b = s.getEdge l a b := by
  obtain ⟨_, _, new, h3, h4⟩ := hi.V a ha
  unfold getEdge
  have har : a ∈ r.1.verts := by rw [hi.verts]; simp [ha]
  rw [h3, List.find?_append]
  have hnone : new.find? (fun e => decide ((r.1.E e).list = l) &&
      decide (((r.1.E e).v1 = a ∧ (r.1.E e).v2 = b) ∨ ((r.1.E e).v2 = a ∧ (r.1.E e).v1 = b))) = none := by
    rw [List.find?_eq_none]
    intro y hy hh
    simp only [Bool.and_eq_true, decide_eq_true_eq] at hh
    have hl := (((hi.wf.edges a har).2 y).mp (by rw [h3]; exact List.mem_append_right _ hy)).1
    have hyn := h4 y hy
    have hva := h.vlt a ha
    have hvb := h.vlt b hb
    rcases rinv_new hi hdf _ y hl with hold | ⟨_, hnew⟩
    · have := ((h.ends _).2 y hold).2.2.2.2; omega
    · rcases hh.2 with ⟨e1, e2⟩ | ⟨e1, e2⟩ <;> rw [e1, e2] at hnew <;> omega
  rw [hnone, Option.or_none]
  apply find?_congr'
  intro e he
  have := ((h.edges a ha).2 e).mp he
  have hlt := ((h.ends _).2 e this.1).2.2.2.2
  rw [hi.E e hlt]

theorem around_le (cs : List Nat) : (around cs).length ≤ cs.length := by
  unfold around; split <;> simp

/-- `around` gives sides. -/
theorem around_sides {cs : List Nat} {p : Nat × Nat × Nat} (hp : p ∈ around cs) :
    (∃ i < cs.length, sideAt cs i = some (p.1, p.2.1)) ∧ (∃ i < cs.length, sideAt cs i = some (p.2.1, p.2.2)) ∧
    p.2.1 ∈ cs ∧ (cs.Nodup → p.1 ≠ p.2.2) := by
  unfold around at hp
  split at hp
  · next a b c =>
    simp only [List.mem_cons, List.not_mem_nil, or_false] at hp
    rcases hp with rfl | rfl | rfl
    · exact ⟨⟨1, by simp, by simp [sideAt]⟩, ⟨2, by simp, by simp [sideAt]⟩, by simp, fun hn => by simp at hn; simp; tauto⟩
    · exact ⟨⟨2, by simp, by simp [sideAt]⟩, ⟨0, by simp, by simp [sideAt]⟩, by simp, fun hn => by simp at hn; simp; tauto⟩
    · exact ⟨⟨0, by simp, by simp [sideAt]⟩, ⟨1, by simp, by simp [sideAt]⟩, by simp, fun hn => by simp at hn; simp; tauto⟩
  · next a b c d =>
    simp only [List.mem_cons, List.not_mem_nil, or_false] at hp
    rcases hp with rfl | rfl | rfl | rfl
    · exact ⟨⟨2, by simp, by simp [sideAt]⟩, ⟨3, by simp, by simp [sideAt]⟩, by simp, fun hn => by simp at hn; simp; tauto⟩
    · exact ⟨⟨3, by simp, by simp [sideAt]⟩, ⟨0, by simp, by simp [sideAt]⟩, by simp, fun hn => by simp at hn; simp; tauto⟩
    · exact ⟨⟨0, by simp, by simp [sideAt]⟩, ⟨1, by simp, by simp [sideAt]⟩, by simp, fun hn => by simp at hn; simp; tauto⟩
    · exact ⟨⟨1, by simp, by simp [sideAt]⟩, ⟨2, by simp, by simp [sideAt]⟩, by simp, fun hn => by simp at hn; simp; tauto⟩
  · simp at hp

theorem live_corners {s : St K} (h : WF s) {f : FRef} (hf : Live s f) :
    (∃ a b c, (s.F f).corners = [a, b, c]) ∨ ∃ a b c d, (s.F f).corners = [a, b, c, d] := by
  cases f with
  | null => exact absurd hf (by simp [Live])
  | tri t => exact Or.inl (List.length_eq_three.mp (h.tcor t hf))
  | quad q =>
    right
    have := h.qcor q hf
    match hc : (s.F (.quad q)).corners with
    | [a, b, c, d] => exact ⟨a, b, c, d, rfl⟩
    | [] => simp [hc] at this
    | [_] => simp [hc] at this
    | [_, _] => simp [hc] at this
    | [_, _, _] => simp [hc] at this
    | _ :: _ :: _ :: _ :: _ :: _ => simp [hc] at this

theorem around_length {s : St K} (h : WF s) {f : FRef} (hf : Live s f) : (around (s.F f).corners).length = s.nc f := by
  unfold nc
  rcases live_corners h hf with ⟨a, b, c, hc⟩ | ⟨a, b, c, d, hc⟩ <;> rw [hc] <;> rfl

/-- `eo` finds an edge at every side. -/
theorem eo_spec {s : St K} (h : WF s) (hs : ∀ a b, Covered s a b → ∃ e, (e ∈ s.es .intr ∨ e ∈ s.es .bdry) ∧ Connects s e a b)
    {a b : Nat} (hc : Covered s a b) :
    s.meshEdge a b = some (s.eo a b) ∧ (s.eo a b ∈ s.es .intr ∨ s.eo a b ∈ s.es .bdry) ∧ Connects s (s.eo a b) a b ∧
    a ∈ s.verts ∧ b ∈ s.verts := by
  obtain ⟨e, hel, hec⟩ := hs a b hc
  have hlive : ∃ l, e ∈ s.es l := by rcases hel with hh | hh <;> exact ⟨_, hh⟩
  obtain ⟨l, hl⟩ := hlive
  have hends := (h.ends l).2 e hl
  have hab : a ∈ s.verts ∧ b ∈ s.verts := by
    rcases hec with ⟨h1, h2⟩ | ⟨h1, h2⟩
    · exact ⟨h1 ▸ hends.2.1, h2 ▸ hends.2.2.1⟩
    · exact ⟨h2 ▸ hends.2.2.1, h1 ▸ hends.2.1⟩
  have hco : ((s.E e).v1 = a ∧ (s.E e).v2 = b) ∨ ((s.E e).v2 = a ∧ (s.E e).v1 = b) := by
    rcases hec with hh | hh
    · exact Or.inl hh
    · exact Or.inr ⟨hh.2, hh.1⟩
  unfold eo meshEdge
  cases h1 : s.getEdge .intr a b with
  | some e' =>
    obtain ⟨g1, g2⟩ := getEdge_some h hab.1 h1
    refine ⟨rfl, Or.inl g1, ?_, hab⟩
    rcases g2 with g2 | g2
    · exact Or.inl g2
    · exact Or.inr ⟨g2.2, g2.1⟩
  | none =>
    have n1 := getEdge_none h hab.1 h1
    cases h2 : s.getEdge .bdry a b with
    | some e' =>
      obtain ⟨g1, g2⟩ := getEdge_some h hab.1 h2
      refine ⟨rfl, Or.inr g1, ?_, hab⟩
      rcases g2 with g2 | g2
      · exact Or.inl g2
      · exact Or.inr ⟨g2.2, g2.1⟩
    | none =>
      have n2 := getEdge_none h hab.1 h2
      rcases hel with hh | hh
      · exact absurd hco (n1 e hh)
      · exact absurd hco (n2 e hh)

/-- Edges have different midpoints. -/
theorem rinv_inj {s : St K} {di db : List Nat} {df : List FRef} {r : RS K} {m : Nat → Nat} {z : FRef → Nat}
    (hi : RInv s di db df r m z) {e e' : Nat} (he : e ∈ di ++ db) (he' : e' ∈ di ++ db) (hm : m e = m e') : e = e' := by
  have hnd := hi.wf.vnd
  rw [hi.verts, List.append_assoc s.verts, ← List.map_append, List.nodup_append, List.nodup_append] at hnd
  exact List.inj_on_of_nodup_map hnd.1.2.1 he he' hm

/-- The data of the sub quads. -/
def subQuads (s : St K) (m : Nat → Nat) (z : Nat) (f : FRef) : List (Nat × Nat × Nat × Nat) :=
  (around (s.F f).corners).map fun p => (p.2.1, m (s.eo p.2.1 p.2.2), z, m (s.eo p.1 p.2.1))

/-- The ends of the new edges. -/
def subMids (s : St K) (m : Nat → Nat) (f : FRef) : List Nat := (around (s.F f).corners).map fun p => m (s.eo p.2.1 p.2.2)

theorem rinv_facet {s : St K} (h : WF s) (hs : ∀ a b, Covered s a b → ∃ e, (e ∈ s.es .intr ∨ e ∈ s.es .bdry) ∧ Connects s e a b)
    {df : List FRef} {r : RS K} {m : Nat → Nat} {z : FRef → Nat}
    (hi : RInv s (s.es .intr) (s.es .bdry) df r m z) (f : FRef) (hf : Live s f) (hn : f ∉ df) :
    RInv s (s.es .intr) (s.es .bdry) (df ++ [f])
      (r.1.splitFacet (s.fCentroid f) (s.F f).corners (s.F f).color (s.subQuads m r.1.nxt f) (s.subMids m f), r.2)
      m (upd z f fun _ => r.1.nxt) := by
  have hlen := around_length h hf
  have hvm : ∀ v ∈ s.verts, v ∈ r.1.verts := fun v hv => by rw [hi.verts]; simp [hv]
  have hmem : ∀ a b, Covered s a b → s.eo a b ∈ s.es .intr ++ s.es .bdry := fun a b hc =>
    List.mem_append.mpr (eo_spec h hs hc).2.1
  have hmv : ∀ e ∈ s.es .intr ++ s.es .bdry, m e ∈ r.1.verts := by
    intro e he
    rw [hi.verts, List.append_assoc s.verts, ← List.map_append]
    exact List.mem_append_left _ (List.mem_append_right _ (List.mem_map_of_mem he))
  have hcor := h.cor f hf
  have hcov : ∀ p ∈ around (s.F f).corners, Covered s p.1 p.2.1 ∧ Covered s p.2.1 p.2.2 ∧ p.2.1 ∈ s.verts ∧ p.1 ≠ p.2.2 := by
    intro p hp
    obtain ⟨a1, a2, a3, a4⟩ := around_sides hp
    exact ⟨⟨f, hf, a1⟩, ⟨f, hf, a2⟩, hcor.2 _ a3, a4 hcor.1⟩
  have spec := splitFacet_spec hi.wf (s.fCentroid f) (s.F f).corners (s.F f).color (s.subQuads m r.1.nxt f) (s.subMids m f)
    (fun v hv => hvm v (hcor.2 v hv)) (by simp [subQuads, subMids])
    (by
      intro q hq
      obtain ⟨p, hp, rfl⟩ := List.mem_map.mp hq
      obtain ⟨c1, c2, c3, c4⟩ := hcov p hp
      have m1 := hmem _ _ c1
      have m2 := hmem _ _ c2
      refine ⟨hvm _ c3, hmv _ m2, rfl, hmv _ m1, ?_⟩
      have hb := h.vlt _ c3
      have f1 := hi.fresh _ m1
      have f2 := hi.fresh _ m2
      have hne : m (s.eo p.2.1 p.2.2) ≠ m (s.eo p.1 p.2.1) := by
        intro hh
        have he := rinv_inj hi m2 m1 hh
        have k1 := (eo_spec h hs c1).2.2.1
        have k2 := (eo_spec h hs c2).2.2.1
        rw [he] at k2
        clear * - k1 k2 c4
        unfold Connects at k1 k2
        omega
      have hbn := hi.nxt
      simp only [List.nodup_cons, List.mem_cons, List.not_mem_nil, or_false, not_or, not_false_eq_true, List.nodup_nil, and_true]
      clear * - hb f1 f2 hne hbn
      omega)
    (by
      intro x hx
      obtain ⟨p, hp, rfl⟩ := List.mem_map.mp hx
      exact hmv _ (hmem _ _ (hcov p hp).2.1))
  have hn' : (s.subMids m f).length = s.nc f := by simp [subMids, hlen]
  rw [hn'] at spec
  obtain ⟨g1, g2, g3, g4, g5, g6, g7, g8, g9, g10, g11, g12, g13, g14, g15, g16⟩ := spec
  generalize r.1.splitFacet (s.fCentroid f) (s.F f).corners (s.F f).color (s.subQuads m r.1.nxt f) (s.subMids m f) = t at *
  have hne : ∀ x ∈ df, x ≠ f := fun x hx hh => hn (hh ▸ hx)
  have hze : (upd z f fun _ => r.1.nxt) f = r.1.nxt := by simp [upd]
  have hzx : ∀ x ∈ df, (upd z f fun _ => r.1.nxt) x = z x := fun x hx => by simp [upd, hne x hx]
  have hmne : ∀ x ∈ s.es .intr ++ s.es .bdry, m x ≠ r.1.nxt := fun x hx => by have := (hi.fresh x hx).2; omega
  have hsn := hi.nxt
  refine { wf := g1, nxt := by show s.nxt ≤ t.nxt; omega, verts := ?_, sub := hi.sub, fresh := ?_, freshz := ?_, intr := ?_, bdry := ?_, front := ?_,
           E := ?_, halvesI := ?_, halvesB := ?_, spokes := ?_, tris := g4.trans hi.tris, quads := ?_, F := ?_, subs := ?_,
           V := ?_, midPos := ?_, ctrPos := ?_, midI := ?_, midB := ?_, ctrProps := ?_, area := g8.trans hi.area,
           color := g9.trans hi.color }
  · show t.verts = _
    rw [g2, hi.verts]
    simp [map_upd _ _ _ hn, hze]
  · intro e he
    show _ ∧ _ < t.nxt
    have := hi.fresh e he; omega
  · intro x hx
    show _ ∧ _ < t.nxt
    rcases List.mem_append.mp hx with hx | hx
    · rw [hzx x hx]; have := hi.freshz x hx; omega
    · rw [List.mem_singleton.mp hx, hze]; omega
  · show t.es .intr = _
    rw [g6, hi.intr]
    simp only [List.flatMap_append, List.flatMap_cons, List.flatMap_nil, List.append_nil, hze]
    rw [flatMap_upd z f r.1.nxt (fun x y => (List.range (s.nc x)).map (y + 1 + s.nc x + ·)) hn]
    simp
  · show t.es .bdry = _
    rw [g7 .bdry (by decide)]; exact hi.bdry
  · show t.es .front = _
    rw [g7 .front (by decide)]; exact hi.front
  · intro x hx
    show t.E x = _
    rw [g10 x (by omega)]; exact hi.E x hx
  · intro e he
    show t.E _ = _ ∧ t.E _ = _
    have := hi.fresh e (List.mem_append_left _ he)
    rw [g10 _ (by omega), g10 _ (by omega)]; exact hi.halvesI e he
  · intro e he
    show t.E _ = _ ∧ t.E _ = _
    have := hi.fresh e (List.mem_append_right _ he)
    rw [g10 _ (by omega), g10 _ (by omega)]; exact hi.halvesB e he
  · intro x hx i p hp
    show t.E _ = _
    rcases List.mem_append.mp hx with hx | hx
    · rw [hzx x hx]
      have hfz := hi.freshz x hx
      have hxl := hi.spokes x hx i p hp
      have hil : i < (around (s.F x).corners).length := (List.getElem?_eq_some_iff.mp hp).1
      have : i < s.nc x := lt_of_lt_of_le hil (around_le _)
      rw [g10 _ (by omega)]; exact hxl
    · rw [List.mem_singleton.mp hx] at hp ⊢
      rw [hze]
      exact g13 i _ (by simp only [subMids, List.getElem?_map, hp, Option.map_some])
  · show t.quads = _
    rw [g5, hi.quads]
    simp only [List.flatMap_append, List.flatMap_cons, List.flatMap_nil, List.append_nil, hze]
    rw [flatMap_upd z f r.1.nxt (fun x y => (List.range (s.nc x)).map (y + 1 + ·)) hn]
    simp
  · intro x hx
    show t.F x = _
    rw [g11 x (fun i hi' => hx i (by omega))]; exact hi.F x hx
  · intro x hx i p hp
    show t.F _ = _
    rcases List.mem_append.mp hx with hx | hx
    · rw [hzx x hx]
      have hfz := hi.freshz x hx
      have hil : i < (around (s.F x).corners).length := (List.getElem?_eq_some_iff.mp hp).1
      have : i < s.nc x := lt_of_lt_of_le hil (around_le _)
      rw [g11 _ (fun j hj => by simp only [ne_eq, FRef.quad.injEq]; omega)]
      exact hi.subs x hx i p hp
    · rw [List.mem_singleton.mp hx] at hp ⊢
      rw [hze]
      exact g12 i (p.2.1, m (s.eo p.2.1 p.2.2), r.1.nxt, m (s.eo p.1 p.2.1)) (by simp only [subQuads, List.getElem?_map, hp, Option.map_some])
  · intro v hv
    have hvn : v ≠ r.1.nxt := by have := h.vlt v hv; omega
    obtain ⟨p1, p2, new, p3, p4⟩ := hi.V v hv
    obtain ⟨q1, q2, new', q3, q4⟩ := g14 v hvn
    refine ⟨q1.trans p1, q2.trans p2, new ++ new', ?_, ?_⟩
    · show (t.V v).edges = _
      rw [q3, p3, List.append_assoc]
    · intro y hy
      rcases List.mem_append.mp hy with hy | hy
      · exact p4 y hy
      · have := q4 y hy; omega
  · intro e he
    exact (g14 _ (hmne e he)).1.trans (hi.midPos e he)
  · intro x hx
    rcases List.mem_append.mp hx with hx | hx
    · rw [hzx x hx]
      have := hi.freshz x hx
      exact (g14 _ (by omega)).1.trans (hi.ctrPos x hx)
    · rw [List.mem_singleton.mp hx, hze]; exact g15
  · intro e he
    exact (g14 _ (hmne e (List.mem_append_left _ he))).2.1.trans (hi.midI e he)
  · intro e he
    exact (g14 _ (hmne e (List.mem_append_right _ he))).2.1.trans (hi.midB e he)
  · intro x hx
    rcases List.mem_append.mp hx with hx | hx
    · rw [hzx x hx]
      have := hi.freshz x hx
      exact (g14 _ (by omega)).2.1.trans (hi.ctrProps x hx)
    · rw [List.mem_singleton.mp hx, hze]
      show (t.V _).props = _
      rw [g16, allProps_congr fun w hw => (hi.V w (hcor.2 w hw)).2.1]

/-- The sub vertex at a side. -/
theorem rinv_sub {s : St K} (h : WF s) (hs : ∀ a b, Covered s a b → ∃ e, (e ∈ s.es .intr ∨ e ∈ s.es .bdry) ∧ Connects s e a b)
    {df : List FRef} {r : RS K} {m : Nat → Nat} {z : FRef → Nat}
    (hi : RInv s (s.es .intr) (s.es .bdry) df r m z) (hdf : ∀ f ∈ df, Live s f) {a b : Nat} (hc : Covered s a b) :
    subVertex r a b = some (m (s.eo a b)) := by
  obtain ⟨e1, e2, _, ha, hb⟩ := eo_spec h hs hc
  have hm : r.1.meshEdge a b = s.meshEdge a b := by
    unfold meshEdge
    rw [rinv_getEdge h hi (fun f hf => around_length h (hdf f hf)) .intr ha hb,
      rinv_getEdge h hi (fun f hf => around_length h (hdf f hf)) .bdry ha hb]
  unfold subVertex
  rw [hm, e1]
  exact hi.sub _ (List.mem_append.mpr e2)

theorem rinv_centroid {s : St K} (h : WF s) {di db : List Nat} {df : List FRef} {r : RS K} {m : Nat → Nat} {z : FRef → Nat}
    (hi : RInv s di db df r m z) {f : FRef} (hf : Live s f) : r.1.F f = s.F f ∧ r.1.fCentroid f = s.fCentroid f := by
  have hF : r.1.F f = s.F f := by
    apply hi.F
    rintro i hle rfl
    have := h.qlt i hf; omega
  refine ⟨hF, ?_⟩
  have hc := (h.cor f hf).2
  unfold fCentroid
  rw [hF]
  rcases live_corners h hf with ⟨a, b, c, hcs⟩ | ⟨a, b, c, d, hcs⟩
  · rw [hcs] at hc ⊢
    simp only []
    rw [(hi.V a (hc a (by simp))).1, (hi.V b (hc b (by simp))).1, (hi.V c (hc c (by simp))).1]
  · rw [hcs] at hc ⊢
    simp only []
    rw [(hi.V a (hc a (by simp))).1, (hi.V b (hc b (by simp))).1, (hi.V c (hc c (by simp))).1, (hi.V d (hc d (by simp))).1]

theorem rinv_tri_loop {s : St K} (h : WF s) (hs : ∀ a b, Covered s a b → ∃ e, (e ∈ s.es .intr ∨ e ∈ s.es .bdry) ∧ Connects s e a b)
    {m : Nat → Nat} : ∀ (l : List Nat) (df : List FRef) (r : RS K) (z : FRef → Nat),
    RInv s (s.es .intr) (s.es .bdry) df r m z → (∀ f ∈ df, Live s f) → (∀ t ∈ l, t ∈ s.tris) → (df ++ l.map FRef.tri).Nodup →
    ∃ r' z', loopM splitTri r l = some r' ∧ RInv s (s.es .intr) (s.es .bdry) (df ++ l.map FRef.tri) r' m z' := by
  intro l
  induction l with
  | nil => intro df r z hi _ _ _; exact ⟨r, z, rfl, by simpa using hi⟩
  | cons t l ih =>
    intro df r z hi hdf hl hn
    have ht := hl t (List.mem_cons_self ..)
    have hf : Live s (.tri t) := ht
    have hnd : FRef.tri t ∉ df := by
      rw [List.nodup_append] at hn
      intro hh
      exact hn.2.2 _ hh _ (by simp) rfl
    obtain ⟨a, b, c, hc⟩ := List.length_eq_three.mp (h.tcor t ht)
    have hstep := rinv_facet h hs hi (.tri t) hf hnd
    obtain ⟨hF, hcen⟩ := rinv_centroid h hi hf
    have hab : Covered s a b := ⟨.tri t, hf, by rw [HasSide, hc]; exact ⟨2, by simp, by simp [sideAt]⟩⟩
    have hbc : Covered s b c := ⟨.tri t, hf, by rw [HasSide, hc]; exact ⟨0, by simp, by simp [sideAt]⟩⟩
    have hca : Covered s c a := ⟨.tri t, hf, by rw [HasSide, hc]; exact ⟨1, by simp, by simp [sideAt]⟩⟩
    have heq : splitTri r t = some (r.1.splitFacet (s.fCentroid (.tri t)) (s.F (.tri t)).corners (s.F (.tri t)).color
        (s.subQuads m r.1.nxt (.tri t)) (s.subMids m (.tri t)), r.2) := by
      unfold splitTri
      rw [hF, hc]
      simp only [rinv_sub h hs hi hdf hab, rinv_sub h hs hi hdf hbc, rinv_sub h hs hi hdf hca, hcen]
      simp [subQuads, subMids, hc, around]
    obtain ⟨r', z', h1, h2⟩ := ih (df ++ [.tri t]) _ _ hstep
      (fun x hx => by
        rcases List.mem_append.mp hx with hx | hx
        · exact hdf x hx
        · rw [List.mem_singleton.mp hx]; exact hf)
      (fun x hx => hl x (List.mem_cons_of_mem _ hx)) (by simpa using hn)
    refine ⟨r', z', ?_, by simpa using h2⟩
    unfold loopM
    rw [heq]; exact h1

theorem rinv_quad_loop {s : St K} (h : WF s) (hs : ∀ a b, Covered s a b → ∃ e, (e ∈ s.es .intr ∨ e ∈ s.es .bdry) ∧ Connects s e a b)
    {m : Nat → Nat} : ∀ (l : List Nat) (df : List FRef) (r : RS K) (z : FRef → Nat),
    RInv s (s.es .intr) (s.es .bdry) df r m z → (∀ f ∈ df, Live s f) → (∀ t ∈ l, t ∈ s.quads) → (df ++ l.map FRef.quad).Nodup →
    ∃ r' z', loopM splitQuad r l = some r' ∧ RInv s (s.es .intr) (s.es .bdry) (df ++ l.map FRef.quad) r' m z' := by
  intro l
  induction l with
  | nil => intro df r z hi _ _ _; exact ⟨r, z, rfl, by simpa using hi⟩
  | cons t l ih =>
    intro df r z hi hdf hl hn
    have ht := hl t (List.mem_cons_self ..)
    have hf : Live s (.quad t) := ht
    have hnd : FRef.quad t ∉ df := by
      rw [List.nodup_append] at hn
      intro hh
      exact hn.2.2 _ hh _ (by simp) rfl
    obtain ⟨a, b, c, d, hc⟩ : ∃ a b c d, (s.F (.quad t)).corners = [a, b, c, d] := by
      have hq := h.qcor t ht
      rcases live_corners h hf with ⟨a, b, c, hc⟩ | hh
      · rw [hc] at hq; simp at hq
      · exact hh
    have hstep := rinv_facet h hs hi (.quad t) hf hnd
    obtain ⟨hF, hcen⟩ := rinv_centroid h hi hf
    have hab : Covered s a b := ⟨.quad t, hf, by rw [HasSide, hc]; exact ⟨3, by simp, by simp [sideAt]⟩⟩
    have hbc : Covered s b c := ⟨.quad t, hf, by rw [HasSide, hc]; exact ⟨0, by simp, by simp [sideAt]⟩⟩
    have hcd : Covered s c d := ⟨.quad t, hf, by rw [HasSide, hc]; exact ⟨1, by simp, by simp [sideAt]⟩⟩
    have hda : Covered s d a := ⟨.quad t, hf, by rw [HasSide, hc]; exact ⟨2, by simp, by simp [sideAt]⟩⟩
    have heq : splitQuad r t = some (r.1.splitFacet (s.fCentroid (.quad t)) (s.F (.quad t)).corners (s.F (.quad t)).color
        (s.subQuads m r.1.nxt (.quad t)) (s.subMids m (.quad t)), r.2) := by
      unfold splitQuad
      rw [hF, hc]
      simp only [rinv_sub h hs hi hdf hab, rinv_sub h hs hi hdf hbc, rinv_sub h hs hi hdf hcd, rinv_sub h hs hi hdf hda, hcen]
      simp [subQuads, subMids, hc, around]
    obtain ⟨r', z', h1, h2⟩ := ih (df ++ [.quad t]) _ _ hstep
      (fun x hx => by
        rcases List.mem_append.mp hx with hx | hx
        · exact hdf x hx
        · rw [List.mem_singleton.mp hx]; exact hf)
      (fun x hx => hl x (List.mem_cons_of_mem _ hx)) (by simpa using hn)
    refine ⟨r', z', ?_, by simpa using h2⟩
    unfold loopM
    rw [heq]; exact h1

end TQ.MS.St

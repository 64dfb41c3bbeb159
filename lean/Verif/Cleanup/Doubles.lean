import Verif.Cleanup.Degree3Loop
import Verif.Cleanup.Scan

/-! # Lemmas: the loops that merge elements with two common edges -/

set_option linter.unusedSectionVars false
set_option linter.unusedSimpArgs false

namespace TQ.MC
open TQ TQ.MS TQ.MeshSpec TQ.MCSpec MS.St
variable {K : Type*} [Field K] [LinearOrder K]

/-- Same data of vertices and edges. -/
structure Bits (s t : St K) : Prop where
  V : ∀ v, (t.V v).xy = (s.V v).xy ∧ (t.V v).props = (s.V v).props
  E : t.E = s.E
  color : t.color = s.color
  area : t.area = s.area

theorem Bits.rfl' (s : St K) : Bits s s := ⟨fun _ => ⟨rfl, rfl⟩, rfl, rfl, rfl⟩

theorem Bits.trans {s t u : St K} (h : Bits s t) (k : Bits t u) : Bits s u :=
  ⟨fun v => ⟨(k.V v).1.trans (h.V v).1, (k.V v).2.trans (h.V v).2⟩, k.E.trans h.E, k.color.trans h.color, k.area.trans h.area⟩

/-- A quad or a triangle. -/
def ref (isQ : Bool) (n : Nat) : FRef := if isQ then .quad n else .tri n

theorem ref_inj {isQ : Bool} {m n : Nat} (h : ref isQ m = ref isQ n) : m = n := by
  unfold ref at h; split_ifs at h <;> simpa using h

/-- One new element. -/
structure One (s t : St K) (isQ : Bool) (cs : List Nat) : Prop where
  wf : WF t
  verts : t.verts = s.verts
  es : t.es = s.es
  bits : Bits s t
  tris : t.tris = s.tris ++ (if isQ then [] else [s.nxt])
  quads : t.quads = s.quads ++ (if isQ then [s.nxt] else [])
  nxt : t.nxt = s.nxt + 1
  old : ∀ f, f ≠ ref isQ s.nxt → t.F f = s.F f
  new : t.F (ref isQ s.nxt) = ⟨cs, List.replicate cs.length .null, s.color, true⟩

theorem one_quad {s : St K} (w : WF s) {a b c d : Nat} (hn : [a, b, c, d].Nodup) (hv : ∀ x ∈ [a, b, c, d], x ∈ s.verts) :
    One s ((s.addQuad a b c d (-1)).activate (.quad s.nxt)) true [a, b, c, d] := by
  refine ⟨wf_activate (wf_addQuad w _ (hv a (by simp)) (hv b (by simp)) (hv c (by simp)) (hv d (by simp)) hn) _, rfl, rfl,
    ⟨fun v => ?_, rfl, rfl, rfl⟩, by simp [activate, addQuad], by simp [activate, addQuad], rfl, ?_, ?_⟩
  · simp only [activate, addQuad, regFacet_apply _ _ _ _ hn]
    split_ifs <;> exact ⟨rfl, rfl⟩
  · intro f hf
    simp only [ref, if_true] at hf
    simp [activate, addQuad, upd, hf]
  · simp [ref, activate, addQuad, upd, newColor, List.replicate]

theorem one_tri {s : St K} (w : WF s) {a b c : Nat} (hn : [a, b, c].Nodup) (hv : ∀ x ∈ [a, b, c], x ∈ s.verts) :
    One s ((s.addTri a b c (-1)).activate (.tri s.nxt)) false [a, b, c] := by
  refine ⟨wf_activate (wf_addTri w _ (hv a (by simp)) (hv b (by simp)) (hv c (by simp)) hn) _, rfl, rfl,
    ⟨fun v => ?_, rfl, rfl, rfl⟩, by simp [activate, addTri], by simp [activate, addTri], rfl, ?_, ?_⟩
  · simp only [activate, addTri, regFacet_apply _ _ _ _ hn]
    split_ifs <;> exact ⟨rfl, rfl⟩
  · intro f hf
    simp only [ref, Bool.false_eq_true, if_false] at hf
    simp [activate, addTri, upd, hf]
  · simp [ref, activate, addTri, upd, newColor, List.replicate]

/-- New elements, one per merge. -/
structure Added (s t : St K) (isQ : Bool) (ms : List Merge) (id : Merge → Nat) (cor : Merge → List Nat) : Prop where
  wf : WF t
  verts : t.verts = s.verts
  es : t.es = s.es
  bits : Bits s t
  tris : t.tris = s.tris ++ (if isQ then [] else ms.map id)
  quads : t.quads = s.quads ++ (if isQ then ms.map id else [])
  ge : ∀ m ∈ ms, s.nxt ≤ id m
  old : ∀ f, (∀ m ∈ ms, f ≠ ref isQ (id m)) → t.F f = s.F f
  new : ∀ m ∈ ms, t.F (ref isQ (id m)) = ⟨cor m, List.replicate (cor m).length .null, s.color, true⟩

theorem added_nil {s : St K} (w : WF s) (isQ : Bool) (cor : Merge → List Nat) : Added s s isQ [] (fun _ => 0) cor :=
  ⟨w, rfl, rfl, Bits.rfl' s, by simp, by simp, by simp, fun _ _ => rfl, by simp⟩

theorem added_cons {s t u : St K} {isQ : Bool} {m : Merge} {l : List Merge} {id : Merge → Nat} {cor : Merge → List Nat} (hm : m ∉ l)
    (h : One s t isQ (cor m)) (k : Added t u isQ l id cor) : Added s u isQ (m :: l) (fun x => if x = m then s.nxt else id x) cor := by
  have hid : ∀ x ∈ l, (if x = m then s.nxt else id x) = id x := by
    intro x hx; rw [if_neg]; rintro rfl; exact hm hx
  have hmap : l.map (fun x => if x = m then s.nxt else id x) = l.map id := List.map_congr_left hid
  have hgt : ∀ x ∈ l, s.nxt < id x := by
    intro x hx; have := k.ge x hx; rw [h.nxt] at this; omega
  refine ⟨k.wf, k.verts.trans h.verts, k.es.trans h.es, h.bits.trans k.bits, ?_, ?_, ?_, ?_, ?_⟩
  · rw [k.tris, h.tris]; cases isQ <;> simp [hmap]
  · rw [k.quads, h.quads]; cases isQ <;> simp [hmap]
  · intro x hx
    rcases List.mem_cons.mp hx with rfl | hx
    · simp
    · have := hgt x hx; rw [hid x hx]; omega
  · intro f hf
    rw [k.old f fun x hx => by have := hf x (List.mem_cons_of_mem _ hx); rwa [hid x hx] at this]
    apply h.old
    have := hf m (by simp)
    simpa using this
  · intro x hx
    rcases List.mem_cons.mp hx with rfl | hx
    · simp only [if_true]
      rw [k.old _ fun y hy hh => by have := ref_inj hh; have := hgt y hy; omega]
      exact h.new
    · rw [hid x hx, k.new x hx, h.bits.color]

/-- The ends of the two edges opposite to the common vertex (src/algorithm/MeshCleanup.h:343-347). -/
def v1of (s : St K) (m : Merge) : Nat := if (s.E m.e1).v2 = m.v2 then (s.E m.e1).v1 else (s.E m.e1).v2
def v3of (s : St K) (m : Merge) : Nat := if (s.E m.e2).v1 = m.v2 then (s.E m.e2).v2 else (s.E m.e2).v1

theorem added_quads : ∀ (ms : List Merge) {s : St K}, WF s → ms.Nodup →
    (∀ m ∈ ms, [m.o1, v1of s m, m.o2, v3of s m].Nodup ∧ ∀ x ∈ [m.o1, v1of s m, m.o2, v3of s m], x ∈ s.verts) →
    ∃ id, Added s (ms.foldl newQuad s) true ms id fun m => [m.o1, v1of s m, m.o2, v3of s m] := by
  intro ms
  induction ms with
  | nil => intro s w _ _; exact ⟨_, added_nil w true _⟩
  | cons m l ih =>
    intro s w hn hc
    obtain ⟨h1, h2⟩ := hc m (by simp)
    have one : One s (newQuad s m) true [m.o1, v1of s m, m.o2, v3of s m] := one_quad w h1 h2
    obtain ⟨hm, hl⟩ := List.nodup_cons.mp hn
    have hv : ∀ x, v1of (newQuad s m) x = v1of s x ∧ v3of (newQuad s m) x = v3of s x := fun x => ⟨rfl, rfl⟩
    obtain ⟨id, k⟩ := ih one.wf hl fun x hx => by
      rw [(hv x).1, (hv x).2, one.verts]; exact hc x (List.mem_cons_of_mem _ hx)
    exact ⟨_, added_cons (cor := fun m => [m.o1, v1of s m, m.o2, v3of s m]) hm one k⟩

/-- The corners of the new triangle. -/
def triCor (s : St K) (m : Merge) : List Nat :=
  match vertexIndex (s.F (.quad m.q)) m.v2 with
  | none => []
  | some i =>
    match corner s m.q (i + 1), corner s m.q (i + 2), corner s m.q (i + 3) with
    | some a, some b, some c => [a, b, c]
    | _, _, _ => []

theorem added_tris : ∀ (ms : List Merge) {s : St K}, WF s → ms.Nodup → (∀ m ∈ ms, m.q < s.nxt) →
    (∀ m ∈ ms, (triCor s m).length = 3 ∧ (triCor s m).Nodup ∧ ∀ x ∈ triCor s m, x ∈ s.verts) →
    ∃ id t, ms.foldl (fun o m => o.bind fun s => newTri s m) (some s) = some t ∧ Added s t false ms id (triCor s) := by
  intro ms
  induction ms with
  | nil => intro s w _ _ _; exact ⟨_, s, rfl, added_nil w false _⟩
  | cons m l ih =>
    intro s w hn hq hc
    obtain ⟨h0, h1, h2⟩ := hc m (by simp)
    obtain ⟨hm, hl⟩ := List.nodup_cons.mp hn
    have hone : ∃ t, newTri s m = some t ∧ One s t false (triCor s m) := by
      unfold newTri
      unfold triCor at h0 h1 h2 ⊢
      cases hv : vertexIndex (s.F (.quad m.q)) m.v2 with
      | none => rw [hv] at h0; simp at h0
      | some i =>
        rw [hv] at h0 h1 h2
        dsimp only at h0 h1 h2 ⊢
        cases ha : corner s m.q (i + 1) with
        | none => rw [ha] at h0; simp at h0
        | some a =>
          cases hb : corner s m.q (i + 2) with
          | none => rw [ha, hb] at h0; simp at h0
          | some b =>
            cases hd : corner s m.q (i + 3) with
            | none => rw [ha, hb, hd] at h0; simp at h0
            | some d =>
              rw [ha, hb, hd] at h1 h2
              exact ⟨_, rfl, one_tri w h1 h2⟩
    obtain ⟨t, ht, one⟩ := hone
    have hF : ∀ x, t.F (.quad x) = s.F (.quad x) := fun x => one.old _ (by simp [ref])
    have hcor : triCor t = triCor s := by
      funext x
      unfold triCor corner
      rw [hF]
    obtain ⟨id, u, hu, k⟩ := ih one.wf hl (fun x hx => by rw [one.nxt]; have := hq x (List.mem_cons_of_mem _ hx); omega) fun x hx => by
      rw [hcor, one.verts]; exact hc x (List.mem_cons_of_mem _ hx)
    rw [hcor] at k
    exact ⟨_, u, by rw [List.foldl_cons, Option.bind_some, ht, hu], added_cons hm one k⟩

/-! ### Removals -/

/-- Elements are removed. -/
structure Cut (s t : St K) (R : List FRef) : Prop where
  wf : WF t
  verts : t.verts = s.verts
  es : t.es = s.es
  bits : Bits s t
  F : t.F = s.F
  tris : t.tris = s.tris.filter fun x => decide (FRef.tri x ∉ R)
  quads : t.quads = s.quads.filter fun x => decide (FRef.quad x ∉ R)

theorem cut_nil {s : St K} (w : WF s) : Cut s s [] :=
  ⟨w, rfl, rfl, Bits.rfl' s, rfl, by simp, by simp⟩

theorem removeQuad_V {s : St K} (t v : Nat) : ((s.removeQuad t).V v).xy = (s.V v).xy ∧ ((s.removeQuad t).V v).props = (s.V v).props := by
  simp only [removeQuad, unregFacet_apply]
  split_ifs <;> exact ⟨rfl, rfl⟩

theorem cut_one {s : St K} (w : WF s) {f : FRef} (hf : f ≠ .null) : Cut s (removeFacet s f) [f] := by
  cases f with
  | null => exact absurd rfl hf
  | tri x =>
    refine ⟨wf_removeTri w x, rfl, rfl, ⟨fun v => (removeTri_V (s := s) x v).1, rfl, rfl, rfl⟩, rfl, ?_, ?_⟩
    · exact List.filter_congr fun y _ => by simp
    · symm; exact List.filter_eq_self.mpr fun y _ => by simp
  | quad x =>
    refine ⟨wf_removeQuad w x, rfl, rfl, ⟨fun v => removeQuad_V (s := s) x v, rfl, rfl, rfl⟩, rfl, ?_, ?_⟩
    · symm; exact List.filter_eq_self.mpr fun y _ => by simp
    · exact List.filter_congr fun y _ => by simp

theorem Cut.trans {s t u : St K} {R R' : List FRef} (h : Cut s t R) (k : Cut t u R') : Cut s u (R ++ R') := by
  refine ⟨k.wf, k.verts.trans h.verts, k.es.trans h.es, h.bits.trans k.bits, k.F.trans h.F, ?_, ?_⟩
  · rw [k.tris, h.tris, List.filter_filter]
    exact List.filter_congr fun x _ => by by_cases h1 : FRef.tri x ∈ R <;> by_cases h2 : FRef.tri x ∈ R' <;> simp [h1, h2]
  · rw [k.quads, h.quads, List.filter_filter]
    exact List.filter_congr fun x _ => by by_cases h1 : FRef.quad x ∈ R <;> by_cases h2 : FRef.quad x ∈ R' <;> simp [h1, h2]

theorem cut_all : ∀ (ms : List Merge) {s : St K}, WF s → (∀ m ∈ ms, m.nbr ≠ .null) →
    Cut s (ms.foldl (fun s m => removeFacet (s.removeQuad m.q) m.nbr) s) (ms.flatMap fun m => [.quad m.q, m.nbr]) := by
  intro ms
  induction ms with
  | nil => intro s w _; exact cut_nil w
  | cons m l ih =>
    intro s w hn
    have c1 : Cut s (s.removeQuad m.q) [.quad m.q] := cut_one (f := .quad m.q) w (by simp)
    have c2 := cut_one c1.wf (hn m (by simp))
    have c3 := ih c2.wf fun x hx => hn x (List.mem_cons_of_mem _ hx)
    exact (c1.trans c2).trans c3

/-- Interior edges are removed. -/
structure Snip (s t : St K) (D : List Nat) : Prop where
  wf : WF t
  verts : t.verts = s.verts
  tris : t.tris = s.tris
  quads : t.quads = s.quads
  bits : Bits s t
  F : t.F = s.F
  intr : t.es .intr = (s.es .intr).filter fun x => decide (x ∉ D)
  lists : ∀ l, l ≠ .intr → t.es l = s.es l

theorem snip_nil {s : St K} (w : WF s) : Snip s s [] :=
  ⟨w, rfl, rfl, rfl, Bits.rfl' s, rfl, by simp, fun _ _ => rfl⟩

theorem snip_one {s : St K} (w : WF s) {e : Nat} (he : e ∈ s.es .intr) : Snip s (s.removeIntr e) [e] := by
  obtain ⟨w1, es1, o1, E1, F1, vs1, ts1, q1, nx1, col1, V1, V1'⟩ := removeIntr_spec w he
  have ha : (s.removeIntr e).area = s.area := by unfold removeIntr; split_ifs <;> rfl
  refine ⟨w1, vs1, ts1, q1, ⟨V1, E1, col1, ha⟩, F1, ?_, o1⟩
  rw [es1]; exact List.filter_congr fun y _ => by simp

theorem Snip.trans {s t u : St K} {R R' : List Nat} (h : Snip s t R) (k : Snip t u R') : Snip s u (R ++ R') := by
  refine ⟨k.wf, k.verts.trans h.verts, k.tris.trans h.tris, k.quads.trans h.quads, h.bits.trans k.bits, k.F.trans h.F, ?_, ?_⟩
  · rw [k.intr, h.intr, List.filter_filter]
    exact List.filter_congr fun x _ => by by_cases h1 : x ∈ R <;> by_cases h2 : x ∈ R' <;> simp [h1, h2]
  · intro l hl; rw [k.lists l hl, h.lists l hl]

theorem snip_all : ∀ (ms : List Merge) {s : St K}, WF s → (ms.flatMap fun m => [m.e1, m.e2]).Nodup →
    (∀ m ∈ ms, m.e1 ∈ s.es .intr ∧ m.e2 ∈ s.es .intr) →
    Snip s (ms.foldl (fun s m => (s.removeIntr m.e1).removeIntr m.e2) s) (ms.flatMap fun m => [m.e1, m.e2]) := by
  intro ms
  induction ms with
  | nil => intro s w _ _; exact snip_nil w
  | cons m l ih =>
    intro s w hn hi
    obtain ⟨i1, i2⟩ := hi m (by simp)
    rw [List.flatMap_cons, List.nodup_append] at hn
    obtain ⟨n1, n2, n3⟩ := hn
    have c1 := snip_one w i1
    have ne : m.e2 ≠ m.e1 := by simp at n1; exact fun h => n1 h.symm
    have c2 := snip_one c1.wf (e := m.e2) (by rw [c1.intr, List.mem_filter]; exact ⟨i2, by simp [ne]⟩)
    have c3 := ih c2.wf n2 fun x hx => by
      obtain ⟨j1, j2⟩ := hi x (List.mem_cons_of_mem _ hx)
      have k : ∀ e, e ∈ [x.e1, x.e2] → e ≠ m.e1 ∧ e ≠ m.e2 := fun e he =>
        ⟨fun hh => n3 m.e1 (by simp) e (List.mem_flatMap.mpr ⟨x, hx, he⟩) hh.symm,
          fun hh => n3 m.e2 (by simp) e (List.mem_flatMap.mpr ⟨x, hx, he⟩) hh.symm⟩
      rw [c2.intr, c1.intr]
      simp only [List.mem_filter, List.mem_singleton, decide_eq_true_eq]
      exact ⟨⟨⟨j1, (k _ (by simp)).1⟩, (k _ (by simp)).2⟩, ⟨j2, (k _ (by simp)).1⟩, (k _ (by simp)).2⟩
    exact (c1.trans c2).trans c3

/-- Vertices that nothing refers to are removed. -/
structure Drop (s t : St K) (R : List Nat) : Prop where
  wf : WF t
  verts : t.verts = s.verts.filter fun v => decide (v ∉ R)
  es : t.es = s.es
  tris : t.tris = s.tris
  quads : t.quads = s.quads
  V : t.V = s.V
  bits : Bits s t
  F : t.F = s.F

theorem drop_all : ∀ (ms : List Merge) {s : St K}, WF s → (ms.map Merge.v2).Nodup →
    (∀ m ∈ ms, m.v2 ∈ s.verts ∧ (s.V m.v2).edges = [] ∧ (s.V m.v2).facets = []) →
    Drop s (ms.foldl (fun s m => s.removeVertex m.v2) s) (ms.map Merge.v2) := by
  intro ms
  induction ms with
  | nil => intro s w _ _; exact ⟨w, by simp, rfl, rfl, rfl, rfl, Bits.rfl' s, rfl⟩
  | cons m l ih =>
    intro s w hn hi
    rw [List.map_cons, List.nodup_cons] at hn
    obtain ⟨i1, i2, i3⟩ := hi m (by simp)
    have w1 := wf_removeVertex w m.v2 i2 i3 i1
    have k := ih w1 hn.2 fun x hx => by
      obtain ⟨j1, j2, j3⟩ := hi x (List.mem_cons_of_mem _ hx)
      refine ⟨?_, j2, j3⟩
      unfold removeVertex
      rw [List.mem_filter]
      exact ⟨j1, by
        have : x.v2 ≠ m.v2 := fun hh => hn.1 (hh ▸ List.mem_map_of_mem hx)
        simpa using this⟩
    refine ⟨k.wf, ?_, k.es, k.tris, k.quads, k.V, ⟨k.bits.V, k.bits.E, k.bits.color, k.bits.area⟩, k.F⟩
    rw [List.foldl_cons, k.verts]
    unfold removeVertex
    simp only [List.filter_filter]
    exact List.filter_congr fun x _ => by by_cases h1 : x = m.v2 <;> by_cases h2 : x ∈ l.map Merge.v2 <;> simp_all

end TQ.MC

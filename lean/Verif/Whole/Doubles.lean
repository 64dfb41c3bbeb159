import Verif.Whole.TwinGeo
import Verif.Whole.CleanSpec

/-! # Lemmas: the effect of merging elements with two common edges -/

set_option linter.unusedSectionVars false
set_option linter.unusedSimpArgs false
set_option linter.unusedVariables false

namespace TQ.Whole
open TQ TQ.MS TQ.MS.St TQ.MeshSpec TQ.FUSpec TQ.MCSpec TQ.WholeSpec TQ.FU TQ.Sm TQ.MC TQ.RefSpec TQ.CleanSpec
variable {K : Type*} [Field K] [LinearOrder K] [IsStrictOrderedRing K]

theorem complete_meshing {s : St K} (h : Complete s) : Meshing s :=
  conforming_meshing h.toConforming h.front h.bdry h.ccw h.plain

/-! ### Lists -/

theorem filter_in_perm {α : Type*} [DecidableEq α] {l r : List α} (hl : l.Nodup) (hr : r.Nodup) (hs : ∀ x ∈ r, x ∈ l) :
    (l.filter fun x => decide (x ∈ r)).Perm r := by
  rw [List.perm_ext_iff_of_nodup (hl.filter _) hr]
  intro x
  simp only [List.mem_filter, decide_eq_true_eq]
  exact ⟨fun h => h.2, fun h => ⟨hs x h, h⟩⟩

theorem filter_split_perm {α : Type*} [DecidableEq α] {l r : List α} (hl : l.Nodup) (hr : r.Nodup) (hs : ∀ x ∈ r, x ∈ l) :
    ((l.filter fun x => decide (x ∉ r)) ++ r).Perm l := by
  refine List.Perm.trans ?_ (List.filter_append_perm (fun x => decide (x ∉ r)) l)
  refine List.Perm.append_left _ ?_
  refine (filter_in_perm hl hr hs).symm.trans ?_
  have : (fun x => !decide (x ∉ r)) = fun x => decide (x ∈ r) := by
    funext x; by_cases h : x ∈ r <;> simp [h]
  rw [this]

theorem filter_out_length {α : Type*} [DecidableEq α] {l r : List α} (hl : l.Nodup) (hr : r.Nodup) (hs : ∀ x ∈ r, x ∈ l) :
    (l.filter fun x => decide (x ∉ r)).length + r.length = l.length := by
  rw [← List.length_append]; exact (filter_split_perm hl hr hs).length_eq

theorem facets_nodup {s : St K} (w : WF s) : (facets s).Nodup := by
  unfold facets
  rw [List.nodup_append]
  refine ⟨w.tnd.map (by intro a b h; simpa using h), w.qnd.map (by intro a b h; simpa using h), ?_⟩
  intro a ha b hb hab
  subst hab
  simp only [List.mem_map] at ha hb
  obtain ⟨x, -, rfl⟩ := ha
  obtain ⟨y, -, hy⟩ := hb
  cases hy

theorem meshArea_facets (s : St K) : meshArea s = ((facets s).map s.fArea).sum := by
  unfold meshArea facets
  rw [List.map_append, List.sum_append, List.map_map, List.map_map]
  rfl

/-! ### Scheduled merges -/

/-- Merges that can be carried out together. -/
structure Plan (s : St K) (isQ : Bool) (ms : List Merge) : Prop where
  comp : Complete s
  twins : ∀ m ∈ ms, ∃ v1 v3, Twin s isQ m v1 v3
  nd : (removed ms).Nodup

/-- The vertices that vanish. -/
def goneOf (ms : List Merge) : List Nat := ms.map Merge.v2

/-- Corners of the new element. -/
def corOf (s : St K) (isQ : Bool) (m : Merge) : List Nat := if isQ then [m.o1, v1of s m, m.o2, v3of s m] else triCor s m

theorem twin_v1 {s : St K} {isQ : Bool} {m : Merge} {v1 v3 : Nat} (w : WF s) (t : Twin s isQ m v1 v3) : v1of s m = v1 ∧ v3of s m = v3 := by
  have hn := rot4_nodup t.qc (w.cor (.quad m.q) t.q).1
  simp only [List.nodup_cons, List.mem_cons, List.not_mem_nil, or_false, not_or] at hn
  obtain ⟨⟨n1, n2, n3⟩, ⟨n4, n5⟩, -⟩ := hn
  unfold v1of v3of
  rcases t.e1.2 with ⟨a1, a2⟩ | ⟨a1, a2⟩ <;> rcases t.e2.2 with ⟨b1, b2⟩ | ⟨b1, b2⟩ <;> rw [a1, a2, b1, b2]
  · simp
  · rw [if_pos rfl, if_neg (Ne.symm n4)]; exact ⟨rfl, rfl⟩
  · rw [if_neg n1]; simp
  · rw [if_neg n1, if_neg (Ne.symm n4)]; exact ⟨rfl, rfl⟩

theorem twin_triCor {s : St K} {isQ : Bool} {m : Merge} {v1 v3 : Nat} (w : WF s) (t : Twin s isQ m v1 v3) : triCor s m = [v3, m.o1, v1] := by
  have hn := rot4_nodup t.qc (w.cor (.quad m.q) t.q).1
  simp only [List.nodup_cons, List.mem_cons, List.not_mem_nil, or_false, not_or] at hn
  obtain ⟨⟨n1, n2, n3⟩, ⟨n4, n5⟩, n6, -⟩ := hn
  have b1 : (v1 == m.v2) = false := by simp [n1]
  have b3 : (v3 == m.v2) = false := by simp [Ne.symm n4]
  have b4 : (m.o1 == m.v2) = false := by simp [Ne.symm n5]
  unfold triCor vertexIndex corner
  rcases t.qc with h | h | h | h <;> rw [h] <;> simp [List.idxOf?, List.findIdx?_cons, b1, b3, b4]

theorem twin_cor {s : St K} {isQ : Bool} {m : Merge} {v1 v3 : Nat} (w : WF s) (t : Twin s isQ m v1 v3) :
    corOf s isQ m = if isQ then [m.o1, v1, m.o2, v3] else [v3, m.o1, v1] := by
  unfold corOf
  rw [(twin_v1 w t).1, (twin_v1 w t).2, twin_triCor w t]

/-- Corners and sides of the new element come from the old ones, apart from those at the common vertex. -/
theorem twin_mem {s : St K} {isQ : Bool} {m : Merge} {v1 v3 : Nat} (w : WF s) (t : Twin s isQ m v1 v3) {x : Nat} (hx : x ∈ corOf s isQ m) :
    (x ∈ (s.F (.quad m.q)).corners ∨ x ∈ (s.F m.nbr).corners) ∧ x ≠ m.v2 := by
  have hn := rot4_nodup t.qc (w.cor (.quad m.q) t.q).1
  simp only [List.nodup_cons, List.mem_cons, List.not_mem_nil, or_false, not_or] at hn
  rw [twin_cor w t] at hx
  have hq := rot4_mem t.qc x
  cases isQ with
  | true =>
    have hn2 := rot4_nodup (t.nc.1 rfl) (w.cor m.nbr t.live).1
    simp only [List.nodup_cons, List.mem_cons, List.not_mem_nil, or_false, not_or] at hn2
    have hq2 := rot4_mem (t.nc.1 rfl) x
    simp only [if_true, List.mem_cons, List.not_mem_nil, or_false] at hx
    rw [hq, hq2]
    clear * - hx hn hn2
    omega
  | false =>
    simp only [Bool.false_eq_true, if_false, List.mem_cons, List.not_mem_nil, or_false] at hx
    rw [hq]
    clear * - hx hn
    omega

namespace Plan
variable {s : St K} {isQ : Bool} {ms : List Merge}

theorem wf (h : Plan s isQ ms) : WF s := h.comp.wf

theorem mem_q {m : Merge} (hm : m ∈ ms) : FRef.quad m.q ∈ removed ms := List.mem_flatMap.mpr ⟨m, hm, by simp⟩
theorem mem_n {m : Merge} (hm : m ∈ ms) : m.nbr ∈ removed ms := List.mem_flatMap.mpr ⟨m, hm, by simp⟩

theorem mem_removed {f : FRef} : f ∈ removed ms ↔ ∃ m ∈ ms, f = .quad m.q ∨ f = m.nbr := by
  unfold removed; simp only [List.mem_flatMap, List.mem_cons, List.not_mem_nil, or_false]

/-- An element belongs to one merge only. -/
theorem once (h : Plan s isQ ms) {m m' : Merge} (hm : m ∈ ms) (hm' : m' ∈ ms) {f : FRef} (h1 : f = .quad m.q ∨ f = m.nbr)
    (h2 : f = .quad m'.q ∨ f = m'.nbr) : m = m' := by
  have hn := h.nd
  unfold removed at hn
  rw [List.nodup_flatMap] at hn
  by_contra hne
  obtain ⟨i, hi, rfl⟩ := List.mem_iff_getElem.mp hm
  obtain ⟨j, hj, rfl⟩ := List.mem_iff_getElem.mp hm'
  have key : ∀ (i j : Nat) (hi : i < ms.length) (hj : j < ms.length), i < j → (f = .quad ms[i].q ∨ f = ms[i].nbr) →
      (f = .quad ms[j].q ∨ f = ms[j].nbr) → False := by
    intro i j hi hj hij h1 h2
    have := (List.pairwise_iff_getElem.mp hn.2) i j hi hj hij
    refine this (a := f) ?_ ?_
    · simpa using h1
    · simpa using h2
  rcases lt_trichotomy i j with k | k | k
  · exact key i j hi hj k h1 h2
  · subst k; exact hne rfl
  · exact key j i hj hi k h2 h1

theorem msnd (h : Plan s isQ ms) : ms.Nodup := by
  have hn := h.nd
  unfold removed at hn
  rw [List.nodup_flatMap] at hn
  refine hn.2.imp ?_
  intro a b hab heq
  subst heq
  exact hab (a := .quad a.q) (by simp) (by simp)

theorem only (h : Plan s isQ ms) {m : Merge} (hm : m ∈ ms) {g : FRef} (hg : Live s g) (hv : m.v2 ∈ (s.F g).corners) :
    g = .quad m.q ∨ g = m.nbr := by
  obtain ⟨v1, v3, t⟩ := h.twins m hm
  exact (twin_geo (complete_meshing h.comp) t).1 g hg hv

theorem at_v2 (h : Plan s isQ ms) {m : Merge} (hm : m ∈ ms) : m.v2 ∈ (s.F (.quad m.q)).corners ∧ m.v2 ∈ (s.F m.nbr).corners := by
  obtain ⟨v1, v3, t⟩ := h.twins m hm
  refine ⟨(rot4_mem t.qc _).mpr (Or.inr (Or.inl rfl)), ?_⟩
  cases isQ with
  | true => exact (rot4_mem (t.nc.1 rfl) _).mpr (Or.inr (Or.inl rfl))
  | false => exact (rot3_mem (t.nc.2 rfl) _).mpr (Or.inr (Or.inl rfl))

theorem liveR (h : Plan s isQ ms) {m : Merge} (hm : m ∈ ms) {f : FRef} (hf : f = .quad m.q ∨ f = m.nbr) : Live s f := by
  obtain ⟨v1, v3, t⟩ := h.twins m hm
  rcases hf with rfl | rfl
  · exact t.q
  · exact t.live

/-- Corners of the elements of a merge vanish in this merge only. -/
theorem sep (h : Plan s isQ ms) {m m' : Merge} (hm : m ∈ ms) (hm' : m' ∈ ms) {f : FRef} (hf : f = .quad m.q ∨ f = m.nbr)
    (hv : m'.v2 ∈ (s.F f).corners) : m = m' := h.once hm hm' hf (h.only hm' (h.liveR hm hf) hv)

theorem v2nd (h : Plan s isQ ms) : (goneOf ms).Nodup := by
  unfold goneOf
  refine List.Nodup.map_on ?_ h.msnd
  intro m hm m' hm' heq
  exact h.sep hm hm' (Or.inl rfl) (heq ▸ (h.at_v2 hm).1)

/-- Elements at removed vertices are removed, and only those. -/
theorem removed_iff (h : Plan s isQ ms) {f : FRef} (hf : Live s f) : f ∈ removed ms ↔ ∃ v ∈ goneOf ms, v ∈ (s.F f).corners := by
  rw [mem_removed]
  constructor
  · rintro ⟨m, hm, rfl | rfl⟩
    · exact ⟨m.v2, List.mem_map_of_mem hm, (h.at_v2 hm).1⟩
    · exact ⟨m.v2, List.mem_map_of_mem hm, (h.at_v2 hm).2⟩
  · rintro ⟨v, hv, hc⟩
    obtain ⟨m, hm, rfl⟩ := List.mem_map.mp hv
    exact ⟨m, hm, h.only hm hf hc⟩

/-- Corners of new elements stay. -/
theorem cor_stay (h : Plan s isQ ms) {m : Merge} (hm : m ∈ ms) {x : Nat} (hx : x ∈ corOf s isQ m) : x ∈ s.verts ∧ x ∉ goneOf ms := by
  obtain ⟨v1, v3, t⟩ := h.twins m hm
  obtain ⟨hc, hne⟩ := twin_mem h.wf t hx
  have hf : ∃ f, (f = .quad m.q ∨ f = m.nbr) ∧ x ∈ (s.F f).corners := by
    rcases hc with hc | hc
    · exact ⟨_, Or.inl rfl, hc⟩
    · exact ⟨_, Or.inr rfl, hc⟩
  obtain ⟨f, hf, hxf⟩ := hf
  refine ⟨(h.wf.cor f (h.liveR hm hf)).2 x hxf, fun hg => ?_⟩
  obtain ⟨m', hm', rfl⟩ := List.mem_map.mp hg
  have := h.sep hm hm' hf hxf
  subst this
  exact hne rfl

theorem cor_nodup (h : Plan s isQ ms) {m : Merge} (hm : m ∈ ms) : (corOf s isQ m).Nodup ∧ (corOf s isQ m).length = if isQ then 4 else 3 := by
  obtain ⟨v1, v3, t⟩ := h.twins m hm
  have hn := rot4_nodup t.qc (h.wf.cor (.quad m.q) t.q).1
  simp only [List.nodup_cons, List.mem_cons, List.not_mem_nil, or_false, not_or] at hn
  rw [twin_cor h.wf t]
  cases isQ with
  | true =>
    have hn2 := rot4_nodup (t.nc.1 rfl) (h.wf.cor m.nbr t.live).1
    have ho := ((twin_geo (complete_meshing h.comp) t).2.1 rfl).1
    simp only [List.nodup_cons, List.mem_cons, List.not_mem_nil, or_false, not_or] at hn2
    simp only [if_true, List.nodup_cons, List.mem_cons, List.not_mem_nil, or_false, not_or, List.length_cons, List.length_nil,
      not_false_eq_true, List.nodup_nil, and_true]
    clear * - hn hn2 ho
    omega
  | false =>
    simp only [Bool.false_eq_true, if_false, List.nodup_cons, List.mem_cons, List.not_mem_nil, or_false, not_or, List.length_cons, List.length_nil,
      not_false_eq_true, List.nodup_nil, and_true]
    clear * - hn
    omega

/-- The two edges of a merge are all edges at the common vertex. -/
theorem edge_at (h : Plan s isQ ms) {m : Merge} (hm : m ∈ ms) {e : Nat} (he : e ∈ s.es .intr ∨ e ∈ s.es .bdry)
    (hv : (s.E e).v1 = m.v2 ∨ (s.E e).v2 = m.v2) : e = m.e1 ∨ e = m.e2 := by
  obtain ⟨v1, v3, t⟩ := h.twins m hm
  have cv : Covered s (s.E e).v1 (s.E e).v2 := by
    rcases he with he | he
    · exact (h.comp.intrFull e he).1
    · exact h.comp.bdryFull e he
  obtain ⟨f, hf, hs⟩ := cv
  have hc : m.v2 ∈ (s.F f).corners := by
    obtain ⟨i, -, hi⟩ := hs
    have hh := side_mem hi
    rcases hv with hv | hv
    · rw [← hv]; exact hh.1
    · rw [← hv]; exact hh.2
  have hne := ((h.wf.ends .intr).2 m.e1 t.e1.1).2.2.2.1
  have key : ∀ e', e' ∈ s.es .intr → SameEnds s e e' → e = e' := fun e' he' hs' => h.comp.unique e he e' (Or.inl he') hs'
  have nq := rot4_nodup t.qc (h.wf.cor (.quad m.q) t.q).1
  simp only [List.nodup_cons, List.mem_cons, List.not_mem_nil, or_false, not_or] at nq
  have fin : ((s.E e).v1 = m.v2 ∧ ((s.E e).v2 = v1 ∨ (s.E e).v2 = v3)) ∨ ((s.E e).v2 = m.v2 ∧ ((s.E e).v1 = v1 ∨ (s.E e).v1 = v3)) →
      e = m.e1 ∨ e = m.e2 := by
    have t1 := t.e1.2
    have t2 := t.e2.2
    unfold Connects at t1 t2
    rintro (⟨a, b | b⟩ | ⟨a, b | b⟩)
    · exact Or.inl (key _ t.e1.1 (by unfold SameEnds; rw [a, b]; clear * - t1; omega))
    · exact Or.inr (key _ t.e2.1 (by unfold SameEnds; rw [a, b]; clear * - t2; omega))
    · exact Or.inl (key _ t.e1.1 (by unfold SameEnds; rw [a, b]; clear * - t1; omega))
    · exact Or.inr (key _ t.e2.1 (by unfold SameEnds; rw [a, b]; clear * - t2; omega))
  apply fin
  rcases h.only hm hf hc with rfl | rfl
  · have := (rot4_side t.qc _ _).mp hs
    simp only [Prod.mk.injEq] at this
    clear * - this nq hv
    omega
  · cases isQ with
    | true =>
      have := (rot4_side (t.nc.1 rfl) _ _).mp hs
      have n2 := rot4_nodup (t.nc.1 rfl) (h.wf.cor m.nbr t.live).1
      simp only [List.nodup_cons, List.mem_cons, List.not_mem_nil, or_false, not_or] at n2
      simp only [Prod.mk.injEq] at this
      clear * - this nq n2 hv
      omega
    | false =>
      have := (rot3_side (t.nc.2 rfl) _ _).mp hs
      simp only [Prod.mk.injEq] at this
      clear * - this nq hv
      omega

/-- No boundary edge ends at a vertex that vanishes. -/
theorem bdry_stay (h : Plan s isQ ms) {b : Nat} (hb : b ∈ s.es .bdry) : (s.E b).v1 ∉ goneOf ms ∧ (s.E b).v2 ∉ goneOf ms := by
  have key : ∀ m ∈ ms, ¬ ((s.E b).v1 = m.v2 ∨ (s.E b).v2 = m.v2) := by
    intro m hm hv
    obtain ⟨v1, v3, t⟩ := h.twins m hm
    have h1 := ((h.wf.ends .bdry).2 b hb).1
    rcases h.edge_at hm (Or.inr hb) hv with rfl | rfl
    · have := ((h.wf.ends .intr).2 _ t.e1.1).1; rw [h1] at this; cases this
    · have := ((h.wf.ends .intr).2 _ t.e2.1).1; rw [h1] at this; cases this
  constructor
  · intro hg
    obtain ⟨m, hm, hv⟩ := List.mem_map.mp hg
    exact key m hm (Or.inl hv.symm)
  · intro hg
    obtain ⟨m, hm, hv⟩ := List.mem_map.mp hg
    exact key m hm (Or.inr hv.symm)

theorem ends_e (h : Plan s isQ ms) {m : Merge} (hm : m ∈ ms) :
    ((s.E m.e1).v1 = m.v2 ∨ (s.E m.e1).v2 = m.v2) ∧ ((s.E m.e2).v1 = m.v2 ∨ (s.E m.e2).v2 = m.v2) ∧ m.e1 ≠ m.e2 ∧
    m.e1 ∈ s.es .intr ∧ m.e2 ∈ s.es .intr := by
  obtain ⟨v1, v3, t⟩ := h.twins m hm
  have nq := rot4_nodup t.qc (h.wf.cor (.quad m.q) t.q).1
  simp only [List.nodup_cons, List.mem_cons, List.not_mem_nil, or_false, not_or] at nq
  have t1 := t.e1.2
  have t2 := t.e2.2
  unfold Connects at t1 t2
  refine ⟨by clear * - t1; omega, by clear * - t2; omega, fun heq => ?_, t.e1.1, t.e2.1⟩
  rw [heq] at t1
  clear * - t1 t2 nq
  omega

/-- An end of an edge of one merge is no common vertex of another one. -/
theorem ends_sep (h : Plan s isQ ms) {m m' : Merge} (hm : m ∈ ms) (hm' : m' ∈ ms) {e : Nat} (he : e = m.e1 ∨ e = m.e2)
    (hv : (s.E e).v1 = m'.v2 ∨ (s.E e).v2 = m'.v2) : m = m' := by
  obtain ⟨v1, v3, t⟩ := h.twins m hm
  have hc : ∀ x, x = v1 ∨ x = m.v2 ∨ x = v3 → x ∈ (s.F (.quad m.q)).corners := by
    intro x hx
    rw [rot4_mem t.qc]
    clear * - hx
    omega
  refine h.sep hm hm' (Or.inl rfl) (hc _ ?_)
  have t1 := t.e1.2
  have t2 := t.e2.2
  unfold Connects at t1 t2
  rcases he with rfl | rfl
  · clear * - t1 hv; omega
  · clear * - t2 hv; omega

theorem edges_nodup (h : Plan s isQ ms) : (ms.flatMap fun m => [m.e1, m.e2]).Nodup := by
  rw [List.nodup_flatMap]
  refine ⟨fun m hm => by have := (h.ends_e hm).2.2.1; simp [this], ?_⟩
  refine List.Nodup.pairwise_of_forall_ne h.msnd ?_
  intro m hm m' hm' hne x hx hx'
  simp only [List.mem_cons, List.not_mem_nil, or_false] at hx hx'
  apply hne
  refine h.ends_sep hm hm' hx ?_
  obtain ⟨a, b, -⟩ := h.ends_e hm'
  rcases hx' with rfl | rfl
  · exact a
  · exact b

/-- The removed edges are those at the vertices that vanish. -/
theorem mem_edges (h : Plan s isQ ms) {e : Nat} (he : e ∈ s.es .intr) :
    e ∈ (ms.flatMap fun m => [m.e1, m.e2]) ↔ ((s.E e).v1 ∈ goneOf ms ∨ (s.E e).v2 ∈ goneOf ms) := by
  simp only [List.mem_flatMap, List.mem_cons, List.not_mem_nil, or_false]
  constructor
  · rintro ⟨m, hm, hx⟩
    have hg : m.v2 ∈ goneOf ms := List.mem_map_of_mem hm
    obtain ⟨a, b, -⟩ := h.ends_e hm
    rcases hx with rfl | rfl
    · rcases a with a | a <;> rw [a] <;> tauto
    · rcases b with b | b <;> rw [b] <;> tauto
  · rintro (hg | hg)
    · obtain ⟨m, hm, hv⟩ := List.mem_map.mp hg
      exact ⟨m, hm, h.edge_at hm (Or.inl he) (Or.inl hv.symm)⟩
    · obtain ⟨m, hm, hv⟩ := List.mem_map.mp hg
      exact ⟨m, hm, h.edge_at hm (Or.inl he) (Or.inr hv.symm)⟩

end Plan
end TQ.Whole

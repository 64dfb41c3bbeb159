import Verif.Domain.EditSpec
import Mathlib.Data.List.Flatten
import Mathlib.Data.List.Perm.Basic
import Mathlib.Tactic.Tauto

set_option linter.unusedSectionVars false

namespace TQ
namespace DE

/-- `Sound` and the numbers of the objects lie below the counters. -/
structure Inv (s : St) : Prop extends Sound s where
  verts_lt : ∀ v ∈ s.verts, v < s.nv
  edges_lt : ∀ e ∈ s.bdrys.flatten ++ s.fixedE, e < s.ne

theorem inv_empty : Inv {} := by
  constructor
  · constructor <;> simp
  · simp
  · simp

theorem inv_pushVertex {s : St} (h : Inv s) (b : Bool)
    (fv : List Nat) (hfv : fv = if b then s.fixedV ++ [s.nv] else s.fixedV) :
    Inv { pushVertex s b with fixedV := fv } := by
  have hn : s.nv ∉ s.verts := fun hm => Nat.lt_irrefl _ (h.verts_lt _ hm)
  have hnf : s.nv ∉ s.fixedV := fun hm => hn ((h.fixed_iff _).1 hm).1
  have hne : ∀ v ∈ s.verts, v ≠ s.nv := fun v hv e => hn (e ▸ hv)
  refine ⟨⟨?_, h.edges_nodup, ?_, ?_, ?_, ?_, ?_⟩, ?_, h.edges_lt⟩
  · simp only [pushVertex]
    exact List.nodup_append.2 ⟨h.verts_nodup, by simp, by
      intro a ha b hb; simp only [List.mem_singleton] at hb; exact hb ▸ hne a ha⟩
  · intro e he
    obtain ⟨h1, h2, h3⟩ := h.ends_mem e he
    exact ⟨by simp [pushVertex, h1], by simp [pushVertex, h2], h3⟩
  · intro v hv e
    simp only [pushVertex, List.mem_append, List.mem_singleton] at hv
    rcases hv with hv | rfl
    · simp only [pushVertex]
      rw [Function.update_of_ne (hne v hv)]
      exact h.inc_iff v hv e
    · simp only [pushVertex, Function.update_self, List.not_mem_nil, false_iff]
      rintro ⟨he, h1 | h1⟩
      · exact hn (h1 ▸ (h.ends_mem e he).1)
      · exact hn (h1 ▸ (h.ends_mem e he).2.1)
  · intro v hv
    simp only [pushVertex, List.mem_append, List.mem_singleton] at hv
    rcases hv with hv | rfl
    · simp only [pushVertex]
      rw [Function.update_of_ne (hne v hv)]
      exact h.inc_nodup v hv
    · simp [pushVertex]
  · intro v
    subst hfv
    by_cases hv : v = s.nv
    · subst hv
      cases b <;> simp [pushVertex, hnf]
    · have := h.fixed_iff v
      cases b <;> simp [pushVertex, hv, this]
  · subst hfv
    cases b
    · exact h.fixed_nodup
    · simp only [if_true]
      exact List.nodup_append.2 ⟨h.fixed_nodup, by simp, by
        intro a ha b hb; simp only [List.mem_singleton] at hb; rintro rfl; exact hnf (hb ▸ ha)⟩
  · intro v hv
    simp only [pushVertex, List.mem_append, List.mem_singleton] at hv ⊢
    rcases hv with hv | rfl
    · exact Nat.lt_succ_of_lt (h.verts_lt v hv)
    · exact Nat.lt_succ_self _

theorem inv_removeVertex {s : St} (h : Inv s) (v : Nat) (fv : List Nat)
    (hfv : ∀ u, u ∈ fv ↔ u ∈ s.fixedV ∧ u ≠ v) (hnd : fv.Nodup)
    (hno : ∀ e ∈ s.bdrys.flatten ++ s.fixedE, (s.ends e).1 ≠ v ∧ (s.ends e).2 ≠ v) :
    Inv (removeVertex { s with fixedV := fv } v) := by
  have hm : ∀ u, u ∈ (removeVertex { s with fixedV := fv } v).verts ↔ u ∈ s.verts ∧ u ≠ v := by
    intro u; simp [removeVertex]
  refine ⟨⟨?_, h.edges_nodup, ?_, ?_, ?_, ?_, hnd⟩, ?_, h.edges_lt⟩
  · exact h.verts_nodup.filter _
  · intro e he
    obtain ⟨h1, h2, h3⟩ := h.ends_mem e he
    obtain ⟨n1, n2⟩ := hno e he
    exact ⟨(hm _).2 ⟨h1, n1⟩, (hm _).2 ⟨h2, n2⟩, h3⟩
  · intro u hu e
    exact h.inc_iff u ((hm u).1 hu).1 e
  · intro u hu
    exact h.inc_nodup u ((hm u).1 hu).1
  · intro u
    rw [hm]
    change u ∈ fv ↔ _
    rw [hfv, h.fixed_iff]
    change _ ↔ _ ∧ s.fixedFlag u = true
    tauto
  · intro u hu
    exact h.verts_lt u ((hm u).1 hu).1

/-- A new edge, put into one of the lists. -/
theorem inv_newEdge {s : St} (h : Inv s) {v w : Nat} (hv : v ∈ s.verts) (hw : w ∈ s.verts) (hvw : v ≠ w)
    (bs : List (List Nat)) (fe : List Nat)
    (hp : (bs.flatten ++ fe).Perm (s.ne :: (s.bdrys.flatten ++ s.fixedE))) :
    Inv { newEdge s v w with bdrys := bs, fixedE := fe } := by
  have hn : s.ne ∉ s.bdrys.flatten ++ s.fixedE := fun hm => Nat.lt_irrefl _ (h.edges_lt _ hm)
  have hmem : ∀ e, e ∈ bs.flatten ++ fe ↔ e = s.ne ∨ e ∈ s.bdrys.flatten ++ s.fixedE := by
    intro e; rw [hp.mem_iff, List.mem_cons]
  have hends : ∀ e ∈ s.bdrys.flatten ++ s.fixedE, (newEdge s v w).ends e = s.ends e := by
    intro e he
    simp only [newEdge]
    rw [Function.update_of_ne]
    rintro rfl; exact hn he
  have hself : (newEdge s v w).ends s.ne = (v, w) := by simp [newEdge]
  have hninc : ∀ u ∈ s.verts, s.ne ∉ s.inc u := fun u hu hm => hn ((h.inc_iff u hu _).1 hm).1
  have hinc : ∀ u, (newEdge s v w).inc u =
      if u = v ∨ u = w then s.inc u ++ [s.ne] else s.inc u := by
    intro u
    simp only [newEdge]
    by_cases h1 : u = w
    · subst h1
      rw [Function.update_self, Function.update_of_ne (Ne.symm hvw)]
      simp
    · rw [Function.update_of_ne h1]
      by_cases h2 : u = v
      · subst h2; simp
      · rw [Function.update_of_ne h2]; simp [h1, h2]
  refine ⟨⟨h.verts_nodup, ?_, ?_, ?_, ?_, h.fixed_iff, h.fixed_nodup⟩, h.verts_lt, ?_⟩
  · exact hp.nodup_iff.2 (List.nodup_cons.2 ⟨hn, h.edges_nodup⟩)
  · intro e he
    rcases (hmem e).1 he with rfl | he
    · change ((newEdge s v w).ends s.ne).1 ∈ s.verts ∧ _
      refine ⟨by rw [hself]; exact hv, ?_, ?_⟩
      · change ((newEdge s v w).ends s.ne).2 ∈ s.verts
        rw [hself]; exact hw
      · change ((newEdge s v w).ends s.ne).1 ≠ ((newEdge s v w).ends s.ne).2
        rw [hself]; exact hvw
    · have := h.ends_mem e he
      rw [← hends e he] at this
      exact this
  · intro u hu e
    change e ∈ (newEdge s v w).inc u ↔ e ∈ bs.flatten ++ fe ∧
      (((newEdge s v w).ends e).1 = u ∨ ((newEdge s v w).ends e).2 = u)
    rw [hmem, hinc]
    have hu' : u ∈ s.verts := hu
    by_cases he : e = s.ne
    · subst he
      rw [hself]
      have := hninc u hu'
      split
      · rename_i hc
        simp only [List.mem_append, List.mem_singleton, or_true, true_or, true_and, true_iff]
        rcases hc with rfl | rfl <;> simp
      · rename_i hc
        simp only [true_or, true_and, this, false_iff]
        rintro (rfl | rfl) <;> simp at hc
    · have hl : e ∈ (if u = v ∨ u = w then s.inc u ++ [s.ne] else s.inc u) ↔ e ∈ s.inc u := by
        split <;> simp [he]
      rw [hl, h.inc_iff u hu' e]
      constructor
      · rintro ⟨hm, ho⟩
        exact ⟨Or.inr hm, by rw [hends e hm]; exact ho⟩
      · rintro ⟨hm | hm, ho⟩
        · exact absurd hm he
        · rw [hends e hm] at ho
          exact ⟨hm, ho⟩
  · intro u hu
    change ((newEdge s v w).inc u).Nodup
    rw [hinc]
    have hu' : u ∈ s.verts := hu
    split
    · exact List.nodup_append.2 ⟨h.inc_nodup u hu', by simp, by
        intro a ha b hb; simp only [List.mem_singleton] at hb; rintro rfl; exact hninc u hu' (hb ▸ ha)⟩
    · exact h.inc_nodup u hu'
  · intro e he
    rcases (hmem e).1 he with rfl | he
    · exact Nat.lt_succ_self _
    · exact Nat.lt_succ_of_lt (h.edges_lt e he)

/-- An edge taken out of its list. -/
theorem inv_detach {s : St} (h : Inv s) {e : Nat}
    (bs : List (List Nat)) (fe : List Nat)
    (hmem : ∀ f, f ∈ bs.flatten ++ fe ↔ f ∈ s.bdrys.flatten ++ s.fixedE ∧ f ≠ e)
    (hnd : (bs.flatten ++ fe).Nodup) :
    Inv { detach s e with bdrys := bs, fixedE := fe } := by
  have hinc : ∀ u, ((detach s e).inc u) =
      if u = (s.ends e).1 ∨ u = (s.ends e).2 then (s.inc u).filter (· ≠ e) else s.inc u := by
    intro u
    simp only [detach]
    by_cases h1 : u = (s.ends e).2
    · subst h1
      rw [Function.update_self]
      by_cases h2 : (s.ends e).2 = (s.ends e).1
      · rw [h2, Function.update_self]; simp [List.filter_filter]
      · rw [Function.update_of_ne h2]; simp
    · rw [Function.update_of_ne h1]
      by_cases h2 : u = (s.ends e).1
      · subst h2; simp
      · rw [Function.update_of_ne h2]; simp [h1, h2]
  refine ⟨⟨h.verts_nodup, hnd, ?_, ?_, ?_, h.fixed_iff, h.fixed_nodup⟩, h.verts_lt, ?_⟩
  · intro f hf
    exact h.ends_mem f ((hmem f).1 hf).1
  · intro u hu f
    change f ∈ (detach s e).inc u ↔ f ∈ bs.flatten ++ fe ∧ ((s.ends f).1 = u ∨ (s.ends f).2 = u)
    rw [hmem, hinc]
    have hi := h.inc_iff u hu f
    split
    · simp only [List.mem_filter, decide_eq_true_eq, hi]
      tauto
    · rename_i hc
      rw [hi]
      constructor
      · rintro ⟨hm, ho⟩
        refine ⟨⟨hm, ?_⟩, ho⟩
        rintro rfl
        rcases ho with ho | ho <;> simp [ho] at hc
      · rintro ⟨⟨hm, _⟩, ho⟩; exact ⟨hm, ho⟩
  · intro u hu
    change ((detach s e).inc u).Nodup
    rw [hinc]
    split
    · exact (h.inc_nodup u hu).filter _
    · exact h.inc_nodup u hu
  · intro f hf
    exact h.edges_lt f ((hmem f).1 hf).1

theorem perm_modify_append (bs : List (List Nat)) (b e : Nat) (hb : b < bs.length) :
    (bs.modify b (· ++ [e])).flatten.Perm (e :: bs.flatten) := by
  induction bs generalizing b with
  | nil => simp at hb
  | cons x xs ih =>
    cases b with
    | zero =>
      simp only [List.modify_zero_cons, List.flatten_cons, List.append_assoc, List.singleton_append]
      exact List.perm_middle
    | succ b =>
      simp only [List.modify_succ_cons, List.flatten_cons]
      refine ((ih b (by simpa using hb)).append_left x).trans ?_
      exact List.perm_middle

theorem flatten_modify_filter (bs : List (List Nat)) (b e : Nat) (es : List Nat) (hb : bs[b]? = some es)
    (he : e ∈ es) (hnd : bs.flatten.Nodup) :
    (bs.modify b (·.filter (· ≠ e))).flatten = bs.flatten.filter (· ≠ e) := by
  induction bs generalizing b with
  | nil => simp at hb
  | cons x xs ih =>
    rw [List.flatten_cons, List.nodup_append] at hnd
    obtain ⟨hx, hxs, hd⟩ := hnd
    cases b with
    | zero =>
      simp only [List.getElem?_cons_zero, Option.some.injEq] at hb
      subst hb
      simp only [List.modify_zero_cons, List.flatten_cons, List.filter_append]
      congr 1
      symm
      rw [List.filter_eq_self]
      intro a ha
      simp only [decide_eq_true_eq]
      rintro rfl
      exact hd a he a ha rfl
    | succ b =>
      simp only [List.getElem?_cons_succ] at hb
      simp only [List.modify_succ_cons, List.flatten_cons, List.filter_append]
      rw [ih b hb hxs]
      congr 1
      symm
      rw [List.filter_eq_self]
      intro a ha
      simp only [decide_eq_true_eq]
      rintro rfl
      refine hd a ha a ?_ rfl
      exact List.mem_flatten.2 ⟨es, List.mem_of_getElem? hb, he⟩

theorem flatten_eraseIdx_nil (bs : List (List Nat)) (b : Nat) (hb : bs[b]? = some []) :
    (bs.eraseIdx b).flatten = bs.flatten := by
  induction bs generalizing b with
  | nil => simp at hb
  | cons x xs ih =>
    cases b with
    | zero =>
      simp only [List.getElem?_cons_zero, Option.some.injEq] at hb
      subst hb; simp
    | succ b =>
      simp only [List.getElem?_cons_succ] at hb
      simp [ih b hb]

/-- Only the edges of the lists matter. -/
theorem inv_of_flatten {s : St} (h : Inv s) (bs : List (List Nat)) (hf : bs.flatten = s.bdrys.flatten) :
    Inv { s with bdrys := bs } := by
  refine ⟨⟨h.verts_nodup, ?_, ?_, ?_, h.inc_nodup, h.fixed_iff, h.fixed_nodup⟩, h.verts_lt, ?_⟩
  · change (bs.flatten ++ s.fixedE).Nodup
    rw [hf]; exact h.edges_nodup
  · intro e he
    change e ∈ bs.flatten ++ s.fixedE at he
    rw [hf] at he; exact h.ends_mem e he
  · intro u hu e
    change e ∈ s.inc u ↔ e ∈ bs.flatten ++ s.fixedE ∧ _
    rw [hf]; exact h.inc_iff u hu e
  · intro e he
    change e ∈ bs.flatten ++ s.fixedE at he
    rw [hf] at he; exact h.edges_lt e he

theorem inv_step {s t : St} {o : Op} (h : Inv s) (hc : Careful s o) (hs : step s o = some t) : Inv t := by
  cases o with
  | addVertex =>
    simp only [step, Option.some.injEq] at hs
    subst hs
    exact inv_pushVertex h false s.fixedV rfl
  | removeVertex v =>
    simp only [step] at hs
    split at hs <;> simp only [Option.some.injEq, reduceCtorEq] at hs
    subst hs
    refine inv_removeVertex h v s.fixedV ?_ h.fixed_nodup hc.2
    intro u
    constructor
    · intro hu
      refine ⟨hu, ?_⟩
      rintro rfl
      have := ((h.fixed_iff u).1 hu).2
      rw [hc.1] at this
      exact absurd this (by simp)
    · exact fun hu => hu.1
  | addFixedVertex =>
    simp only [step, Option.some.injEq] at hs
    subst hs
    exact inv_pushVertex h true _ rfl
  | removeFixedVertex v =>
    simp only [step] at hs
    split at hs <;> simp only [Option.some.injEq, reduceCtorEq] at hs
    subst hs
    refine inv_removeVertex h v (s.fixedV.filter (· ≠ v)) ?_ (h.fixed_nodup.filter _) hc
    intro u; simp
  | insertBoundary pos =>
    simp only [step] at hs
    split at hs <;> simp only [Option.some.injEq, reduceCtorEq] at hs
    subst hs
    refine inv_of_flatten h _ ?_
    rw [List.flatten_append, List.flatten_cons, List.nil_append, ← List.flatten_append, List.take_append_drop]
  | removeBoundary pos =>
    simp only [step] at hs
    split at hs <;> simp only [Option.some.injEq, reduceCtorEq] at hs
    subst hs
    exact inv_of_flatten h _ (flatten_eraseIdx_nil _ _ hc)
  | addBdryEdge b v w =>
    simp only [step] at hs
    split at hs <;> simp only [Option.some.injEq, reduceCtorEq] at hs
    rename_i hg
    subst hs
    refine inv_newEdge h hg.2.1 hg.2.2.1 hg.2.2.2 _ s.fixedE ?_
    exact (perm_modify_append s.bdrys b s.ne hg.1).append_right s.fixedE
  | removeBdryEdge b e =>
    simp only [step] at hs
    rcases hb : s.bdrys[b]? with _ | es
    · rw [hb] at hs; exact absurd hs (by simp)
    rw [hb] at hs
    dsimp only at hs
    split at hs <;> simp only [Option.some.injEq, reduceCtorEq] at hs
    rename_i he
    subst hs
    have hnd := List.nodup_append.1 h.edges_nodup
    have hfl := flatten_modify_filter s.bdrys b e es hb he hnd.1
    have hmem : e ∈ s.bdrys.flatten := List.mem_flatten.2 ⟨es, List.mem_of_getElem? hb, he⟩
    refine inv_detach h _ s.fixedE ?_ ?_
    · intro f
      rw [hfl]
      simp only [List.mem_append, List.mem_filter, decide_eq_true_eq]
      constructor
      · rintro (h1 | h1)
        · exact ⟨Or.inl h1.1, h1.2⟩
        · exact ⟨Or.inr h1, fun hfe => hnd.2.2 e hmem f h1 hfe.symm⟩
      · rintro ⟨h1 | h1, h2⟩
        · exact Or.inl ⟨h1, h2⟩
        · exact Or.inr h1
    · rw [hfl]
      refine List.nodup_append.2 ⟨hnd.1.filter _, hnd.2.1, ?_⟩
      intro a ha b hb
      exact hnd.2.2 a (List.mem_of_mem_filter ha) b hb
  | addFixedEdge v w =>
    simp only [step] at hs
    split at hs <;> simp only [Option.some.injEq, reduceCtorEq] at hs
    rename_i hg
    subst hs
    refine inv_newEdge h hg.1 hg.2.1 hg.2.2 s.bdrys _ ?_
    rw [← List.append_assoc]
    exact List.perm_append_singleton _ _
  | removeFixedEdge e =>
    simp only [step] at hs
    split at hs <;> simp only [Option.some.injEq, reduceCtorEq] at hs
    rename_i he
    subst hs
    have hnd := List.nodup_append.1 h.edges_nodup
    refine inv_detach h s.bdrys _ ?_ ?_
    · intro f
      simp only [List.mem_append, List.mem_filter, decide_eq_true_eq]
      constructor
      · rintro (h1 | h1)
        · exact ⟨Or.inl h1, fun hfe => hnd.2.2 f h1 e he hfe⟩
        · exact ⟨Or.inr h1.1, h1.2⟩
      · rintro ⟨h1 | h1, h2⟩
        · exact Or.inl h1
        · exact Or.inr ⟨h1, h2⟩
    · refine List.nodup_append.2 ⟨hnd.1, hnd.2.1.filter _, ?_⟩
      intro a ha b hb
      exact hnd.2.2 a ha b (List.mem_of_mem_filter hb)

theorem inv_run {s t : St} {os : List Op} (h : Inv s) (hr : CarefulRun s os t) : Inv t := by
  induction hr with
  | nil => exact h
  | cons hc hs _ ih => exact ih (inv_step h hc hs)

theorem run_of_carefulRun {s t : St} {os : List Op} (hr : CarefulRun s os t) : run s os = some t := by
  induction hr with
  | nil => rfl
  | cons hc hs _ ih => simp [run, hs, ih]

theorem carefulRun_of_adds {s t : St} {os : List Op} (ha : ∀ o ∈ os, Adds o) (hr : run s os = some t) :
    CarefulRun s os t := by
  induction os generalizing s with
  | nil =>
    simp only [run, Option.some.injEq] at hr
    subst hr; exact .nil s
  | cons o os ih =>
    simp only [run] at hr
    rcases hu : step s o with _ | u
    · rw [hu] at hr; exact absurd hr (by simp)
    rw [hu] at hr
    dsimp only at hr
    refine .cons ?_ hu (ih (fun o ho => ha o (List.mem_cons_of_mem _ ho)) hr)
    have := ha o List.mem_cons_self
    cases o <;> simp [Adds, Careful] at this ⊢

/-! ## The next edge -/

theorem eq_of_mem_flatten {bs : List (List Nat)} (hnd : bs.flatten.Nodup) {b c : List Nat} {e : Nat}
    (hb : b ∈ bs) (hc : c ∈ bs) (heb : e ∈ b) (hec : e ∈ c) : b = c := by
  induction bs with
  | nil => simp at hb
  | cons x xs ih =>
    rw [List.flatten_cons, List.nodup_append] at hnd
    rcases List.mem_cons.1 hb with hb1 | hb1 <;> rcases List.mem_cons.1 hc with hc1 | hc1
    · rw [hb1, hc1]
    · exact absurd rfl (hnd.2.2 e (hb1 ▸ heb) e (List.mem_flatten.2 ⟨c, hc1, hec⟩))
    · exact absurd rfl (hnd.2.2 e (hc1 ▸ hec) e (List.mem_flatten.2 ⟨b, hb1, heb⟩))
    · exact ih hnd.2.1 hb1 hc1

theorem sameList_iff {s : St} {e f : Nat} (h : Sound s) {b : List Nat} (hb : b ∈ s.bdrys) (he : e ∈ b) :
    sameList s e f = true ↔ f ∈ b := by
  have hnd := List.nodup_append.1 h.edges_nodup
  simp only [sameList, Bool.or_eq_true, List.any_eq_true, Bool.and_eq_true, List.contains_iff_mem]
  constructor
  · rintro (⟨c, hc, h1, h2⟩ | ⟨h1, _⟩)
    · by_cases hbc : b = c
      · exact hbc ▸ h2
      · exfalso
        exact hbc (eq_of_mem_flatten hnd.1 hb hc he h1)
    · exact absurd rfl (hnd.2.2 e (List.mem_flatten.2 ⟨b, hb, he⟩) e h1)
  · intro hf
    exact Or.inl ⟨b, hb, he, hf⟩

theorem nextLoop_spec {s : St} {e : Nat} (l : List Nat) (hl : ∀ f ∈ l, f ∈ edges s) :
    ∃ r, nextLoop s e l = some r ∧
      (∀ f, r = some f → f ∈ l ∧ f ≠ e ∧ sameList s e f = true ∧ (s.ends f).1 = (s.ends e).2) ∧
      (r = none → ∀ f ∈ l, f ≠ e → sameList s e f = true → (s.ends f).1 ≠ (s.ends e).2) := by
  induction l with
  | nil => exact ⟨none, rfl, by simp, by simp⟩
  | cons g gs ih =>
    obtain ⟨r, h1, h2, h3⟩ := ih (fun f hf => hl f (List.mem_cons_of_mem _ hf))
    have skip : (g ≠ e → sameList s e g = true → (s.ends g).1 ≠ (s.ends e).2) →
        nextLoop s e (g :: gs) = nextLoop s e gs →
        ∃ r, nextLoop s e (g :: gs) = some r ∧
        (∀ f, r = some f → f ∈ g :: gs ∧ f ≠ e ∧ sameList s e f = true ∧ (s.ends f).1 = (s.ends e).2) ∧
        (r = none → ∀ f ∈ g :: gs, f ≠ e → sameList s e f = true → (s.ends f).1 ≠ (s.ends e).2) := by
      intro hg heq
      refine ⟨r, by rw [heq, h1], ?_, ?_⟩
      · intro f hf
        obtain ⟨a, b⟩ := h2 f hf
        exact ⟨List.mem_cons_of_mem _ a, b⟩
      · intro hr f hf
        rcases List.mem_cons.1 hf with rfl | hf
        · exact hg
        · exact h3 hr f hf
    by_cases c1 : g = e
    · exact skip (fun h => absurd c1 h) (by simp [nextLoop, c1])
    by_cases c2 : sameList s e g = false
    · refine skip (fun _ h => ?_) (by simp [nextLoop, c1, c2, hl g List.mem_cons_self])
      rw [c2] at h; exact absurd h (by simp)
    by_cases c3 : (s.ends g).1 ≠ (s.ends e).2
    · exact skip (fun _ _ => c3) (by simp [nextLoop, c1, c2, c3, hl g List.mem_cons_self])
    refine ⟨some g, by simp [nextLoop, c1, c2, c3, hl g List.mem_cons_self], ?_, by simp⟩
    intro f hf
    simp only [Option.some.injEq] at hf
    subst hf
    exact ⟨List.mem_cons_self, c1, by simpa using c2, by simpa using c3⟩

end DE
end TQ

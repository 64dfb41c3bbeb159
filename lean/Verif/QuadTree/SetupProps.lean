import Verif.QuadTree.SetupSpec
import Verif.QuadTree.Props

/-! # C196: the extent and the limits of a search tree can be changed while it is empty -/

set_option linter.unusedSectionVars false

namespace TQ
open QTSpec QT
variable {α K : Type*} [DecidableEq α] [Field K] [LinearOrder K] [IsStrictOrderedRing K]

/-- The tree has the settings of the view and stores its items. -/
structure Shows (pos : α → Pt K) (r : Root α K) (σ : View α K) : Prop where
  mi : r.mi = σ.mi
  md : r.md = σ.md
  b : r.b = σ.b
  sp : 0 < r.b.s
  nodup : σ.S.Nodup
  wf : WF r.mi pos r.md r.b r.t
  items : (toList r.t).Perm σ.S

theorem Shows.empty_iff {pos : α → Pt K} {r : Root α K} {σ : View α K} (h : Shows pos r σ) : (r.t.isSplit || decide (r.t.size > 0)) = true ↔ σ.S ≠ [] := by
  have hsz : r.t.size = σ.S.length := by rw [h.wf.size_eq, h.items.length_eq]
  rw [Bool.or_eq_true, decide_eq_true_eq, hsz]
  constructor
  · rintro (hs | hs)
    · rintro h0
      have hw := h.wf
      cases ht : r.t with
      | leaf n l => rw [ht] at hs; cases hs
      | node n c0 c1 c2 c3 =>
        rw [ht] at hw
        rw [ht, h0] at hsz
        cases hd : r.md with
        | zero => rw [hd] at hw; exact hw.elim
        | succ d =>
          rw [hd] at hw
          have := (WF_node.mp hw).1.1
          simp only [QT.size, List.length_nil] at hsz
          omega
    · intro h0; rw [h0] at hs; exact absurd hs (by simp)
  · intro hs; right; exact List.length_pos_iff.mpr hs

theorem Shows.empty_tree {pos : α → Pt K} {r : Root α K} {σ : View α K} (h : Shows pos r σ) (h0 : σ.S = []) : r.t = QT.empty := by
  have h1 : ¬ (r.t.isSplit || decide (r.t.size > 0)) = true := fun hc => h.empty_iff.mp hc h0
  have h2 := h.items
  rw [h0] at h2
  cases ht : r.t with
  | leaf n l =>
    rw [ht] at h1 h2
    simp only [QT.isSplit, QT.size, Bool.false_or, decide_eq_true_eq] at h1
    simp only [toList] at h2
    rw [List.perm_nil.mp h2, show n = 0 by simpa using h1]
    rfl
  | node n c0 c1 c2 c3 => rw [ht] at h1; simp [QT.isSplit] at h1

theorem update_shows {pos : α → Pt K} {r : Root α K} {σ τ : View α K} (h : Shows pos r σ) (hS : τ.S = σ.S) :
    match setting σ τ with
    | .done (τ', os) => os = [] ∧ ∃ r', updateAttributes r τ.b.s τ.mi τ.md τ.b.c = .done r' ∧ Shows pos r' τ'
    | .exit => updateAttributes r τ.b.s τ.mi τ.md τ.b.c = .exit
    | .abort => updateAttributes r τ.b.s τ.mi τ.md τ.b.c = .abort := by
  unfold setting updateAttributes
  by_cases h0 : σ.S = []
  · have h1 : ¬ (r.t.isSplit || decide (r.t.size > 0)) = true := fun hc => h.empty_iff.mp hc h0
    rw [if_neg (not_not.mpr h0), if_neg h1]
    by_cases hp : 0 < τ.b.s
    · rw [if_pos hp]
      refine ⟨rfl, _, if_pos hp, rfl, rfl, rfl, hp, by rw [hS, h0]; exact List.nodup_nil, ?_, by rw [hS]; exact h.items⟩
      rw [h.empty_tree h0]
      exact WF_empty _ _ _ _
    · rw [if_neg hp, if_neg hp]
  · rw [if_pos h0, if_pos (h.empty_iff.mpr h0)]

theorem call_shows {pos : α → Pt K} {r : Root α K} {σ : View α K} (h : Shows pos r σ) (c : Call α K) (hc : MayCall pos σ c) :
    match effect pos σ c with
    | .done (σ', os) => ∃ r', call pos r c = .done (r', os) ∧ Shows pos r' σ'
    | .exit => call pos r c = .exit
    | .abort => call pos r c = .abort := by
  have setter : ∀ τ : View α K, τ.S = σ.S → ∀ e, e = updateAttributes r τ.b.s τ.mi τ.md τ.b.c →
      match setting σ τ with
      | .done (σ', os) => ∃ r', (match e with | .done r' => (.done (r', []) : Ends (Root α K × List Bool)) | .exit => .exit | .abort => .abort) = .done (r', os) ∧ Shows pos r' σ'
      | .exit => (match e with | .done r' => (.done (r', []) : Ends (Root α K × List Bool)) | .exit => .exit | .abort => .abort) = .exit
      | .abort => (match e with | .done r' => (.done (r', []) : Ends (Root α K × List Bool)) | .exit => .exit | .abort => .abort) = .abort := by
    rintro τ hS e rfl
    have := update_shows h hS
    rcases hset : setting σ τ with ⟨τ', os⟩ | _ | _
    · rw [hset] at this
      obtain ⟨rfl, r', e1, e2⟩ := this
      simp only [e1]
      exact ⟨r', rfl, e2⟩
    · rw [hset] at this
      simp only [this]
    · rw [hset] at this
      simp only [this]
  have hs : 0 ≤ r.b.s := h.sp.le
  have op : ∀ o : Op α, Legal pos σ.b σ.S o → ∃ t', WF r.mi pos r.md r.b t' ∧ (toList t').Perm (step pos σ.b σ.S o) ∧ (step pos σ.b σ.S o).Nodup ∧
      exec r.mi r.md pos r.b r.t [o] = some (t', [expected pos σ.b o]) := by
    intro o hl
    rw [← h.b] at hl ⊢
    obtain ⟨t', w, p, n, e⟩ := step_inv r.mi r.md pos r.b hs σ.S h.nodup r.t h.wf h.items o hl []
    exact ⟨t', w, p, n, e⟩
  cases c with
  | scale v => exact setter { σ with b := ⟨σ.b.c, v⟩ } rfl _ (by simp only [h.mi, h.md, h.b])
  | maxItem n => exact setter { σ with mi := n } rfl _ (by simp only [h.md, h.b])
  | maxDepth n => exact setter { σ with md := n } rfl _ (by simp only [h.mi, h.b])
  | center p => exact setter { σ with b := ⟨p, σ.b.s⟩ } rfl _ (by simp only [h.mi, h.md, h.b])
  | add x =>
    obtain ⟨t', w, p, n, e⟩ := op (.add x) hc
    simp only [exec, Option.map_some, Option.some.injEq, Prod.mk.injEq] at e
    obtain ⟨rfl, e⟩ := e
    exact ⟨{ r with t := (QT.add r.mi pos r.md x r.b r.t).1 }, by simp only [call, e], h.mi, h.md, h.b, h.sp, n, w, p⟩
  | remove x =>
    obtain ⟨t', w, p, n, e⟩ := op (.remove x) hc
    simp only [exec] at e
    rcases hr : QT.remove r.mi pos x r.b r.t with _ | ⟨t1, o⟩
    · rw [hr] at e; cases e
    · rw [hr] at e
      simp only [Option.map_some, Option.some.injEq, Prod.mk.injEq] at e
      obtain ⟨rfl, e⟩ := e
      exact ⟨{ r with t := t1 }, by simp only [call, hr, e], h.mi, h.md, h.b, h.sp, n, w, p⟩

theorem calls_shows {pos : α → Pt K} : ∀ (cs : List (Call α K)) {r : Root α K} {σ : View α K}, Shows pos r σ → MayCalls pos σ cs →
    match effects pos σ cs with
    | .done (σ', os) => ∃ r', calls pos r cs = .done (r', os) ∧ Shows pos r' σ'
    | .exit => calls pos r cs = .exit
    | .abort => calls pos r cs = .abort
  | [], r, σ, h, _ => ⟨r, rfl, h⟩
  | c :: cs, r, σ, h, hm => by
    have h1 := call_shows h c hm.1
    unfold effects calls
    rcases he : effect pos σ c with ⟨σ1, o⟩ | _ | _
    · rw [he] at h1
      obtain ⟨r1, e1, s1⟩ := h1
      have h2 := calls_shows cs s1 (by have := hm.2; rw [he] at this; exact this)
      simp only [e1]
      rcases he2 : effects pos σ1 cs with ⟨σ2, os⟩ | _ | _
      · rw [he2] at h2
        obtain ⟨r2, e2, s2⟩ := h2
        simp only [e2]
        exact ⟨r2, rfl, s2⟩
      · rw [he2] at h2
        simp only [h2]
      · rw [he2] at h2
        simp only [h2]
    · rw [he] at h1
      simp only [h1]
    · rw [he] at h1
      simp only [h1]

/-- **C196.** Every sequence of additions, removals and changes of settings on a new tree ends as specified, whatever was stored before a
change: with the end of the program just if a setting is changed while an item is stored, with a failed assertion just if
a tree without items gets an extent that is not positive, and otherwise with the values returned that are expected, the
settings of the last changes and exactly the items added since and not removed. -/
theorem C196_session (pos : α → Pt K) (mi md : Nat) (b : Box K) (hb : 0 < b.s) (cs : List (Call α K)) (hm : MayCalls pos ⟨mi, md, b, []⟩ cs) :
    match effects pos ⟨mi, md, b, []⟩ cs with
    | .done (σ, os) => ∃ r, calls pos ⟨mi, md, b, QT.empty⟩ cs = .done (r, os) ∧ r.mi = σ.mi ∧ r.md = σ.md ∧ r.b = σ.b ∧ (toList r.t).Perm σ.S ∧ r.t.size = σ.S.length
    | .exit => calls pos ⟨mi, md, b, QT.empty⟩ cs = .exit
    | .abort => calls pos ⟨mi, md, b, QT.empty⟩ cs = .abort := by
  have h := calls_shows (r := ⟨mi, md, b, QT.empty⟩) cs ⟨rfl, rfl, rfl, hb, List.nodup_nil, WF_empty _ _ _ _, List.Perm.refl _⟩ hm
  rcases he : effects pos ⟨mi, md, b, []⟩ cs with ⟨σ, os⟩ | _ | _
  · rw [he] at h
    obtain ⟨r, e, s⟩ := h
    exact ⟨r, e, s.mi, s.md, s.b, s.items, by rw [s.wf.size_eq, s.items.length_eq]⟩
  · rw [he] at h; exact h
  · rw [he] at h; exact h

/-- **C196.** Searches after such a sequence find exactly the stored items in the rectangle or circle, also if the extent was changed
between. -/
theorem C196_queries (pos : α → Pt K) (mi md : Nat) (b : Box K) (hb : 0 < b.s) (cs : List (Call α K)) (hm : MayCalls pos ⟨mi, md, b, []⟩ cs)
    {σ : View α K} {os : List Bool} (he : effects pos ⟨mi, md, b, []⟩ cs = .done (σ, os)) {r : Root α K} {os' : List Bool}
    (hr : calls pos ⟨mi, md, b, QT.empty⟩ cs = .done (r, os')) (lo up c : Pt K) (d : K) (hd : 0 ≤ d) :
    (getRect pos lo up (rectQuery pos lo up) r.b r.t).Perm (σ.S.filter fun x =>
      decide (lo.x ≤ (pos x).x ∧ (pos x).x ≤ up.x ∧ lo.y ≤ (pos x).y ∧ (pos x).y ≤ up.y)) ∧
    (getCirc pos c d (circQuery pos c (d * d)) r.b r.t).Perm (σ.S.filter fun x =>
      decide (((pos x).x - c.x) ^ 2 + ((pos x).y - c.y) ^ 2 < d ^ 2)) ∧ σ.S.Nodup := by
  have h := calls_shows (r := ⟨mi, md, b, QT.empty⟩) cs ⟨rfl, rfl, rfl, hb, List.nodup_nil, WF_empty _ _ _ _, List.Perm.refl _⟩ hm
  rw [he] at h
  obtain ⟨r1, e, s⟩ := h
  rw [hr] at e
  simp only [Ends.done.injEq, Prod.mk.injEq] at e
  obtain ⟨rfl, -⟩ := e
  refine ⟨?_, ?_, s.nodup⟩
  · rw [getRect_eq lo up r.b r.t s.sp.le s.wf]
    have : rectQuery pos lo up = fun x : α =>
        decide (lo.x ≤ (pos x).x ∧ (pos x).x ≤ up.x ∧ lo.y ≤ (pos x).y ∧ (pos x).y ≤ up.y) := by
      funext x; unfold rectQuery inOnRect
      rw [Bool.eq_iff_iff]; simp only [Bool.and_eq_true, decide_eq_true_eq]; tauto
    rw [this]; exact s.items.filter _
  · rw [getCirc_eq c d hd r.b r.t s.sp.le s.wf]
    have : circQuery pos c (d * d) = fun x : α =>
        decide (((pos x).x - c.x) ^ 2 + ((pos x).y - c.y) ^ 2 < d ^ 2) := by
      funext x; unfold circQuery Pt.normSq; simp only [Pt.sub_x, Pt.sub_y, sq]
    rw [this]; exact s.items.filter _

namespace QSEx
/-- A tree that is filled until it splits, emptied, moved elsewhere and filled again. -/
def cs : List (Call Nat ℚ) :=
  [.maxItem 2, .add 0, .add 1, .add 2, .add 3, .remove 1, .remove 0, .remove 3, .remove 2, .scale 4, .center ⟨2, 0⟩, .maxDepth 3, .add 4, .add 5, .add 6, .add 0]

instance (pos : Nat → Pt ℚ) (σ : View Nat ℚ) (c : Call Nat ℚ) : Decidable (MayCall pos σ c) := by
  cases c <;> unfold MayCall <;> infer_instance

instance decMayCalls (pos : Nat → Pt ℚ) : ∀ (σ : View Nat ℚ) (cs : List (Call Nat ℚ)), Decidable (MayCalls pos σ cs)
  | _, [] => isTrue trivial
  | σ, c :: cs => by
    unfold MayCalls
    refine @instDecidableAnd _ _ inferInstance ?_
    exact match effect pos σ c with
    | .done (σ', _) => decMayCalls pos σ' cs
    | .exit => isTrue trivial
    | .abort => isTrue trivial

theorem legal : MayCalls samplePos ⟨100, 25, sampleBox, []⟩ cs := by decide +kernel

example : effects samplePos ⟨100, 25, sampleBox, []⟩ cs = .done (⟨2, 3, ⟨⟨2, 0⟩, 4⟩, [6, 5, 4]⟩, [true, true, true, true, true, true, true, true, true, true, true, false]) := by
  decide +kernel
/-- The tree is split at the end, and was before it was emptied. -/
example : (match calls samplePos ⟨100, 25, sampleBox, QT.empty⟩ cs with | .done (r, _) => r.t.isSplit | _ => false) = true ∧
    (match calls samplePos ⟨100, 25, sampleBox, QT.empty⟩ (cs.take 5) with | .done (r, _) => r.t.isSplit | _ => false) = true := by decide +kernel
/-- Changing a setting while an item is stored ends the program. -/
example : calls samplePos ⟨100, 25, sampleBox, QT.empty⟩ [.add 0, .scale 20, .add 1] = .exit := by decide +kernel
end QSEx

end TQ

#print axioms TQ.C196_session
#print axioms TQ.C196_queries

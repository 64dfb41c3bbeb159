import Verif.Cleanup.Conn
import Verif.Utils.Props

/-! # Lemmas: end and start of a meshing step -/

set_option linter.unusedSectionVars false
set_option linter.unusedSimpArgs false

namespace TQ.MC
open TQ TQ.MS TQ.MeshSpec TQ.MCSpec TQ.FUSpec MS.St
variable {K : Type*} [Field K] [LinearOrder K]

theorem se_refl (s : St K) : SameElements s s := ⟨rfl, rfl, rfl, fun _ => ⟨rfl, rfl, rfl⟩, fun _ => rfl, rfl⟩

theorem se_trans {s t u : St K} (h : SameElements s t) (g : SameElements t u) : SameElements s u :=
  ⟨g.verts.trans h.verts, g.tris.trans h.tris, g.quads.trans h.quads,
   fun f => ⟨(g.corners f).1.trans (h.corners f).1, (g.corners f).2.1.trans (h.corners f).2.1, (g.corners f).2.2.trans (h.corners f).2.2⟩,
   fun v => (g.pos v).trans (h.pos v), g.area.trans h.area⟩

theorem se_live {s t : St K} (h : SameElements s t) (f : FRef) : Live t f ↔ Live s f := by
  cases f <;> simp [Live, h.tris, h.quads]

theorem se_hasSide {s t : St K} (h : SameElements s t) (f : FRef) (a b : Nat) : HasSide t f a b ↔ HasSide s f a b := by
  unfold HasSide; rw [(h.corners f).1]

theorem se_sbp {s t : St K} (h : SameButPointers s t) : SameElements s t :=
  ⟨h.verts, h.tris, h.quads, fun f => ⟨(h.corners f).1, (h.corners f).2.1, (h.corners f).2.2.1⟩, sbp_pos h, h.area⟩

theorem flagged_setProps (s : St K) (v : Nat) (g : BitVec 8 → BitVec 8) (w : Nat) :
    flagged (s.setProps v g) w ↔ if w = v then Flags.has (g (s.V w).props) Flags.vOnFront = true else flagged s w := by
  unfold flagged setProps
  by_cases h : w = v
  · subst h; simp
  · simp [upd_ne _ _ h, h]

theorem flagged_remove (s : St K) (v w : Nat) :
    flagged (s.setProps v (Flags.remove · Flags.vOnFront)) w ↔ flagged s w ∧ w ≠ v := by
  rw [flagged_setProps]
  by_cases h : w = v
  · subst h; simp [(Flags.C10_bitwise (s.V w).props Flags.vOnFront Flags.vOnFront).2.2.2.2.1]
  · simp [h]

theorem flagged_add (s : St K) (v w : Nat) :
    flagged (s.setProps v (Flags.add · Flags.vOnFront)) w ↔ flagged s w ∨ w = v := by
  rw [flagged_setProps]
  by_cases h : w = v
  · subst h
    simp only [if_true, or_true, iff_true]
    rw [(Flags.C10_bitwise (s.V w).props Flags.vOnFront Flags.vOnFront).2.2.2.1]
    right; decide
  · simp [h]

theorem flagged_addEdge (s : St K) (l : EL) (a b : Nat) (c : Int) (p : BitVec 8) (w : Nat) :
    flagged (s.addEdge l a b c p) w ↔ flagged s w := by
  have : ((s.addEdge l a b c p).V w).props = (s.V w).props := by
    simp only [addEdge, upd]; split_ifs <;> rfl
  unfold flagged; rw [this]

theorem se_setProps (s : St K) (v : Nat) (g : BitVec 8 → BitVec 8) : SameElements s (s.setProps v g) := by
  refine ⟨rfl, rfl, rfl, fun _ => ⟨rfl, rfl, rfl⟩, fun w => ?_, rfl⟩
  simp only [pos, setProps, upd]; split_ifs <;> rfl

theorem se_addEdge (s : St K) (l : EL) (a b : Nat) (c : Int) (p : BitVec 8) : SameElements s (s.addEdge l a b c p) := by
  refine ⟨rfl, rfl, rfl, fun _ => ⟨rfl, rfl, rfl⟩, fun w => ?_, rfl⟩
  simp only [pos, addEdge, upd]; split_ifs <;> rfl

theorem se_removeEdge (s : St K) (e : Nat) : SameElements s (s.removeEdge e) := by
  refine ⟨rfl, rfl, rfl, fun _ => ⟨rfl, rfl, rfl⟩, fun w => ?_, rfl⟩
  simp only [pos, removeEdge, upd]; split_ifs <;> rfl

theorem flagged_removeEdge (s : St K) (e w : Nat) : flagged (s.removeEdge e) w ↔ flagged s w := by
  have : ((s.removeEdge e).V w).props = (s.V w).props := by
    simp only [removeEdge, upd]; split_ifs <;> rfl
  unfold flagged; rw [this]

/-- Ends of an edge. -/
def pairOf (s : St K) (e : Nat) : Nat × Nat := ((s.E e).v1, (s.E e).v2)

/-! ### `add_remaining_front_edges_to_mesh` -/

/-- State after the front edges `P`; `new` are the added interior edges. -/
structure RInv (s t : St K) (P new : List Nat) : Prop where
  wf : WF t
  se : SameElements s t
  nxt : s.nxt ≤ t.nxt
  intr : t.es .intr = s.es .intr ++ new
  front : t.es .front = s.es .front
  bdry : t.es .bdry = s.es .bdry
  old : ∀ e, e < s.nxt → t.E e = s.E e
  newE : new.map (pairOf t) = (P.filter fun e => decide (¬ OnBdry s e)).map (pairOf s)
  newP : ∀ k ∈ new, (t.E k).fl = .null ∧ (t.E k).fr = .null ∧ (t.E k).props = 0 ∧ (t.E k).color = -1 ∧ s.nxt ≤ k ∧ k < t.nxt
  flag : ∀ v, flagged t v ↔ flagged s v ∧ ∀ e ∈ P, v ≠ (s.E e).v1 ∧ v ≠ (s.E e).v2

theorem rinv_start {s : St K} (h : WF s) : RInv s s [] [] :=
  ⟨h, se_refl s, le_refl _, by simp, rfl, rfl, fun _ _ => rfl, rfl, by simp, by simp⟩

theorem edge_lt {s : St K} (h : WF s) {l : EL} {e : Nat} (he : e ∈ s.es l) : e < s.nxt := ((h.ends l).2 e he).2.2.2.2

theorem rinv_step {s t : St K} (h : Remaining s) {P new : List Nat} {e : Nat} (hi : RInv s t P new)
    (hP : ∀ x ∈ P, x ∈ s.es .front) (he : e ∈ s.es .front) (hnd : e ∉ P) :
    ∃ new', RInv s (addRemaining1 t e) (P ++ [e]) new' := by
  have hw := h.wf
  have hlt := edge_lt hw he
  have hE := hi.old e hlt
  obtain ⟨-, a1, a2, a3, -⟩ := (hw.ends _).2 e he
  unfold addRemaining1
  rw [hE]
  dsimp only
  generalize hs1 : (t.setProps (s.E e).v1 (Flags.remove · Flags.vOnFront)).setProps (s.E e).v2 (Flags.remove · Flags.vOnFront) = s1
  have w1 : WF s1 := by rw [← hs1]; exact wf_setProps (wf_setProps hi.wf _ _) _ _
  have e1 : s1.E = t.E := by rw [← hs1]; rfl
  have l1 : s1.es = t.es := by rw [← hs1]; rfl
  have x1 : s1.nxt = t.nxt := by rw [← hs1]; rfl
  have se1 : SameElements s s1 := by
    rw [← hs1]; exact se_trans hi.se (se_trans (se_setProps _ _ _) (se_setProps _ _ _))
  have fl1 : ∀ v, flagged s1 v ↔ flagged s v ∧ ∀ x ∈ P ++ [e], v ≠ (s.E x).v1 ∧ v ≠ (s.E x).v2 := by
    intro v
    rw [← hs1, flagged_remove, flagged_remove, hi.flag]
    constructor
    · rintro ⟨⟨⟨f1, f2⟩, f3⟩, f4⟩
      refine ⟨f1, fun x hx => ?_⟩
      rcases List.mem_append.mp hx with hx | hx
      · exact f2 x hx
      · rw [List.mem_singleton] at hx; subst hx; exact ⟨f3, f4⟩
    · rintro ⟨f1, f2⟩
      exact ⟨⟨⟨f1, fun x hx => f2 x (List.mem_append_left _ hx)⟩, (f2 e (by simp)).1⟩, (f2 e (by simp)).2⟩
  have hv1 : (s.E e).v1 ∈ s1.verts := by rw [se1.verts]; exact a1
  have hv2 : (s.E e).v2 ∈ s1.verts := by rw [se1.verts]; exact a2
  -- no interior edge connects the ends
  have hno : (s1.getEdge .intr (s.E e).v1 (s.E e).v2) = none := by
    cases hg : s1.getEdge .intr (s.E e).v1 (s.E e).v2 with
    | none => rfl
    | some i =>
      exfalso
      obtain ⟨g1, g2⟩ := getEdge_some w1 hv1 hg
      rw [l1, hi.intr, List.mem_append] at g1
      rw [e1] at g2
      rcases g1 with g1 | g1
      · rw [hi.old i (edge_lt hw g1)] at g2
        refine h.frontNotIntr e he i g1 ?_
        rcases g2 with ⟨p, q⟩ | ⟨p, q⟩
        · exact Or.inl ⟨p.symm, q.symm⟩
        · exact Or.inr ⟨p.symm, q.symm⟩
      · have : pairOf t i ∈ new.map (pairOf t) := List.mem_map_of_mem g1
        rw [hi.newE, List.mem_map] at this
        obtain ⟨x, hx, hx2⟩ := this
        have hxP := (List.mem_filter.mp hx).1
        have hx3 : (s.E x).v1 = (t.E i).v1 ∧ (s.E x).v2 = (t.E i).v2 := by
          simpa [pairOf] using hx2
        have : e = x := by
          refine h.frontUnique e he x (hP x hxP) ?_
          rcases g2 with ⟨p, q⟩ | ⟨p, q⟩
          · exact Or.inl ⟨by rw [hx3.1, p], by rw [hx3.2, q]⟩
          · exact Or.inr ⟨by rw [hx3.2, p], by rw [hx3.1, q]⟩
        exact hnd (this ▸ hxP)
  rw [hno]
  simp only [Option.isSome_none, Bool.false_eq_true, if_false]
  by_cases hb : OnBdry s e
  · have hsome : (s1.getEdge .bdry (s.E e).v1 (s.E e).v2).isSome = true := by
      cases hg : s1.getEdge .bdry (s.E e).v1 (s.E e).v2 with
      | some i => rfl
      | none =>
        exfalso
        obtain ⟨b, hbm, hbe⟩ := hb
        refine getEdge_none w1 hv1 hg b (by rw [l1, hi.bdry]; exact hbm) ?_
        rw [e1, hi.old b (edge_lt hw hbm)]
        rcases hbe with ⟨p, q⟩ | ⟨p, q⟩
        · exact Or.inl ⟨p.symm, q.symm⟩
        · exact Or.inr ⟨p.symm, q.symm⟩
    rw [if_pos hsome]
    refine ⟨new, w1, se1, by rw [x1]; exact hi.nxt, by rw [l1]; exact hi.intr, by rw [l1]; exact hi.front,
      by rw [l1]; exact hi.bdry, by rw [e1]; exact hi.old, ?_, by rw [e1, x1]; exact hi.newP, fl1⟩
    have : pairOf s1 = pairOf t := by funext k; unfold pairOf; rw [e1]
    rw [this, List.filter_append, hi.newE]
    simp [hb]
  · have hnone : s1.getEdge .bdry (s.E e).v1 (s.E e).v2 = none := by
      cases hg : s1.getEdge .bdry (s.E e).v1 (s.E e).v2 with
      | none => rfl
      | some i =>
        exfalso
        obtain ⟨g1, g2⟩ := getEdge_some w1 hv1 hg
        rw [l1, hi.bdry] at g1
        rw [e1, hi.old i (edge_lt hw g1)] at g2
        refine hb ⟨i, g1, ?_⟩
        rcases g2 with ⟨p, q⟩ | ⟨p, q⟩
        · exact Or.inl ⟨p.symm, q.symm⟩
        · exact Or.inr ⟨p.symm, q.symm⟩
    rw [hnone]
    simp only [Option.isSome_none, Bool.false_eq_true, if_false]
    have hEold : ∀ k, k < t.nxt → (s1.addIntr (s.E e).v1 (s.E e).v2).E k = t.E k := by
      intro k hk
      have : k ≠ s1.nxt := by omega
      simp [addIntr, addEdge, upd, this, e1]
    have hEnew : (s1.addIntr (s.E e).v1 (s.E e).v2).E t.nxt = ⟨(s.E e).v1, (s.E e).v2, -1, 0, .intr, .null, .null, none⟩ := by
      simp [addIntr, addEdge, x1]
    have hes : ∀ l, l ≠ .intr → (s1.addIntr (s.E e).v1 (s.E e).v2).es l = t.es l := by
      intro l hl; simp [addIntr, addEdge, upd, hl, l1]
    refine ⟨new ++ [t.nxt], wf_addEdge w1 .intr _ _ hv1 hv2 a3, se_trans se1 (se_addEdge _ _ _ _ _ _), ?_, ?_, ?_, ?_, ?_, ?_, ?_, ?_⟩
    · have := hi.nxt; change s.nxt ≤ s1.nxt + 1; omega
    · simp [addIntr, addEdge, l1, x1, hi.intr]
    · rw [hes _ (by simp)]; exact hi.front
    · rw [hes _ (by simp)]; exact hi.bdry
    · intro k hk; rw [hEold k (by have := hi.nxt; omega)]; exact hi.old k hk
    · rw [List.map_append, List.filter_append, List.map_append, ← hi.newE]
      congr 1
      · refine List.map_congr_left ?_
        intro k hk
        unfold pairOf
        rw [hEold k (hi.newP k hk).2.2.2.2.2]
      · simp [hb, pairOf, hEnew]
    · intro k hk
      rcases List.mem_append.mp hk with hk | hk
      · obtain ⟨p1, p2, p3, p4, p5, p6⟩ := hi.newP k hk
        rw [hEold k p6]
        exact ⟨p1, p2, p3, p4, p5, by change k < s1.nxt + 1; omega⟩
      · rw [List.mem_singleton] at hk; subst hk
        rw [hEnew]
        exact ⟨rfl, rfl, rfl, rfl, hi.nxt, by change t.nxt < s1.nxt + 1; omega⟩
    · intro v
      unfold addIntr
      rw [flagged_addEdge]
      exact fl1 v

theorem rinv_all {s : St K} (h : Remaining s) : ∃ new, RInv s (addRemaining s) (s.es .front) new := by
  have key : ∀ (l P : List Nat) (t : St K) (new : List Nat), RInv s t P new → (∀ x ∈ P, x ∈ s.es .front) →
      (∀ x ∈ l, x ∈ s.es .front) → (P ++ l).Nodup → ∃ new', RInv s (l.foldl addRemaining1 t) (P ++ l) new' := by
    intro l
    induction l with
    | nil => intro P t new hi _ _ _; exact ⟨new, by simpa using hi⟩
    | cons e l ih =>
      intro P t new hi hP hl hn
      have hnd : e ∉ P := by
        intro hc
        rw [List.nodup_append] at hn
        exact hn.2.2 e hc e (by simp) rfl
      obtain ⟨new', hi'⟩ := rinv_step h hi hP (hl e (by simp)) hnd
      obtain ⟨n2, h2⟩ := ih (P ++ [e]) _ new' hi' (by
        intro x hx
        rcases List.mem_append.mp hx with hx | hx
        · exact hP x hx
        · rw [List.mem_singleton] at hx; subst hx; exact hl _ (by simp)) (fun x hx => hl x (by simp [hx])) (by simpa using hn)
      exact ⟨n2, by simpa using h2⟩
  have := key (s.es .front) [] s [] (rinv_start h.wf) (by simp) (fun _ hx => hx) (by simpa using (h.wf.ends .front).1)
  simpa [addRemaining] using this

/-! ### `clear_edges` -/

theorem clearFront_spec {s : St K} (h : WF s) : WF (clearFront s) ∧ SameElements s (clearFront s) ∧ (clearFront s).es .front = [] ∧
    (∀ l, l ≠ .front → (clearFront s).es l = s.es l) ∧ (clearFront s).E = s.E ∧ (clearFront s).nxt = s.nxt ∧
    ∀ v, flagged (clearFront s) v ↔ flagged s v := by
  have key : ∀ (l : List Nat) (t : St K), WF t → (∀ x ∈ l, x ∈ t.es .front) → l.Nodup →
      let u := l.foldl removeEdge t
      WF u ∧ SameElements t u ∧ u.es .front = (t.es .front).filter (fun x => x ∉ l) ∧
      (∀ m, m ≠ .front → u.es m = t.es m) ∧ u.E = t.E ∧ u.nxt = t.nxt ∧ ∀ v, flagged u v ↔ flagged t v := by
    intro l
    induction l with
    | nil => intro t ht _ _; exact ⟨ht, se_refl t, by simp, fun _ _ => rfl, rfl, rfl, fun _ => Iff.rfl⟩
    | cons e l ih =>
      intro t ht hl hn
      rw [List.nodup_cons] at hn
      have hlist := ((ht.ends _).2 e (hl e (by simp))).1
      have hfr : ∀ m, (t.removeEdge e).es m = if m = .front then (t.es m).filter (· ≠ e) else t.es m := by
        intro m
        simp only [removeEdge, hlist, upd]
      have hw := wf_removeEdge ht e ((liveE_iff ht.toSound e).mpr ⟨_, hl e (by simp)⟩)
      obtain ⟨i1, i2, i3, i4, i5, i6, i7⟩ := ih (t.removeEdge e) hw (by
        intro x hx
        rw [hfr, if_pos rfl, List.mem_filter]
        refine ⟨hl x (by simp [hx]), ?_⟩
        have : x ≠ e := fun hh => hn.1 (hh ▸ hx)
        simp [this]) hn.2
      dsimp only at i1 i2 i3 i4 i5 i6 i7 ⊢
      rw [List.foldl_cons]
      refine ⟨i1, se_trans (se_removeEdge t e) i2, ?_, ?_, i5.trans rfl, i6.trans rfl, ?_⟩
      · rw [i3, hfr, if_pos rfl, List.filter_filter]
        refine List.filter_congr ?_
        intro x _
        by_cases hx : x = e <;> simp [hx, hn.1]
      · intro m hm; rw [i4 m hm, hfr, if_neg hm]
      · intro v; rw [i7, flagged_removeEdge]
  obtain ⟨i1, i2, i3, i4, i5, i6, i7⟩ := key (s.es .front) s h (fun _ hx => hx) (h.ends .front).1
  refine ⟨i1, i2, ?_, i4, i5, i6, i7⟩
  unfold clearFront
  rw [i3]
  simp

/-! ### `init_front` -/

theorem initFold {s : St K} (h : WF s) (l : List Nat) (hl : ∀ e ∈ l, LiveE s e) :
    let u := l.foldl addFrontEdge s
    WF u ∧ SameElements s u ∧ s.nxt ≤ u.nxt ∧ (∀ m, m ≠ .front → u.es m = s.es m) ∧ (∀ e, e < s.nxt → u.E e = s.E e) ∧
    (∃ new, u.es .front = s.es .front ++ new ∧ new.map (pairOf u) = l.map (pairOf s) ∧ (∀ k ∈ new, s.nxt ≤ k ∧ k < u.nxt) ∧
      ∀ k ∈ new, ∃ e ∈ l, pairOf u k = pairOf s e ∧ (u.E k).props = (s.E e).props) ∧
    ∀ v, flagged u v ↔ flagged s v ∨ ∃ e ∈ l, (s.E e).v1 = v ∨ (s.E e).v2 = v := by
  induction l generalizing s with
  | nil => exact ⟨h, se_refl s, le_refl _, fun _ _ => rfl, fun _ _ => rfl, ⟨[], by simp, rfl, by simp, by simp⟩, by simp⟩
  | cons e l ih =>
    have hle := hl e (by simp)
    obtain ⟨-, a1, a2, a3, a4⟩ := (h.ends _).2 e hle
    have lt : ∀ x ∈ e :: l, x < s.nxt := fun x hx => edge_lt h (hl x hx)
    have hs1 : ∀ s1, s1 = addFrontEdge s e → WF s1 ∧ SameElements s s1 ∧ s1.nxt = s.nxt + 1 ∧ (∀ m, m ≠ .front → s1.es m = s.es m) ∧
        (∀ x, x < s.nxt → s1.E x = s.E x) ∧ s1.es .front = s.es .front ++ [s.nxt] ∧ pairOf s1 s.nxt = pairOf s e ∧ (s1.E s.nxt).props = (s.E e).props ∧
        ∀ v, flagged s1 v ↔ flagged s v ∨ ((s.E e).v1 = v ∨ (s.E e).v2 = v) := by
      rintro _ rfl
      refine ⟨wf_addEdge (wf_setProps (wf_setProps h _ _) _ _) .front _ _ a1 a2 a3,
        se_trans (se_trans (se_setProps _ _ _) (se_setProps _ _ _)) (se_addEdge _ _ _ _ _ _), rfl, ?_, ?_, ?_, ?_, ?_, ?_⟩
      · intro m hm; simp [addFrontEdge, addEdge, upd, hm, setProps]
      · intro x hx
        have : x ≠ s.nxt := by omega
        simp [addFrontEdge, addEdge, upd, this, setProps]
      · simp [addFrontEdge, addEdge, upd, setProps]
      · simp [addFrontEdge, addEdge, upd, setProps, pairOf]
      · simp [addFrontEdge, addEdge, upd, setProps]
      · intro v
        unfold addFrontEdge
        rw [flagged_addEdge, flagged_add, flagged_add]
        constructor
        · rintro ((f | f) | f)
          · exact Or.inl f
          · exact Or.inr (Or.inl f.symm)
          · exact Or.inr (Or.inr f.symm)
        · rintro (f | f | f)
          · exact Or.inl (Or.inl f)
          · exact Or.inl (Or.inr f.symm)
          · exact Or.inr f.symm
    rw [List.foldl_cons]
    generalize hg : addFrontEdge s e = s1
    obtain ⟨b1, b2, b3, b4, b5, b6, b7, b9, b8⟩ := hs1 s1 hg.symm
    have hl1 : ∀ x ∈ l, LiveE s1 x := by
      intro x hx
      unfold LiveE
      have hx1 := hl x (by simp [hx])
      rw [b5 x (lt x (by simp [hx]))]
      unfold LiveE at hx1
      by_cases hm : (s.E x).list = .front
      · rw [hm, b6]; rw [hm] at hx1; exact List.mem_append_left _ hx1
      · rw [b4 _ hm]; exact hx1
    obtain ⟨c1, c2, c3, c4, c5, ⟨new, d1, d2, d3, d4⟩, c7⟩ := ih b1 hl1
    dsimp only at c1 c2 c3 c4 c5 d1 d2 d3 d4 c7 ⊢
    refine ⟨c1, se_trans b2 c2, by omega, fun m hm => (c4 m hm).trans (b4 m hm), fun x hx => (c5 x (by omega)).trans (b5 x hx),
      ⟨s.nxt :: new, by rw [d1, b6]; simp, ?_, ?_, ?_⟩, ?_⟩
    · rw [List.map_cons, List.map_cons, d2]
      congr 1
      · rw [← b7]; unfold pairOf; rw [c5 _ (by omega)]
      · refine List.map_congr_left ?_
        intro x hx; unfold pairOf; rw [b5 x (lt x (by simp [hx]))]
    · intro k hk
      rcases List.mem_cons.mp hk with hk | hk
      · subst hk; exact ⟨le_refl _, by omega⟩
      · obtain ⟨p, q⟩ := d3 k hk; exact ⟨by omega, q⟩
    · intro k hk
      rcases List.mem_cons.mp hk with hk | hk
      · subst hk
        refine ⟨e, by simp, ?_, ?_⟩
        · rw [← b7]; unfold pairOf; rw [c5 _ (by omega)]
        · rw [← b9, c5 _ (by omega)]
      · obtain ⟨x, x1, x2, x3⟩ := d4 k hk
        refine ⟨x, by simp [x1], ?_, ?_⟩
        · rw [x2]; unfold pairOf; rw [b5 x (lt x (by simp [x1]))]
        · rw [x3, b5 x (lt x (by simp [x1]))]
    · intro v
      rw [c7, b8]
      have : (∃ x ∈ l, (s1.E x).v1 = v ∨ (s1.E x).v2 = v) ↔ ∃ x ∈ l, (s.E x).v1 = v ∨ (s.E x).v2 = v := by
        constructor
        · rintro ⟨x, hx, h2⟩; rw [b5 x (lt x (by simp [hx]))] at h2; exact ⟨x, hx, h2⟩
        · rintro ⟨x, hx, h2⟩; rw [← b5 x (lt x (by simp [hx]))] at h2; exact ⟨x, hx, h2⟩
      rw [this]
      simp only [List.mem_cons, exists_eq_or_imp]
      exact or_assoc

/-! ### `remove_invalid_mesh_edges` -/

theorem removeFold {s : St K} (h : WF s) (l : List Nat) (hl : ∀ e ∈ l, e ∈ s.es .intr ∨ e ∈ s.es .bdry) (hn : l.Nodup) :
    let u := l.foldl removeIntr s
    WF u ∧ SameElements s u ∧ (∀ m, m ≠ .intr → u.es m = s.es m) ∧ u.es .intr = (s.es .intr).filter (fun x => x ∉ l) ∧
    u.E = s.E ∧ ∀ v, flagged u v ↔ flagged s v := by
  induction l generalizing s with
  | nil => exact ⟨h, se_refl s, fun _ _ => rfl, by simp, rfl, fun _ => Iff.rfl⟩
  | cons e l ih =>
    rw [List.nodup_cons] at hn
    rw [List.foldl_cons]
    by_cases hi : e ∈ s.es .intr
    · have hlist := ((h.ends _).2 e hi).1
      have hr : removeIntr s e = s.removeEdge e := by unfold removeIntr; rw [hlist]; simp
      have hes : ∀ m, (s.removeEdge e).es m = if m = .intr then (s.es m).filter (· ≠ e) else s.es m := by
        intro m; simp only [removeEdge, hlist, upd]
      have hw := wf_removeEdge h e ((liveE_iff h.toSound e).mpr ⟨_, hi⟩)
      obtain ⟨i1, i2, i3, i4, i5, i6⟩ := ih (s := s.removeEdge e) hw (by
        intro x hx
        have hxe : x ≠ e := fun hh => hn.1 (hh ▸ hx)
        rw [hes, hes, if_pos rfl, if_neg (by simp), List.mem_filter]
        rcases hl x (by simp [hx]) with h1 | h1
        · exact Or.inl ⟨h1, by simp [hxe]⟩
        · exact Or.inr h1) hn.2
      dsimp only at i1 i2 i3 i4 i5 i6 ⊢
      rw [hr]
      refine ⟨i1, se_trans (se_removeEdge s e) i2, ?_, ?_, i5.trans rfl, fun v => by rw [i6, flagged_removeEdge]⟩
      · intro m hm; rw [i3 m hm, hes, if_neg hm]
      · rw [i4, hes, if_pos rfl, List.filter_filter]
        refine List.filter_congr ?_
        intro x _
        by_cases hx : x = e <;> simp [hx, hn.1]
    · have hb : e ∈ s.es .bdry := (hl e (by simp)).resolve_left hi
      have hr : removeIntr s e = s := by
        unfold removeIntr; rw [((h.ends _).2 e hb).1]; simp
      rw [hr]
      obtain ⟨i1, i2, i3, i4, i5, i6⟩ := ih h (fun x hx => hl x (by simp [hx])) hn.2
      refine ⟨i1, i2, i3, ?_, i5, i6⟩
      rw [i4]
      refine List.filter_congr ?_
      intro x hx
      have : x ≠ e := fun hh => hi (hh ▸ hx)
      simp [this]

/-! ### The whole cycle -/

theorem se_centroid {s t : St K} (h : SameElements s t) (f : FRef) : t.fCentroid f = s.fCentroid f := by
  unfold fCentroid; rw [(h.corners f).1]; simp only [h.pos]

theorem se_left {eps : K} {s t : St K} (h : SameElements s t) (hl : LeftFacets eps s) : LeftFacets eps t := by
  intro f a b hf hs
  rw [h.pos, h.pos, se_centroid h]
  exact hl f a b ((se_live h f).mp hf) ((se_hasSide h f a b).mp hs)

theorem se_dir {s t : St K} (h : SameElements s t) (hl : DirUnique s) : DirUnique t := by
  intro f g a b hf hg h1 h2
  exact hl f g a b ((se_live h f).mp hf) ((se_live h g).mp hg) ((se_hasSide h f a b).mp h1) ((se_hasSide h g a b).mp h2)

theorem resume [IsStrictOrderedRing K] {eps : K} {s : St K} (h : Remaining s) (hlf : LeftFacets eps s) :
    let t := startStep eps (finishStep s)
    WF t ∧ SameElements s t ∧ t.es .intr = s.es .intr ∧ t.es .bdry = s.es .bdry ∧
    (∀ e, e ∈ s.es .intr ∨ e ∈ s.es .bdry → pairOf t e = pairOf s e ∧ (t.E e).color = (s.E e).color ∧ (t.E e).props = (s.E e).props) ∧
    (pairs t .front).Perm (pairs s .front) ∧ ((∀ v, flagged s v → OnFront s v) → ∀ v, flagged t v ↔ OnFront s v) ∧
    (∀ k ∈ t.es .front, (∃ b ∈ s.es .bdry, pairOf t k = pairOf s b ∧ (t.E k).props = (s.E b).props) ∨
      ((t.E k).props = 0 ∧ ∃ e ∈ s.es .front, ¬ OnBdry s e ∧ pairOf t k = pairOf s e)) ∧
    ∀ b ∈ s.es .bdry, (∀ f, Live s f → ¬ HasSide s f (s.E b).v1 (s.E b).v2) → (t.E b).fl = .null := by
  obtain ⟨new, hr⟩ := rinv_all h
  obtain ⟨c1, c2, c3, c4, c5, c6, c7⟩ := clearFront_spec hr.wf
  generalize hc : clearFront (addRemaining s) = c at *
  have hcs : finishStep s = c := hc
  dsimp only
  rw [hcs]
  have sec : SameElements s c := se_trans hr.se c2
  have hdc := se_dir sec h.dir
  have hlc := se_left sec hlf
  have hsb := setup_sbp eps (s := c) c1
  have cE : ∀ e, e < s.nxt → c.E e = s.E e := fun e he => by rw [c5]; exact hr.old e he
  have cI : c.es .intr = s.es .intr ++ new := by rw [c4 _ (by simp), hr.intr]
  have cB : c.es .bdry = s.es .bdry := by rw [c4 _ (by simp), hr.bdry]
  have newc : ∀ k ∈ new, (c.E k).fl = .null ∧ ∃ e ∈ s.es .front, ¬ OnBdry s e ∧ (c.E k).v1 = (s.E e).v1 ∧ (c.E k).v2 = (s.E e).v2 := by
    intro k hk
    rw [c5]
    refine ⟨(hr.newP k hk).1, ?_⟩
    have : pairOf (addRemaining s) k ∈ new.map (pairOf (addRemaining s)) := List.mem_map_of_mem hk
    rw [hr.newE, List.mem_map] at this
    obtain ⟨x, hx, hx2⟩ := this
    obtain ⟨x1, x2⟩ := List.mem_filter.mp hx
    have hx3 : (s.E x).v1 = ((addRemaining s).E k).v1 ∧ (s.E x).v2 = ((addRemaining s).E k).v2 := by simpa [pairOf] using hx2
    exact ⟨x, x1, by simpa using x2, hx3.1.symm, hx3.2.symm⟩
  have noNull : ∀ f, Live s f → f ≠ .null := fun f hf hn => by subst hn; exact hf
  generalize hp : setupConnectivity eps c = p at *
  have hfe : frontEdges p = new ++ (s.es .bdry).filter (fun b => decide (∃ e ∈ s.es .front, SameEnds s e b)) := by
    unfold frontEdges
    rw [hsb.es, cI, cB, List.filter_append]
    have i1 : (s.es .intr).filter (fun e => decide ((p.E e).fl = .null ∨ (p.E e).fr = .null)) = [] := by
      rw [List.filter_eq_nil_iff]
      intro e he
      have hec : e ∈ c.es .intr := by rw [cI]; exact List.mem_append_left _ he
      have q := setup_intr (eps := eps) c1 hdc hlc hec
      rw [hp, cE e (edge_lt h.wf he)] at q
      obtain ⟨⟨f, f1, f2⟩, ⟨g, g1, g2⟩⟩ := h.intrFull e he
      rw [decide_eq_true_eq, q.1 f ((se_live sec f).mpr f1) ((se_hasSide sec f _ _).mpr f2),
        q.2.1 g ((se_live sec g).mpr g1) ((se_hasSide sec g _ _).mpr g2)]
      rintro (hh | hh)
      · exact noNull f f1 hh
      · exact noNull g g1 hh
    have i2 : new.filter (fun e => decide ((p.E e).fl = .null ∨ (p.E e).fr = .null)) = new := by
      rw [List.filter_eq_self]
      intro k hk
      have hec : k ∈ c.es .intr := by rw [cI]; exact List.mem_append_right _ hk
      have q := setup_intr (eps := eps) c1 hdc hlc hec
      rw [hp] at q
      obtain ⟨n1, e, e1, e2, e3, e4⟩ := newc k hk
      rw [decide_eq_true_eq, q.2.2.1, n1]
      · exact Or.inl rfl
      · intro f hf hfs
        rw [e3, e4] at hfs
        exact h.frontOpen e e1 f ((se_live sec f).mp hf) ((se_hasSide sec f _ _).mp hfs)
    have i3 : (s.es .bdry).filter (fun e => decide ((p.E e).fl = .null)) =
        (s.es .bdry).filter (fun b => decide (∃ e ∈ s.es .front, SameEnds s e b)) := by
      refine List.filter_congr ?_
      intro b hb
      have hbc : b ∈ c.es .bdry := by rw [cB]; exact hb
      have q := setup_bdry (eps := eps) c1 hlc hbc (by
        intro f hf hfs
        rw [cE b (edge_lt h.wf hb)] at hfs
        exact h.bdryRight b hb f ((se_live sec f).mp hf) ((se_hasSide sec f _ _).mp hfs)) hdc
      rw [hp, cE b (edge_lt h.wf hb)] at q
      rw [decide_eq_decide, h.bdryOpen b hb]
      constructor
      · intro hn f hf hfs
        have := q.2.1 f ((se_live sec f).mpr hf) ((se_hasSide sec f _ _).mpr hfs)
        rw [hn] at this
        exact noNull f hf this.symm
      · intro ho
        rw [q.2.2 (fun f hf hfs => ho f ((se_live sec f).mp hf) ((se_hasSide sec f _ _).mp hfs))]
        exact h.bdryNull b hb ho
    rw [i1, i2, i3, List.nil_append]
  have wp : WF p := sbp_wf hsb c1
  have pE : ∀ e, pairOf p e = pairOf c e ∧ (p.E e).color = (c.E e).color ∧ (p.E e).props = (c.E e).props := by
    intro e
    obtain ⟨x1, x2, -, x4, x5, -⟩ := hsb.ends e
    exact ⟨by unfold pairOf; rw [x1, x2], x4, x5⟩
  have hmem : ∀ e ∈ frontEdges p, e ∈ p.es .intr ∨ e ∈ p.es .bdry := by
    intro e he
    rw [hfe] at he
    rw [hsb.es, cI, cB]
    rcases List.mem_append.mp he with h1 | h1
    · exact Or.inl (List.mem_append_right _ h1)
    · exact Or.inr (List.mem_filter.mp h1).1
  obtain ⟨j1, j2, j3, j4, j5, ⟨nf, k1, k2, -, k4⟩, j7⟩ := initFold wp (frontEdges p) (by
    intro e he
    rcases hmem e he with h1 | h1
    · exact (liveE_iff wp.toSound e).mpr ⟨_, h1⟩
    · exact (liveE_iff wp.toSound e).mpr ⟨_, h1⟩)
  unfold startStep
  rw [hp]
  have hii : initFront p = (frontEdges p).foldl addFrontEdge p := rfl
  rw [← hii] at j1 j2 j3 j4 j5 k1 k2 k4 j7
  generalize hi : initFront p = i at *
  have hfi : frontEdges i = frontEdges p := by
    unfold frontEdges
    rw [j4 _ (by simp), j4 _ (by simp)]
    congr 1
    · exact List.filter_congr (fun e he => by rw [j5 e (edge_lt wp he)])
    · exact List.filter_congr (fun e he => by rw [j5 e (edge_lt wp he)])
  have hnd : (frontEdges p).Nodup := by
    rw [hfe, List.nodup_append]
    have h1 := (c1.ends .intr).1
    rw [cI, List.nodup_append] at h1
    refine ⟨h1.2.1, (h.wf.ends .bdry).1.filter _, ?_⟩
    intro a ha b hb hab
    subst hab
    have a1 := ((c1.ends .intr).2 a (by rw [cI]; exact List.mem_append_right _ ha)).1
    have a2 := ((c1.ends .bdry).2 a (by rw [cB]; exact (List.mem_filter.mp hb).1)).1
    rw [a1] at a2; simp at a2
  obtain ⟨m1, m2, m3, m4, m5, m6⟩ := removeFold j1 (frontEdges i) (by
    intro e he
    rw [j4 _ (by simp), j4 _ (by simp)]
    rw [hfi] at he
    exact hmem e he) (by rw [hfi]; exact hnd)
  have hrr : removeInvalid i = (frontEdges i).foldl removeIntr i := rfl
  rw [← hrr] at m1 m2 m3 m4 m5 m6
  generalize ht : removeInvalid i = t at *
  have hpEs : ∀ e, e ∈ s.es .intr ∨ e ∈ s.es .bdry → e < s.nxt := by
    intro e he; rcases he with h1 | h1
    · exact edge_lt h.wf h1
    · exact edge_lt h.wf h1
  have hpnxt : s.nxt ≤ p.nxt := by rw [hsb.nxt, c6]; exact hr.nxt
  -- the pairs of the collected edges
  have hfp : (frontEdges p).map (pairOf p) = ((s.es .front).filter fun e => decide (¬ OnBdry s e)).map (pairOf s) ++
      ((s.es .bdry).filter (fun b => decide (∃ e ∈ s.es .front, SameEnds s e b))).map (pairOf s) := by
    rw [hfe, List.map_append]
    congr 1
    · rw [← hr.newE]
      refine List.map_congr_left ?_
      intro k _
      rw [(pE k).1]; unfold pairOf; rw [c5]
    · refine List.map_congr_left ?_
      intro b hb
      rw [(pE b).1]; unfold pairOf; rw [cE b (edge_lt h.wf (List.mem_filter.mp hb).1)]
  have hinj : ∀ l : List Nat, l.Nodup → ∀ m, (∀ x ∈ l, x ∈ s.es m) → (∀ e ∈ s.es m, ∀ e' ∈ s.es m, SameEnds s e e' → e = e') →
      (l.map (pairOf s)).Nodup := by
    intro l hl m hm hu
    refine List.Nodup.map_on ?_ hl
    intro x hx y hy hxy
    have : (s.E x).v1 = (s.E y).v1 ∧ (s.E x).v2 = (s.E y).v2 := by simpa [pairOf] using hxy
    exact hu x (hm x hx) y (hm y hy) (Or.inl this)
  have hperm2 : (((s.es .bdry).filter (fun b => decide (∃ e ∈ s.es .front, SameEnds s e b))).map (pairOf s)).Perm
      (((s.es .front).filter fun e => decide (OnBdry s e)).map (pairOf s)) := by
    refine (List.perm_ext_iff_of_nodup (hinj _ ((h.wf.ends _).1.filter _) .bdry (fun x hx => (List.mem_filter.mp hx).1) h.bdryUnique)
      (hinj _ ((h.wf.ends _).1.filter _) .front (fun x hx => (List.mem_filter.mp hx).1) h.frontUnique)).mpr ?_
    intro ab
    simp only [List.mem_map, List.mem_filter, decide_eq_true_eq]
    constructor
    · rintro ⟨b, ⟨hb, e, he, hse⟩, rfl⟩
      have := h.frontBdry e he b hb hse
      exact ⟨e, ⟨he, b, hb, hse⟩, by unfold pairOf; rw [this.1, this.2]⟩
    · rintro ⟨e, ⟨he, b, hb, hse⟩, rfl⟩
      have := h.frontBdry e he b hb hse
      exact ⟨b, ⟨hb, e, he, hse⟩, by unfold pairOf; rw [this.1, this.2]⟩
  have pf : p.es .front = [] := by rw [hsb.es, c3]
  have hfront : pairs t .front = (frontEdges p).map (pairOf p) := by
    unfold pairs
    rw [m3 _ (by simp), m5, k1, pf, List.nil_append, ← k2]
    rfl
  have hperm : (pairs t .front).Perm (pairs s .front) := by
    rw [hfront, hfp]
    refine (List.Perm.append_left _ hperm2).trans ?_
    rw [← List.map_append]
    refine List.Perm.map _ ?_
    have := List.filter_append_perm (fun e => decide (¬ OnBdry s e)) (s.es .front)
    refine List.Perm.trans (List.Perm.append_left _ ?_) this
    refine List.Perm.of_eq (List.filter_congr ?_)
    intro x _
    by_cases hx : OnBdry s x <;> simp [hx]
  refine ⟨m1, se_trans sec (se_trans (se_sbp hsb) (se_trans j2 m2)), ?_, ?_, ?_, hperm, ?_, ?_, ?_⟩
  · rw [m4, j4 _ (by simp), hsb.es, cI, hfi, hfe, List.filter_append]
    have h1 := (c1.ends .intr).1
    rw [cI, List.nodup_append] at h1
    have e1 : (s.es .intr).filter (fun x => decide (x ∉ new ++ (s.es .bdry).filter (fun b => decide (∃ e ∈ s.es .front, SameEnds s e b)))) = s.es .intr := by
      rw [List.filter_eq_self]
      intro x hx
      rw [decide_eq_true_eq, List.mem_append, not_or]
      refine ⟨fun hc => h1.2.2 x hx x hc rfl, fun hc => ?_⟩
      have a1 := ((h.wf.ends .intr).2 x hx).1
      have a2 := ((h.wf.ends .bdry).2 x (List.mem_filter.mp hc).1).1
      rw [a1] at a2; simp at a2
    have e2 : new.filter (fun x => decide (x ∉ new ++ (s.es .bdry).filter (fun b => decide (∃ e ∈ s.es .front, SameEnds s e b)))) = [] := by
      rw [List.filter_eq_nil_iff]
      intro x hx
      simp [hx]
    rw [e1, e2, List.append_nil]
  · rw [m3 _ (by simp), j4 _ (by simp), hsb.es, cB]
  · intro e he
    have hlt := hpEs e he
    have x1 : t.E e = p.E e := by rw [m5, j5 e (by omega)]
    have x2 := pE e
    unfold pairOf at x2 ⊢
    rw [x1, ← cE e hlt]
    exact x2
  · intro hflag v
    rw [m6, j7]
    have hpf : ∀ v, ¬ flagged p v := by
      intro v hv
      have : flagged c v := by unfold flagged at *; rw [hsb.V] at hv; exact hv
      rw [c7, hr.flag] at this
      obtain ⟨e, he, h2⟩ := hflag v this.1
      have := this.2 e he
      rcases h2 with h2 | h2
      · exact this.1 h2.symm
      · exact this.2 h2.symm
    have hiff : (∃ e ∈ frontEdges p, (p.E e).v1 = v ∨ (p.E e).v2 = v) ↔ ∃ ab ∈ (frontEdges p).map (pairOf p), ab.1 = v ∨ ab.2 = v := by
      simp [List.mem_map, pairOf]
    rw [hiff, ← hfront]
    have hiff2 : (∃ ab ∈ pairs t .front, ab.1 = v ∨ ab.2 = v) ↔ ∃ ab ∈ pairs s .front, ab.1 = v ∨ ab.2 = v := by
      simp only [hperm.mem_iff]
    rw [hiff2]
    have : OnFront s v ↔ ∃ ab ∈ pairs s .front, ab.1 = v ∨ ab.2 = v := by
      simp [OnFront, pairs, List.mem_map]
    rw [this]
    exact ⟨fun hh => hh.resolve_left (hpf v), Or.inr⟩
  · intro k hk
    rw [m3 _ (by simp), k1, pf, List.nil_append] at hk
    obtain ⟨e, he, e1, e2⟩ := k4 k hk
    have tk : pairOf t k = pairOf i k ∧ (t.E k).props = (i.E k).props := by unfold pairOf; rw [m5]; exact ⟨rfl, rfl⟩
    rw [tk.1, tk.2, e1, e2, (pE e).1, (pE e).2.2]
    rw [hfe] at he
    rcases List.mem_append.mp he with h1 | h1
    · obtain ⟨-, x, x1, x2, x3, x4⟩ := newc e h1
      refine Or.inr ⟨by rw [c5]; exact (hr.newP e h1).2.2.1, x, x1, x2, ?_⟩
      unfold pairOf; rw [x3, x4]
    · have hb := (List.mem_filter.mp h1).1
      refine Or.inl ⟨e, hb, ?_, ?_⟩
      · unfold pairOf; rw [cE e (edge_lt h.wf hb)]
      · rw [cE e (edge_lt h.wf hb)]
  · intro b hb ho
    have hbc : b ∈ c.es .bdry := by rw [cB]; exact hb
    have q := setup_bdry (eps := eps) c1 hlc hbc (by
      intro f hf hfs
      rw [cE b (edge_lt h.wf hb)] at hfs
      exact h.bdryRight b hb f ((se_live sec f).mp hf) ((se_hasSide sec f _ _).mp hfs)) hdc
    rw [hp, cE b (edge_lt h.wf hb)] at q
    have hlt := hpEs b (Or.inr hb)
    have x1 : t.E b = p.E b := by rw [m5, j5 b (by omega)]
    rw [x1, q.2.2 (fun f hf hfs => ho f ((se_live sec f).mp hf) ((se_hasSide sec f _ _).mp hfs))]
    exact h.bdryNull b hb ho

end TQ.MC

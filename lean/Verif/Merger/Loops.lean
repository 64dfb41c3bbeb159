import Verif.Merger.Lemmas
import Verif.Cleanup.Conn

/-! # The loops over interface and boundary edges of the merger -/

set_option linter.unusedSectionVars false
set_option linter.unusedSimpArgs false

namespace TQ.MM
open TQ.MS TQ.MS.St TQ.MC TQ.MeshSpec TQ.MCSpec TQ.RefSpec TQ.MergeSpec
variable {K : Type*} [Field K] [LinearOrder K]

theorem pin_pin (p : BitVec 8) : pin (pin p) = pin p := by
  unfold pin Flags.add Flags.remove Flags.vOnBoundary Flags.vIsFixed; revert p; decide

theorem pin_eq (p : BitVec 8) : pin p = (p &&& ~~~ Flags.vOnBoundary) ||| Flags.vIsFixed := rfl

/-- A mesh with other flags. -/
theorem setProps_V (s : St K) (v x : Nat) (g : BitVec 8 → BitVec 8) :
    (s.setProps v g).V x = { s.V x with props := if x = v then g (s.V x).props else (s.V x).props } := by
  unfold setProps upd
  dsimp only
  split_ifs <;> rfl

/-- `e` is a processed interface edge with twin `e'`. -/
def Hit (E : Nat → EData) (di : Nat) (l : List Nat) (e e' : Nat) : Prop := e ∈ l ∧ (E e).twin = some (di, e')

/-- The interface vertices. -/
theorem collect_spec {w : World K} {di : Nat} : ∀ (l : List Nat) (c : St K × NewV × Nat), WF c.1 →
    (∀ e ∈ l, ∀ x, (c.1.E e).twin = some x → (facetIn w di x = true ↔ x.1 = di)) →
    let c' := l.foldl (collect1 w di) c
    WF c'.1 ∧ c'.1 = { c.1 with V := c'.1.V } ∧
    (∀ v, c'.1.pos v = c.1.pos v) ∧
    (∀ v, (∃ e e', Hit c.1.E di l e e' ∧ ((c.1.E e).v1 = v ∨ (c.1.E e).v2 = v)) → (c'.1.V v).props = pin (c.1.V v).props) ∧
    (∀ v, (¬ ∃ e e', Hit c.1.E di l e e' ∧ ((c.1.E e).v1 = v ∨ (c.1.E e).v2 = v)) → (c'.1.V v).props = (c.1.V v).props) ∧
    (∀ v a, c'.2.1 v = some a → c.2.1 v = some a ∨ ∃ e e', Hit c.1.E di l e e' ∧
      ((v = ((w di).E e').v1 ∧ a = (c.1.E e).v2) ∨ (v = ((w di).E e').v2 ∧ a = (c.1.E e).v1))) ∧
    (∀ v, c'.2.1 v = none ↔ c.2.1 v = none ∧ ¬ ∃ e e', Hit c.1.E di l e e' ∧ (v = ((w di).E e').v1 ∨ v = ((w di).E e').v2)) ∧
    (c'.2.2 = 0 ↔ c.2.2 = 0 ∧ ¬ ∃ e e', Hit c.1.E di l e e') := by
  intro l
  induction l with
  | nil => intro c h _; simp [h, Hit]
  | cons e l ih =>
    intro c h hl c'
    have hl' : ∀ x ∈ l, _ := fun x hx => hl x (List.mem_cons_of_mem _ hx)
    have skip : (∀ e', (c.1.E e).twin ≠ some (di, e')) → collect1 w di c e = c := by
      intro hno
      unfold collect1
      cases htw : (c.1.E e).twin with
      | none => rfl
      | some x =>
        have hf : ¬ facetIn w di x = true := fun hh => by
          have h1 := (hl e (List.mem_cons_self ..) x htw).mp hh
          obtain ⟨a, b⟩ := x
          simp only at h1
          subst h1
          exact hno b htw
        dsimp only; rw [if_neg hf]
    by_cases hi : ∃ e', (c.1.E e).twin = some (di, e')
    · obtain ⟨e', he'⟩ := hi
      have hf := (hl e (List.mem_cons_self ..) (di, e') he').mpr rfl
      have hstep : collect1 w di c e = ((c.1.setProps (c.1.E e).v2 pin).setProps (c.1.E e).v1 pin,
          upd (upd c.2.1 ((w di).E e').v2 fun _ => some (c.1.E e).v1) ((w di).E e').v1 fun _ => some (c.1.E e).v2, c.2.2 + 1) := by
        unfold collect1
        rw [he']; dsimp only; rw [if_pos hf]
      have hw : WF ((c.1.setProps (c.1.E e).v2 pin).setProps (c.1.E e).v1 pin) := wf_setProps (wf_setProps h _ _) _ _
      have hc' : c' = l.foldl (collect1 w di) (collect1 w di c e) := rfl
      rw [hstep] at hc'
      have g := ih ((c.1.setProps (c.1.E e).v2 pin).setProps (c.1.E e).v1 pin,
          upd (upd c.2.1 ((w di).E e').v2 fun _ => some (c.1.E e).v1) ((w di).E e').v1 fun _ => some (c.1.E e).v2, c.2.2 + 1) hw hl'
      dsimp only at g
      rw [← hc'] at g
      obtain ⟨g1, g2, g3, g4, g5, g6, g7, g8⟩ := g
      have hE : ((c.1.setProps (c.1.E e).v2 pin).setProps (c.1.E e).v1 pin).E = c.1.E := rfl
      rw [hE] at g4 g5 g6 g7 g8
      have hpos : ∀ v, ((c.1.setProps (c.1.E e).v2 pin).setProps (c.1.E e).v1 pin).pos v = c.1.pos v := fun v => by
        unfold pos; rw [setProps_V, setProps_V]
      have hpr : ∀ v, (((c.1.setProps (c.1.E e).v2 pin).setProps (c.1.E e).v1 pin).V v).props =
          if (c.1.E e).v1 = v ∨ (c.1.E e).v2 = v then pin (c.1.V v).props else (c.1.V v).props := by
        intro v
        rw [setProps_V, setProps_V]
        dsimp only
        by_cases a1 : v = (c.1.E e).v1 <;> by_cases a2 : v = (c.1.E e).v2
        · rw [if_pos a1, if_pos a2, if_pos (Or.inl a1.symm), pin_pin]
        · rw [if_pos a1, if_neg a2, if_pos (Or.inl a1.symm)]
        · rw [if_neg a1, if_pos a2, if_pos (Or.inr a2.symm)]
        · rw [if_neg a1, if_neg a2, if_neg]; exact fun hh => hh.elim (fun x => a1 x.symm) (fun x => a2 x.symm)
      have hitc : ∀ x x', Hit c.1.E di (e :: l) x x' ↔ (x = e ∧ x' = e') ∨ Hit c.1.E di l x x' := by
        intro x x'
        unfold Hit
        rw [List.mem_cons]
        constructor
        · rintro ⟨rfl | hx, h2⟩
          · rw [he'] at h2
            simp only [Option.some.injEq, Prod.mk.injEq, true_and] at h2
            exact Or.inl ⟨rfl, h2.symm⟩
          · exact Or.inr ⟨hx, h2⟩
        · rintro (⟨rfl, rfl⟩ | ⟨hx, h2⟩)
          · exact ⟨Or.inl rfl, he'⟩
          · exact ⟨Or.inr hx, h2⟩
      refine ⟨g1, ?_, fun v => (g3 v).trans (hpos v), ?_, ?_, ?_, ?_, ?_⟩
      · rw [g2]; rfl
      · rintro v ⟨x, x', hx, hv⟩
        by_cases hh : ∃ x x', Hit c.1.E di l x x' ∧ ((c.1.E x).v1 = v ∨ (c.1.E x).v2 = v)
        · rw [g4 v hh, hpr]; split_ifs
          · exact pin_pin _
          · rfl
        · rw [g5 v hh, hpr, if_pos]
          rcases (hitc x x').mp hx with ⟨rfl, rfl⟩ | hx
          · exact hv
          · exact absurd ⟨x, x', hx, hv⟩ hh
      · intro v hv
        rw [g5 v (fun ⟨x, x', hx, hh⟩ => hv ⟨x, x', (hitc x x').mpr (Or.inr hx), hh⟩), hpr, if_neg]
        exact fun hh => hv ⟨e, e', (hitc e e').mpr (Or.inl ⟨rfl, rfl⟩), hh⟩
      · intro v a ha
        rcases g6 v a ha with ha | ⟨x, x', hx, hh⟩
        · have key : (c.2.1 v = some a) ∨ (v = ((w di).E e').v1 ∧ a = (c.1.E e).v2) ∨ (v = ((w di).E e').v2 ∧ a = (c.1.E e).v1) := by
            by_cases a1 : v = ((w di).E e').v1
            · simp [upd, a1] at ha; exact Or.inr (Or.inl ⟨a1, ha.symm⟩)
            · by_cases a2 : v = ((w di).E e').v2
              · simp only [upd] at ha
                rw [if_neg a1, if_pos a2] at ha
                exact Or.inr (Or.inr ⟨a2, by simpa using ha.symm⟩)
              · simp only [upd] at ha
                rw [if_neg a1, if_neg a2] at ha
                exact Or.inl ha
          rcases key with k | k
          · exact Or.inl k
          · exact Or.inr ⟨e, e', (hitc e e').mpr (Or.inl ⟨rfl, rfl⟩), k⟩
        · exact Or.inr ⟨x, x', (hitc x x').mpr (Or.inr hx), hh⟩
      · intro v
        rw [g7 v]
        have e1 : (upd (upd c.2.1 ((w di).E e').v2 fun _ => some (c.1.E e).v1) ((w di).E e').v1 fun _ => some (c.1.E e).v2) v = none ↔
            c.2.1 v = none ∧ ¬ (v = ((w di).E e').v1 ∨ v = ((w di).E e').v2) := by
          unfold upd
          split_ifs with a1 a2
          · simp [a1]
          · simp [a2]
          · simp [a1, a2]
        rw [e1]
        constructor
        · rintro ⟨⟨k1, k2⟩, k3⟩
          refine ⟨k1, ?_⟩
          rintro ⟨x, x', hx, hv⟩
          rcases (hitc x x').mp hx with ⟨rfl, rfl⟩ | hx
          · exact k2 hv
          · exact k3 ⟨x, x', hx, hv⟩
        · rintro ⟨k1, k2⟩
          exact ⟨⟨k1, fun hh => k2 ⟨e, e', (hitc e e').mpr (Or.inl ⟨rfl, rfl⟩), hh⟩⟩,
            fun ⟨x, x', hx, hv⟩ => k2 ⟨x, x', (hitc x x').mpr (Or.inr hx), hv⟩⟩
      · rw [g8]
        constructor
        · rintro ⟨k, _⟩; exact absurd k (Nat.succ_ne_zero _)
        · rintro ⟨_, k⟩; exact absurd ⟨e, e', (hitc e e').mpr (Or.inl ⟨rfl, rfl⟩)⟩ k
    · have hi' : ∀ e', (c.1.E e).twin ≠ some (di, e') := fun e' hh => hi ⟨e', hh⟩
      have hc' : c' = l.foldl (collect1 w di) (collect1 w di c e) := rfl
      rw [skip hi'] at hc'
      have g := ih c h hl'
      dsimp only at g
      rw [← hc'] at g
      have hitc : ∀ x x', Hit c.1.E di (e :: l) x x' ↔ Hit c.1.E di l x x' := by
        intro x x'
        unfold Hit
        rw [List.mem_cons]
        constructor
        · rintro ⟨rfl | hx, h2⟩
          · exact absurd h2 (hi' x')
          · exact ⟨hx, h2⟩
        · rintro ⟨hx, h2⟩; exact ⟨Or.inr hx, h2⟩
      simp only [hitc]
      exact g

/-- Edges with other pointers. -/
theorem wf_congrE {s : St K} (h : WF s) {E' : Nat → EData}
    (hE : ∀ e, (E' e).v1 = (s.E e).v1 ∧ (E' e).v2 = (s.E e).v2 ∧ (E' e).list = (s.E e).list) : WF { s with E := E' } := by
  have hlive : ∀ e, LiveE { s with E := E' } e ↔ LiveE s e := fun e => by
    change e ∈ s.es (E' e).list ↔ e ∈ s.es (s.E e).list
    rw [(hE e).2.2]
  refine { edges := fun v hv => ⟨(h.edges v hv).1, fun e => ?_⟩, facets := h.facets, vnd := h.vnd, vlt := h.vlt,
           ends := fun l => ⟨(h.ends l).1, fun e he => ?_⟩, tnd := h.tnd, qnd := h.qnd, tlt := h.tlt,
           qlt := h.qlt, tcor := h.tcor, qcor := h.qcor, cor := h.cor }
  · rw [hlive]
    change _ ↔ _ ∧ ((E' e).v1 = v ∨ (E' e).v2 = v)
    rw [(hE e).1, (hE e).2.1]
    exact (h.edges v hv).2 e
  · have := (h.ends l).2 e he
    change (E' e).list = l ∧ (E' e).v1 ∈ s.verts ∧ (E' e).v2 ∈ s.verts ∧ (E' e).v1 ≠ (E' e).v2 ∧ e < s.nxt
    rw [(hE e).1, (hE e).2.1, (hE e).2.2]
    exact this

theorem setTwin_ends (s : St K) (e x : Nat) (y : Nat × Nat) :
    ((setTwin s e y).E x).v1 = (s.E x).v1 ∧ ((setTwin s e y).E x).v2 = (s.E x).v2 ∧ ((setTwin s e y).E x).list = (s.E x).list := by
  unfold setTwin upd
  dsimp only
  split_ifs <;> exact ⟨rfl, rfl, rfl⟩

theorem wf_setTwin {s : St K} (h : WF s) (e : Nat) (x : Nat × Nat) : WF (setTwin s e x) :=
  wf_congrE h fun y => setTwin_ends s e y x

theorem sbt_refl (s : St K) : SameButTwins s s := ⟨rfl, fun _ => rfl⟩

theorem sbt_trans {s t u : St K} (h : SameButTwins s t) (g : SameButTwins t u) : SameButTwins s u := by
  refine ⟨?_, fun e => ?_⟩
  · rw [g.1, h.1]
  · rw [g.2 e, h.2 e]

theorem sbt_setTwin (s : St K) (e : Nat) (x : Nat × Nat) : SameButTwins s (setTwin s e x) := by
  refine ⟨rfl, fun y => ?_⟩
  unfold setTwin upd
  dsimp only
  split_ifs <;> rfl

/-- A copied boundary edge. -/
def BdryCopy (d : St K) (w' : World K) (ri : Nat) (φ : Nat → Nat) (n : Nat) (x y : Nat) : Prop :=
  n ≤ y ∧ y < (w' ri).nxt ∧
  (w' ri).E y = ⟨φ (d.E x).v1, φ (d.E x).v2, (d.E x).color, (d.E x).props, .bdry, .null, .null, (d.E x).twin⟩ ∧
  ∀ z, (d.E x).twin = some z → ((w' z.1).E z.2).twin = some (ri, y)

/-- Copies of boundary edges. -/
theorem copyBdrys_spec {ri di : Nat} (hne : ri ≠ di) {new : NewV} {φ : Nat → Nat} (d : St K) : ∀ (l : List Nat) (w : World K), WF (w ri) →
    w di = d → l.Nodup →
    (∀ e ∈ l, new (d.E e).v1 = some (φ (d.E e).v1) ∧ new (d.E e).v2 = some (φ (d.E e).v2) ∧
      φ (d.E e).v1 ∈ (w ri).verts ∧ φ (d.E e).v2 ∈ (w ri).verts ∧ φ (d.E e).v1 ≠ φ (d.E e).v2) →
    (∀ e ∈ l, ∀ x, (d.E e).twin = some x → x.1 ≠ di ∧ (x.1 = ri → x.2 < (w ri).nxt ∧ ((w ri).E x.2).fl ≠ .null)) →
    (∀ e ∈ l, ∀ e' ∈ l, ∀ x, (d.E e).twin = some x → (d.E e').twin = some x → e = e') →
    ∃ w' n, loopM (copyBdry ri di new) w l = some w' ∧ WF (w' ri) ∧ Ext (w ri) (w' ri) ∧ w' di = d ∧
      (w' ri).verts = (w ri).verts ∧ (w' ri).tris = (w ri).tris ∧ (w' ri).quads = (w ri).quads ∧
      (w' ri).es .bdry = (w ri).es .bdry ++ n ∧ (∀ k, k ≠ .bdry → (w' ri).es k = (w ri).es k) ∧
      List.Forall₂ (BdryCopy d w' ri φ (w ri).nxt) (l.filter fun e => ¬ TwinIn d ri e) n ∧
      ∀ m, m ≠ ri → SameButTwins (w m) (w' m) ∧ ∀ e, (∀ x ∈ l, (d.E x).twin ≠ some (m, e)) → (w' m).E e = (w m).E e := by
  intro l
  induction l with
  | nil =>
    intro w h hd _ _ _ _
    exact ⟨w, [], rfl, h, Ext.refl _, hd, rfl, rfl, rfl, by simp, fun _ _ => rfl, List.Forall₂.nil, fun m _ => ⟨sbt_refl _, fun _ _ => rfl⟩⟩
  | cons e l ih =>
    intro w h hd hn hv ht hdiff
    rw [List.nodup_cons] at hn
    by_cases hs : ∃ x, (d.E e).twin = some (ri, x)
    · obtain ⟨x, hx⟩ := hs
      have hf : facetIn w ri (ri, x) = true := by
        unfold facetIn
        simpa using ((ht e (List.mem_cons_self ..) _ hx).2 rfl).2
      have hstep : copyBdry ri di new w e = some w := by
        unfold copyBdry
        rw [hd]
        dsimp only
        rw [hx, if_pos (by simpa using hf)]
      obtain ⟨w', n, g1, g2, g3, g4, g5, g6, g7, g8, g9, g10, g11⟩ := ih w h hd hn.2 (fun y hy => hv y (List.mem_cons_of_mem _ hy))
        (fun y hy => ht y (List.mem_cons_of_mem _ hy)) (fun y hy z hz => hdiff y (List.mem_cons_of_mem _ hy) z (List.mem_cons_of_mem _ hz))
      refine ⟨w', n, ?_, g2, g3, g4, g5, g6, g7, g8, g9, ?_, fun m hm => ⟨(g11 m hm).1, fun y hy => ?_⟩⟩
      · unfold loopM; rw [hstep]; exact g1
      · rw [List.filter_cons_of_neg (fun hh => (of_decide_eq_true hh) ⟨x, hx⟩)]; exact g10
      · exact (g11 m hm).2 y fun z hz => hy z (List.mem_cons_of_mem _ hz)
    · obtain ⟨v1, v2, v3, v4, v5⟩ := hv e (List.mem_cons_self ..)
      have htw : ∀ x, (d.E e).twin = some x → x.1 ≠ ri := fun x hx hh => hs ⟨x.2, by rw [hx, ← hh]⟩
      have hany : ¬ (d.E e).twin.any (facetIn w ri) = true := by
        cases hx : (d.E e).twin with
        | none => simp
        | some x => simp [facetIn, htw x hx]
      -- the world after this turn
      obtain ⟨w1, hw1, a1, a2, a3, a4, a5⟩ : ∃ w1, copyBdry ri di new w e = some w1 ∧ w1 di = d ∧
          (w1 ri) = { (w ri).addEdge .bdry (φ (d.E e).v1) (φ (d.E e).v2) (d.E e).color (d.E e).props with E := (w1 ri).E } ∧
          (∀ y, (w1 ri).E y = if y = (w ri).nxt then ⟨φ (d.E e).v1, φ (d.E e).v2, (d.E e).color, (d.E e).props, .bdry, .null, .null, (d.E e).twin⟩ else (w ri).E y) ∧
          (∀ m, m ≠ ri → SameButTwins (w m) (w1 m) ∧ ∀ y, (d.E e).twin ≠ some (m, y) → (w1 m).E y = (w m).E y) ∧
          ∀ z, (d.E e).twin = some z → ((w1 z.1).E z.2).twin = some (ri, (w ri).nxt) := by
        unfold copyBdry
        rw [hd]
        dsimp only
        rw [if_neg hany, v1, v2]
        dsimp only
        cases hx : (d.E e).twin with
        | none =>
          refine ⟨_, rfl, ?_, ?_, ?_, ?_, ?_⟩
          · simp [upd, Ne.symm hne, hd]
          · simp [upd]
          · intro y; simp [upd, addEdge]
          · intro m hm; exact ⟨by simp [upd, hm, sbt_refl], fun y _ => by simp [upd, hm]⟩
          · simp
        | some x =>
          have k1 := htw x hx
          have k2 := (ht e (List.mem_cons_self ..) x hx).1
          refine ⟨_, rfl, ?_, ?_, ?_, ?_, ?_⟩
          · simp [upd, Ne.symm hne, Ne.symm k2, hd]
          · simp [upd, Ne.symm k1, setTwin]
          · intro y
            have : (upd (upd (upd w ri fun s => s.addEdge .bdry (φ (d.E e).v1) (φ (d.E e).v2) (d.E e).color (d.E e).props) x.1
                fun s => setTwin s x.2 (ri, (w ri).nxt)) ri fun s => setTwin s (w ri).nxt x) ri =
                setTwin ((w ri).addEdge .bdry (φ (d.E e).v1) (φ (d.E e).v2) (d.E e).color (d.E e).props) (w ri).nxt x := by
              simp [upd, Ne.symm k1]
            rw [this]
            by_cases hy : y = (w ri).nxt
            · simp [setTwin, addEdge, upd, hy]
            · simp [setTwin, addEdge, upd, hy]
          · intro m hm
            by_cases hmx : m = x.1
            · subst hmx
              have : (upd (upd (upd w ri fun s => s.addEdge .bdry (φ (d.E e).v1) (φ (d.E e).v2) (d.E e).color (d.E e).props) x.1
                  fun s => setTwin s x.2 (ri, (w ri).nxt)) ri fun s => setTwin s (w ri).nxt x) x.1 = setTwin (w x.1) x.2 (ri, (w ri).nxt) := by
                simp [upd, k1]
              rw [this]
              refine ⟨sbt_setTwin _ _ _, fun y hy => ?_⟩
              have : y ≠ x.2 := fun hh => hy (by rw [hh])
              simp [setTwin, upd, this]
            · have : (upd (upd (upd w ri fun s => s.addEdge .bdry (φ (d.E e).v1) (φ (d.E e).v2) (d.E e).color (d.E e).props) x.1
                  fun s => setTwin s x.2 (ri, (w ri).nxt)) ri fun s => setTwin s (w ri).nxt x) m = w m := by
                simp [upd, hm, hmx]
              rw [this]
              exact ⟨sbt_refl _, fun _ _ => rfl⟩
          · rintro z hz
            obtain rfl : x = z := by simpa using hz
            simp [upd, k1, setTwin]
      have b1 := wf_addEdge h .bdry (d.E e).color (d.E e).props v3 v4 v5
      have b2 : WF (w1 ri) := by
        rw [a2]
        apply wf_congrE b1
        intro y
        rw [a3 y]
        by_cases hy : y = (w ri).nxt
        · simp [addEdge, upd, hy]
        · simp [addEdge, upd, hy]
      have b3 := ext_addEdge (w ri) .bdry (φ (d.E e).v1) (φ (d.E e).v2) (d.E e).color (d.E e).props
      have b4 : Ext (w ri) (w1 ri) := by
        rw [a2]
        refine ⟨b3.nxt, fun y hy => ?_, b3.Ft, b3.Fq, b3.pos, b3.props, b3.area, b3.color⟩
        change (w1 ri).E y = _
        rw [a3 y, if_neg (Nat.ne_of_lt hy)]
      have b5 : (w1 ri).verts = (w ri).verts := by rw [a2]; rfl
      have b6 : (w1 ri).nxt = (w ri).nxt + 1 := by rw [a2]; rfl
      obtain ⟨w', n, g1, g2, g3, g4, g5, g6, g7, g8, g9, g10, g11⟩ := ih w1 b2 a1 hn.2
        (fun y hy => by rw [b5]; exact hv y (List.mem_cons_of_mem _ hy))
        (fun y hy x hx => by
          obtain ⟨k1, k2⟩ := ht y (List.mem_cons_of_mem _ hy) x hx
          refine ⟨k1, fun k3 => ?_⟩
          obtain ⟨k4, k5⟩ := k2 k3
          rw [b4.E _ k4]
          exact ⟨by omega, k5⟩)
        (fun y hy z hz => hdiff y (List.mem_cons_of_mem _ hy) z (List.mem_cons_of_mem _ hz))
      refine ⟨w', (w ri).nxt :: n, ?_, g2, b4.trans g3, g4, g5.trans b5, g6.trans ?_, g7.trans ?_, ?_, ?_, ?_, ?_⟩
      · unfold loopM; rw [hw1]; exact g1
      · rw [a2]; rfl
      · rw [a2]; rfl
      · rw [g8, a2]; simp [addEdge, upd]
      · intro k hk; rw [g9 k hk, a2]; simp [addEdge, upd, hk]
      · rw [List.filter_cons_of_pos (p := fun e => decide (¬ TwinIn d ri e)) (decide_eq_true (p := ¬ TwinIn d ri e) hs)]
        refine List.Forall₂.cons ⟨le_rfl, by have := g3.nxt; omega, ?_, ?_⟩ (g10.imp fun x y hxy => ?_)
        · rw [g3.E _ (by omega), a3, if_pos rfl]
        · intro z hz
          have hzri := htw z hz
          rw [(g11 z.1 hzri).2 z.2 ?_]
          · exact a5 z hz
          · intro x hx hh
            have := hdiff e (List.mem_cons_self ..) x (List.mem_cons_of_mem _ hx) z hz hh
            exact hn.1 (this ▸ hx)
        · exact ⟨by have := hxy.1; omega, hxy.2⟩
      · intro m hm
        refine ⟨sbt_trans (a4 m hm).1 (g11 m hm).1, fun y hy => ?_⟩
        rw [(g11 m hm).2 y fun z hz => hy z (List.mem_cons_of_mem _ hz)]
        exact (a4 m hm).2 y (hy e (List.mem_cons_self ..))

/-- The collected interface edges. -/
theorem interfaces_spec {w : World K} {ri di : Nat} {new : NewV} : ∀ (l : List Nat),
    (∀ e ∈ l, ∀ x, ((w ri).E e).twin = some x → (facetIn w di x = true ↔ x.1 = di) ∧
      (x.1 = di → new ((w di).E x.2).v1 = some ((w ri).E e).v2 ∧ new ((w di).E x.2).v2 = some ((w ri).E e).v1)) →
    interfaces w ri di new l = some ((l.filter fun e => Iface w ri di e).map fun e => (e, ((w ri).E e).v1, ((w ri).E e).v2)) := by
  intro l
  induction l with
  | nil => intro _; rfl
  | cons e l ih =>
    intro h
    have g := ih fun x hx => h x (List.mem_cons_of_mem _ hx)
    unfold interfaces
    cases htw : ((w ri).E e).twin with
    | none =>
      rw [List.filter_cons_of_neg (by simp [TwinIn, htw])]
      exact g
    | some x =>
      obtain ⟨h1, h2⟩ := h e (List.mem_cons_self ..) x htw
      dsimp only
      by_cases hx : x.1 = di
      · obtain ⟨k1, k2⟩ := h2 hx
        rw [if_pos (h1.mpr hx), List.filter_cons_of_pos (by simpa [TwinIn] using ⟨x.2, by rw [htw, ← hx]⟩)]
        rw [hx, k1, k2, g]
        rfl
      · rw [if_neg (fun hh => hx (h1.mp hh)), List.filter_cons_of_neg]
        · exact g
        · simp only [decide_eq_true_eq]
          rintro ⟨y, hy⟩
          rw [htw] at hy
          simp only [Option.some.injEq] at hy
          rw [hy] at hx
          exact hx rfl

/-- The flags at the end. -/
theorem remark_spec (s : St K) (h : WF s) :
    WF (remark s) ∧ remark s = { s with V := (remark s).V } ∧ (∀ v, (remark s).pos v = s.pos v) ∧
    ∀ v, ((remark s).V v).props = if BdryEnd s v then (s.V v).props ||| Flags.vOnBoundary else (s.V v).props := by
  have key : ∀ (l : List Nat) (t : St K), WF t →
      let t' := l.foldl (fun t e => (t.setProps (t.E e).v1 (Flags.add · Flags.vOnBoundary)).setProps (t.E e).v2
        (Flags.add · Flags.vOnBoundary)) t
      WF t' ∧ t' = { t with V := t'.V } ∧ (∀ v, t'.pos v = t.pos v) ∧
      ∀ v, (t'.V v).props = if ∃ e ∈ l, (t.E e).v1 = v ∨ (t.E e).v2 = v then (t.V v).props ||| Flags.vOnBoundary else (t.V v).props := by
    intro l
    induction l with
    | nil => intro t ht; simp [ht]
    | cons e l ih =>
      intro t ht t'
      have hw : WF ((t.setProps (t.E e).v1 (Flags.add · Flags.vOnBoundary)).setProps (t.E e).v2 (Flags.add · Flags.vOnBoundary)) :=
        wf_setProps (wf_setProps ht _ _) _ _
      obtain ⟨g1, g2, g3, g4⟩ := ih _ hw
      refine ⟨g1, ?_, fun v => ?_, fun v => ?_⟩
      · exact g2
      · refine (g3 v).trans ?_
        unfold pos; rw [setProps_V, setProps_V]
      · refine (g4 v).trans ?_
        have hE : ((t.setProps (t.E e).v1 (Flags.add · Flags.vOnBoundary)).setProps (t.E e).v2 (Flags.add · Flags.vOnBoundary)).E = t.E := rfl
        rw [hE]
        have hp : (((t.setProps (t.E e).v1 (Flags.add · Flags.vOnBoundary)).setProps (t.E e).v2 (Flags.add · Flags.vOnBoundary)).V v).props =
            if (t.E e).v1 = v ∨ (t.E e).v2 = v then (t.V v).props ||| Flags.vOnBoundary else (t.V v).props := by
          rw [setProps_V, setProps_V]
          unfold Flags.add
          dsimp only
          by_cases a1 : v = (t.E e).v1 <;> by_cases a2 : v = (t.E e).v2
          · rw [if_pos a2, if_pos a1, if_pos (Or.inl a1.symm), BitVec.or_assoc, BitVec.or_self]
          · rw [if_neg a2, if_pos a1, if_pos (Or.inl a1.symm)]
          · rw [if_pos a2, if_neg a1, if_pos (Or.inr a2.symm)]
          · rw [if_neg a2, if_neg a1, if_neg]; exact fun hh => hh.elim (fun x => a1 x.symm) (fun x => a2 x.symm)
        rw [hp]
        simp only [List.exists_mem_cons_iff]
        by_cases b1 : (t.E e).v1 = v ∨ (t.E e).v2 = v
        · rw [if_pos b1, if_pos (Or.inl b1)]
          split_ifs
          · rw [BitVec.or_assoc, BitVec.or_self]
          · rfl
        · rw [if_neg b1]
          by_cases b2 : ∃ x ∈ l, (t.E x).v1 = v ∨ (t.E x).v2 = v
          · rw [if_pos b2, if_pos (Or.inr b2)]
          · rw [if_neg b2, if_neg (fun hh => hh.elim b1 b2)]
  exact key _ s h

end TQ.MM

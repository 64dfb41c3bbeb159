import Verif.QuadLayer.Track

/-! # Lemmas on quad layers: the walk along the front and the loop over the layers -/

set_option linter.unusedSectionVars false

namespace TQ.QL
open TQ.MS TQ.MeshSpec TQ.FUSpec TQ.MCSpec TQ.QLSpec TQ.FU MS.St TG
variable {K : Type*} [Field K] [LinearOrder K] [IsStrictOrderedRing K]

/-! ### The walk -/

theorem walk_chain {next : Nat → Option Nat} {stop : Nat} : ∀ {fuel e l}, walk next stop fuel e = .ok l →
    l.IsChain (fun a b => next a = some b) ∧ l.head? = some e ∧ l.getLast? = some stop ∧ 2 ≤ l.length := by
  intro fuel
  induction fuel with
  | zero => intro e l h; simp [walk] at h
  | succ n ih =>
    intro e l h
    unfold walk at h
    cases hn : next e with
    | none => rw [hn] at h; cases h
    | some f =>
      rw [hn] at h
      dsimp only at h
      by_cases hf : f = stop
      · rw [if_pos hf] at h
        cases h
        subst hf
        simp [hn]
      · rw [if_neg hf] at h
        cases hw : walk next stop n f with
        | ok l' =>
          rw [hw] at h
          cases h
          obtain ⟨h1, h2, h3, h4⟩ := ih hw
          cases l' with
          | nil => simp at h2
          | cons x l' =>
            simp only [List.head?_cons, Option.some.injEq] at h2
            subst h2
            refine ⟨List.IsChain.cons_cons hn h1, rfl, by simpa using h3, by simp⟩
        | null => rw [hw] at h; cases h
        | loops => rw [hw] at h; cases h

theorem walk_front {s : St K} (h : WF s) {stop fuel e : Nat} {l : List Nat} (he : e ∈ s.es .front)
    (hw : walk s.nextEdge stop fuel e = .ok l) : ∀ x ∈ l, x ∈ s.es .front := by
  obtain ⟨h1, h2, -, -⟩ := walk_chain hw
  cases l with
  | nil => simp at h2
  | cons y l =>
    simp only [List.head?_cons, Option.some.injEq] at h2
    subst h2
    clear hw
    induction l generalizing y with
    | nil => simpa using he
    | cons z l ih =>
      rw [List.isChain_cons_cons] at h1
      intro x hx
      rcases List.mem_cons.mp hx with rfl | hx
      · exact he
      · exact ih z h1.2 (nextEdge_mem h he h1.1) x hx

theorem nextEdge_join {s : St K} {e f : Nat} (h : s.nextEdge e = some f) : (s.E f).v1 = (s.E e).v2 := by
  have := List.find?_some h
  simp only [Bool.and_eq_true, decide_eq_true_eq] at this
  exact this.2

theorem prevEdge_join {s : St K} {e f : Nat} (h : s.prevEdge e = some f) : (s.E f).v2 = (s.E e).v1 := by
  have := List.find?_some h
  simp only [Bool.and_eq_true, decide_eq_true_eq] at this
  exact this.2

theorem prevEdge_mem {s : St K} (h : WF s) {e f : Nat} (he : e ∈ s.es .front) (hn : s.prevEdge e = some f) :
    f ∈ s.es .front := by
  unfold prevEdge at hn
  have h1 := List.mem_of_find?_eq_some hn
  have h2 := List.find?_some hn
  simp only [Bool.and_eq_true, decide_eq_true_eq] at h2
  obtain ⟨hl, hv1, _⟩ := (h.ends _).2 e he
  have h3 := (((h.edges _ hv1).2 f).mp h1).1
  unfold LiveE at h3
  rw [h2.1.2, hl] at h3
  exact h3

/-! ### Shape of a layer -/

structure Shape (s : St K) (base : List Nat) (y : Layer K) : Prop where
  b : y.base = base
  v1 : y.v1 = base.map fun e => (s.E e).v1
  v2 : y.v2 = base.map fun e => (s.E e).v2
  p1 : y.p1.length = base.length
  p2 : y.p2.length = base.length

theorem shape_mk (L : LEnv K) (s : St K) (ht : K) (base : List Nat) : Shape s base (smoothLayer L s (mkLayer L s ht base)) :=
  ⟨rfl, rfl, rfl, by simp [smoothLayer, mkLayer], by simp [smoothLayer, mkLayer]⟩

theorem Shape.adjust {L : LEnv K} {s0 s : St K} {base : List Nat} {y : Layer K} (h : Shape s0 base y) (i j : Nat) :
    Shape s0 base (adjust L s y i j) := by
  unfold QL.adjust
  split
  · dsimp only
    split_ifs
    · exact h
    · exact ⟨h.b, h.v1, h.v2, by simp [h.p1], by simp [h.p2]⟩
  · exact h

theorem Shape.adjustAll {L : LEnv K} {s0 s : St K} {base : List Nat} {y : Layer K} (h : Shape s0 base y) (closed : Bool) :
    Shape s0 base (adjustAll L s closed y) := by
  unfold QL.adjustAll
  have : ∀ (l : List Nat) (y : Layer K), Shape s0 base y → Shape s0 base (l.foldl (fun y i => QL.adjust L s y i (i + 1)) y) := by
    intro l
    induction l with
    | nil => intro y h; exact h
    | cons i l ih => intro y h; exact ih _ (h.adjust _ _)
  dsimp only
  split_ifs
  · exact (this _ _ h).adjust _ _
  · exact this _ _ h

theorem entries_ok {s : St K} (h : WF s) {base : List Nat} (hb : ∀ e ∈ base, e ∈ s.es .front) {y : Layer K} (sh : Shape s base y) :
    y.entries.map (fun x => x.1) = base ∧ y.entries.map (fun x => x.2.1) = y.v1 ∧ ∀ x ∈ y.entries, EntryOK s x := by
  obtain ⟨b, v1, v2, ht, p1, p2⟩ := y
  obtain ⟨h1, h2, h3, h4, h5⟩ := sh
  dsimp only at h1 h2 h3 h4 h5
  subst h1 h2 h3
  unfold Layer.entries
  dsimp only
  clear ht
  induction b generalizing p1 p2 with
  | nil => simp
  | cons e b ih =>
    cases p1 with
    | nil => simp at h4
    | cons x1 p1 =>
      cases p2 with
      | nil => simp at h5
      | cons x2 p2 =>
        obtain ⟨i1, i2, i3⟩ := ih p1 p2 (fun e he => hb e (List.mem_cons_of_mem _ he)) (by simpa using h4) (by simpa using h5)
        refine ⟨by simp [i1], by simp [i2], ?_⟩
        intro x hx
        simp only [List.map_cons, List.zip_cons_cons, List.mem_cons] at hx
        rcases hx with rfl | hx
        · exact ⟨((h.ends _).2 e (hb e List.mem_cons_self)).2.2.2.2, rfl, rfl⟩
        · exact i3 x hx

theorem gap_ok {s : St K} : ∀ (es : List (Nat × Nat × Nat × Pt K × Pt K)) (qs : List (Option Nat × Option Nat)),
    List.Forall₂ (fun x p => ProjOK s x.2.1 x.2.2.1 p) es qs → es.IsChain (fun x y => x.2.2.1 = y.2.1) →
    (∀ x ∈ es, x.2.1 ∈ s.verts) → ∀ b p rest, (es.map fun x => x.2.1).zip qs = (b, p) :: rest → GapOK s p.2 rest
  | [], _, _, _, _, b, p, rest, h => by simp at h
  | [x], qs, hf, _, _, b, p, rest, h => by
    cases hf with
    | cons hp hf =>
      cases hf
      simp only [List.map_cons, List.map_nil, List.zip_cons_cons, List.zip_nil_right, List.cons.injEq] at h
      rw [← h.2]; exact trivial
  | x :: x' :: es, qs, hf, hc, hm, b, p, rest, h => by
    cases hf with
    | @cons _ q _ qs hp hf =>
      have hf' := hf
      cases hf with
      | @cons _ q' _ qs hp' hf =>
        rw [List.isChain_cons_cons] at hc
        simp only [List.map_cons, List.zip_cons_cons, List.cons.injEq, Prod.mk.injEq] at h
        obtain ⟨⟨-, rfl⟩, rfl⟩ := h
        refine ⟨hm x' (by simp), fun a ha => ?_, fun c hc' => hp'.p1 c hc', ?_⟩
        · rw [← hc.1]; exact hp.p2 a ha
        · exact gap_ok (x' :: es) (q' :: qs) hf' hc.2 (fun z hz => hm z (List.mem_cons_of_mem _ hz)) x'.2.1 q' _ rfl

theorem entries_chain {s : St K} {base : List Nat} {y : Layer K} (hc : base.IsChain (fun a b => s.nextEdge a = some b))
    (e1 : y.entries.map (fun x => x.1) = base) (e2 : ∀ x ∈ y.entries, EntryOK s x) :
    y.entries.IsChain (fun x z => x.2.2.1 = z.2.1) := by
  generalize y.entries = es at e1 e2
  subst e1
  induction es with
  | nil => simp
  | cons x es ih =>
    cases es with
    | nil => simp
    | cons z es =>
      simp only [List.map_cons, List.isChain_cons_cons] at hc ⊢
      refine ⟨?_, ih (fun w hw => e2 w (List.mem_cons_of_mem _ hw)) hc.2⟩
      rw [(e2 x (by simp)).2.2, (e2 z (by simp)).2.1, nextEdge_join hc.1]

/-! ### The ends -/

theorem wf_setPos {s : St K} (h : WF s) (v : Nat) (p : Pt K) : WF (s.setPos v p) := by
  have hv : ∀ w, ((s.setPos v p).V w).edges = (s.V w).edges ∧ ((s.setPos v p).V w).facets = (s.V w).facets := by
    intro w
    unfold setPos upd
    dsimp only
    split_ifs <;> exact ⟨rfl, rfl⟩
  refine ⟨⟨fun w hw => ?_, fun w hw => ?_⟩, ⟨h.vnd, h.vlt, h.ends, h.tnd, h.qnd, h.tlt, h.qlt, h.tcor, h.qcor, h.cor⟩⟩
  · rw [(hv w).1]; exact h.edges w hw
  · rw [(hv w).2]; exact h.facets w hw

theorem mem_removeEdge {s : St K} {e x : Nat} {l : EL} (h : x ∈ s.es l) (hne : x ≠ e) : x ∈ (s.removeEdge e).es l := by
  unfold removeEdge upd
  dsimp only
  split_ifs
  · rw [List.mem_filter]; exact ⟨h, by simpa using hne⟩
  · exact h

theorem mem_addEdge {s : St K} {x : Nat} {l : EL} (h : x ∈ s.es l) (m : EL) (a b c p) : x ∈ (s.addEdge m a b c p).es l := by
  unfold addEdge upd
  dsimp only
  split_ifs
  · exact List.mem_append_left _ h
  · exact h

theorem splitFront_mem {s s' : St K} {e x : Nat} {sf : K} (h : splitFront s e sf = some s') (hx : x ∈ s.es .front) (hne : x ≠ e) :
    x ∈ s'.es .front := by
  unfold splitFront at h
  by_cases hc : 1 ≤ sf ∨ sf ≤ 0
  · rw [if_pos hc] at h; cases h
  · rw [if_neg hc] at h
    dsimp only at h
    rw [← Option.some.inj h]
    refine mem_removeEdge (mem_addEdge (mem_addEdge ?_ ..) ..) hne
    split_ifs <;> exact hx

theorem split_mem {s s' : St K} (hw : WF s) {e x n : Nat} {sf : K} (h : QL.split s e sf = some (s', n)) (he : e ∈ s.es .front)
    (hx : x ∈ s.es .front) (hne : x ≠ e) : x ∈ s'.es .front := by
  unfold QL.split at h
  dsimp only at h
  cases h1 : splitFront s e sf with
  | none => rw [h1] at h; cases h
  | some s1 =>
    rw [h1] at h
    have m1 := splitFront_mem h1 hx hne
    cases h2 : s.getEdge .bdry (s.E e).v1 (s.E e).v2 with
    | none => rw [h2] at h; simp only [Option.some.injEq, Prod.mk.injEq] at h; rw [← h.1]; exact m1
    | some b =>
      rw [h2] at h
      dsimp only at h
      unfold splitBdry at h
      split at h
      · cases h
      · simp only [Option.map_some, Option.some.injEq, Prod.mk.injEq] at h
        rw [← h.1]
        refine mem_addEdge (mem_addEdge (mem_removeEdge m1 ?_) ..) ..
        rintro rfl
        have hb := (getEdge_some hw ((hw.ends _).2 e he).2.1 h2).1
        have := ((hw.ends _).2 x hb).1
        rw [((hw.ends _).2 x hx).1] at this
        cases this

theorem place_tracks {L : LEnv K} {R : Regime L} {s s' : St K} (hw : WF s) {e v q : Nat} {h : K} {x p : Pt K} {b : Bool} (he : e ∈ s.es .front)
    (hq : q ∈ s.verts) (hp : place L s e v q h x b = some (s', p)) :
    Tracks R s (placeLog L s e q h x) s' (∀ f ∈ s.es .front, f ≠ e → f ∈ s'.es .front) := by
  unfold place at hp
  unfold placeLog
  dsimp only at hp
  by_cases h1 : Pt.normSq (s.pos q - x) < h * h
  · rw [if_pos h1] at hp ⊢
    simp only [Option.some.injEq, Prod.mk.injEq] at hp
    rw [← hp.1]
    exact .of (.move hq) fun f hf _ => hf
  · rw [if_neg h1] at hp ⊢
    by_cases h2 : h < len L s e
    · rw [if_pos h2] at hp ⊢
      generalize hs : QL.split s e _ = o at hp
      cases o with
      | none => cases hp
      | some r =>
        obtain ⟨s1, n⟩ := r
        simp only [Option.some.injEq, Prod.mk.injEq] at hp
        rw [← hp.1]
        have hn := (split_spec hw he hs).1
        rw [← hn]
        exact .of (.split he hs) fun f hf hne => split_mem hw hs he hf hne
    · rw [if_neg h2] at hp ⊢
      simp only [Option.some.injEq, Prod.mk.injEq] at hp
      rw [← hp.1]
      exact .refl fun f hf _ => hf

theorem placeStart_tracks {L : LEnv K} {R : Regime L} {s0 s s' : St K} (hw : WF s) {base : List Nat} {e : Nat} {y y' : Layer K} (he : e ∈ s.es .front)
    (sh : Shape s0 base y) (hp : placeStart L s e y = some (s', y')) :
    Tracks R s (placeStartLog L s e y) s' (∀ f ∈ s.es .front, (s.E f).v2 ≠ (s.E e).v1 → f ∈ s'.es .front) ∧ Shape s0 base y' := by
  unfold placeStart at hp
  unfold placeStartLog
  split at hp
  · rename_i ep a b h x hpe e1 e2 e3 e4
    rw [hpe, e1, e2, e3, e4]
    dsimp only at hp ⊢
    by_cases hl : (!isLeft L.env.eps (s.pos a) (s.pos b) (s.pos (s.E ep).v1)) = true
    · rw [if_pos hl] at hp ⊢
      simp only [Option.some.injEq, Prod.mk.injEq] at hp
      rw [← hp.1, ← hp.2]
      exact ⟨.refl fun f hf _ => hf, sh⟩
    · rw [if_neg hl] at hp ⊢
      have hm := prevEdge_mem hw he hpe
      cases hpl : place L s ep a (s.E ep).v1 h x false with
      | none => rw [hpl] at hp; cases hp
      | some r =>
        obtain ⟨s1, p⟩ := r
        rw [hpl] at hp
        simp only [Option.some.injEq, Prod.mk.injEq] at hp
        rw [← hp.1, ← hp.2]
        refine ⟨(place_tracks hw hm ((hw.ends _).2 ep hm).2.1 hpl).mono fun k f hf hne => k f hf ?_,
          ⟨sh.b, sh.v1, sh.v2, by simp [sh.p1], sh.p2⟩⟩
        rintro rfl
        exact hne (prevEdge_join hpe)
  · cases hp

theorem placeEnd_shape {L : LEnv K} {s0 s s' : St K} {base : List Nat} {e : Nat} {y y' : Layer K}
    (sh : Shape s0 base y) (hp : placeEnd L s e y = some (s', y')) : Shape s0 base y' := by
  unfold placeEnd at hp
  dsimp only at hp
  split at hp
  · rename_i ep a b h x hpe _ _ _ _
    split_ifs at hp with hl
    · simp only [Option.some.injEq, Prod.mk.injEq] at hp
      rw [← hp.2]
      exact sh
    · cases hpl : place L s ep b (s.E ep).v2 h x true with
      | none => rw [hpl] at hp; cases hp
      | some r =>
        obtain ⟨s1, p⟩ := r
        rw [hpl] at hp
        simp only [Option.some.injEq, Prod.mk.injEq] at hp
        rw [← hp.2]
        exact ⟨sh.b, sh.v1, sh.v2, sh.p1, by simp [sh.p2]⟩
  · cases hp

theorem placeEnd_tracks {L : LEnv K} {R : Regime L} {s s' : St K} (hw : WF s) {e : Nat} {y y' : Layer K} (he : e ∈ s.es .front)
    (hp : placeEnd L s e y = some (s', y')) : Tracks R s (placeEndLog L s e y) s' True := by
  unfold placeEnd at hp
  unfold placeEndLog
  dsimp only at hp ⊢
  split at hp
  · rename_i ep a b h x hpe e1 e2 e3 e4
    rw [hpe, e1, e2, e3, e4]
    dsimp only
    by_cases hl : (!isLeft L.env.eps (s.pos a) (s.pos b) (s.pos (s.E ep).v2)) = true
    · rw [if_pos hl] at hp ⊢
      simp only [Option.some.injEq, Prod.mk.injEq] at hp
      rw [← hp.1]
      exact .refl trivial
    · rw [if_neg hl] at hp ⊢
      have hm := nextEdge_mem hw he hpe
      cases hpl : place L s ep b (s.E ep).v2 h x true with
      | none => rw [hpl] at hp; cases hp
      | some r =>
        obtain ⟨s1, p⟩ := r
        rw [hpl] at hp
        simp only [Option.some.injEq, Prod.mk.injEq] at hp
        rw [← hp.1]
        exact (place_tracks hw hm ((hw.ends _).2 ep hm).2.2.1 hpl).mono fun _ => trivial
  · cases hp

/-! ### The search for the ends -/

theorem closest_mem {far : K} {s : St K} {p : Pt K} {v : Nat} (h : closest far s p = some v) :
    ∃ e ∈ s.es .front, (s.E e).v1 = v := by
  unfold closest at h
  have : ∀ (l : List Nat) (c : Option Nat × K), (l.foldl (fun (c : Option Nat × K) e =>
      let d := Pt.normSq (p - s.pos (s.E e).v1)
      if d ≥ c.2 then c else (some (s.E e).v1, d)) c).1 = c.1 ∨ ∃ e ∈ l, (l.foldl (fun (c : Option Nat × K) e =>
      let d := Pt.normSq (p - s.pos (s.E e).v1)
      if d ≥ c.2 then c else (some (s.E e).v1, d)) c).1 = some (s.E e).v1 := by
    intro l
    induction l with
    | nil => intro c; exact Or.inl rfl
    | cons e l ih =>
      intro c
      rw [List.foldl_cons]
      rcases ih (let d := Pt.normSq (p - s.pos (s.E e).v1)
        if d ≥ c.2 then c else (some (s.E e).v1, d)) with h | ⟨f, hf, h⟩
      · rw [h]
        dsimp only
        split_ifs
        · exact Or.inl rfl
        · exact Or.inr ⟨e, List.mem_cons_self, rfl⟩
      · exact Or.inr ⟨f, List.mem_cons_of_mem _ hf, h⟩
  rcases this (s.es .front) (none, far) with h1 | ⟨e, he, h1⟩
  · rw [h1] at h; cases h
  · rw [h1] at h; exact ⟨e, he, Option.some.inj h⟩

theorem edgeFrom_spec {s : St K} (hw : WF s) {v e : Nat} (hv : v ∈ s.verts) (h : edgeFrom s v = some e) :
    e ∈ s.es .front ∧ (s.E e).v1 = v := by
  have h1 := List.mem_of_find?_eq_some h
  have h2 := List.find?_some h
  simp only [Bool.and_eq_true, decide_eq_true_eq] at h2
  have h3 := (((hw.edges _ hv).2 e).mp h1).1
  unfold LiveE at h3
  rw [h2.1] at h3
  exact ⟨h3, h2.2⟩

theorem edgeTo_spec {s : St K} (hw : WF s) {v e : Nat} (hv : v ∈ s.verts) (h : edgeTo s v = some e) :
    e ∈ s.es .front ∧ (s.E e).v2 = v := by
  have h1 := List.mem_of_find?_eq_some h
  have h2 := List.find?_some h
  simp only [Bool.and_eq_true, decide_eq_true_eq] at h2
  have h3 := (((hw.edges _ hv).2 e).mp h1).1
  unfold LiveE at h3
  rw [h2.1] at h3
  exact ⟨h3, h2.2⟩

theorem findEdges_spec {L : LEnv K} {s : St K} (hw : WF s) {xs xe : Pt K} {es ee : Nat} {closed : Bool}
    (h : findEdges L s xs xe = .yes es ee closed) :
    es ∈ s.es .front ∧ ee ∈ s.es .front ∧ (closed = false → (s.E ee).v2 ≠ (s.E es).v1) := by
  unfold findEdges at h
  split at h
  · rename_i a b ha hb
    obtain ⟨x, hx, rfl⟩ := closest_mem ha
    obtain ⟨z, hz, rfl⟩ := closest_mem hb
    have ma := ((hw.ends _).2 x hx).2.1
    have mb := ((hw.ends _).2 z hz).2.1
    split at h
    · rename_i es' ee' hs' he'
      obtain ⟨f1, f2⟩ := edgeFrom_spec hw ma hs'
      obtain ⟨g1, g2⟩ := edgeTo_spec hw mb he'
      by_cases hr : (!reaches s.nextEdge ee' (s.es .front).length es') = true
      · rw [if_pos hr] at h; cases h
      · rw [if_neg hr] at h
        by_cases hab : (s.E x).v1 = (s.E z).v1
        · rw [if_pos hab] at h
          dsimp only at h
          split at h
          · rename_i f hf
            split_ifs at h
            · cases h; exact ⟨nextEdge_mem hw f1 hf, f1, fun h => by cases h⟩
            · cases h; exact ⟨f1, g1, fun h => by cases h⟩
          · cases h; exact ⟨f1, g1, fun h => by cases h⟩
        · rw [if_neg hab] at h
          cases h
          exact ⟨f1, g1, fun _ => by rw [f2, g2]; exact Ne.symm hab⟩
    · cases h
  · cases h

/-! ### The layer -/

variable {L : LEnv K} {R : Regime L} (he : 0 < L.env.eps) (hq : QueryLive L.env) (hso : SortOK L.env)
include he hq hso

theorem setup_tracks {s0 s s' : St K} (hw : R.I s) {base : List Nat} {es ee : Nat} {closed : Bool} {y y' : Layer K}
    (h1 : es ∈ s.es .front) (h2 : ee ∈ s.es .front) (h3 : closed = false → (s.E ee).v2 ≠ (s.E es).v1)
    (sh : Shape s0 base y) (hp : setup L s es ee closed y = some (s', y')) : Tracks R s (setupLog L s es ee closed y) s' True ∧ Shape s0 base y' := by
  unfold setup at hp
  unfold setupLog
  dsimp only at hp ⊢
  cases closed with
  | true =>
    simp only [if_true, Option.some.injEq, Prod.mk.injEq] at hp ⊢
    rw [← hp.1, ← hp.2]
    exact ⟨.refl trivial, sh.adjustAll true⟩
  | false =>
    simp only [Bool.false_eq_true, if_false] at hp ⊢
    cases hs : placeStart L s es (adjustAll L s false y) with
    | none => rw [hs] at hp; cases hp
    | some r =>
      obtain ⟨s1, y2⟩ := r
      rw [hs] at hp
      dsimp only at hp
      obtain ⟨t1, sh1⟩ := placeStart_tracks (R.wf hw) h1 (sh.adjustAll false) hs
      exact ⟨Tracks.bind hw t1 fun w1 _ _ k => placeEnd_tracks (R.wf w1) (k ee h2 (h3 rfl)) hp, placeEnd_shape sh1 hp⟩

theorem body_tracks {s s2 : St K} (hw : R.I s) {fuel : Nat} {xs xe : Pt K} {ht : K} {es ee : Nat} {closed : Bool} {base : List Nat}
    {s1 : St K} {y : Layer K}
    (h1 : findEdges L s xs xe = .yes es ee closed) (h2 : walk s.nextEdge ee fuel es = .ok base)
    (h3 : setup L s es ee closed (smoothLayer L s (mkLayer L s ht base)) = some (s1, y))
    (h4 : finish L (create L s1 y).1 y (create L s1 y).2 = some s2) :
    Tracks R s (setupLog L s es ee closed (smoothLayer L s (mkLayer L s ht base)) ++
      (createLog L s1 y.entries ++ finishLog L (create L s1 y).1 y (create L s1 y).2)) s2 True := by
  obtain ⟨f1, f2, f3⟩ := findEdges_spec (R.wf hw) h1
  obtain ⟨t1, sh⟩ := setup_tracks he hq hso hw f1 f2 f3 (shape_mk L s ht base) h3
  have hb := walk_front (R.wf hw) f1 h2
  have hc := (walk_chain h2).1
  obtain ⟨e1, e2, e3⟩ := entries_ok (R.wf hw) hb sh
  have hch := entries_chain hc e1 e3
  have hv : ∀ x ∈ y.entries, x.2.1 ∈ s.verts := by
    intro x hx
    rw [(e3 x hx).2.1]
    exact (((R.wf hw).ends _).2 x.1 (hb x.1 (e1 ▸ List.mem_map_of_mem hx))).2.1
  refine Tracks.bind hw t1 fun w1 m1 k1 _ => ?_
  have t2 := create_tracks he hq hso y.entries s1 [] w1 fun x hx => (e3 x hx).mono k1
  refine Tracks.bind w1 t2 fun w2 m2 k2 hqs => ?_
  obtain ⟨qs, hqs, hf⟩ := hqs
  rw [List.nil_append] at hqs
  refine finish_tracks he hq hso w2 ?_ h4
  intro b p rest hz
  rw [← e2] at hz
  have hcr : (create L s1 y).2 = qs := hqs
  rw [hcr] at hz
  exact gap_ok y.entries qs hf hch (fun x hx => m2 _ (m1 _ (hv x hx))) b p rest hz

theorem layer_tracks {s s' : St K} (hw : R.I s) {fuel : Nat} {xs xe : Pt K} {ht : K}
    (h : layer L fuel s xs xe ht = .fail s' ∨ ∃ a b, layer L fuel s xs xe ht = .done s' a b) : Tracks R s (layerLog L fuel s xs xe ht) s' True := by
  unfold layer at h
  unfold layerLog
  cases h1 : findEdges L s xs xe with
  | undef => rw [h1] at h; simp at h
  | no =>
    rw [h1] at h
    simp only [LRes.fail.injEq, reduceCtorEq, exists_false, or_false] at h
    rw [← h]; exact .refl trivial
  | yes es ee closed =>
    rw [h1] at h
    dsimp only at h
    cases h2 : walk s.nextEdge ee fuel es with
    | null => rw [h2] at h; simp at h
    | loops => rw [h2] at h; simp at h
    | ok base =>
      rw [h2] at h
      dsimp only at h
      cases h3 : setup L s es ee closed (smoothLayer L s (mkLayer L s ht base)) with
      | none => rw [h3] at h; simp at h
      | some r =>
        obtain ⟨s1, y⟩ := r
        rw [h3] at h
        dsimp only at h
        cases h4 : finish L (create L s1 y).1 y (create L s1 y).2 with
        | none => rw [h4] at h; simp at h
        | some s2 =>
          rw [h4] at h
          dsimp only at h
          have := body_tracks he hq hso hw h1 h2 h3 h4
          simp only [h2, h3]
          cases h5 : nextEndings s2 closed (create L s1 y).2 with
          | none =>
            rw [h5] at h
            simp only [LRes.fail.injEq, reduceCtorEq, exists_false, or_false] at h
            rw [← h]; exact this
          | some r =>
            obtain ⟨a, b⟩ := r
            rw [h5] at h
            simp only [reduceCtorEq, LRes.done.injEq, false_or] at h
            obtain ⟨_, _, h, _⟩ := h
            rw [← h]; exact this

theorem layers_tracks {fuel : Nat} {growth : K} (n : Nat) : ∀ {s : St K} {xs xe : Pt K} {ht : K} {r}, R.I s →
    layers L fuel growth n s xs xe ht = some r → Tracks R s (layersLog L fuel growth n s xs xe ht) r.1 True := by
  induction n with
  | zero => intro s xs xe ht r _ h; unfold layers at h; rw [← Option.some.inj h]; exact .refl trivial
  | succ n ih =>
    intro s xs xe ht r hw h
    unfold layers at h
    unfold layersLog
    cases h1 : layer L fuel s xs xe ht with
    | undef => rw [h1] at h; cases h
    | fail s' =>
      rw [h1] at h
      rw [← Option.some.inj h]
      simpa using layer_tracks he hq hso hw (Or.inl h1)
    | done s' a b =>
      rw [h1] at h
      dsimp only at h
      cases h2 : layers L fuel growth n s' a b (ht * growth) with
      | none => rw [h2] at h; cases h
      | some q =>
        rw [h2] at h
        rw [← Option.some.inj h]
        exact Tracks.bind hw (layer_tracks he hq hso hw (Or.inr ⟨_, _, h1⟩)) fun w1 _ _ _ => ih (r := q) w1 h2

end TQ.QL

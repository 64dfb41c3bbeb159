import Verif.QuadLayer.Link
import Verif.QuadLayer.Log

/-! # Lemmas on quad layers: the functions of the model follow histories of steps, continued -/

set_option linter.unusedSectionVars false

namespace TQ.QL
open TQ.MS TQ.MeshSpec TQ.FUSpec TQ.MCSpec TQ.QLSpec TQ.FU MS.St
variable {K : Type*} [Field K] [LinearOrder K] [IsStrictOrderedRing K]

/-- An invariant of meshes, and the changes under which it is kept. -/
structure Regime (L : LEnv K) where
  /-- The invariant. -/
  I : St K → Prop
  /-- The changes. -/
  ok : Ev K → Prop
  wf : ∀ {s}, I s → WF s
  keep : ∀ {s l s'}, I s → LStep L s l s' → (∀ x ∈ l, ok x) → I s' ∧ ∀ v ∈ s.verts, v ∈ s'.verts

variable {L : LEnv K}

theorem Regime.run (R : Regime L) {s0 s : St K} {log : List (Ev K)} (h : R.I s0) (r : LRun L s0 log s)
    (g : ∀ x ∈ log, R.ok x) : R.I s ∧ ∀ v ∈ s0.verts, v ∈ s.verts := by
  induction r with
  | start => exact ⟨h, fun _ hv => hv⟩
  | step _ st ih =>
    obtain ⟨i1, m1⟩ := ih fun x hx => g x (List.mem_append_left _ hx)
    obtain ⟨i2, m2⟩ := R.keep i1 st fun x hx => g x (List.mem_append_right _ hx)
    exact ⟨i2, fun v hv => m2 v (m1 v hv)⟩

/-- The regime of good changes. -/
def regGood (he : 0 < L.env.eps) (hq : QueryLive L.env) (hso : SortOK L.env) : Regime L where
  I := WF
  ok := Good
  wf := id
  keep := fun h st g => ⟨(kept_step he hq hso h st g).wf, (kept_step he hq hso h st g).verts⟩

/-- If the changes are allowed then the history leads to `s` and `P` holds. -/
def Tracks (R : Regime L) (s0 : St K) (log : List (Ev K)) (s : St K) (P : Prop) : Prop :=
  (∀ x ∈ log, R.ok x) → LRun L s0 log s ∧ P

theorem lrun_append {L : LEnv K} {s0 s s' : St K} {l m : List (Ev K)} (h : LRun L s0 l s) (g : LRun L s m s') :
    LRun L s0 (l ++ m) s' := by
  induction g with
  | start => simpa using h
  | step _ st ih => rw [← List.append_assoc]; exact .step ih st

theorem Tracks.refl {R : Regime L} {s : St K} {P : Prop} (h : P) : Tracks R s [] s P := fun _ => ⟨.start, h⟩

theorem Tracks.of {R : Regime L} {s s' : St K} {l : List (Ev K)} {P : Prop} (st : LStep L s l s') (h : P) : Tracks R s l s' P :=
  fun _ => ⟨by simpa using LRun.step .start st, h⟩

theorem Tracks.mono {R : Regime L} {s s' : St K} {l : List (Ev K)} {P Q : Prop} (h : Tracks R s l s' P) (f : P → Q) : Tracks R s l s' Q :=
  fun g => ⟨(h g).1, f (h g).2⟩

variable {R : Regime L} (he : 0 < L.env.eps) (hq : QueryLive L.env) (hso : SortOK L.env)
include he hq hso

omit he hq hso in
theorem Tracks.bind {s0 s s' : St K} {l m : List (Ev K)} {P Q : Prop} (h : R.I s0) (t : Tracks R s0 l s P)
    (f : R.I s → (∀ v ∈ s0.verts, v ∈ s.verts) → ES s0 s → P → Tracks R s m s' Q) : Tracks R s0 (l ++ m) s' Q := by
  intro g
  have gl : ∀ x ∈ l, R.ok x := fun x hx => g x (List.mem_append_left _ hx)
  have gm : ∀ x ∈ m, R.ok x := fun x hx => g x (List.mem_append_right _ hx)
  obtain ⟨r, p⟩ := t gl
  obtain ⟨i, k⟩ := R.run h r gl
  obtain ⟨r2, q⟩ := f i k (es_run r) p gm
  exact ⟨lrun_append r r2, q⟩

/-- Projected vertices of one base edge. -/
structure ProjOK (s : St K) (v1 v2 : Nat) (p : Option Nat × Option Nat) : Prop where
  p1 : ∀ q, p.1 = some q → q ∈ s.verts ∧ q ≠ v1
  p2 : ∀ q, p.2 = some q → q ∈ s.verts ∧ q ≠ v2

omit he hq hso in
theorem ProjOK.none {s : St K} {v1 v2 : Nat} : ProjOK s v1 v2 (none, none) := ⟨fun _ h => by simp at h, fun _ h => by simp at h⟩

omit he hq hso in
theorem ProjOK.mono {s s' : St K} {v1 v2 : Nat} {p} (h : ProjOK s v1 v2 p) (m : ∀ v ∈ s.verts, v ∈ s'.verts) : ProjOK s' v1 v2 p :=
  ⟨fun q hq => ⟨m q (h.p1 q hq).1, (h.p1 q hq).2⟩, fun q hq => ⟨m q (h.p2 q hq).1, (h.p2 q hq).2⟩⟩

theorem element_tracks {s : St K} (h : R.I s) {base v1 v2 : Nat} (hb : base ∈ s.es .front) (h1 : v1 = (s.E base).v1)
    (h2 : v2 = (s.E base).v2) (x1 x2 : Pt K) :
    Tracks R s (elementLog L s base v1 x1 v2 x2) (element L s base v1 x1 v2 x2).1 (ProjOK (element L s base v1 x1 v2 x2).1 v1 v2 (element L s base v1 x1 v2 x2).2) := by
  unfold element elementLog
  generalize hu : updateFront L.env s base x1 x1 (L.rangeFactor * L.env.norm (s.pos v1 - x1)) = r1
  obtain ⟨s1, o1⟩ := r1
  cases o1 with
  | none => exact .of (.fail hb hu) ProjOK.none
  | some t1 =>
    obtain ⟨q1, d1⟩ := updateFront_done he hq hso (R.wf h) hb hu
    have hc1 : (s1.F (.tri t1)).corners[2]? = some q1 := by rw [d1.cor]; rfl
    have n1 := d1.ndp
    simp only [List.nodup_cons, List.mem_cons, List.not_mem_nil, or_false, not_or] at n1
    have st1 : LStep L s _ s1 := .tri hb hu hc1
    have m1 : q1 ≠ v1 := by rw [h1]; exact Ne.symm n1.1.2
    dsimp only
    rw [hc1]
    dsimp only
    cases hdg : s1.getEdge .front q1 v2 with
    | none =>
      refine .of st1 ⟨fun q hq => ?_, fun q hq => by simp at hq⟩
      rw [← Option.some.inj hq]
      exact ⟨d1.vmem, m1⟩
    | some dg =>
      dsimp only
      obtain ⟨hdm, hdd⟩ := getEdge_some d1.wf d1.vmem hdg
      generalize hu2 : updateFront L.env s1 dg x2 x2 (L.rangeFactor * L.env.norm (s1.pos v2 - x2)) = r2
      obtain ⟨s2, o2⟩ := r2
      cases o2 with
      | none =>
        refine Tracks.bind (m := []) h (.of st1 trivial) fun w1 _ _ _ => .of (.fail hdm hu2) ?_
        have ho := updateFront_outcome he hq hso d1.wf hdm x2 x2 (L.rangeFactor * L.env.norm (s1.pos v2 - x2))
        rw [hu2] at ho
        cases ho with
        | fail same wf _ =>
          refine ⟨fun q hq => ?_, fun q hq => by simp at hq⟩
          rw [← Option.some.inj hq]
          exact ⟨by rw [same.verts]; exact d1.vmem, m1⟩
      | some t2 =>
        obtain ⟨q2, d2⟩ := updateFront_done he hq hso d1.wf hdm hu2
        have hc2 : (s2.F (.tri t2)).corners[2]? = some q2 := by rw [d2.cor]; rfl
        have n2 := d2.ndp
        simp only [List.nodup_cons, List.mem_cons, List.not_mem_nil, or_false, not_or] at n2
        have m2 : q2 ≠ v2 := by
          rcases hdd with hdd | hdd
          · rw [← hdd.2]; exact Ne.symm n2.2.1
          · rw [← hdd.2]; exact Ne.symm n2.1.2
        dsimp only
        rw [hc2]
        dsimp only
        have hP : ∀ s3 : St K, s3.verts = s2.verts → ProjOK s3 v1 v2 (some q1, some q2) := by
          intro s3 h3
          refine ⟨fun q hq => ?_, fun q hq => ?_⟩
          · rw [← Option.some.inj hq, h3]; exact ⟨d2.verts _ d1.vmem, m1⟩
          · rw [← Option.some.inj hq, h3]; exact ⟨d2.vmem, m2⟩
        cases her : s2.getEdge .intr v2 q1 with
        | none =>
          exact Tracks.bind (m := [_]) h (.of st1 trivial) fun w1 _ _ _ => .of (.tri hdm hu2 hc2) (hP s2 rfl)
        | some er =>
          dsimp only
          subst h1 h2
          refine .of (.quad hb hu hc1 hdg hu2 hc2 her) (hP _ ?_)
          unfold toQuad removeIntr
          dsimp only
          split_ifs <;> rfl

/-- Entries of a layer belong to their base edge. -/
def EntryOK (s : St K) (b : Nat × Nat × Nat × Pt K × Pt K) : Prop :=
  b.1 < s.nxt ∧ b.2.1 = (s.E b.1).v1 ∧ b.2.2.1 = (s.E b.1).v2

omit he hq hso in
theorem EntryOK.mono {s s' : St K} {b} (h : EntryOK s b) (e : ES s s') : EntryOK s' b :=
  ⟨lt_of_lt_of_le h.1 e.nxt, by rw [e.E _ h.1]; exact h.2.1, by rw [e.E _ h.1]; exact h.2.2⟩

theorem create_tracks (es : List (Nat × Nat × Nat × Pt K × Pt K)) : ∀ (s : St K) (ps : List (Option Nat × Option Nat)), R.I s →
    (∀ b ∈ es, EntryOK s b) →
    Tracks R s (createLog L s es) (es.foldl (elementStep L) (s, ps)).1
      (∃ qs, (es.foldl (elementStep L) (s, ps)).2 = ps ++ qs ∧
        List.Forall₂ (fun x p => ProjOK (es.foldl (elementStep L) (s, ps)).1 x.2.1 x.2.2.1 p) es qs) := by
  induction es with
  | nil => intro s ps h hb; exact .refl ⟨[], by simp⟩
  | cons b es ih =>
    intro s ps h hb
    rw [List.foldl_cons]
    have hb0 := hb b List.mem_cons_self
    have key : ∀ (s1 : St K) (p : Option Nat × Option Nat) (l : List (Ev K)), (∀ ps, elementStep L (s, ps) b = (s1, ps ++ [p])) →
        Tracks R s l s1 (ProjOK s1 b.2.1 b.2.2.1 p) →
        Tracks R s (l ++ createLog L (elementStep L (s, []) b).1 es) (es.foldl (elementStep L) (elementStep L (s, ps) b)).1
          (∃ qs, (es.foldl (elementStep L) (elementStep L (s, ps) b)).2 = ps ++ qs ∧
            List.Forall₂ (fun x p => ProjOK (es.foldl (elementStep L) (elementStep L (s, ps) b)).1 x.2.1 x.2.2.1 p) (b :: es) qs) := by
      intro s1 p l hs1 ht
      rw [hs1, hs1]
      refine Tracks.bind h ht fun w1 _ e1 hp => ?_
      have h3 := ih s1 (ps ++ [p]) w1 fun x hx => (hb x (List.mem_cons_of_mem _ hx)).mono e1
      intro x
      obtain ⟨r, qs, hqs, hf⟩ := h3 x
      refine ⟨r, p :: qs, by simp [hqs], List.Forall₂.cons (hp.mono (R.run w1 r x).2) hf⟩
    unfold createLog
    by_cases hm : b.1 ∈ s.es .front
    · rw [if_neg (by simp [hm])]
      refine key _ _ _ ?_ (element_tracks he hq hso h hm hb0.2.1 hb0.2.2 b.2.2.2.1 b.2.2.2.2)
      intro ps
      unfold elementStep
      simp [hm]
    · rw [if_pos hm]
      refine key s (none, none) [] ?_ (.refl ProjOK.none)
      intro ps
      unfold elementStep
      simp [hm]

theorem closeGap_tracks {s s' : St K} {a b c : Nat} (hn : [a, b, c].Nodup) (ha : a ∈ s.verts) (hb : b ∈ s.verts)
    (hc : c ∈ s.verts) (h : closeGap L s a b c = some s') : Tracks R s (closeGapLog L s a b c) s' True := by
  unfold closeGap at h
  unfold closeGapLog
  dsimp only at h ⊢
  by_cases hl : L.angleLe (s.pos a - s.pos b) (s.pos c - s.pos b) = true
  · rw [if_pos hl] at h ⊢
    by_cases hv : triangleIsValid L.env (s.addTri a b c (-1)) s.nxt a b c = true
    · rw [if_neg (by simp [hv])] at h ⊢
      cases hg : (s.addTri a b c (-1)).getEdge .front b c with
      | none => rw [hg] at h; cases h
      | some e =>
        rw [hg] at h
        rw [← Option.some.inj h]
        exact .of (.gap hn ha hb hc hv hg) trivial
    · rw [if_pos (by simp [hv])] at h ⊢
      rw [← Option.some.inj h]
      exact .of (.gapFail hn ha hb hc) trivial
  · rw [if_neg hl] at h ⊢
    generalize hs1 : ((s.addVertex (s.pos b + (s.pos a - s.pos b) + (s.pos c - s.pos b))).addTri a b s.nxt (-1)).addTri b c s.nxt (-1) = s1 at h ⊢
    by_cases hv : (vertexIsValid L.env s1 s.nxt && triangleIsValid L.env s1 (s.nxt + 1) a b s.nxt &&
        triangleIsValid L.env s1 (s.nxt + 2) b c s.nxt) = true
    · rw [if_neg (by simp [hv])] at h ⊢
      simp only [Bool.and_eq_true] at hv
      cases hg : s1.getEdge .front a b with
      | none => rw [hg] at h; cases h
      | some e1 =>
        rw [hg] at h
        dsimp only at h ⊢
        cases hg2 : (advanceFront s1 e1 s.nxt (s.nxt + 1)).getEdge .front b c with
        | none => rw [hg2] at h; cases h
        | some e2 =>
          rw [hg2] at h
          rw [← Option.some.inj h]
          exact .of (.gap2 hn ha hb hc hs1.symm hv.1.2 hv.2 hg hg2) trivial
    · rw [if_pos (by simp [hv])] at h ⊢
      rw [← Option.some.inj h, ← hs1]
      exact .of (.gap2Fail hn ha hb hc) trivial

/-- Vertices of the gaps. -/
def GapOK (s : St K) : Option Nat → List (Nat × Option Nat × Option Nat) → Prop
  | _, [] => True
  | prev, (b, p1, p2) :: rest => b ∈ s.verts ∧ (∀ a, prev = some a → a ∈ s.verts ∧ a ≠ b) ∧
      (∀ c, p1 = some c → c ∈ s.verts ∧ c ≠ b) ∧ GapOK s p2 rest

omit he hq hso in
theorem GapOK.mono {s s' : St K} (m : ∀ v ∈ s.verts, v ∈ s'.verts) : ∀ (l : List (Nat × Option Nat × Option Nat)) (o : Option Nat),
    GapOK s o l → GapOK s' o l
  | [], _, _ => trivial
  | (_, _, _) :: rest, _, ⟨h1, h2, h3, h4⟩ =>
    ⟨m _ h1, fun a ha => ⟨m _ (h2 a ha).1, (h2 a ha).2⟩, fun a ha => ⟨m _ (h3 a ha).1, (h3 a ha).2⟩, GapOK.mono m rest _ h4⟩

theorem closeGaps_tracks (l : List (Nat × Option Nat × Option Nat)) : ∀ (s s' : St K) (o : Option Nat), R.I s → GapOK s o l →
    closeGaps L s o l = some s' → Tracks R s (closeGapsLog L s o l) s' True := by
  induction l with
  | nil => intro s s' o _ _ h; unfold closeGaps at h; rw [← Option.some.inj h]; exact .refl trivial
  | cons x rest ih =>
    obtain ⟨b, p1, p2⟩ := x
    intro s s' o w ⟨h1, h2, h3, h4⟩ h
    unfold closeGaps at h
    unfold closeGapsLog
    cases p1 with
    | none => exact ih s s' p2 w h4 h
    | some c =>
      cases o with
      | none => exact ih s s' p2 w h4 h
      | some a =>
        dsimp only at h ⊢
        by_cases hca : c = a
        · rw [if_pos hca] at h ⊢; exact ih s s' p2 w h4 h
        · rw [if_neg hca] at h ⊢
          cases hg : closeGap L s a b c with
          | none => rw [hg] at h; cases h
          | some s1 =>
            rw [hg] at h
            obtain ⟨a1, a2⟩ := h2 a rfl
            obtain ⟨c1, c2⟩ := h3 c rfl
            refine Tracks.bind w (closeGap_tracks he hq hso ?_ a1 h1 c1 hg) fun w1 m _ _ =>
              ih s1 s' p2 w1 (GapOK.mono m _ _ h4) h
            simp only [List.nodup_cons, List.mem_cons, List.not_mem_nil, or_false, not_or]
            exact ⟨⟨a2, Ne.symm hca⟩, Ne.symm c2, by simp⟩

omit he hq hso in
theorem mark_run (vs : List Nat) : ∀ s : St K, LRun L s [] (mark s vs) := by
  induction vs with
  | nil => intro s; exact .start
  | cons v vs ih =>
    intro s
    have h1 : LRun L s ([] ++ []) (s.setProps v (Flags.add · Flags.vInQuadLayer)) := .step .start .mark
    have h2 := lrun_append h1 (ih (s.setProps v (Flags.add · Flags.vInQuadLayer)))
    simpa [mark] using h2

theorem finish_tracks {s s' : St K} (h : R.I s) {y : Layer K} {ps : List (Option Nat × Option Nat)}
    (hg : ∀ b p rest, y.v1.zip ps = (b, p) :: rest → GapOK s p.2 rest) (hf : finish L s y ps = some s') :
    Tracks R s (finishLog L s y ps) s' True := by
  unfold finish at hf
  unfold finishLog
  cases hz : y.v1.zip ps with
  | nil => rw [hz] at hf; rw [← Option.some.inj hf]; exact .refl trivial
  | cons x rest =>
    obtain ⟨b, p1, p2⟩ := x
    rw [hz] at hf
    dsimp only at hf
    cases hc : closeGaps L s p2 rest with
    | none => rw [hc] at hf; cases hf
    | some s1 =>
      rw [hc] at hf
      dsimp only at hf
      have := Tracks.bind (m := []) (s' := s') (Q := True) h
        (closeGaps_tracks he hq hso rest s s1 p2 h (hg b _ rest hz) hc) fun _ _ _ _ => (by
          rw [← Option.some.inj hf]
          exact fun _ => ⟨mark_run _ _, trivial⟩)
      simpa using this

end TQ.QL

import Verif.FrontUpdate.Step
import Mathlib.Algebra.BigOperators.Group.List.Basic
import Mathlib.Algebra.Group.Basic
import Mathlib.Tactic.Abel

/-! # Lemmas: additive laws of the front update -/

set_option linter.unusedSectionVars false

namespace TQ.FU
open TQ.MS TQ.MeshSpec TQ.FUSpec TQ.MS.St
variable {K : Type*} [Field K] [LinearOrder K] [IsStrictOrderedRing K]

theorem replaced_sum {A : Type*} [AddCommGroup A] (f : Nat × Nat → A) (hf : ∀ a b, f (a, b) = - f (b, a))
    {old new : List (Nat × Nat)} {b1 b2 v : Nat} (h : Replaced old new b1 b2 v) :
    (new.map f).sum + (f (b1, b2) + f (b2, v) + f (v, b1)) = (old.map f).sum := by
  obtain ⟨out, inn, rest, h1, h2, h3⟩ := h
  rw [(h1.map f).sum_eq, (h2.map f).sum_eq]
  have e1 := hf v b1
  have e2 := hf b2 v
  rcases h3 with ⟨rfl, rfl⟩ | ⟨rfl, rfl, _⟩ | ⟨rfl, rfl, _⟩ | ⟨rfl, rfl, _⟩ <;>
    simp only [List.map_cons, List.map_append, List.sum_cons, List.sum_append, List.map_nil, List.sum_nil, e1, e2] <;>
    abel

/-- All that a successful update changes, in one place. -/
structure Done (env : Env K) (s s' : St K) (b1 b2 v t : Nat) : Prop where
  wf : WF s'
  verts : ∀ w ∈ s.verts, w ∈ s'.verts
  pos : ∀ w ∈ s.verts, s'.pos w = s.pos w
  quads : s'.quads = s.quads
  tris : s'.tris = s.tris ++ [t]
  fold : ∀ f, Live s f → s'.F f = s.F f
  cor : (s'.F (.tri t)).corners = [b1, b2, v]
  act : (s'.F (.tri t)).active = true
  vmem : v ∈ s'.verts
  ndp : [b1, b2, v].Nodup
  tpos : 0 < triArea (s'.pos b1) (s'.pos b2) (s'.pos v)
  area : s'.area = s.area + triArea (s'.pos b1) (s'.pos b2) (s'.pos v)
  front : Oriented (pairs s .front) b1 b2 v → Replaced (pairs s .front) (pairs s' .front) b1 b2 v
  bdry : pairs s' .bdry = pairs s .bdry

theorem prep_pairs {env : Env K} {s s1 : St K} {b1 b2 v t : Nat} (h : Prep env s s1 b1 b2 v t) (l : EL) :
    pairs s1 l = pairs s l := by
  unfold pairs; rw [h.es, h.E]

theorem prep_adv {env : Env K} {s s1 : St K} {base v t : Nat}
    (hb : base ∈ s.es .front) (h : Prep env s s1 (s.E base).v1 (s.E base).v2 v t) :
    Adv s1 (advanceFront s1 base v t) base v t := by
  have hb' : base ∈ s1.es .front := by rw [h.es]; exact hb
  have hE : s1.E base = s.E base := by rw [h.E]
  have hn := h.ndp
  simp only [List.nodup_cons, List.mem_cons, List.not_mem_nil, or_false, not_or] at hn
  exact advanceFront_spec h.wf t hb' h.vmem (by rw [hE]; exact Ne.symm hn.1.2) (by rw [hE]; exact Ne.symm hn.2.1)

theorem prep_done {env : Env K} {s s1 : St K} (hs : WF s) {base v t : Nat} (hb : base ∈ s.es .front)
    (h : Prep env s s1 (s.E base).v1 (s.E base).v2 v t) :
    Done env s (advanceFront s1 base v t) (s.E base).v1 (s.E base).v2 v t := by
  have a := prep_adv hb h
  have hE : s1.E base = s.E base := by rw [h.E]
  have hF : ∀ f, f ≠ .tri t → (advanceFront s1 base v t).F f = s1.F f := by
    intro f hf; rw [a.F, upd_ne _ _ hf]
  have hFt : (advanceFront s1 base v t).F (.tri t) =
      ⟨[(s.E base).v1, (s.E base).v2, v], [.null, .null, .null], s.newColor (-1), true⟩ := by
    rw [a.F, upd_self, h.Ft]
  have hvs : ∀ w ∈ s.verts, w ∈ s1.verts := by
    intro w hw
    rcases h.verts with hh | hh
    · rw [hh]; exact hw
    · rw [hh.1]; exact List.mem_append_left _ hw
  have hval := triArea_pos_of_checkValidity h.valid
  refine ⟨a.wf, ?_, ?_, a.quads.trans h.quads, a.tris.trans h.tris, ?_, by rw [hFt], by rw [hFt], ?_, h.ndp, ?_, ?_, ?_, ?_⟩
  · intro w hw; rw [a.verts]; exact hvs w hw
  · intro w hw; rw [a.pos]; exact (h.V w hw).1
  · intro f hf
    have : f ≠ .tri t := by
      rintro rfl
      exact absurd (lt_of_lt_of_le (hs.tlt t hf) h.fresh) (lt_irrefl _)
    rw [hF f this]; exact h.F f hf
  · rw [a.verts]; exact h.vmem
  · rw [a.pos, a.pos, a.pos]; exact hval
  · rw [a.area, h.area, a.pos, a.pos, a.pos]
    congr 1
    unfold fArea; rw [h.Ft]
  · intro ho
    have := a.front (by rw [prep_pairs h, hE]; exact ho)
    rw [prep_pairs h, hE] at this
    exact this
  · rw [a.bdry, prep_pairs h]

theorem updateFront_done {env : Env K} (he : 0 < env.eps) (hq : QueryLive env) (hs : SortOK env) {s s' : St K}
    (h : WF s) {base t : Nat} (hb : base ∈ s.es .front) {np sp : Pt K} {r : K}
    (hu : updateFront env s base np sp r = (s', some t)) :
    ∃ v, Done env s s' (s.E base).v1 (s.E base).v2 v t := by
  have := updateFront_outcome he hq hs h hb np sp r
  rw [hu] at this
  cases this with
  | ok prep => exact ⟨_, prep_done h hb prep⟩

theorem updateFrontExhaustive_done {env : Env K} (he : 0 < env.eps) {s s' : St K}
    (h : WF s) {base v t : Nat} (hb : base ∈ s.es .front) (hv : v ∈ s.verts)
    (hu : updateFrontExhaustive env s base v = (s', some t)) :
    Done env s s' (s.E base).v1 (s.E base).v2 v t := by
  obtain ⟨_, hb1, hb2, hb12, _⟩ := (h.ends _).2 base hb
  unfold updateFrontExhaustive at hu
  dsimp only at hu
  split_ifs at hu with c1 c2 c3
  · simp at hu
  · simp at hu
  swap
  · simp at hu
  simp only [Prod.mk.injEq, Option.some.injEq] at hu
  obtain ⟨rfl, rfl⟩ := hu
  have hncl : orientation env.eps (s.pos (s.E base).v1) (s.pos (s.E base).v2) (s.pos v) ≠ .CL := by
    rw [not_not.mp c2]; decide
  have hn := notCL_nodup he hb12 hncl
  have c0 := (Cand.nil h (s.E base).v1 (s.E base).v2 (fun _ => True)).add h hb1 hb2 hv hn trivial
  have hval := checkValidity_of_valid c3
  rw [c0.pos, c0.pos, c0.pos] at hval
  have c1' : Cand s (s.addTri (s.E base).v1 (s.E base).v2 v (-1)) (s.E base).v1 (s.E base).v2
      (CandP env s (s.E base).v1 (s.E base).v2) ([] ++ [s.nxt]) :=
    (Cand.nil h _ _ _).add h hb1 hb2 hv hn ⟨⟨by simpa using c1, hncl⟩, hval⟩
  obtain ⟨v', hF, _, _, hp⟩ := c1'.prep
  have : v' = v := by
    have h2 : (s.addTri (s.E base).v1 (s.E base).v2 v (-1)).F (.tri s.nxt) =
      ⟨[(s.E base).v1, (s.E base).v2, v], [.null, .null, .null], s.newColor (-1), false⟩ := by simp [addTri]
    rw [h2] at hF
    simp only [FData.mk.injEq, List.cons.injEq, true_and, and_true] at hF
    exact hF.symm
  subst this
  exact prep_done h hb hp

theorem wf_reorder {s : St K} (h : WF s) {l : List Nat} (hl : l.Perm (s.es .front)) : WF (reorder s l) := by
  have hes : ∀ m e, e ∈ (reorder s l).es m ↔ e ∈ s.es m := by
    intro m e
    simp only [reorder, upd]
    split_ifs with hm
    · subst hm; exact hl.mem_iff
    · exact Iff.rfl
  have hlive : ∀ f, Live (reorder s l) f ↔ Live s f := by intro f; cases f <;> exact Iff.rfl
  have hle : ∀ e, LiveE (reorder s l) e ↔ LiveE s e := fun e => hes _ e
  refine { edges := ?_, facets := ?_, vnd := h.vnd, vlt := h.vlt, ends := ?_, tnd := h.tnd, qnd := h.qnd, tlt := h.tlt,
           qlt := h.qlt, tcor := h.tcor, qcor := h.qcor, cor := ?_ }
  · intro v hv; simp only [hle]; exact h.edges v hv
  · intro v hv; simp only [hlive]; exact h.facets v hv
  · intro m
    refine ⟨?_, fun e he => (h.ends m).2 e ((hes m e).mp he)⟩
    simp only [reorder, upd]
    split_ifs with hm
    · subst hm; exact hl.nodup_iff.mpr (h.ends _).1
    · exact (h.ends m).1
  · intro f hf; rw [hlive] at hf; exact h.cor f hf

theorem pairs_reorder {s : St K} {l : List Nat} (hl : l.Perm (s.es .front)) (m : EL) :
    (pairs (reorder s l) m).Perm (pairs s m) := by
  unfold pairs
  simp only [reorder, upd]
  split_ifs with hm
  · subst hm; exact hl.map _
  · exact List.Perm.refl _

/-- Everything that is kept by reordering and failed steps and changed by successful steps as in `Done` is
constant over a run. -/
theorem run_induct {env : Env K} (he : 0 < env.eps) (hq : QueryLive env) (hs : SortOK env) {s0 : St K} (h0 : WF s0)
    (P : List Entry → St K → Prop) (p0 : P [] s0)
    (pdone : ∀ log s s' base v t, WF s → base ∈ s.es .front → P log s →
      Done env s s' (s.E base).v1 (s.E base).v2 v t →
      (∃ s1, Prep env s s1 (s.E base).v1 (s.E base).v2 v t ∧ s' = advanceFront s1 base v t) →
      P (log ++ [⟨pairs s .front, (s.E base).v1, (s.E base).v2, v⟩]) s')
    (psame : ∀ log s s', WF s → WF s' → P log s → SameMesh s s' → P log s')
    (preorder : ∀ log s l, WF s → P log s → l.Perm (s.es .front) → P log (reorder s l))
    {log : List Entry} {s : St K} (hr : Run env s0 log s) : WF s ∧ P log s := by
  induction hr with
  | start => exact ⟨h0, p0⟩
  | @update log s s' base np sp r t v _ hb hu hv ih =>
    have ho := updateFront_outcome he hq hs ih.1 hb np sp r
    rw [hu] at ho
    cases ho with
    | @ok s1 v' _ prep =>
      have hd := prep_done ih.1 hb prep
      have : v' = v := by
        rw [hd.cor] at hv
        simpa using hv
      subst this
      exact ⟨hd.wf, pdone _ _ _ _ _ _ ih.1 hb ih.2 hd ⟨s1, prep, rfl⟩⟩
  | @exhaustive log s s' base v t _ hb hv hu ih =>
    have ho := updateFrontExhaustive_outcome he ih.1 hb hv
    have hd' := updateFrontExhaustive_done he ih.1 hb hv hu
    rw [hu] at ho
    cases ho with
    | @ok s1 v' _ prep =>
      have hd := prep_done ih.1 hb prep
      have : v' = v := by
        have e1 := hd.cor
        rw [hd'.cor] at e1
        simpa using e1.symm
      subst this
      exact ⟨hd.wf, pdone _ _ _ _ _ _ ih.1 hb ih.2 hd ⟨s1, prep, rfl⟩⟩
  | @updateFail log s s' base np sp r _ hb hu ih =>
    have ho := updateFront_outcome he hq hs ih.1 hb np sp r
    rw [hu] at ho
    cases ho with
    | fail same wf _ => exact ⟨wf, psame _ _ _ ih.1 wf ih.2 same⟩
  | @exhaustiveFail log s s' base v _ hb hv hu ih =>
    have ho := updateFrontExhaustive_outcome he ih.1 hb hv
    rw [hu] at ho
    cases ho with
    | fail same wf _ => exact ⟨wf, psame _ _ _ ih.1 wf ih.2 same⟩
  | @reorder log s l _ hl ih => exact ⟨wf_reorder ih.1 hl, preorder _ _ _ ih.1 ih.2 hl⟩

/-! ### The additive law -/

/-- Sum of a weight over directed edges; the weight may depend on the vertices and their positions. -/
def wsum {A : Type*} [AddCommGroup A] (w : Nat × Pt K → Nat × Pt K → A) (s : St K) (es : List (Nat × Nat)) : A :=
  (es.map fun e => w (e.1, s.pos e.1) (e.2, s.pos e.2)).sum

theorem wsum_congr {A : Type*} [AddCommGroup A] (w : Nat × Pt K → Nat × Pt K → A) {s s' : St K} {es : List (Nat × Nat)}
    (h : ∀ e ∈ es, s'.pos e.1 = s.pos e.1 ∧ s'.pos e.2 = s.pos e.2) : wsum w s' es = wsum w s es := by
  unfold wsum
  congr 1
  refine List.map_congr_left ?_
  intro e he
  rw [(h e he).1, (h e he).2]

theorem pairs_verts {s : St K} (h : WF s) {l : EL} : ∀ e ∈ pairs s l, e.1 ∈ s.verts ∧ e.2 ∈ s.verts := by
  intro e he
  unfold pairs at he
  obtain ⟨x, hx, rfl⟩ := List.mem_map.mp he
  obtain ⟨_, h1, h2, _⟩ := (h.ends l).2 x hx
  exact ⟨h1, h2⟩

theorem bdryOf_verts {cs : List Nat} {e : Nat × Nat} (h : e ∈ bdryOf cs) : e.1 ∈ cs ∧ e.2 ∈ cs := by
  unfold bdryOf at h
  obtain ⟨a, b⟩ := e
  have := List.of_mem_zip h
  exact ⟨this.1, List.mem_rotate.mp this.2⟩

theorem sides_verts {s : St K} (h : WF s) : ∀ e ∈ sides s, e.1 ∈ s.verts ∧ e.2 ∈ s.verts := by
  intro e he
  unfold sides triCorners at he
  rw [List.mem_flatMap] at he
  obtain ⟨cs, hcs, hm⟩ := he
  obtain ⟨t, ht, rfl⟩ := List.mem_map.mp hcs
  have h1 := bdryOf_verts hm
  have h2 := (h.cor (.tri t) ht).2
  exact ⟨h2 _ h1.1, h2 _ h1.2⟩

theorem same_pairs {s s' : St K} (h : SameMesh s s') (l : EL) : pairs s' l = pairs s l := by
  unfold pairs; rw [h.es, h.edata]

theorem same_pos {s s' : St K} (h : SameMesh s s') {v : Nat} (hv : v ∈ s.verts) : s'.pos v = s.pos v := by
  unfold St.pos; rw [h.vdata v hv]

theorem same_sides {s s' : St K} (h : SameMesh s s') : sides s' = sides s := by
  unfold sides triCorners
  rw [h.tris]
  congr 1
  refine List.map_congr_left ?_
  intro t ht
  rw [h.fdata (.tri t) ht]

theorem done_sides {env : Env K} {s s' : St K} {b1 b2 v t : Nat} (h : Done env s s' b1 b2 v t) :
    sides s' = sides s ++ [(b1, b2), (b2, v), (v, b1)] := by
  unfold sides triCorners
  rw [h.tris, List.map_append, List.flatMap_append]
  congr 1
  · congr 1
    refine List.map_congr_left ?_
    intro u hu
    rw [h.fold (.tri u) hu]
  · simp only [List.map_cons, List.map_nil, h.cor, List.flatMap_cons, List.flatMap_nil, List.append_nil]
    rfl

theorem wsum_append {A : Type*} [AddCommGroup A] (w : Nat × Pt K → Nat × Pt K → A) (s : St K) (xs ys : List (Nat × Nat)) :
    wsum w s (xs ++ ys) = wsum w s xs + wsum w s ys := by
  unfold wsum; rw [List.map_append, List.sum_append]

theorem wsum_perm {A : Type*} [AddCommGroup A] (w : Nat × Pt K → Nat × Pt K → A) (s : St K) {xs ys : List (Nat × Nat)}
    (h : xs.Perm ys) : wsum w s xs = wsum w s ys := by
  unfold wsum; exact (h.map _).sum_eq

/-- The additive law: for an antisymmetric weight, front and triangle sides together keep their sum. -/
theorem run_additive {env : Env K} (he : 0 < env.eps) (hq : QueryLive env) (hs : SortOK env) {s0 : St K} (h0 : WF s0)
    {A : Type*} [AddCommGroup A] (w : Nat × Pt K → Nat × Pt K → A) (hw : ∀ a b, w a b = - w b a)
    {log : List Entry} {s : St K} (hr : Run env s0 log s) (ho : AllOriented log) :
    wsum w s (pairs s .front) + wsum w s (sides s) = wsum w s0 (pairs s0 .front) + wsum w s0 (sides s0) := by
  refine (run_induct he hq hs h0 (fun log s => AllOriented log →
    wsum w s (pairs s .front) + wsum w s (sides s) = wsum w s0 (pairs s0 .front) + wsum w s0 (sides s0))
    ?_ ?_ ?_ ?_ hr).2 ho
  · intro _; rfl
  · intro log s s' base v t hwf _ ih hd _ hor
    have hor1 : AllOriented log := fun e he => hor e (List.mem_append_left _ he)
    have hor2 := hor _ (List.mem_append_right _ (List.mem_singleton.mpr rfl))
    dsimp only at hor2
    have hrep := hd.front hor2
    have hsum := replaced_sum (fun e => w (e.1, s'.pos e.1) (e.2, s'.pos e.2)) (fun a b => hw _ _) hrep
    rw [← ih hor1, done_sides hd, wsum_append]
    have c1 : wsum w s' (pairs s .front) = wsum w s (pairs s .front) :=
      wsum_congr w fun e he => ⟨hd.pos _ (pairs_verts hwf e he).1, hd.pos _ (pairs_verts hwf e he).2⟩
    have c2 : wsum w s' (sides s) = wsum w s (sides s) :=
      wsum_congr w fun e he => ⟨hd.pos _ (sides_verts hwf e he).1, hd.pos _ (sides_verts hwf e he).2⟩
    rw [c2, ← c1]
    have c3 : wsum w s' [((s.E base).v1, (s.E base).v2), ((s.E base).v2, v), (v, (s.E base).v1)] =
        w ((s.E base).v1, s'.pos (s.E base).v1) ((s.E base).v2, s'.pos (s.E base).v2) +
        w ((s.E base).v2, s'.pos (s.E base).v2) (v, s'.pos v) +
        w (v, s'.pos v) ((s.E base).v1, s'.pos (s.E base).v1) := by
      unfold wsum; simp [add_assoc]
    rw [c3]
    have c4 : wsum w s' (pairs s .front) = wsum w s' (pairs s' .front) +
        (w ((s.E base).v1, s'.pos (s.E base).v1) ((s.E base).v2, s'.pos (s.E base).v2) +
        w ((s.E base).v2, s'.pos (s.E base).v2) (v, s'.pos v) +
        w (v, s'.pos v) ((s.E base).v1, s'.pos (s.E base).v1)) := hsum.symm
    rw [c4]; abel
  · intro log s s' hwf _ ih hsame hor
    rw [← ih hor, same_pairs hsame, same_sides hsame]
    congr 1
    · exact wsum_congr w fun e he => ⟨same_pos hsame (pairs_verts hwf e he).1, same_pos hsame (pairs_verts hwf e he).2⟩
    · exact wsum_congr w fun e he => ⟨same_pos hsame (sides_verts hwf e he).1, same_pos hsame (sides_verts hwf e he).2⟩
  · intro log s l hwf ih hl hor
    rw [← ih hor]
    congr 1
    rw [wsum_perm w _ (pairs_reorder hl .front)]
    rfl

end TQ.FU

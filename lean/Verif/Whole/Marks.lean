import Verif.Whole.Links
import Verif.Whole.SeveralModel

/-! # Lemmas: the properties and the links of the edges during the meshing -/

set_option linter.unusedSectionVars false

namespace TQ.MS.St
variable {K : Type*} [Field K] [LinearOrder K]
/-- The properties of the edges. -/
def pr (s : St K) (e : Nat) : BitVec 8 := (s.E e).props
end TQ.MS.St

namespace TQ.Whole
open TQ.MS TQ.MS.St TQ.MC
variable {K : Type*} [Field K] [LinearOrder K]

theorem pr_upd (s : St K) (e : Nat) (f : EData → EData) (h : ∀ d, (f d).props = d.props) : ({ s with E := upd s.E e f } : St K).pr = s.pr := by
  funext x
  show (upd s.E e f x).props = (s.E x).props
  unfold upd
  split_ifs with hx
  · rw [h, hx]
  · rfl

theorem pr_foldl {α : Type*} {f : St K → α → St K} (h : ∀ s x, (f s x).pr = s.pr) (l : List α) (s : St K) :
    (l.foldl f s).pr = s.pr := by
  induction l generalizing s with
  | nil => rfl
  | cons x l ih => rw [List.foldl_cons, ih, h]

theorem pr_removeIntr (s : St K) (e : Nat) : (s.removeIntr e).pr = s.pr := by unfold removeIntr; split_ifs <;> rfl
theorem pr_removeBdry (s : St K) (e : Nat) : (s.removeBdry e).pr = s.pr := by unfold removeBdry; split_ifs <;> rfl

theorem pr_setSide (eps : K) (s : St K) (e : Nat) (f : FRef) : (setSide eps s e f).pr = s.pr := by
  unfold setSide; split_ifs <;> exact pr_upd _ _ _ fun _ => rfl

theorem pr_setup (eps : K) (s : St K) : (setupConnectivity eps s).pr = s.pr := by
  unfold setupConnectivity
  rw [pr_foldl, pr_foldl]
  · intro s e
    unfold connIntr
    split
    · rfl
    · rw [pr_setSide]; rfl
    · rw [pr_setSide]
      show (setSide eps _ _ _).pr = _
      rw [pr_setSide]; rfl
  · intro s e
    unfold connBdry
    split
    · rfl
    · split_ifs <;> first | rfl | exact pr_upd _ _ _ fun _ => rfl

theorem pr_removeFacet (s : St K) (f : FRef) : (removeFacet s f).pr = s.pr := by cases f <;> rfl

theorem pr_removeOld (ms : List Merge) (s : St K) : (MC.removeOld ms s).pr = s.pr := by
  unfold MC.removeOld
  dsimp only
  rw [pr_foldl (f := fun (s : St K) (m : Merge) => s.removeVertex m.v2) (fun _ _ => rfl),
    pr_foldl (f := fun (s : St K) (m : Merge) => (s.removeIntr m.e1).removeIntr m.e2) (fun s m => by rw [pr_removeIntr, pr_removeIntr]),
    pr_foldl (f := fun (s : St K) (m : Merge) => removeFacet (s.removeQuad m.q) m.nbr) (fun s m => by rw [pr_removeFacet]; rfl)]

theorem pr_newTri {s t : St K} {m : Merge} (h : newTri s m = some t) : t.pr = s.pr := by
  unfold newTri at h
  split at h
  · simp at h
  · split at h
    · simp only [Option.some.injEq] at h; rw [← h]; rfl
    · simp at h

theorem pr_newTris {ms : List Merge} : ∀ {o : Option (St K)} {t : St K},
    ms.foldl (fun o m => o.bind fun s => newTri s m) o = some t → ∃ s, o = some s ∧ t.pr = s.pr := by
  induction ms with
  | nil => intro o t h; exact ⟨t, h, rfl⟩
  | cons m ms ih =>
    intro o t h
    rw [List.foldl_cons] at h
    obtain ⟨u, h1, h2⟩ := ih h
    cases o with
    | none => simp at h1
    | some s => exact ⟨s, rfl, h2.trans (pr_newTri (by simpa using h1))⟩

theorem pr_clearDoubleQuads {eps : K} {ix0 : FRef → Nat} {s t : St K} (h : clearDoubleQuads eps ix0 s = some t) : t.pr = s.pr := by
  unfold clearDoubleQuads at h
  dsimp only at h
  split at h
  · simp at h
  · simp only [Option.some.injEq] at h
    rw [← h, pr_setup, pr_removeOld, pr_foldl (f := newQuad) (fun _ _ => rfl), pr_setup]

theorem pr_clearDoubleTris {eps : K} {ix0 : FRef → Nat} {s t : St K} (h : clearDoubleTris eps ix0 s = some t) : t.pr = s.pr := by
  unfold clearDoubleTris at h
  dsimp only at h
  split at h
  · simp at h
  · simp only [Option.map_eq_some_iff] at h
    obtain ⟨u, h1, rfl⟩ := h
    obtain ⟨v, hv, h2⟩ := pr_newTris h1
    rw [pr_setup, pr_removeOld, h2]
    simp only [Option.some.injEq] at hv
    rw [← hv, pr_setup]

theorem pr_doubleTris {eps : K} {ix : FRef → Nat} {s t : St K} (h : doubleTris eps ix s = some t) : t.pr = s.pr := by
  unfold doubleTris at h
  split at h
  · simp at h
  · simp only [Option.map_eq_some_iff] at h
    obtain ⟨u, h1, rfl⟩ := h
    obtain ⟨v, hv, h2⟩ := pr_newTris h1
    rw [pr_setup, pr_removeOld, h2]
    simp only [Option.some.injEq] at hv
    rw [← hv]

theorem pr_mergeBad {eps : K} {s t : St K} {v : Nat} (h : mergeBad eps s v = some t) : t.pr = s.pr := by
  unfold mergeBad at h
  split at h
  · split at h
    · split at h
      · dsimp only at h
        split_ifs at h <;> simp only [Option.some.injEq] at h <;> rw [← h]
        all_goals
          show (removeFacet _ _).pr = _
          rw [pr_removeFacet, pr_removeFacet, pr_removeFacet, pr_removeIntr, pr_removeIntr, pr_removeIntr]
      · simp at h
    · simp at h
  · simp at h

theorem pr_mergeBads {eps : K} {l : List Nat} {s t : St K} (h : mergeBads eps l s = some t) : t.pr = s.pr := by
  induction l generalizing s with
  | nil => simp only [mergeBads, Option.some.injEq] at h; rw [h]
  | cons v l ih =>
    simp only [mergeBads, Option.bind_eq_some_iff] at h
    obtain ⟨u, h1, h2⟩ := h
    rw [ih h2, pr_mergeBad h1]

theorem pr_improve {eps : K} {ix0 : FRef → Nat} {s t : St K} (h : improve eps ix0 s = some t) : t.pr = s.pr := by
  unfold improve at h
  split_ifs at h
  · simp only [Option.bind_eq_some_iff] at h
    obtain ⟨a, h1, b, h2, h3⟩ := h
    unfold mergeDegenerate at h3
    simp only [Option.map_eq_some_iff] at h3
    obtain ⟨c, h4, rfl⟩ := h3
    rw [pr_setup, pr_mergeBads h4, pr_clearDoubleTris h2, pr_clearDoubleQuads h1]
  · simp only [Option.some.injEq] at h; rw [h]

theorem pr_redirect (fl fr q : FRef) (s : St K) (p : Nat × Nat) : (redirect fl fr q s p).pr = s.pr := by
  unfold redirect
  split <;> first | rfl | exact pr_upd _ _ _ fun _ => rfl

theorem pr_removeTriRef (s : St K) (f : FRef) : (removeTriRef s f).pr = s.pr := by cases f <;> rfl

theorem pr_mergeEdge {col : FData → Int} {s t : St K} {e : Nat} (h : mergeEdge col s e = some t) : t.pr = s.pr := by
  unfold mergeEdge at h
  dsimp only at h
  split_ifs at h
  · simp only [Option.some.injEq] at h; rw [h]
  · split at h
    · split at h
      · simp only [Option.some.injEq] at h
        rw [← h]
        rw [pr_removeTriRef, pr_removeTriRef, pr_foldl (pr_redirect _ _ _)]
        show (s.removeIntr e).pr = _
        rw [pr_removeIntr]
      · simp at h
    · simp at h

theorem pr_mergeTriangles {col : FData → Int} {l : List Nat} {s t : St K} (h : mergeTriangles col l s = some t) : t.pr = s.pr := by
  induction l generalizing s with
  | nil => simp only [mergeTriangles, Option.some.injEq] at h; rw [h]
  | cons v l ih =>
    simp only [mergeTriangles, Option.bind_eq_some_iff] at h
    obtain ⟨u, h1, h2⟩ := h
    rw [ih h2, pr_mergeEdge h1]

theorem pr_tri2quad {eps : K} {ix0 : FRef → Nat} {l : List Nat} {s t : St K} (h : tri2quad eps ix0 l s = some t) : t.pr = s.pr := by
  unfold tri2quad at h
  simp only [Option.bind_eq_some_iff] at h
  obtain ⟨u, h1, v, h2, h3⟩ := h
  rw [pr_doubleTris h3, pr_clearDoubleQuads h2, pr_mergeTriangles h1, pr_setup]

/-! ### Properties of all edges -/

/-- A set of combinations of properties and links that contains the ones of new edges. -/
structure Marks (R : BitVec 8 → Option (Nat × Nat) → Prop) : Prop where
  zero : R 0 none
  bdry : R (Flags.add 0 Flags.eOnBoundary) none
  copy : ∀ {p t}, R p t → R p none

/-- All edges, also the removed ones, are in the set. -/
def All (R : BitVec 8 → Option (Nat × Nat) → Prop) (s : St K) : Prop := ∀ e, R (s.E e).props (s.E e).twin

variable {R : BitVec 8 → Option (Nat × Nat) → Prop}

theorem all_of {s t : St K} (h : All R s) (hp : t.pr = s.pr) (ht : t.tw = s.tw) : All R t := fun e => by
  have h1 : (t.E e).props = (s.E e).props := congrFun hp e
  have h2 : (t.E e).twin = (s.E e).twin := congrFun ht e
  rw [h1, h2]; exact h e

theorem all_E {s t : St K} (h : All R s) (ht : t.E = s.E) : All R t := fun e => by rw [ht]; exact h e

theorem all_foldl {α : Type*} {f : St K → α → St K} (hf : ∀ s x, All R s → All R (f s x)) (l : List α) {s : St K} (h : All R s) : All R (l.foldl f s) := by
  induction l generalizing s with
  | nil => exact h
  | cons x l ih => exact ih (hf s x h)

theorem all_loopM {α : Type*} {f : St K → α → Option (St K)} (hf : ∀ s x t, All R s → f s x = some t → All R t) : ∀ (l : List α) {s t : St K}, All R s → loopM f s l = some t → All R t
  | [], s, t, h, e => by simp only [loopM, Option.some.injEq] at e; rw [← e]; exact h
  | x :: l, s, t, h, e => by
    simp only [loopM] at e
    split at e
    · simp at e
    · rename_i u hu
      exact all_loopM hf l (hf _ _ _ h hu) e

theorem all_addEdge {s : St K} (h : All R s) (l : EL) (a b : Nat) (c : Int) {p : BitVec 8} (hp : R p none) : All R (s.addEdge l a b c p) := fun e => by
  unfold addEdge upd
  dsimp only
  split_ifs
  · exact hp
  · exact h e

theorem all_removeEdge {s : St K} (h : All R s) (e : Nat) : All R (s.removeEdge e) := h
theorem all_removeIntr {s : St K} (h : All R s) (e : Nat) : All R (s.removeIntr e) := by unfold removeIntr; split_ifs <;> exact h
theorem all_removeBdry {s : St K} (h : All R s) (e : Nat) : All R (s.removeBdry e) := by unfold removeBdry; split_ifs <;> exact h
theorem all_setup (eps : K) {s : St K} (h : All R s) : All R (setupConnectivity eps s) := all_of h (pr_setup eps s) (tw_setup eps s)

theorem all_start (M : Marks R) (eps : K) {s : St K} (h : All R s) : All R (startStep eps s) := by
  unfold startStep removeInvalid initFront
  refine all_foldl (fun s e h => all_removeIntr h e) _ (all_foldl (fun s e h => ?_) _ (all_setup eps h))
  unfold MC.addFrontEdge
  exact all_addEdge (s := (s.setProps _ _).setProps _ _) h _ _ _ _ (M.copy (h e))

theorem all_finish (M : Marks R) {s : St K} (h : All R s) : All R (finishStep s) := by
  unfold finishStep clearFront addRemaining
  refine all_foldl (fun s e h => all_removeEdge h e) _ (all_foldl (fun s e h => ?_) _ h)
  unfold addRemaining1
  dsimp only
  split_ifs
  · exact h
  · exact h
  · unfold addIntr
    exact all_addEdge (s := (s.setProps _ _).setProps _ _) h _ _ _ _ M.zero

/-! ### Triangles -/

section
open TQ.FU

theorem all_keepEdge (M : Marks R) {s : St K} (h : All R s) (e : Nat) : All R (keepEdge s e) := by
  unfold keepEdge addIntr
  split_ifs
  · exact all_addEdge h _ _ _ _ M.zero
  · exact h

theorem all_updateFrontState {s : St K} (h : All R s) (v : Nat) : All R (updateFrontState s v) := by
  unfold updateFrontState; split_ifs <;> exact h

theorem all_advanceEdges (M : Marks R) {s : St K} (h : All R s) (a b v : Nat) : All R (advanceEdges s a b v) := by
  unfold advanceEdges addFront
  split
  · exact all_keepEdge M (all_keepEdge M h _) _
  · exact all_addEdge (all_removeEdge (all_keepEdge M h _) _) _ _ _ _ M.zero
  · exact all_addEdge (all_removeEdge (all_keepEdge M h _) _) _ _ _ _ M.zero
  · exact all_addEdge (all_addEdge h _ _ _ _ M.zero) _ _ _ _ M.zero

theorem all_advanceFront (M : Marks R) {s : St K} (h : All R s) (base v t : Nat) : All R (advanceFront s base v t) := by
  unfold advanceFront
  dsimp only
  have h2 := all_updateFrontState (all_updateFrontState (all_updateFrontState (all_advanceEdges M h (s.E base).v1 (s.E base).v2 v) (s.E base).v1) (s.E base).v2) v
  unfold addIntr
  split_ifs
  · exact all_E (all_addEdge h2 _ _ _ _ M.zero) rfl
  · exact h2

theorem tryVertex_E (env : FU.Env K) (a b : Nat) (acc : St K × List Nat) (v : Nat) : (tryVertex env a b acc v).1.E = acc.1.E := by
  unfold tryVertex
  dsimp only
  split_ifs <;> rfl

theorem createPossible_E (env : FU.Env K) (s : St K) (base : Nat) (xy : Pt K) (r : K) : (createPossible env s base xy r).1.E = s.E := by
  unfold createPossible
  generalize env.qVerts s xy r = l
  suffices ∀ acc : St K × List Nat, (l.foldl (tryVertex env (s.E base).v1 (s.E base).v2) acc).1.E = acc.1.E from this (s, [])
  induction l with
  | nil => intro acc; rfl
  | cons v l ih => intro acc; rw [List.foldl_cons, ih, tryVertex_E]

theorem removeTris_E (l : List Nat) (s : St K) : (l.foldl St.removeTri s).E = s.E := by
  induction l generalizing s with
  | nil => rfl
  | cons v l ih => rw [List.foldl_cons, ih]; rfl

theorem all_updateFront (M : Marks R) {env : FU.Env K} {s : St K} (h : All R s) (base : Nat) (np sp : Pt K) (r : K) : All R (updateFront env s base np sp r).1 := by
  have h1 : All R (createPossible env s base sp r).1 := all_E h (createPossible_E _ _ _ _ _)
  unfold updateFront
  dsimp only
  split
  · rename_i s1 t hc
    have h2 : All R s1 := by
      unfold chooseBest at hc
      split at hc
      · simp at hc
      · simp only [Option.some.injEq, Prod.mk.injEq] at hc
        rw [← hc.1]
        exact all_E h1 (removeTris_E _ _)
    split
    · exact all_advanceFront M h2 _ _ _
    · exact h2
  · split_ifs
    · exact all_advanceFront M (s := ((createPossible env s base sp r).1.addVertex np).addTri _ _ _ _) h1 _ _ _
    · exact h1

theorem all_updateFrontExhaustive (M : Marks R) {env : FU.Env K} {s : St K} (h : All R s) (base v : Nat) : All R (updateFrontExhaustive env s base v).1 := by
  unfold updateFrontExhaustive
  dsimp only
  split_ifs
  · exact h
  · exact h
  · exact all_advanceFront M (s := s.addTri _ _ _ _) h _ _ _
  · exact h

end

section
open TQ.TG

/-- The mesh after a turn. -/
def TurnAll (R : BitVec 8 → Option (Nat × Nat) → Prop) : Turn K → Prop
  | .next l => All R l.s
  | .ret _ l => All R l.s
  | .undef => True

theorem all_advTurn (M : Marks R) {env : FU.Env K} {par : Par K} {nEl : Nat} {L : Lp K} (h : All R L.s) :
    TurnAll R (advTurn env par nEl L) := by
  have chk : ∀ l : Lp K, All R l.s → TurnAll R (advChecks nEl l) := by
    intro l hl
    unfold advChecks
    dsimp only
    split_ifs <;> exact hl
  unfold advTurn
  split
  · trivial
  · rename_i e hb
    have := all_updateFront M (env := env) h e
    split
    · rename_i s' t ht
      have hs : All R s' := by
        have h1 : All R (advTriangle env par L.s e L.wide).1 := this _ _ _
        rw [ht] at h1
        exact h1
      apply chk
      dsimp only
      split_ifs
      · exact hs
      · exact hs
    · rename_i s' ht
      have hs : All R s' := by
        have h1 : All R (advTriangle env par L.s e L.wide).1 := this _ _ _
        rw [ht] at h1
        exact h1
      split
      · trivial
      · exact chk _ hs

theorem all_advLoop (M : Marks R) {env : FU.Env K} {par : Par K} {nEl : Nat} : ∀ (k : Nat) {L L' : Lp K} {b : Bool}, All R L.s → advLoop env par nEl k L = .ret b L' → All R L'.s
  | 0, L, L', b, h, e => by simp [advLoop] at e
  | k + 1, L, L', b, h, e => by
    have := all_advTurn M (env := env) (par := par) (nEl := nEl) h
    unfold advLoop at e
    split at e
    · rename_i l hl
      rw [hl] at this
      exact all_advLoop M k this e
    · rename_i b' l hl
      rw [hl] at this
      simp only [Res.ret.injEq] at e
      rw [← e.2]; exact this
    · simp at e

theorem all_exhWalk (M : Marks R) {env : FU.Env K} {base : Nat} : ∀ (k : Nat) {s : St K} (o : Option Nat), All R s → All R (exhWalk env base k s o).1
  | 0, s, o, h => by unfold exhWalk; exact h
  | k + 1, s, none, h => by unfold exhWalk; exact h
  | k + 1, s, some ne, h => by
    unfold exhWalk
    dsimp only
    split_ifs
    · exact h
    · have := all_updateFrontExhaustive M (env := env) h base (s.E ne).v2
      split
      · rename_i s' t ht
        rw [ht] at this; exact this
      · rename_i s' ht
        rw [ht] at this
        exact all_exhWalk M k _ this
    · exact all_exhWalk M k _ h

theorem all_exhTurn (M : Marks R) {env : FU.Env K} {nEl : Nat} {L : Lp K} (h : All R L.s) :
    TurnAll R (exhTurn env nEl L) := by
  have chk : ∀ l : Lp K, All R l.s → TurnAll R (exhChecks nEl l) := by
    intro l hl
    unfold exhChecks
    dsimp only
    split_ifs <;> exact hl
  unfold exhTurn
  split
  · exact h
  · rename_i e hb
    have := all_exhWalk M (env := env) (base := e) (L.s.es .front).length (L.s.nextEdge e) h
    split
    · rename_i s' ht
      unfold exhTriangle at ht
      rw [ht] at this
      exact chk _ this
    · rename_i s' ht
      unfold exhTriangle at ht
      rw [ht] at this
      split
      · trivial
      · exact chk _ this

theorem all_exhLoop (M : Marks R) {env : FU.Env K} {nEl : Nat} : ∀ (k : Nat) {L L' : Lp K} {b : Bool}, All R L.s → exhLoop env nEl k L = .ret b L' → All R L'.s
  | 0, L, L', b, h, e => by simp [exhLoop] at e
  | k + 1, L, L', b, h, e => by
    have := all_exhTurn M (env := env) (nEl := nEl) h
    unfold exhLoop at e
    split at e
    · rename_i l hl
      rw [hl] at this
      exact all_exhLoop M k this e
    · rename_i b' l hl
      rw [hl] at this
      simp only [Res.ret.injEq] at e
      rw [← e.2]; exact this
    · simp at e

theorem all_generate (M : Marks R) {env : FU.Env K} {par : Par K} {nEl fuel : Nat} {s t : St K} {b : Bool} {c : Nat} (h : All R s) (e : TG.generate env par nEl fuel s = .ret b t c) : All R t := by
  unfold TG.generate at e
  split at e
  · simp at e
  · simp at e
  · rename_i l hl
    simp only [GRes.ret.injEq] at e
    rw [← e.2.1]
    exact all_advLoop M _ (L := advStart env s) h hl
  · rename_i l hl
    have h1 := all_advLoop M _ (L := advStart env s) h hl
    split at e
    · simp at e
    · simp at e
    · rename_i b' l' hl'
      simp only [GRes.ret.injEq] at e
      rw [← e.2.1]
      exact all_exhLoop M _ (L := exhStart env l.s l.fbase) h1 hl'

end

theorem all_triangulate (M : Marks R) {env : FU.Env K} {par : TG.Par K} {nEl fuel : Nat} {ix : FRef → Nat} {s t : St K} {b : Bool} (h : All R s)
    (e : AM.triangulate env par nEl fuel ix s = .ret b t) : All R t := by
  unfold AM.triangulate at e
  split_ifs at e
  · simp only [AM.Out.ret.injEq] at e
    rw [← e.2]; exact h
  · split at e
    · simp at e
    · simp at e
    · rename_i ok u c hu
      split at e
      · simp at e
      · rename_i t' ht
        simp only [AM.Out.ret.injEq] at e
        rw [← e.2]
        exact all_of (all_finish M (all_generate M (all_start M _ h) hu)) (pr_improve ht) (tw_improve ht)

theorem all_tri2quad {eps : K} {ix0 : FRef → Nat} {l : List Nat} {s t : St K} (h : All R s) (e : tri2quad eps ix0 l s = some t) : All R t := all_of h (pr_tri2quad e) (tw_tri2quad e)

/-! ### Quad layers -/

section
open TQ.QL

theorem all_split (M : Marks R) {s t : St K} {e n : Nat} {sf : K} (h : All R s) (hs : QL.split s e sf = some (t, n)) : All R t := by
  have hc := M.copy (h e)
  unfold QL.split at hs
  dsimp only at hs
  split at hs
  · simp at hs
  · rename_i s1 h1
    have a1 : All R s1 := by
      unfold splitFront at h1
      dsimp only at h1
      split_ifs at h1
      · simp only [Option.some.injEq] at h1
        rw [← h1]
        exact all_removeEdge (all_addEdge (all_addEdge (s := ((s.addVertex _).setProps _ _).setProps _ _) h _ _ _ _ hc) _ _ _ _ hc) _
      · simp only [Option.some.injEq] at h1
        rw [← h1]
        exact all_removeEdge (all_addEdge (all_addEdge (s := (s.addVertex _).setProps _ _) h _ _ _ _ hc) _ _ _ _ hc) _
    split at hs
    · simp only [Option.some.injEq, Prod.mk.injEq] at hs
      rw [← hs.1]; exact a1
    · simp only [Option.map_eq_some_iff, Prod.mk.injEq] at hs
      obtain ⟨u, hu, rfl, -⟩ := hs
      unfold QL.splitBdry at hu
      split at hu
      · simp at hu
      · simp only [Option.some.injEq] at hu
        rw [← hu]
        exact all_addEdge (all_addEdge (all_removeEdge a1 _) _ _ _ _ hc) _ _ _ _ hc

theorem all_place (M : Marks R) {L : LEnv K} {s t : St K} {e v q : Nat} {hh : K} {x p : Pt K} {ae : Bool} (h : All R s) (hs : place L s e v q hh x ae = some (t, p)) : All R t := by
  unfold place at hs
  dsimp only at hs
  split_ifs at hs
  · simp only [Option.some.injEq, Prod.mk.injEq] at hs
    rw [← hs.1]; exact h
  all_goals first
    | (simp only [Option.some.injEq, Prod.mk.injEq] at hs; rw [← hs.1]; exact h)
    | (split at hs
       · simp at hs
       · rename_i s' n hn
         simp only [Option.some.injEq, Prod.mk.injEq] at hs
         rw [← hs.1]; exact all_split M h hn)

theorem all_placeStart (M : Marks R) {L : LEnv K} {s t : St K} {e : Nat} {y z : Layer K} (h : All R s) (hs : placeStart L s e y = some (t, z)) : All R t := by
  unfold placeStart at hs
  split at hs
  · dsimp only at hs
    split_ifs at hs
    · simp only [Option.some.injEq, Prod.mk.injEq] at hs
      rw [← hs.1]; exact h
    · split at hs
      · simp at hs
      · rename_i hp
        simp only [Option.some.injEq, Prod.mk.injEq] at hs
        rw [← hs.1]; exact all_place M h hp
  · simp at hs

theorem all_placeEnd (M : Marks R) {L : LEnv K} {s t : St K} {e : Nat} {y z : Layer K} (h : All R s) (hs : placeEnd L s e y = some (t, z)) : All R t := by
  unfold placeEnd at hs
  dsimp only at hs
  split at hs
  · split_ifs at hs
    · simp only [Option.some.injEq, Prod.mk.injEq] at hs
      rw [← hs.1]; exact h
    · split at hs
      · simp at hs
      · rename_i hp
        simp only [Option.some.injEq, Prod.mk.injEq] at hs
        rw [← hs.1]; exact all_place M h hp
  · simp at hs

theorem all_setupLayer (M : Marks R) {L : LEnv K} {s t : St K} {es ee : Nat} {c : Bool} {y z : Layer K} (h : All R s) (hs : QL.setup L s es ee c y = some (t, z)) : All R t := by
  unfold QL.setup at hs
  dsimp only at hs
  split_ifs at hs
  · simp only [Option.some.injEq, Prod.mk.injEq] at hs
    rw [← hs.1]; exact h
  · split at hs
    · simp at hs
    · rename_i h1
      exact all_placeEnd M (all_placeStart M h h1) hs

theorem all_toQuad {s : St K} (h : All R s) (e t1 t2 a b p2 p1 : Nat) : All R (toQuad s e t1 t2 a b p2 p1) := all_removeIntr h e

theorem all_element (M : Marks R) {L : LEnv K} {s : St K} (h : All R s) (base v1 : Nat) (x1 : Pt K) (v2 : Nat) (x2 : Pt K) : All R (element L s base v1 x1 v2 x2).1 := by
  have h1 := all_updateFront M (env := L.env) h base x1 x1 (L.rangeFactor * L.env.norm (s.pos v1 - x1))
  unfold element
  split
  · rename_i s1 e1
    rw [e1] at h1; exact h1
  · rename_i s1 t1 e1
    rw [e1] at h1
    split
    · exact h1
    · split
      · exact h1
      · rename_i dg hd
        have h2 := all_updateFront M (env := L.env) h1 dg x2 x2 (L.rangeFactor * L.env.norm (s1.pos v2 - x2))
        split
        · rename_i s2 e2
          rw [e2] at h2; exact h2
        · rename_i s2 t2 e2
          rw [e2] at h2
          split
          · exact h2
          · split
            · exact h2
            · exact all_toQuad h2 _ _ _ _ _ _ _

theorem all_create (M : Marks R) {L : LEnv K} {s : St K} (h : All R s) (y : Layer K) : All R (create L s y).1 := by
  unfold create
  generalize y.entries = l
  suffices ∀ c : St K × List (Option Nat × Option Nat), All R c.1 → All R (l.foldl (elementStep L) c).1 from this (s, []) h
  induction l with
  | nil => intro c hc; exact hc
  | cons b l ih =>
    intro c hc
    rw [List.foldl_cons]
    apply ih
    unfold elementStep
    split_ifs
    · exact all_element M hc _ _ _ _ _
    · exact hc

theorem all_closeGap (M : Marks R) {L : LEnv K} {s t : St K} {a b c : Nat} (h : All R s) (hs : closeGap L s a b c = some t) : All R t := by
  unfold closeGap at hs
  dsimp only at hs
  split_ifs at hs
  · simp only [Option.some.injEq] at hs
    rw [← hs]; exact h
  · split at hs
    · simp at hs
    · simp only [Option.some.injEq] at hs
      rw [← hs]
      exact all_advanceFront M (s := s.addTri _ _ _ _) h _ _ _
  · simp only [Option.some.injEq] at hs
    rw [← hs]; exact h
  · split at hs
    · simp at hs
    · split at hs
      · simp at hs
      · simp only [Option.some.injEq] at hs
        rw [← hs]
        exact all_advanceFront M (all_advanceFront M (s := ((s.addVertex _).addTri _ _ _ _).addTri _ _ _ _) h _ _ _) _ _ _

theorem all_closeGaps (M : Marks R) {L : LEnv K} : ∀ (l : List (Nat × Option Nat × Option Nat)) {s t : St K} {p : Option Nat}, All R s → closeGaps L s p l = some t → All R t
  | [], s, t, p, h, e => by simp only [closeGaps, Option.some.injEq] at e; rw [← e]; exact h
  | (b, p1, p2) :: l, s, t, p, h, e => by
    unfold closeGaps at e
    split at e
    · split_ifs at e
      · exact all_closeGaps M l h e
      · split at e
        · simp at e
        · rename_i hg
          exact all_closeGaps M l (all_closeGap M h hg) e
    · exact all_closeGaps M l h e

theorem all_finishLayer (M : Marks R) {L : LEnv K} {s t : St K} {y : Layer K} {proj : List (Option Nat × Option Nat)} (h : All R s) (e : QL.finish L s y proj = some t) : All R t := by
  unfold QL.finish at e
  split at e
  · simp only [Option.some.injEq] at e; rw [← e]; exact h
  · split at e
    · simp at e
    · rename_i hg
      simp only [Option.some.injEq] at e
      rw [← e]
      unfold mark
      exact all_foldl (f := fun (s : St K) v => s.setProps v _) (fun s v h => h) _ (all_closeGaps M _ h hg)

/-- The mesh after a layer. -/
def LayerAllR (R : BitVec 8 → Option (Nat × Nat) → Prop) : LRes K → Prop
  | .undef => True
  | .fail t => All R t
  | .done t _ _ => All R t

theorem all_layer (M : Marks R) {L : LEnv K} {fuel : Nat} {s : St K} {xs xe : Pt K} {ht : K} (h : All R s) :
    LayerAllR R (layer L fuel s xs xe ht) := by
  unfold layer
  split
  · trivial
  · exact h
  · split
    · split
      · trivial
      · rename_i s1 y h1
        dsimp only
        split
        · trivial
        · rename_i s2 h2
          have := all_finishLayer M (all_create M (all_setupLayer M h h1) y) h2
          split
          · exact this
          · exact this
    · trivial

theorem all_layers (M : Marks R) {L : LEnv K} {fuel : Nat} {growth : K} : ∀ (n : Nat) {s : St K} {xs xe : Pt K} {ht : K} {r : St K × Bool × List K}, All R s →
    QL.layers L fuel growth n s xs xe ht = some r → All R r.1
  | 0, s, xs, xe, ht, r, h, e => by simp only [QL.layers, Option.some.injEq] at e; rw [← e]; exact h
  | n + 1, s, xs, xe, ht, r, h, e => by
    have := all_layer M (L := L) (fuel := fuel) (xs := xs) (xe := xe) (ht := ht) h
    unfold QL.layers at e
    split at e
    · simp at e
    · rename_i hl
      rw [hl] at this
      simp only [Option.some.injEq] at e
      rw [← e]; exact this
    · rename_i hl
      rw [hl] at this
      simp only [Option.map_eq_some_iff] at e
      obtain ⟨r', h1, rfl⟩ := e
      exact all_layers (r := r') M n this h1

theorem all_layerAll (M : Marks R) {L : LEnv K} {fuel : Nat} : ∀ (ds : List (AM.LayerDef K)) {s t : St K}, All R s → AM.layerAll L fuel ds s = some t → All R t
  | [], s, t, h, e => by simp only [AM.layerAll, Option.some.injEq] at e; rw [← e]; exact h
  | d :: ds, s, t, h, e => by
    simp only [AM.layerAll, Option.bind_eq_some_iff] at e
    obtain ⟨r, h1, h2⟩ := e
    refine all_layerAll M ds ?_ h2
    unfold QL.generate at h1
    split_ifs at h1
    · simp only [Option.some.injEq] at h1
      rw [← h1]; exact h
    · simp only [Option.map_eq_some_iff] at h1
      obtain ⟨r', h3, rfl⟩ := h1
      exact all_finish M (all_layers M _ (all_start M _ h) h3)

end

/-! ### Refinement and smoothing -/

theorem inherit_E (v : Nat) (ws : List Nat) (s : St K) : (s.inheritProps v ws).E = s.E := by
  unfold inheritProps
  induction ws generalizing s with
  | nil => rfl
  | cons w ws ih => rw [List.foldl_cons, ih]; rfl

theorem all_splitFacet (M : Marks R) {s : St K} (h : All R s) (p : Pt K) (vs : List Nat) (c : Int) (qs : List (Nat × Nat × Nat × Nat)) (ms : List Nat) : All R (s.splitFacet p vs c qs ms) := by
  unfold splitFacet
  dsimp only
  refine all_foldl (fun s m h => all_addEdge h _ _ _ _ M.zero) _ (all_foldl (f := fun (t : St K) q => t.addSub c q) (fun s q h => h) _ ?_)
  unfold clearBoundary
  exact all_E h (inherit_E (K := K) _ _ _)

theorem all_loopR {α : Type*} {f : RS K → α → Option (RS K)} (hf : ∀ s x t, All R s.1 → f s x = some t → All R t.1) : ∀ (l : List α) {s t : RS K}, All R s.1 → loopM f s l = some t → All R t.1
  | [], s, t, h, e => by simp only [loopM, Option.some.injEq] at e; rw [← e]; exact h
  | x :: l, s, t, h, e => by
    simp only [loopM] at e
    split at e
    · simp at e
    · rename_i u hu
      exact all_loopR hf l (hf _ _ _ h hu) e

theorem all_foldR {α : Type*} {f : RS K → α → RS K} (hf : ∀ s x, All R s.1 → All R (f s x).1) (l : List α) {s : RS K} (h : All R s.1) : All R (l.foldl f s).1 := by
  induction l generalizing s with
  | nil => exact h
  | cons x l ih => exact ih (hf s x h)

theorem all_refine (M : Marks R) {s : St K} {r : St K × Bool} (h : All R s) (e : s.refine = some r) : All R r.1 := by
  unfold refine at e
  split_ifs at e
  · simp only [Option.some.injEq] at e
    rw [← e]; exact h
  · dsimp only at e
    split at e
    · simp at e
    · rename_i r1 h1
      split at e
      · simp at e
      · rename_i r2 h2
        simp only [Option.some.injEq] at e
        rw [← e]
        have a0 : All R ((s.es .bdry).foldl St.splitBdry ((s.es .intr).foldl splitIntr (s, fun _ => none))).1 := by
          refine all_foldR (fun r e h => ?_) _ (all_foldR (fun r e h => ?_) _ h)
          · unfold St.splitBdry
            dsimp only
            exact all_E (all_addEdge (all_addEdge (s := r.1.addVertex _) h _ _ _ _ M.bdry) _ _ _ _ M.bdry) (inherit_E _ _ _)
          · unfold splitIntr clearBoundary
            dsimp only
            exact all_E (t := _) (all_addEdge (all_addEdge (s := r.1.addVertex _) h _ _ _ _ M.zero) _ _ _ _ M.zero) (inherit_E (K := K) _ _ _)
        have a1 : All R r1.1 := by
          refine all_loopR (fun r t u h e => ?_) _ a0 h1
          unfold splitTri at e
          split at e
          · split at e
            · simp only [Option.some.injEq] at e
              rw [← e]; exact all_splitFacet M h _ _ _ _ _
            · simp at e
          · simp at e
        have a2 : All R r2.1 := by
          refine all_loopR (fun r t u h e => ?_) _ a1 h2
          unfold splitQuad at e
          split at e
          · split at e
            · simp only [Option.some.injEq] at e
              rw [← e]; exact all_splitFacet M h _ _ _ _ _
            · simp at e
          · simp at e
        unfold St.removeOld
        dsimp only
        exact all_foldl (f := fun (t : St K) q => t.removeQuad q) (fun s q h => h) _ (all_foldl (f := fun (t : St K) q => t.removeTri q) (fun s q h => h) _
          (all_foldl (fun s e h => all_removeBdry h e) _ (all_foldl (fun s e h => all_removeIntr h e) _ a2)))

theorem all_refineAll (M : Marks R) : ∀ (n : Nat) {s t : St K}, All R s → AM.refineAll n s = some t → All R t
  | 0, s, t, h, e => by simp only [AM.refineAll, Option.some.injEq] at e; rw [← e]; exact h
  | n + 1, s, t, h, e => by
    simp only [AM.refineAll, Option.bind_eq_some_iff] at e
    obtain ⟨r, h1, h2⟩ := e
    exact all_refineAll M n (all_refine M h h1) h2

end TQ.Whole

import Verif.Whole.Marks
import Verif.Whole.NextProps

/-! # Lemmas: the colours of the elements during the meshing -/

set_option linter.unusedSectionVars false
set_option linter.unusedVariables false

namespace TQ.Whole
open TQ.MS TQ.MS.St TQ.MC
variable {K : Type*} [Field K] [LinearOrder K]

/-- The mesh and all its elements, also the removed ones, have the colour `κ`. -/
def Col (κ : Int) (s : St K) : Prop := s.color = κ ∧ ∀ f, (s.F f).corners = [] ∨ (s.F f).color = κ

variable {κ : Int}

theorem col_foldl {α : Type*} {f : St K → α → St K} (hf : ∀ s x, Col κ s → Col κ (f s x)) (l : List α) {s : St K} (h : Col κ s) : Col κ (l.foldl f s) := by
  induction l generalizing s with
  | nil => exact h
  | cons x l ih => exact ih (hf s x h)

theorem col_updF {s : St K} (h : Col κ s) (f : FRef) {g : FData → FData} (h1 : (g (s.F f)).color = κ ∨ (g (s.F f)).corners = (s.F f).corners ∧ (g (s.F f)).color = (s.F f).color) :
    Col κ { s with F := upd s.F f g } := by
  refine ⟨h.1, fun x => ?_⟩
  show (upd s.F f g x).corners = [] ∨ (upd s.F f g x).color = κ
  unfold upd
  split_ifs with hx
  · subst hx
    rcases h1 with h1 | ⟨h1, h2⟩
    · exact Or.inr h1
    · rw [h1, h2]; exact h.2 x
  · exact h.2 x

theorem col_newColor {s : St K} (h : Col κ s) {k : Int} (hk : k < 0 ∨ k = κ) : s.newColor k = κ := by
  unfold newColor
  split_ifs with h1
  · exact h.1
  · exact hk.resolve_left h1

theorem col_addTri {s : St K} (h : Col κ s) (a b d : Nat) {k : Int} (hk : k < 0 ∨ k = κ) : Col κ (s.addTri a b d k) :=
  col_updF h (.tri s.nxt) (Or.inl (col_newColor h hk))
theorem col_addQuad {s : St K} (h : Col κ s) (a b d e : Nat) {k : Int} (hk : k < 0 ∨ k = κ) : Col κ (s.addQuad a b d e k) :=
  col_updF h (.quad s.nxt) (Or.inl (col_newColor h hk))
theorem col_activate {s : St K} (h : Col κ s) (f : FRef) : Col κ (s.activate f) := col_updF h f (Or.inr ⟨rfl, rfl⟩)
theorem col_setNbr {s : St K} (h : Col κ s) (f : FRef) (i : Nat) (g : FRef) : Col κ (setNbr s f i g) := col_updF h f (Or.inr ⟨rfl, rfl⟩)

theorem col_addEdge {s : St K} (h : Col κ s) (l : EL) (a b : Nat) (c : Int) {p : BitVec 8} : Col κ (s.addEdge l a b c p) := h
theorem col_removeEdge {s : St K} (h : Col κ s) (e : Nat) : Col κ (s.removeEdge e) := h
theorem col_removeIntr {s : St K} (h : Col κ s) (e : Nat) : Col κ (s.removeIntr e) := by unfold removeIntr; split_ifs <;> exact h
theorem col_removeBdry {s : St K} (h : Col κ s) (e : Nat) : Col κ (s.removeBdry e) := by unfold removeBdry; split_ifs <;> exact h
theorem col_removeFacet {s : St K} (h : Col κ s) (f : FRef) : Col κ (removeFacet s f) := by cases f <;> exact h
theorem col_removeTriRef {s : St K} (h : Col κ s) (f : FRef) : Col κ (removeTriRef s f) := by cases f <;> exact h

theorem col_setSide (eps : K) {s : St K} (h : Col κ s) (e : Nat) (f : FRef) : Col κ (setSide eps s e f) := by
  unfold setSide; split_ifs <;> exact h

theorem col_setup (eps : K) {s : St K} (h : Col κ s) : Col κ (setupConnectivity eps s) := by
  unfold setupConnectivity
  refine col_foldl (fun s e h => ?_) _ (col_foldl (fun s e h => ?_) _ h)
  · unfold connBdry
    split
    · exact h
    · split_ifs <;> first | exact h | exact col_setNbr h _ _ _
  · unfold connIntr
    split
    · exact h
    · exact col_setSide _ (col_setNbr h _ _ _) _ _
    · exact col_setSide _ (col_setNbr (col_setSide _ (col_setNbr h _ _ _) _ _) _ _ _) _ _

theorem col_removeOld (ms : List Merge) {s : St K} (h : Col κ s) : Col κ (MC.removeOld ms s) := by
  unfold MC.removeOld
  dsimp only
  exact col_foldl (f := fun (s : St K) (m : Merge) => s.removeVertex m.v2) (fun _ _ h => h) _
    (col_foldl (f := fun (s : St K) (m : Merge) => (s.removeIntr m.e1).removeIntr m.e2) (fun s m h => col_removeIntr (col_removeIntr h _) _) _
    (col_foldl (f := fun (s : St K) (m : Merge) => removeFacet (s.removeQuad m.q) m.nbr) (fun s m h => col_removeFacet (s := s.removeQuad m.q) h _) _ h))

theorem col_newTri {s t : St K} {m : Merge} (hs : Col κ s) (h : newTri s m = some t) : Col κ t := by
  unfold newTri at h
  split at h
  · simp at h
  · split at h
    · simp only [Option.some.injEq] at h; rw [← h]; exact col_activate (col_addTri hs _ _ _ (Or.inl (by decide))) _
    · simp at h

theorem col_newTris {ms : List Merge} : ∀ {o : Option (St K)} {t : St K}, (∀ s, o = some s → Col κ s) →
    ms.foldl (fun o m => o.bind fun s => newTri s m) o = some t → Col κ t := by
  induction ms with
  | nil => intro o t ho h; exact ho t h
  | cons m ms ih =>
    intro o t ho h
    rw [List.foldl_cons] at h
    refine ih (fun s hs => ?_) h
    cases o with
    | none => simp at hs
    | some u => exact col_newTri (ho u rfl) (by simpa using hs)

theorem col_newQuad {s : St K} (h : Col κ s) (m : Merge) : Col κ (newQuad s m) := by
  unfold newQuad
  exact col_activate (col_addQuad h _ _ _ _ (Or.inl (by decide))) _

theorem col_clearDoubleQuads {eps : K} {ix0 : FRef → Nat} {s t : St K} (hs : Col κ s) (h : clearDoubleQuads eps ix0 s = some t) : Col κ t := by
  unfold clearDoubleQuads at h
  dsimp only at h
  split at h
  · simp at h
  · simp only [Option.some.injEq] at h
    rw [← h]
    exact col_setup _ (col_removeOld _ (col_foldl (fun s m h => col_newQuad h m) _ (col_setup _ hs)))

theorem col_clearDoubleTris {eps : K} {ix0 : FRef → Nat} {s t : St K} (hs : Col κ s) (h : clearDoubleTris eps ix0 s = some t) : Col κ t := by
  unfold clearDoubleTris at h
  dsimp only at h
  split at h
  · simp at h
  · simp only [Option.map_eq_some_iff] at h
    obtain ⟨u, h1, rfl⟩ := h
    refine col_setup _ (col_removeOld _ (col_newTris (fun v hv => ?_) h1))
    simp only [Option.some.injEq] at hv
    rw [← hv]; exact col_setup _ hs

theorem col_doubleTris {eps : K} {ix : FRef → Nat} {s t : St K} (hs : Col κ s) (h : doubleTris eps ix s = some t) : Col κ t := by
  unfold doubleTris at h
  split at h
  · simp at h
  · simp only [Option.map_eq_some_iff] at h
    obtain ⟨u, h1, rfl⟩ := h
    refine col_setup _ (col_removeOld _ (col_newTris (fun v hv => ?_) h1))
    simp only [Option.some.injEq] at hv
    rw [← hv]; exact hs

theorem col_mergeBad {eps : K} {s t : St K} {v : Nat} (hs : Col κ s) (h : mergeBad eps s v = some t) : Col κ t := by
  unfold mergeBad at h
  split at h
  · rename_i f0 f1 f2 _ _
    split at h
    · rename_i v0 v1 v2 hv0 _ _
      have hk : (s.F f0).color = κ := by
        rcases hs.2 f0 with hc | hc
        · unfold succCorner vertexIndex at hv0
          simp [hc] at hv0
        · exact hc
      split at h
      · dsimp only at h
        have h3 : ∀ e0 e1 e2, Col κ ((removeFacet (removeFacet (removeFacet (((s.removeIntr e0).removeIntr e1).removeIntr e2) f0) f1) f2).removeVertex v) := fun e0 e1 e2 =>
          col_removeFacet (col_removeFacet (col_removeFacet (col_removeIntr (col_removeIntr (col_removeIntr hs _) _) _) _) _) _
        split_ifs at h <;> simp only [Option.some.injEq] at h <;> rw [← h]
        · exact col_addTri (h3 _ _ _) _ _ _ (Or.inr hk)
        · exact col_addTri (h3 _ _ _) _ _ _ (Or.inr hk)
      · simp at h
    · simp at h
  · simp at h

theorem col_mergeBads {eps : K} {l : List Nat} {s t : St K} (hs : Col κ s) (h : mergeBads eps l s = some t) : Col κ t := by
  induction l generalizing s with
  | nil => simp only [mergeBads, Option.some.injEq] at h; rw [← h]; exact hs
  | cons v l ih =>
    simp only [mergeBads, Option.bind_eq_some_iff] at h
    obtain ⟨u, h1, h2⟩ := h
    exact ih (col_mergeBad hs h1) h2

theorem col_improve {eps : K} {ix0 : FRef → Nat} {s t : St K} (hs : Col κ s) (h : improve eps ix0 s = some t) : Col κ t := by
  unfold improve at h
  split_ifs at h
  · simp only [Option.bind_eq_some_iff] at h
    obtain ⟨a, h1, b, h2, h3⟩ := h
    unfold mergeDegenerate at h3
    simp only [Option.map_eq_some_iff] at h3
    obtain ⟨d, h4, rfl⟩ := h3
    exact col_setup _ (col_mergeBads (col_clearDoubleTris (col_clearDoubleQuads hs h1) h2) h4)
  · simp only [Option.some.injEq] at h; rw [← h]; exact hs

theorem col_redirect (fl fr q : FRef) {s : St K} (h : Col κ s) (p : Nat × Nat) : Col κ (redirect fl fr q s p) := by
  unfold redirect
  split <;> exact h

theorem col_mergeEdge {s t : St K} {e : Nat} (hs : Col κ s) (h : mergeEdge FData.color s e = some t) : Col κ t := by
  unfold mergeEdge at h
  dsimp only at h
  split_ifs at h
  · simp only [Option.some.injEq] at h; rw [← h]; exact hs
  · split at h
    · split at h
      · rename_i hq _
        have hk : (s.F (s.E e).fl).color = κ := by
          rcases hs.2 (s.E e).fl with hc | hc
          · simp [hc] at hq
          · exact hc
        simp only [Option.some.injEq] at h
        rw [← h]
        exact col_removeTriRef (col_removeTriRef (col_foldl (fun s p h => col_redirect _ _ _ h p) _ (col_activate (col_addQuad (col_removeIntr hs e) _ _ _ _ (Or.inr hk)) _)) _) _
      · simp at h
    · simp at h

theorem col_mergeTriangles {l : List Nat} {s t : St K} (hs : Col κ s) (h : mergeTriangles FData.color l s = some t) : Col κ t := by
  induction l generalizing s with
  | nil => simp only [mergeTriangles, Option.some.injEq] at h; rw [← h]; exact hs
  | cons v l ih =>
    simp only [mergeTriangles, Option.bind_eq_some_iff] at h
    obtain ⟨u, h1, h2⟩ := h
    exact ih (col_mergeEdge hs h1) h2

theorem col_tri2quad {eps : K} {ix0 : FRef → Nat} {l : List Nat} {s t : St K} (hs : Col κ s) (h : tri2quad eps ix0 l s = some t) : Col κ t := by
  unfold tri2quad at h
  simp only [Option.bind_eq_some_iff] at h
  obtain ⟨u, h1, v, h2, h3⟩ := h
  exact col_doubleTris (col_clearDoubleQuads (col_mergeTriangles (col_setup _ hs) h1) h2) h3

theorem col_start (eps : K) {s : St K} (h : Col κ s) : Col κ (startStep eps s) := by
  unfold startStep removeInvalid initFront
  exact col_foldl (fun s e h => col_removeIntr h e) _ (col_foldl (f := MC.addFrontEdge) (fun s e h => h) _ (col_setup eps h))

theorem col_finish {s : St K} (h : Col κ s) : Col κ (finishStep s) := by
  unfold finishStep clearFront addRemaining
  refine col_foldl (fun s e h => col_removeEdge h e) _ (col_foldl (fun s e h => ?_) _ h)
  unfold addRemaining1
  dsimp only
  split_ifs <;> exact h

/-! ### Triangles -/

section
open TQ.FU

theorem col_keepEdge {s : St K} (h : Col κ s) (e : Nat) : Col κ (keepEdge s e) := by
  unfold keepEdge addIntr
  split_ifs <;> exact h

theorem col_updateFrontState {s : St K} (h : Col κ s) (v : Nat) : Col κ (updateFrontState s v) := by
  unfold updateFrontState; split_ifs <;> exact h

theorem col_advanceEdges {s : St K} (h : Col κ s) (a b v : Nat) : Col κ (advanceEdges s a b v) := by
  unfold advanceEdges addFront
  split
  · exact col_keepEdge (col_keepEdge h _) _
  · exact col_keepEdge h _
  · exact col_keepEdge h _
  · exact h

theorem col_advanceFront {s : St K} (h : Col κ s) (base v t : Nat) : Col κ (advanceFront s base v t) := by
  unfold advanceFront
  dsimp only
  have h2 := col_updateFrontState (col_updateFrontState (col_updateFrontState (col_advanceEdges h (s.E base).v1 (s.E base).v2 v) (s.E base).v1) (s.E base).v2) v
  split_ifs
  · exact col_activate (s := (addIntr _ _ _).removeEdge base) h2 _
  · exact col_activate (s := (updateFrontState _ _).removeEdge base) h2 _

theorem col_createPossible {env : FU.Env K} {s : St K} (h : Col κ s) (base : Nat) (xy : Pt K) (r : K) : Col κ (createPossible env s base xy r).1 := by
  unfold createPossible
  generalize env.qVerts s xy r = l
  suffices ∀ acc : St K × List Nat, Col κ acc.1 → Col κ (l.foldl (tryVertex env (s.E base).v1 (s.E base).v2) acc).1 from this (s, []) h
  induction l with
  | nil => intro acc h; exact h
  | cons v l ih =>
    intro acc h
    rw [List.foldl_cons]
    apply ih
    unfold tryVertex
    dsimp only
    split_ifs
    · exact h
    · exact h
    · exact col_addTri h _ _ _ (Or.inl (by decide))
    · exact col_addTri h _ _ _ (Or.inl (by decide))

theorem col_removeTris (l : List Nat) {s : St K} (h : Col κ s) : Col κ (l.foldl St.removeTri s) := col_foldl (f := St.removeTri) (fun _ _ h => h) l h

theorem col_updateFront {env : FU.Env K} {s : St K} (h : Col κ s) (base : Nat) (np sp : Pt K) (r : K) : Col κ (updateFront env s base np sp r).1 := by
  have h1 : Col κ (createPossible env s base sp r).1 := col_createPossible h base sp r
  unfold updateFront
  dsimp only
  split
  · rename_i s1 t hc
    have h2 : Col κ s1 := by
      unfold chooseBest at hc
      split at hc
      · simp at hc
      · simp only [Option.some.injEq, Prod.mk.injEq] at hc
        rw [← hc.1]
        exact col_removeTris _ h1
    split
    · exact col_advanceFront h2 _ _ _
    · exact h2
  · split_ifs
    · exact col_advanceFront (col_addTri (s := (createPossible env s base sp r).1.addVertex np) h1 _ _ _ (Or.inl (by decide))) _ _ _
    · exact col_addTri (s := (createPossible env s base sp r).1.addVertex np) h1 _ _ _ (Or.inl (by decide))

theorem col_updateFrontExhaustive {env : FU.Env K} {s : St K} (h : Col κ s) (base v : Nat) : Col κ (updateFrontExhaustive env s base v).1 := by
  unfold updateFrontExhaustive
  dsimp only
  split_ifs
  · exact h
  · exact h
  · exact col_advanceFront (col_addTri h _ _ _ (Or.inl (by decide))) _ _ _
  · exact col_addTri h _ _ _ (Or.inl (by decide))

end

section
open TQ.TG

/-- The mesh after a turn. -/
def TurnCol (κ : Int) : Turn K → Prop
  | .next l => Col κ l.s
  | .ret _ l => Col κ l.s
  | .undef => True

theorem col_advTurn {env : FU.Env K} {par : Par K} {nEl : Nat} {L : Lp K} (h : Col κ L.s) :
    TurnCol κ (advTurn env par nEl L) := by
  have chk : ∀ l : Lp K, Col κ l.s → TurnCol κ (advChecks nEl l) := by
    intro l hl
    unfold advChecks
    dsimp only
    split_ifs <;> exact hl
  unfold advTurn
  split
  · trivial
  · rename_i e hb
    have := col_updateFront (env := env) h e
    split
    · rename_i s' t ht
      have hs : Col κ s' := by
        have h1 : Col κ (advTriangle env par L.s e L.wide).1 := this _ _ _
        rw [ht] at h1
        exact h1
      apply chk
      dsimp only
      split_ifs
      · exact hs
      · exact hs
    · rename_i s' ht
      have hs : Col κ s' := by
        have h1 : Col κ (advTriangle env par L.s e L.wide).1 := this _ _ _
        rw [ht] at h1
        exact h1
      split
      · trivial
      · exact chk _ hs

theorem col_advLoop {env : FU.Env K} {par : Par K} {nEl : Nat} : ∀ (k : Nat) {L L' : Lp K} {b : Bool}, Col κ L.s → advLoop env par nEl k L = .ret b L' → Col κ L'.s
  | 0, L, L', b, h, e => by simp [advLoop] at e
  | k + 1, L, L', b, h, e => by
    have := col_advTurn (env := env) (par := par) (nEl := nEl) h
    unfold advLoop at e
    split at e
    · rename_i l hl
      rw [hl] at this
      exact col_advLoop k this e
    · rename_i b' l hl
      rw [hl] at this
      simp only [Res.ret.injEq] at e
      rw [← e.2]; exact this
    · simp at e

theorem col_exhWalk {env : FU.Env K} {base : Nat} : ∀ (k : Nat) {s : St K} (o : Option Nat), Col κ s → Col κ (exhWalk env base k s o).1
  | 0, s, o, h => by unfold exhWalk; exact h
  | k + 1, s, none, h => by unfold exhWalk; exact h
  | k + 1, s, some ne, h => by
    unfold exhWalk
    dsimp only
    split_ifs
    · exact h
    · have := col_updateFrontExhaustive (env := env) h base (s.E ne).v2
      split
      · rename_i s' t ht
        rw [ht] at this; exact this
      · rename_i s' ht
        rw [ht] at this
        exact col_exhWalk k _ this
    · exact col_exhWalk k _ h

theorem col_exhTurn {env : FU.Env K} {nEl : Nat} {L : Lp K} (h : Col κ L.s) :
    TurnCol κ (exhTurn env nEl L) := by
  have chk : ∀ l : Lp K, Col κ l.s → TurnCol κ (exhChecks nEl l) := by
    intro l hl
    unfold exhChecks
    dsimp only
    split_ifs <;> exact hl
  unfold exhTurn
  split
  · exact h
  · rename_i e hb
    have := col_exhWalk (env := env) (base := e) (L.s.es .front).length (L.s.nextEdge e) h
    split
    · rename_i s' ht
      unfold exhTriangle at ht
      rw [ht] at this
      exact chk _ this
    · rename_i s' ht
      unfold exhTriangle at ht
      rw [ht] at this
      split
      · trivial
      · exact chk _ this

theorem col_exhLoop {env : FU.Env K} {nEl : Nat} : ∀ (k : Nat) {L L' : Lp K} {b : Bool}, Col κ L.s → exhLoop env nEl k L = .ret b L' → Col κ L'.s
  | 0, L, L', b, h, e => by simp [exhLoop] at e
  | k + 1, L, L', b, h, e => by
    have := col_exhTurn (env := env) (nEl := nEl) h
    unfold exhLoop at e
    split at e
    · rename_i l hl
      rw [hl] at this
      exact col_exhLoop k this e
    · rename_i b' l hl
      rw [hl] at this
      simp only [Res.ret.injEq] at e
      rw [← e.2]; exact this
    · simp at e

theorem col_generate {env : FU.Env K} {par : Par K} {nEl fuel : Nat} {s t : St K} {b : Bool} {c : Nat} (h : Col κ s) (e : TG.generate env par nEl fuel s = .ret b t c) : Col κ t := by
  unfold TG.generate at e
  split at e
  · simp at e
  · simp at e
  · rename_i l hl
    simp only [GRes.ret.injEq] at e
    rw [← e.2.1]
    exact col_advLoop _ (L := advStart env s) h hl
  · rename_i l hl
    have h1 := col_advLoop _ (L := advStart env s) h hl
    split at e
    · simp at e
    · simp at e
    · rename_i b' l' hl'
      simp only [GRes.ret.injEq] at e
      rw [← e.2.1]
      exact col_exhLoop _ (L := exhStart env l.s l.fbase) h1 hl'

end

theorem col_triangulate {env : FU.Env K} {par : TG.Par K} {nEl fuel : Nat} {ix : FRef → Nat} {s t : St K} {b : Bool} (h : Col κ s)
    (e : AM.triangulate env par nEl fuel ix s = .ret b t) : Col κ t := by
  unfold AM.triangulate at e
  split_ifs at e
  · simp only [AM.Out.ret.injEq] at e
    rw [← e.2]; exact h
  · split at e
    · simp at e
    · simp at e
    · rename_i ok u c hu
      split at e
      · simp at e
      · rename_i t' ht
        simp only [AM.Out.ret.injEq] at e
        rw [← e.2]
        exact col_improve (col_finish (col_generate (col_start _ h) hu)) ht

/-! ### Quad layers -/

section
open TQ.QL

theorem col_split {s t : St K} {e n : Nat} {sf : K} (h : Col κ s) (hs : QL.split s e sf = some (t, n)) : Col κ t := by
  unfold QL.split at hs
  dsimp only at hs
  split at hs
  · simp at hs
  · rename_i s1 h1
    have a1 : Col κ s1 := by
      unfold splitFront at h1
      dsimp only at h1
      split_ifs at h1
      · simp only [Option.some.injEq] at h1
        rw [← h1]
        exact col_removeEdge (col_addEdge (col_addEdge (s := ((s.addVertex _).setProps _ _).setProps _ _) h _ _ _ _) _ _ _ _) _
      · simp only [Option.some.injEq] at h1
        rw [← h1]
        exact col_removeEdge (col_addEdge (col_addEdge (s := (s.addVertex _).setProps _ _) h _ _ _ _) _ _ _ _) _
    split at hs
    · simp only [Option.some.injEq, Prod.mk.injEq] at hs
      rw [← hs.1]; exact a1
    · simp only [Option.map_eq_some_iff, Prod.mk.injEq] at hs
      obtain ⟨u, hu, rfl, -⟩ := hs
      unfold QL.splitBdry at hu
      split at hu
      · simp at hu
      · simp only [Option.some.injEq] at hu
        rw [← hu]
        exact col_addEdge (col_addEdge (col_removeEdge a1 _) _ _ _ _) _ _ _ _

theorem col_place {L : LEnv K} {s t : St K} {e v q : Nat} {hh : K} {x p : Pt K} {ae : Bool} (h : Col κ s) (hs : place L s e v q hh x ae = some (t, p)) : Col κ t := by
  unfold place at hs
  dsimp only at hs
  split_ifs at hs
  · simp only [Option.some.injEq, Prod.mk.injEq] at hs
    rw [← hs.1]; exact h
  all_goals first
    | (simp only [Option.some.injEq, Prod.mk.injEq] at hs; rw [← hs.1]; exact h)
    | (split at hs
       · simp at hs
       · rename_i s' n hn
         simp only [Option.some.injEq, Prod.mk.injEq] at hs
         rw [← hs.1]; exact col_split h hn)

theorem col_placeStart {L : LEnv K} {s t : St K} {e : Nat} {y z : Layer K} (h : Col κ s) (hs : placeStart L s e y = some (t, z)) : Col κ t := by
  unfold placeStart at hs
  split at hs
  · dsimp only at hs
    split_ifs at hs
    · simp only [Option.some.injEq, Prod.mk.injEq] at hs
      rw [← hs.1]; exact h
    · split at hs
      · simp at hs
      · rename_i hp
        simp only [Option.some.injEq, Prod.mk.injEq] at hs
        rw [← hs.1]; exact col_place h hp
  · simp at hs

theorem col_placeEnd {L : LEnv K} {s t : St K} {e : Nat} {y z : Layer K} (h : Col κ s) (hs : placeEnd L s e y = some (t, z)) : Col κ t := by
  unfold placeEnd at hs
  dsimp only at hs
  split at hs
  · split_ifs at hs
    · simp only [Option.some.injEq, Prod.mk.injEq] at hs
      rw [← hs.1]; exact h
    · split at hs
      · simp at hs
      · rename_i hp
        simp only [Option.some.injEq, Prod.mk.injEq] at hs
        rw [← hs.1]; exact col_place h hp
  · simp at hs

theorem col_setupLayer {L : LEnv K} {s t : St K} {es ee : Nat} {c : Bool} {y z : Layer K} (h : Col κ s) (hs : QL.setup L s es ee c y = some (t, z)) : Col κ t := by
  unfold QL.setup at hs
  dsimp only at hs
  split_ifs at hs
  · simp only [Option.some.injEq, Prod.mk.injEq] at hs
    rw [← hs.1]; exact h
  · split at hs
    · simp at hs
    · rename_i h1
      exact col_placeEnd (col_placeStart h h1) hs

theorem col_toQuad {s : St K} (h : Col κ s) (e t1 t2 a b p2 p1 : Nat) : Col κ (toQuad s e t1 t2 a b p2 p1) := by
  unfold toQuad
  exact col_activate (col_addQuad (s := ((s.removeIntr e).removeTri t1).removeTri t2) (col_removeIntr h e) _ _ _ _ (Or.inl (by decide))) _

theorem col_element {L : LEnv K} {s : St K} (h : Col κ s) (base v1 : Nat) (x1 : Pt K) (v2 : Nat) (x2 : Pt K) : Col κ (element L s base v1 x1 v2 x2).1 := by
  have h1 := col_updateFront (env := L.env) h base x1 x1 (L.rangeFactor * L.env.norm (s.pos v1 - x1))
  unfold element
  split
  · rename_i s1 e1
    rw [e1] at h1; exact h1
  · rename_i s1 t1 e1
    rw [e1] at h1
    split
    · exact h1
    · split
      · exact h1
      · rename_i dg hd
        have h2 := col_updateFront (env := L.env) h1 dg x2 x2 (L.rangeFactor * L.env.norm (s1.pos v2 - x2))
        split
        · rename_i s2 e2
          rw [e2] at h2; exact h2
        · rename_i s2 t2 e2
          rw [e2] at h2
          split
          · exact h2
          · split
            · exact h2
            · exact col_toQuad h2 _ _ _ _ _ _ _

theorem col_create {L : LEnv K} {s : St K} (h : Col κ s) (y : Layer K) : Col κ (create L s y).1 := by
  unfold create
  generalize y.entries = l
  suffices ∀ c : St K × List (Option Nat × Option Nat), Col κ c.1 → Col κ (l.foldl (elementStep L) c).1 from this (s, []) h
  induction l with
  | nil => intro c hc; exact hc
  | cons b l ih =>
    intro c hc
    rw [List.foldl_cons]
    apply ih
    unfold elementStep
    split_ifs
    · exact col_element hc _ _ _ _ _
    · exact hc

theorem col_closeGap {L : LEnv K} {s t : St K} {a b c : Nat} (h : Col κ s) (hs : closeGap L s a b c = some t) : Col κ t := by
  unfold closeGap at hs
  dsimp only at hs
  split_ifs at hs
  · simp only [Option.some.injEq] at hs
    rw [← hs]; exact col_addTri h _ _ _ (k := -1) (Or.inl (by decide))
  · split at hs
    · simp at hs
    · simp only [Option.some.injEq] at hs
      rw [← hs]
      exact col_advanceFront (col_addTri h _ _ _ (Or.inl (by decide))) _ _ _
  · simp only [Option.some.injEq] at hs
    rw [← hs]; exact col_addTri (col_addTri (s := s.addVertex _) h _ _ _ (k := -1) (Or.inl (by decide))) _ _ _ (k := -1) (Or.inl (by decide))
  · split at hs
    · simp at hs
    · split at hs
      · simp at hs
      · simp only [Option.some.injEq] at hs
        rw [← hs]
        exact col_advanceFront (col_advanceFront (col_addTri (col_addTri (s := s.addVertex _) h _ _ _ (Or.inl (by decide))) _ _ _ (Or.inl (by decide))) _ _ _) _ _ _

theorem col_closeGaps {L : LEnv K} : ∀ (l : List (Nat × Option Nat × Option Nat)) {s t : St K} {p : Option Nat}, Col κ s → closeGaps L s p l = some t → Col κ t
  | [], s, t, p, h, e => by simp only [closeGaps, Option.some.injEq] at e; rw [← e]; exact h
  | (b, p1, p2) :: l, s, t, p, h, e => by
    unfold closeGaps at e
    split at e
    · split_ifs at e
      · exact col_closeGaps l h e
      · split at e
        · simp at e
        · rename_i hg
          exact col_closeGaps l (col_closeGap h hg) e
    · exact col_closeGaps l h e

theorem col_finishLayer {L : LEnv K} {s t : St K} {y : Layer K} {proj : List (Option Nat × Option Nat)} (h : Col κ s) (e : QL.finish L s y proj = some t) : Col κ t := by
  unfold QL.finish at e
  split at e
  · simp only [Option.some.injEq] at e; rw [← e]; exact h
  · split at e
    · simp at e
    · rename_i hg
      simp only [Option.some.injEq] at e
      rw [← e]
      unfold mark
      exact col_foldl (f := fun (s : St K) v => s.setProps v _) (fun s v h => h) _ (col_closeGaps _ h hg)

/-- The mesh after a layer. -/
def LayerCol (κ : Int) : LRes K → Prop
  | .undef => True
  | .fail t => Col κ t
  | .done t _ _ => Col κ t

theorem col_layer {L : LEnv K} {fuel : Nat} {s : St K} {xs xe : Pt K} {ht : K} (h : Col κ s) :
    LayerCol κ (layer L fuel s xs xe ht) := by
  unfold layer
  split
  · trivial
  · exact h
  · split
    · split
      · trivial
      · rename_i s1 y h1
        dsimp only
        split
        · trivial
        · rename_i s2 h2
          have := col_finishLayer (col_create (col_setupLayer h h1) y) h2
          split
          · exact this
          · exact this
    · trivial

theorem col_layers {L : LEnv K} {fuel : Nat} {growth : K} : ∀ (n : Nat) {s : St K} {xs xe : Pt K} {ht : K} {r : St K × Bool × List K}, Col κ s →
    QL.layers L fuel growth n s xs xe ht = some r → Col κ r.1
  | 0, s, xs, xe, ht, r, h, e => by simp only [QL.layers, Option.some.injEq] at e; rw [← e]; exact h
  | n + 1, s, xs, xe, ht, r, h, e => by
    have := col_layer (L := L) (fuel := fuel) (xs := xs) (xe := xe) (ht := ht) h
    unfold QL.layers at e
    split at e
    · simp at e
    · rename_i hl
      rw [hl] at this
      simp only [Option.some.injEq] at e
      rw [← e]; exact this
    · rename_i hl
      rw [hl] at this
      simp only [Option.map_eq_some_iff] at e
      obtain ⟨r', h1, rfl⟩ := e
      exact col_layers (r := r') n this h1

theorem col_layerAll {L : LEnv K} {fuel : Nat} : ∀ (ds : List (AM.LayerDef K)) {s t : St K}, Col κ s → AM.layerAll L fuel ds s = some t → Col κ t
  | [], s, t, h, e => by simp only [AM.layerAll, Option.some.injEq] at e; rw [← e]; exact h
  | d :: ds, s, t, h, e => by
    simp only [AM.layerAll, Option.bind_eq_some_iff] at e
    obtain ⟨r, h1, h2⟩ := e
    refine col_layerAll ds ?_ h2
    unfold QL.generate at h1
    split_ifs at h1
    · simp only [Option.some.injEq] at h1
      rw [← h1]; exact h
    · simp only [Option.map_eq_some_iff] at h1
      obtain ⟨r', h3, rfl⟩ := h1
      exact col_finish (col_layers _ (col_start _ h) h3)

end


/-! ### Prepared meshes -/

theorem col_empty : Col κ (St.empty κ : St K) := ⟨rfl, fun _ => Or.inl rfl⟩

theorem col_addFrontEdges {a : Nat} (off : Nat) : ∀ (es : List Fr.FEdge) (c : MM.World K × List (Nat × Nat)), Col κ (c.1 a) → Col κ ((es.foldl (GN.addFrontEdge a off) c).1 a)
  | [], c, h => h
  | e :: es, c, h => by
    rw [List.foldl_cons]
    refine col_addFrontEdges off es _ ?_
    unfold GN.addFrontEdge
    dsimp only
    have h3 : Col κ ((c.1 a).addEdge .bdry (off + e.v1) (off + e.v2) e.color e.props) := h
    split_ifs with h1 h2
    · exact h
    · split
      · simpa [upd] using h3
      · rename_i x rest hc
        simp only [upd, if_true]
        split_ifs with hx
        · unfold MM.setTwin; exact h3
        · exact h3
    · simpa [upd] using h3

/-- A prepared mesh. -/
theorem col_prepare {P : GN.Prep K} {w w1 : MM.World K} {a : Nat} {ok : Bool} (h : Col κ (w a)) (e : GN.prepareMesh P w a = .ret ok w1) : Col κ (w1 a) := by
  have hv : ∀ vs : List (Fr.MVert K), Col κ (vs.foldl GN.addVert (w a)) := fun vs => col_foldl (f := GN.addVert) (fun s v h => h) _ h
  have hf : ∀ (vs : List (Fr.MVert K)) (fs : List (GN.FixV K)), Col κ (fs.foldl GN.addFixed (vs.foldl GN.addVert (w a))) := fun vs fs =>
    col_foldl (fun s v h => by unfold GN.addFixed; split_ifs <;> exact h) _ (hv vs)
  unfold GN.prepareMesh at e
  dsimp only at e
  split_ifs at e
  · simp only [GN.PrepRes.ret.injEq] at e
    rw [← e.2]; exact h
  · split at e
    · simp at e
    · simp only [GN.PrepRes.ret.injEq] at e
      rw [← e.2]; exact h
    · split at e
      · simp at e
      · rename_i vs es z hi
        split_ifs at e
        · simp only [GN.PrepRes.ret.injEq] at e
          rw [← e.2]
          simpa [upd] using hv vs
        · simp only [GN.PrepRes.ret.injEq] at e
          rw [← e.2]
          refine col_addFrontEdges _ _ _ ?_
          simpa [upd] using hf vs P.fixed

end TQ.Whole

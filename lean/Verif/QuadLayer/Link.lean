import Verif.QuadLayer.Run
import Verif.Triangulation.Lemmas

/-! # Lemmas on quad layers: the functions of the model follow histories of steps -/

set_option linter.unusedSectionVars false

namespace TQ.QL
open TQ.MS TQ.MeshSpec TQ.FUSpec TQ.MCSpec TQ.QLSpec TQ.FU MS.St
variable {K : Type*} [Field K] [LinearOrder K]

/-! ### The data of edges is never changed -/

structure ES (s s' : St K) : Prop where
  nxt : s.nxt ≤ s'.nxt
  E : ∀ e < s.nxt, s'.E e = s.E e

theorem ES.refl (s : St K) : ES s s := ⟨le_rfl, fun _ _ => rfl⟩
theorem ES.trans {s t u : St K} (h : ES s t) (g : ES t u) : ES s u :=
  ⟨h.nxt.trans g.nxt, fun e he => (g.E e (lt_of_lt_of_le he h.nxt)).trans (h.E e he)⟩

theorem es_addVertex (s : St K) (p : Pt K) : ES s (s.addVertex p) := ⟨by simp [addVertex], fun _ _ => rfl⟩
theorem es_removeVertex (s : St K) (v : Nat) : ES s (s.removeVertex v) := ⟨le_rfl, fun _ _ => rfl⟩
theorem es_addEdge (s : St K) (l a b c p) : ES s (s.addEdge l a b c p) :=
  ⟨by simp [addEdge], fun e he => by simp [addEdge, upd, ne_of_lt he]⟩
theorem es_removeEdge (s : St K) (e : Nat) : ES s (s.removeEdge e) := ⟨le_rfl, fun _ _ => rfl⟩
theorem es_removeIntr (s : St K) (e : Nat) : ES s (s.removeIntr e) := by
  unfold removeIntr; split_ifs
  · exact ES.refl s
  · exact es_removeEdge s e
theorem es_addTri (s : St K) (a b c p) : ES s (s.addTri a b c p) := ⟨by simp [addTri], fun _ _ => rfl⟩
theorem es_addQuad (s : St K) (a b c d p) : ES s (s.addQuad a b c d p) := ⟨by simp [addQuad], fun _ _ => rfl⟩
theorem es_removeTri (s : St K) (t) : ES s (s.removeTri t) := ⟨le_rfl, fun _ _ => rfl⟩
theorem es_setProps (s : St K) (v g) : ES s (s.setProps v g) := ⟨le_rfl, fun _ _ => rfl⟩
theorem es_activate (s : St K) (f) : ES s (s.activate f) := ⟨le_rfl, fun _ _ => rfl⟩
theorem es_addArea (s : St K) (a) : ES s (s.addArea a) := ⟨le_rfl, fun _ _ => rfl⟩
theorem es_setPos (s : St K) (v p) : ES s (s.setPos v p) := ⟨le_rfl, fun _ _ => rfl⟩

theorem es_foldl {α : Type*} (f : St K → α → St K) (h : ∀ s x, ES s (f s x)) (l : List α) (s : St K) :
    ES s (l.foldl f s) := by
  induction l generalizing s with
  | nil => exact ES.refl s
  | cons x l ih => exact (h s x).trans (ih _)

theorem es_keepEdge (s : St K) (e) : ES s (keepEdge s e) := by
  unfold keepEdge; split_ifs
  · exact es_addEdge ..
  · exact ES.refl s

theorem es_advanceEdges (s : St K) (a b v) : ES s (advanceEdges s a b v) := by
  unfold advanceEdges
  split
  · exact (es_keepEdge ..).trans ((es_keepEdge ..).trans ((es_removeEdge ..).trans (es_removeEdge ..)))
  · exact (es_keepEdge ..).trans ((es_removeEdge ..).trans (es_addEdge ..))
  · exact (es_keepEdge ..).trans ((es_removeEdge ..).trans (es_addEdge ..))
  · exact (es_addEdge ..).trans (es_addEdge ..)

theorem es_updateFrontState (s : St K) (v) : ES s (updateFrontState s v) := by
  unfold updateFrontState; split_ifs <;> exact es_setProps ..

theorem es_advanceFront (s : St K) (e v t) : ES s (advanceFront s e v t) := by
  unfold advanceFront
  dsimp only
  have h1 := (es_advanceEdges s (s.E e).v1 (s.E e).v2 v).trans ((es_updateFrontState _ (s.E e).v1).trans
    ((es_updateFrontState _ (s.E e).v2).trans (es_updateFrontState _ v)))
  refine (h1.trans ?_).trans (es_addArea ..)
  refine ES.trans ?_ (es_activate ..)
  refine ES.trans ?_ (es_removeEdge ..)
  split_ifs
  · exact es_addEdge ..
  · exact ES.refl _

theorem es_createPossible (env : Env K) (s : St K) (base : Nat) (xy : Pt K) (r : K) : ES s (createPossible env s base xy r).1 := by
  unfold createPossible
  generalize env.qVerts s xy r = l
  have : ∀ (l : List Nat) (c : St K × List Nat), ES c.1 (l.foldl (tryVertex env (s.E base).v1 (s.E base).v2) c).1 := by
    intro l
    induction l with
    | nil => intro c; exact ES.refl _
    | cons x l ih =>
      intro c
      refine ES.trans ?_ (ih _)
      unfold tryVertex
      dsimp only
      split_ifs
      · exact ES.refl _
      · exact ES.refl _
      · exact es_addTri ..
      · exact (es_addTri ..).trans (es_removeTri ..)
  exact this l (s, [])

theorem es_updateFront (env : Env K) (s : St K) (base : Nat) (np sp : Pt K) (r : K) : ES s (updateFront env s base np sp r).1 := by
  unfold updateFront
  dsimp only
  have h0 := es_createPossible env s base sp r
  cases h : chooseBest env (createPossible env s base sp r).1 (createPossible env s base sp r).2 with
  | some p =>
    obtain ⟨s1, t⟩ := p
    have h1 : ES s s1 := by
      unfold chooseBest at h
      split at h
      · cases h
      · simp only [Option.some.injEq, Prod.mk.injEq] at h
        rw [← h.1]
        exact h0.trans (es_foldl _ es_removeTri _ _)
    dsimp only
    split
    · exact h1.trans (es_advanceFront ..)
    · exact h1
  | none =>
    dsimp only
    split_ifs
    · exact h0.trans ((es_addVertex ..).trans ((es_addTri ..).trans (es_advanceFront ..)))
    · exact h0.trans ((es_addVertex ..).trans ((es_addTri ..).trans ((es_removeTri ..).trans (es_removeVertex ..))))

theorem es_of_updateFront {env : Env K} {s s' : St K} {base : Nat} {np sp : Pt K} {r : K} {o : Option Nat}
    (h : updateFront env s base np sp r = (s', o)) : ES s s' := by
  have := es_updateFront env s base np sp r
  rwa [h] at this

theorem es_splitFront {s s' : St K} {e : Nat} {sf : K} (h : splitFront s e sf = some s') : ES s s' := by
  unfold splitFront at h
  by_cases hc : 1 ≤ sf ∨ sf ≤ 0
  · rw [if_pos hc] at h; cases h
  · rw [if_neg hc] at h
    dsimp only at h
    rw [← Option.some.inj h]
    refine ES.trans ?_ ((es_addEdge ..).trans ((es_addEdge ..).trans (es_removeEdge ..)))
    split_ifs
    · exact (es_addVertex ..).trans ((es_setProps ..).trans (es_setProps ..))
    · exact (es_addVertex ..).trans (es_setProps ..)

theorem es_split {s s' : St K} {e n : Nat} {sf : K} (h : QL.split s e sf = some (s', n)) : ES s s' := by
  unfold QL.split at h
  dsimp only at h
  cases h1 : splitFront s e sf with
  | none => rw [h1] at h; cases h
  | some s1 =>
    rw [h1] at h
    have e1 := es_splitFront h1
    cases h2 : s.getEdge .bdry (s.E e).v1 (s.E e).v2 with
    | none => rw [h2] at h; simp only [Option.some.injEq, Prod.mk.injEq] at h; rw [← h.1]; exact e1
    | some b =>
      rw [h2] at h
      dsimp only at h
      unfold splitBdry at h
      split at h
      · cases h
      · simp only [Option.map_some, Option.some.injEq, Prod.mk.injEq] at h
        rw [← h.1]
        exact e1.trans ((es_removeEdge ..).trans ((es_addEdge ..).trans (es_addEdge ..)))

theorem es_toQuad (s : St K) (e t1 t2 a b c d) : ES s (toQuad s e t1 t2 a b c d) := by
  unfold toQuad
  exact (es_removeIntr ..).trans ((es_removeTri ..).trans ((es_removeTri ..).trans ((es_addQuad ..).trans (es_activate ..))))

theorem es_step {L : LEnv K} {s s' : St K} {l : List (Ev K)} (st : LStep L s l s') : ES s s' := by
  cases st with
  | fail _ hu => exact es_of_updateFront hu
  | tri _ hu _ => exact es_of_updateFront hu
  | quad _ hu _ _ hu2 _ _ =>
    refine ES.trans ?_ (es_toQuad ..)
    refine ES.trans ?_ (es_of_updateFront hu2)
    exact es_of_updateFront hu
  | gapFail => exact (es_addTri ..).trans (es_removeTri ..)
  | gap => exact (es_addTri ..).trans (es_advanceFront ..)
  | gap2Fail => exact (es_addVertex ..).trans ((es_addTri ..).trans ((es_addTri ..).trans ((es_removeTri ..).trans
      ((es_removeTri ..).trans (es_removeVertex ..)))))
  | gap2 _ _ _ _ hs =>
    subst hs
    exact (es_addVertex ..).trans ((es_addTri ..).trans ((es_addTri ..).trans ((es_advanceFront ..).trans (es_advanceFront ..))))
  | split _ hs => exact es_split hs
  | move => exact es_setPos ..
  | mark => exact es_setProps ..

theorem es_run {L : LEnv K} {s s' : St K} {l : List (Ev K)} (r : LRun L s l s') : ES s s' := by
  induction r with
  | start => exact ES.refl _
  | step _ st ih => exact ih.trans (es_step st)

end TQ.QL

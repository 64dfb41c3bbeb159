import Verif.Whole.AppModel
import Verif.Cleanup.Lemmas

/-! # Lemmas: the links to twin edges after the meshing -/

set_option linter.unusedSectionVars false

namespace TQ.MS.St
variable {K : Type*} [Field K] [LinearOrder K]
/-- The twins of the edges. -/
def tw (s : St K) (e : Nat) : Option (Nat × Nat) := (s.E e).twin
end TQ.MS.St

namespace TQ.Whole
open TQ.MS TQ.MS.St TQ.MC
variable {K : Type*} [Field K] [LinearOrder K]

theorem tw_upd (s : St K) (e : Nat) (f : EData → EData) (h : ∀ d, (f d).twin = d.twin) : ({ s with E := upd s.E e f } : St K).tw = s.tw := by
  funext x
  show (upd s.E e f x).twin = (s.E x).twin
  unfold upd
  split_ifs with hx
  · rw [h, hx]
  · rfl

theorem tw_foldl {α : Type*} {f : St K → α → St K} (h : ∀ s x, (f s x).tw = s.tw) (l : List α) (s : St K) :
    (l.foldl f s).tw = s.tw := by
  induction l generalizing s with
  | nil => rfl
  | cons x l ih => rw [List.foldl_cons, ih, h]

theorem tw_removeIntr (s : St K) (e : Nat) : (s.removeIntr e).tw = s.tw := by unfold removeIntr; split_ifs <;> rfl
theorem tw_removeBdry (s : St K) (e : Nat) : (s.removeBdry e).tw = s.tw := by unfold removeBdry; split_ifs <;> rfl

theorem tw_setSide (eps : K) (s : St K) (e : Nat) (f : FRef) : (setSide eps s e f).tw = s.tw := by
  unfold setSide; split_ifs <;> exact tw_upd _ _ _ fun _ => rfl

theorem tw_setup (eps : K) (s : St K) : (setupConnectivity eps s).tw = s.tw := by
  unfold setupConnectivity
  rw [tw_foldl, tw_foldl]
  · intro s e
    unfold connIntr
    split
    · rfl
    · rw [tw_setSide]; rfl
    · rw [tw_setSide]
      show (setSide eps _ _ _).tw = _
      rw [tw_setSide]; rfl
  · intro s e
    unfold connBdry
    split
    · rfl
    · split_ifs <;> first | rfl | exact tw_upd _ _ _ fun _ => rfl

theorem tw_removeFacet (s : St K) (f : FRef) : (removeFacet s f).tw = s.tw := by cases f <;> rfl

theorem tw_removeOld (ms : List Merge) (s : St K) : (MC.removeOld ms s).tw = s.tw := by
  unfold MC.removeOld
  dsimp only
  rw [tw_foldl (f := fun (s : St K) (m : Merge) => s.removeVertex m.v2) (fun _ _ => rfl),
    tw_foldl (f := fun (s : St K) (m : Merge) => (s.removeIntr m.e1).removeIntr m.e2) (fun s m => by rw [tw_removeIntr, tw_removeIntr]),
    tw_foldl (f := fun (s : St K) (m : Merge) => removeFacet (s.removeQuad m.q) m.nbr) (fun s m => by rw [tw_removeFacet]; rfl)]

theorem tw_newTri {s t : St K} {m : Merge} (h : newTri s m = some t) : t.tw = s.tw := by
  unfold newTri at h
  split at h
  · simp at h
  · split at h
    · simp only [Option.some.injEq] at h; rw [← h]; rfl
    · simp at h

theorem tw_newTris {ms : List Merge} : ∀ {o : Option (St K)} {t : St K},
    ms.foldl (fun o m => o.bind fun s => newTri s m) o = some t → ∃ s, o = some s ∧ t.tw = s.tw := by
  induction ms with
  | nil => intro o t h; exact ⟨t, h, rfl⟩
  | cons m ms ih =>
    intro o t h
    rw [List.foldl_cons] at h
    obtain ⟨u, h1, h2⟩ := ih h
    cases o with
    | none => simp at h1
    | some s => exact ⟨s, rfl, h2.trans (tw_newTri (by simpa using h1))⟩

theorem tw_clearDoubleQuads {eps : K} {ix0 : FRef → Nat} {s t : St K} (h : clearDoubleQuads eps ix0 s = some t) : t.tw = s.tw := by
  unfold clearDoubleQuads at h
  dsimp only at h
  split at h
  · simp at h
  · simp only [Option.some.injEq] at h
    rw [← h, tw_setup, tw_removeOld, tw_foldl (f := newQuad) (fun _ _ => rfl), tw_setup]

theorem tw_clearDoubleTris {eps : K} {ix0 : FRef → Nat} {s t : St K} (h : clearDoubleTris eps ix0 s = some t) : t.tw = s.tw := by
  unfold clearDoubleTris at h
  dsimp only at h
  split at h
  · simp at h
  · simp only [Option.map_eq_some_iff] at h
    obtain ⟨u, h1, rfl⟩ := h
    obtain ⟨v, hv, h2⟩ := tw_newTris h1
    rw [tw_setup, tw_removeOld, h2]
    simp only [Option.some.injEq] at hv
    rw [← hv, tw_setup]

theorem tw_doubleTris {eps : K} {ix : FRef → Nat} {s t : St K} (h : doubleTris eps ix s = some t) : t.tw = s.tw := by
  unfold doubleTris at h
  split at h
  · simp at h
  · simp only [Option.map_eq_some_iff] at h
    obtain ⟨u, h1, rfl⟩ := h
    obtain ⟨v, hv, h2⟩ := tw_newTris h1
    rw [tw_setup, tw_removeOld, h2]
    simp only [Option.some.injEq] at hv
    rw [← hv]

theorem tw_mergeBad {eps : K} {s t : St K} {v : Nat} (h : mergeBad eps s v = some t) : t.tw = s.tw := by
  unfold mergeBad at h
  split at h
  · split at h
    · split at h
      · dsimp only at h
        split_ifs at h <;> simp only [Option.some.injEq] at h <;> rw [← h]
        all_goals
          show (removeFacet _ _).tw = _
          rw [tw_removeFacet, tw_removeFacet, tw_removeFacet, tw_removeIntr, tw_removeIntr, tw_removeIntr]
      · simp at h
    · simp at h
  · simp at h

theorem tw_mergeBads {eps : K} {l : List Nat} {s t : St K} (h : mergeBads eps l s = some t) : t.tw = s.tw := by
  induction l generalizing s with
  | nil => simp only [mergeBads, Option.some.injEq] at h; rw [h]
  | cons v l ih =>
    simp only [mergeBads, Option.bind_eq_some_iff] at h
    obtain ⟨u, h1, h2⟩ := h
    rw [ih h2, tw_mergeBad h1]

theorem tw_improve {eps : K} {ix0 : FRef → Nat} {s t : St K} (h : improve eps ix0 s = some t) : t.tw = s.tw := by
  unfold improve at h
  split_ifs at h
  · simp only [Option.bind_eq_some_iff] at h
    obtain ⟨a, h1, b, h2, h3⟩ := h
    unfold mergeDegenerate at h3
    simp only [Option.map_eq_some_iff] at h3
    obtain ⟨c, h4, rfl⟩ := h3
    rw [tw_setup, tw_mergeBads h4, tw_clearDoubleTris h2, tw_clearDoubleQuads h1]
  · simp only [Option.some.injEq] at h; rw [h]

theorem tw_redirect (fl fr q : FRef) (s : St K) (p : Nat × Nat) : (redirect fl fr q s p).tw = s.tw := by
  unfold redirect
  split <;> first | rfl | exact tw_upd _ _ _ fun _ => rfl

theorem tw_removeTriRef (s : St K) (f : FRef) : (removeTriRef s f).tw = s.tw := by cases f <;> rfl

theorem tw_mergeEdge {col : FData → Int} {s t : St K} {e : Nat} (h : mergeEdge col s e = some t) : t.tw = s.tw := by
  unfold mergeEdge at h
  dsimp only at h
  split_ifs at h
  · simp only [Option.some.injEq] at h; rw [h]
  · split at h
    · split at h
      · simp only [Option.some.injEq] at h
        rw [← h]
        rw [tw_removeTriRef, tw_removeTriRef, tw_foldl (tw_redirect _ _ _)]
        show (s.removeIntr e).tw = _
        rw [tw_removeIntr]
      · simp at h
    · simp at h

theorem tw_mergeTriangles {col : FData → Int} {l : List Nat} {s t : St K} (h : mergeTriangles col l s = some t) : t.tw = s.tw := by
  induction l generalizing s with
  | nil => simp only [mergeTriangles, Option.some.injEq] at h; rw [h]
  | cons v l ih =>
    simp only [mergeTriangles, Option.bind_eq_some_iff] at h
    obtain ⟨u, h1, h2⟩ := h
    rw [ih h2, tw_mergeEdge h1]

theorem tw_tri2quad {eps : K} {ix0 : FRef → Nat} {l : List Nat} {s t : St K} (h : tri2quad eps ix0 l s = some t) : t.tw = s.tw := by
  unfold tri2quad at h
  simp only [Option.bind_eq_some_iff] at h
  obtain ⟨u, h1, v, h2, h3⟩ := h
  rw [tw_doubleTris h3, tw_clearDoubleQuads h2, tw_mergeTriangles h1, tw_setup]

end TQ.Whole

import Verif.Whole.AppModel
import Verif.Cleanup.Lemmas

/-! # Lemmas: the area counter after the meshing -/

set_option linter.unusedSectionVars false

namespace TQ.Whole
open TQ.MS TQ.MS.St TQ.MC
variable {K : Type*} [Field K] [LinearOrder K]

theorem area_foldl {α : Type*} {f : St K → α → St K} (h : ∀ s x, (f s x).area = s.area) (l : List α) (s : St K) :
    (l.foldl f s).area = s.area := by
  induction l generalizing s with
  | nil => rfl
  | cons x l ih => rw [List.foldl_cons, ih, h]

theorem area_removeIntr (s : St K) (e : Nat) : (s.removeIntr e).area = s.area := by unfold removeIntr; split_ifs <;> rfl
theorem area_removeBdry (s : St K) (e : Nat) : (s.removeBdry e).area = s.area := by unfold removeBdry; split_ifs <;> rfl

theorem area_setSide (eps : K) (s : St K) (e : Nat) (f : FRef) : (setSide eps s e f).area = s.area := by
  unfold setSide; split_ifs <;> rfl

theorem area_setup (eps : K) (s : St K) : (setupConnectivity eps s).area = s.area := by
  unfold setupConnectivity
  rw [area_foldl, area_foldl]
  · intro s e
    unfold connIntr
    split
    · rfl
    · rw [area_setSide]; rfl
    · rw [area_setSide]
      show (setSide eps _ _ _).area = _
      rw [area_setSide]; rfl
  · intro s e
    unfold connBdry
    split
    · rfl
    · split_ifs <;> rfl

theorem area_removeFacet (s : St K) (f : FRef) : (removeFacet s f).area = s.area := by cases f <;> rfl

theorem area_removeOld (ms : List Merge) (s : St K) : (MC.removeOld ms s).area = s.area := by
  unfold MC.removeOld
  dsimp only
  rw [area_foldl (f := fun (s : St K) (m : Merge) => s.removeVertex m.v2) (fun _ _ => rfl),
    area_foldl (f := fun (s : St K) (m : Merge) => (s.removeIntr m.e1).removeIntr m.e2) (fun s m => by rw [area_removeIntr, area_removeIntr]),
    area_foldl (f := fun (s : St K) (m : Merge) => removeFacet (s.removeQuad m.q) m.nbr) (fun s m => by rw [area_removeFacet]; rfl)]

theorem area_newTri {s t : St K} {m : Merge} (h : newTri s m = some t) : t.area = s.area := by
  unfold newTri at h
  split at h
  · simp at h
  · split at h
    · simp only [Option.some.injEq] at h; rw [← h]; rfl
    · simp at h

theorem area_newTris {ms : List Merge} : ∀ {o : Option (St K)} {t : St K},
    ms.foldl (fun o m => o.bind fun s => newTri s m) o = some t → ∃ s, o = some s ∧ t.area = s.area := by
  induction ms with
  | nil => intro o t h; exact ⟨t, h, rfl⟩
  | cons m ms ih =>
    intro o t h
    rw [List.foldl_cons] at h
    obtain ⟨u, h1, h2⟩ := ih h
    cases o with
    | none => simp at h1
    | some s => exact ⟨s, rfl, h2.trans (area_newTri (by simpa using h1))⟩

theorem area_clearDoubleQuads {eps : K} {ix0 : FRef → Nat} {s t : St K} (h : clearDoubleQuads eps ix0 s = some t) : t.area = s.area := by
  unfold clearDoubleQuads at h
  dsimp only at h
  split at h
  · simp at h
  · simp only [Option.some.injEq] at h
    rw [← h, area_setup, area_removeOld, area_foldl (f := newQuad) (fun _ _ => rfl), area_setup]

theorem area_clearDoubleTris {eps : K} {ix0 : FRef → Nat} {s t : St K} (h : clearDoubleTris eps ix0 s = some t) : t.area = s.area := by
  unfold clearDoubleTris at h
  dsimp only at h
  split at h
  · simp at h
  · simp only [Option.map_eq_some_iff] at h
    obtain ⟨u, h1, rfl⟩ := h
    obtain ⟨v, hv, h2⟩ := area_newTris h1
    rw [area_setup, area_removeOld, h2]
    simp only [Option.some.injEq] at hv
    rw [← hv, area_setup]

theorem area_doubleTris {eps : K} {ix : FRef → Nat} {s t : St K} (h : doubleTris eps ix s = some t) : t.area = s.area := by
  unfold doubleTris at h
  split at h
  · simp at h
  · simp only [Option.map_eq_some_iff] at h
    obtain ⟨u, h1, rfl⟩ := h
    obtain ⟨v, hv, h2⟩ := area_newTris h1
    rw [area_setup, area_removeOld, h2]
    simp only [Option.some.injEq] at hv
    rw [← hv]

theorem area_mergeBad {eps : K} {s t : St K} {v : Nat} (h : mergeBad eps s v = some t) : t.area = s.area := by
  unfold mergeBad at h
  split at h
  · split at h
    · split at h
      · dsimp only at h
        split_ifs at h <;> simp only [Option.some.injEq] at h <;> rw [← h]
        all_goals
          show (removeFacet _ _).area = _
          rw [area_removeFacet, area_removeFacet, area_removeFacet, area_removeIntr, area_removeIntr, area_removeIntr]
      · simp at h
    · simp at h
  · simp at h

theorem area_mergeBads {eps : K} {l : List Nat} {s t : St K} (h : mergeBads eps l s = some t) : t.area = s.area := by
  induction l generalizing s with
  | nil => simp only [mergeBads, Option.some.injEq] at h; rw [h]
  | cons v l ih =>
    simp only [mergeBads, Option.bind_eq_some_iff] at h
    obtain ⟨u, h1, h2⟩ := h
    rw [ih h2, area_mergeBad h1]

theorem area_improve {eps : K} {ix0 : FRef → Nat} {s t : St K} (h : improve eps ix0 s = some t) : t.area = s.area := by
  unfold improve at h
  split_ifs at h
  · simp only [Option.bind_eq_some_iff] at h
    obtain ⟨a, h1, b, h2, h3⟩ := h
    unfold mergeDegenerate at h3
    simp only [Option.map_eq_some_iff] at h3
    obtain ⟨c, h4, rfl⟩ := h3
    rw [area_setup, area_mergeBads h4, area_clearDoubleTris h2, area_clearDoubleQuads h1]
  · simp only [Option.some.injEq] at h; rw [h]

theorem area_redirect (fl fr q : FRef) (s : St K) (p : Nat × Nat) : (redirect fl fr q s p).area = s.area := by
  unfold redirect
  split <;> rfl

theorem area_removeTriRef (s : St K) (f : FRef) : (removeTriRef s f).area = s.area := by cases f <;> rfl

theorem area_mergeEdge {col : FData → Int} {s t : St K} {e : Nat} (h : mergeEdge col s e = some t) : t.area = s.area := by
  unfold mergeEdge at h
  dsimp only at h
  split_ifs at h
  · simp only [Option.some.injEq] at h; rw [h]
  · split at h
    · split at h
      · simp only [Option.some.injEq] at h
        rw [← h]
        rw [area_removeTriRef, area_removeTriRef, area_foldl (area_redirect _ _ _)]
        show (s.removeIntr e).area = _
        rw [area_removeIntr]
      · simp at h
    · simp at h

theorem area_mergeTriangles {col : FData → Int} {l : List Nat} {s t : St K} (h : mergeTriangles col l s = some t) : t.area = s.area := by
  induction l generalizing s with
  | nil => simp only [mergeTriangles, Option.some.injEq] at h; rw [h]
  | cons v l ih =>
    simp only [mergeTriangles, Option.bind_eq_some_iff] at h
    obtain ⟨u, h1, h2⟩ := h
    rw [ih h2, area_mergeEdge h1]

theorem area_tri2quad {eps : K} {ix0 : FRef → Nat} {l : List Nat} {s t : St K} (h : tri2quad eps ix0 l s = some t) : t.area = s.area := by
  unfold tri2quad at h
  simp only [Option.bind_eq_some_iff] at h
  obtain ⟨u, h1, v, h2, h3⟩ := h
  rw [area_doubleTris h3, area_clearDoubleQuads h2, area_mergeTriangles h1, area_setup]

end TQ.Whole

import Verif.Whole.Smooth

/-! # Lemmas: refinement of completely meshed domains -/

set_option linter.unusedSectionVars false
set_option linter.unusedSimpArgs false

namespace TQ.Whole
open TQ.MS TQ.MeshSpec TQ.FUSpec TQ.MS.St TQ.GeoSpec TQ.FU TQ.Sm TQ.MCSpec TQ.WholeSpec TQ.RefSpec TQ.QLSpec TQ.QL TQ.CleanSpec TQ.SmSpec
variable {K : Type*} [Field K] [LinearOrder K] [IsStrictOrderedRing K]

/-! ### Pointers of the new quads -/

/-- The quads that are not in `old` have null pointers. -/
def NewNull (old : List Nat) (s : St K) : Prop := ∀ q ∈ s.quads, q ∉ old → (s.F (.quad q)).nbrs = [.null, .null, .null, .null]

theorem nn_same {old : List Nat} {s s' : St K} (h : NewNull old s) (hq : ∀ q ∈ s'.quads, q ∈ s.quads) (hF : s'.F = s.F) : NewNull old s' := by
  intro q h1 h2
  rw [hF]; exact h q (hq q h1) h2

theorem nn_addVertex {old : List Nat} {s : St K} (h : NewNull old s) (p : Pt K) : NewNull old (s.addVertex p) := nn_same h (fun _ h => h) rfl
theorem nn_addEdge {old : List Nat} {s : St K} (h : NewNull old s) (l : EL) (a b : Nat) (c : Int) (p : BitVec 8) :
    NewNull old (s.addEdge l a b c p) := nn_same h (fun _ h => h) rfl
theorem nn_setProps {old : List Nat} {s : St K} (h : NewNull old s) (v : Nat) (g : BitVec 8 → BitVec 8) :
    NewNull old (s.setProps v g) := nn_same h (fun _ h => h) rfl

theorem nn_foldl {α : Type*} {old : List Nat} {g : St K → α → St K} (hg : ∀ s a, NewNull old s → NewNull old (g s a)) : ∀ (l : List α) (s : St K),
    NewNull old s → NewNull old (l.foldl g s)
  | [], _, h => h
  | a :: l, s, h => nn_foldl hg l _ (hg s a h)

theorem nn_inherit {old : List Nat} {s : St K} (h : NewNull old s) (v : Nat) (ws : List Nat) : NewNull old (s.inheritProps v ws) := by
  unfold inheritProps
  exact nn_foldl (fun s a h => nn_setProps h _ _) _ _ h

theorem nn_clear {old : List Nat} {s : St K} (h : NewNull old s) (v : Nat) : NewNull old (s.clearBoundary v) := nn_setProps h _ _

theorem nn_addSub {old : List Nat} {s : St K} (h : NewNull old s) (c : Int) (q : Nat × Nat × Nat × Nat) : NewNull old (s.addSub c q) := by
  intro x hx ho
  have hx' : x ∈ s.quads ++ [s.nxt] := hx
  unfold addSub setColor addQuad upd
  dsimp only
  by_cases e : x = s.nxt
  · subst e; simp
  · have : FRef.quad x ≠ FRef.quad s.nxt := fun hh => e (by simpa using hh)
    simp only [if_neg this]
    rw [List.mem_append] at hx'
    rcases hx' with hx' | hx'
    · exact h x hx' ho
    · exact absurd (List.mem_singleton.mp hx') e

theorem nn_splitFacet {old : List Nat} {s : St K} (h : NewNull old s) (p : Pt K) (vs : List Nat) (c : Int) (qs : List (Nat × Nat × Nat × Nat))
    (ms : List Nat) : NewNull old (s.splitFacet p vs c qs ms) := by
  unfold splitFacet
  dsimp only
  refine nn_foldl (fun s a h => nn_addEdge h _ _ _ _ _) _ _ (nn_foldl (fun s a h => nn_addSub h _ _) _ _ ?_)
  exact nn_clear (nn_inherit (nn_addVertex h _) _ _) _

theorem nn_loopM {α : Type*} {old : List Nat} {g : RS K → α → Option (RS K)} (hg : ∀ r a r', NewNull old r.1 → g r a = some r' → NewNull old r'.1) :
    ∀ (l : List α) (r r' : RS K), NewNull old r.1 → loopM g r l = some r' → NewNull old r'.1
  | [], r, r', h, e => by
    unfold loopM at e
    cases e; exact h
  | a :: l, r, r', h, e => by
    unfold loopM at e
    cases hga : g r a with
    | none => rw [hga] at e; simp at e
    | some r1 => rw [hga] at e; exact nn_loopM hg l r1 r' (hg r a r1 h hga) e

theorem nn_splitTri {old : List Nat} (r : RS K) (t : Nat) (r' : RS K) (h : NewNull old r.1) (e : splitTri r t = some r') : NewNull old r'.1 := by
  unfold splitTri at e
  split at e
  · split at e
    · cases e; exact nn_splitFacet h _ _ _ _ _
    · simp at e
  · simp at e

theorem nn_splitQuad {old : List Nat} (r : RS K) (t : Nat) (r' : RS K) (h : NewNull old r.1) (e : splitQuad r t = some r') : NewNull old r'.1 := by
  unfold splitQuad at e
  split at e
  · split at e
    · cases e; exact nn_splitFacet h _ _ _ _ _
    · simp at e
  · simp at e

theorem nn_foldlR {old : List Nat} {g : RS K → Nat → RS K} (hg : ∀ r a, NewNull old r.1 → NewNull old (g r a).1) : ∀ (l : List Nat) (r : RS K),
    NewNull old r.1 → NewNull old (l.foldl g r).1
  | [], _, h => h
  | a :: l, r, h => nn_foldlR hg l _ (hg r a h)

theorem nn_removeQuads {old : List Nat} : ∀ (l : List Nat) (s : St K), NewNull old s →
    NewNull old (l.foldl (fun t q => t.removeQuad q) s) ∧ ∀ q ∈ (l.foldl (fun t q => t.removeQuad q) s).quads, q ∈ s.quads ∧ q ∉ l
  | [], s, h => ⟨h, fun q hq => ⟨hq, by simp⟩⟩
  | a :: l, s, h => by
    have hs : ∀ q ∈ (s.removeQuad a).quads, q ∈ s.quads ∧ q ≠ a := by
      intro q hq
      have : q ∈ s.quads.filter (· ≠ a) := hq
      simpa using this
    obtain ⟨k1, k2⟩ := nn_removeQuads l (s.removeQuad a) (nn_same h (fun q hq => (hs q hq).1) rfl)
    refine ⟨k1, fun q hq => ?_⟩
    obtain ⟨m1, m2⟩ := k2 q hq
    obtain ⟨m3, m4⟩ := hs q m1
    exact ⟨m3, by simp [m2, m4]⟩

theorem refine_null {s t : St K} (hr : s.refine = some (t, true)) : ∀ q ∈ t.quads, (t.F (.quad q)).nbrs = [.null, .null, .null, .null] := by
  unfold refine at hr
  split_ifs at hr
  · simp at hr
  dsimp only at hr
  have i0 : NewNull s.quads ((s.es .bdry).foldl splitBdry ((s.es .intr).foldl splitIntr (s, fun _ => none))).1 := by
    refine nn_foldlR (fun r a h => ?_) _ _ (nn_foldlR (fun r a h => ?_) _ _ fun q hq hn => absurd hq hn)
    · exact nn_inherit (nn_addEdge (nn_addEdge (nn_addVertex h _) _ _ _ _ _) _ _ _ _ _) _ _
    · exact nn_clear (nn_inherit (nn_addEdge (nn_addEdge (nn_addVertex h _) _ _ _ _ _) _ _ _ _ _) _ _) _
  split at hr
  · simp at hr
  rename_i r1 h1
  have i1 := nn_loopM nn_splitTri _ _ _ i0 h1
  split at hr
  · simp at hr
  rename_i r2 h2
  have i2 := nn_loopM nn_splitQuad _ _ _ i1 h2
  simp only [Option.some.injEq, Prod.mk.injEq, and_true] at hr
  subst hr
  unfold St.removeOld
  dsimp only
  have i3 : NewNull s.quads (s.tris.foldl (fun t x => t.removeTri x) ((s.es .bdry).foldl (fun t e => t.removeBdry e)
      ((s.es .intr).foldl (fun t e => t.removeIntr e) r2.1))) := by
    refine nn_foldl (fun u a h => ?_) _ _ (nn_foldl (fun u a h => ?_) _ _ (nn_foldl (fun u a h => ?_) _ _ i2))
    · exact nn_same h (fun _ h => h) rfl
    · unfold removeBdry; split_ifs
      · exact h
      · exact nn_same h (fun _ h => h) rfl
    · unfold removeIntr; split_ifs
      · exact h
      · exact nn_same h (fun _ h => h) rfl
  obtain ⟨k1, k2⟩ := nn_removeQuads s.quads _ i3
  exact fun q hq => k1 q hq (k2 q hq).2

/-! ### The boundary -/

theorem split_all {pos : Nat → Pt K} {α : Type*} (a b m : α → Nat) : ∀ (l : List α) (pre : List (Nat × Nat)),
    SimpleFront pos (pre ++ l.map fun e => (a e, b e)) → (∀ e ∈ l, Between (pos (m e)) (pos (a e)) (pos (b e))) →
    SimpleFront pos (pre ++ l.flatMap fun e => [(a e, m e), (m e, b e)])
  | [], pre, h, _ => h
  | e :: l, pre, h, hb => by
    rw [List.flatMap_cons, ← List.append_assoc]
    refine split_all a b m l _ ?_ fun x hx => hb x (List.mem_cons_of_mem _ hx)
    refine simple_split (a := a e) (b := b e) (n := m e) h (by simp) ?_ (hb e List.mem_cons_self)
    rw [List.map_cons]
    have p1 : (pre ++ (a e, b e) :: l.map fun e => (a e, b e)).Perm ((a e, b e) :: (pre ++ l.map fun e => (a e, b e))) := List.perm_middle
    refine List.Perm.trans (List.Perm.cons _ ?_) (p1.symm.append_right _)
    show ((pre ++ [(a e, m e), (m e, b e)]) ++ l.map fun e => (a e, b e)).Perm ((pre ++ l.map fun e => (a e, b e)) ++ [(a e, m e), (m e, b e)])
    rw [List.append_assoc, List.append_assoc]
    exact List.Perm.append_left _ List.perm_append_comm

theorem winding_split {pos : Nat → Pt K} {α : Type*} (a b m : α → Nat) (p : Pt K) : ∀ (l : List α),
    (∀ e ∈ l, Between (pos (m e)) (pos (a e)) (pos (b e))) →
    winding pos (l.flatMap fun e => [(a e, m e), (m e, b e)]) p = winding pos (l.map fun e => (a e, b e)) p := by
  intro l hb
  rw [winding_eq, winding_eq]
  induction l with
  | nil => rfl
  | cons e l ih =>
    rw [List.flatMap_cons, List.map_append, List.sum_append, ih fun x hx => hb x (List.mem_cons_of_mem _ hx), List.map_cons, List.map_cons,
      List.sum_cons]
    simp only [List.map_cons, List.map_nil, List.sum_cons, List.sum_nil, add_zero]
    rw [crossing_between (hb e List.mem_cons_self)]

theorem convex_unfolded {s : St K} (h : ConvexElements s) : Unfolded s := by
  intro q hq a b c d hc
  obtain ⟨h1, h2, h3, h4⟩ := h.2 q hq a b c d hc
  simp only [side_area2] at h1 h3
  exact Or.inl ⟨h1, h3⟩

/-- The refinement of a completely meshed domain with convex elements. -/
theorem refine_complete {s : St K} (h : Complete s) (ht : NoTwins s) (hc : ConvexElements s) (hf : BdryFlagged s) :
    ∃ t, s.refine = some (t, true) ∧ Complete t ∧ NbrLen t ∧ FreshPointers t ∧ BdryFlagged t ∧ NoTwins t ∧ ConvexElements t ∧
      (∀ p, winding t.pos (pairs t .bdry) p = winding s.pos (pairs s .bdry) p) ∧ meshArea t = meshArea s := by
  obtain ⟨t, N, hr, R, hp, ht', hcf⟩ := C56_refine h.toProper ht
  have hconv := C57_convex h.toProper ht hr hc
  have hcon := hcf h.toConforming
  have bt : ∀ e ∈ s.es .bdry, (s.E e).v1 ∈ s.verts ∧ (s.E e).v2 ∈ s.verts := fun e he => by
    have := (h.wf.ends _).2 e he
    exact ⟨this.2.1, this.2.2.1⟩
  have ep : pairs t .bdry = (s.es .bdry).flatMap fun e => [((s.E e).v1, N.mid e), (N.mid e, (s.E e).v2)] := by
    unfold pairs
    rw [R.bdry, List.map_flatMap]
    refine List.flatMap_congr fun e he => ?_
    obtain ⟨⟨k1, k2⟩, k3, k4⟩ := R.halves .bdry (by decide) e he
    simp only [List.map_cons, List.map_nil, k1, k2, k3, k4]
  have hbw : ∀ e ∈ s.es .bdry, Between (t.pos (N.mid e)) (t.pos (s.E e).v1) (t.pos (s.E e).v2) := by
    intro e he
    obtain ⟨m1, m2⟩ := R.midPos .bdry (by decide) e he
    rw [(R.old _ (bt e he).1).1, (R.old _ (bt e he).2).1]
    refine ⟨1 / 2, by norm_num, by norm_num, ?_⟩
    apply Pt.ext'
    · show _ = (s.pos (s.E e).v1).x + 1 / 2 * ((s.pos (s.E e).v2).x - (s.pos (s.E e).v1).x)
      linear_combination 1 / 2 * m1
    · show _ = (s.pos (s.E e).v1).y + 1 / 2 * ((s.pos (s.E e).v2).y - (s.pos (s.E e).v1).y)
      linear_combination 1 / 2 * m2
  have hold : ∀ e ∈ pairs s .bdry, t.pos e.1 = s.pos e.1 ∧ t.pos e.2 = s.pos e.2 := fun e he =>
    ⟨(R.old _ (pairs_verts h.wf e he).1).1, (R.old _ (pairs_verts h.wf e he).2).1⟩
  have hnull := refine_null hr
  have hq4 : ∀ f, Live t f → ∃ q, f = .quad q ∧ q ∈ t.quads := by
    intro f hl
    cases f with
    | null => exact absurd hl (by simp [Live])
    | tri x => simp [Live, R.tris] at hl
    | quad q => exact ⟨q, rfl, hl⟩
  refine ⟨t, hr, ?_, ?_, ?_, ?_, ht', hconv, ?_, (C57_areas h.toProper ht hr).2⟩
  · refine { toConforming := hcon, front := by rw [R.front]; exact h.front, bdry := ?_,
             ccw := (ccw_iff hcon.wf).mpr ⟨hconv.1, convex_unfolded hconv⟩, plain := ?_ }
    · rw [ep]
      have := split_all (pos := t.pos) (fun e => (s.E e).v1) (fun e => (s.E e).v2) N.mid (s.es .bdry) [] (simple_congr hold h.bdry) hbw
      simpa using this
    · intro b hb
      rw [R.bdry] at hb
      obtain ⟨e, he, hbe⟩ := List.mem_flatMap.mp hb
      unfold isInterior isGhost
      rw [(R.markers e he b hbe).2.1]
      decide
  · intro f hl
    obtain ⟨q, rfl, hq⟩ := hq4 f hl
    rw [hnull q hq, hcon.wf.qcor q hq]; rfl
  · intro f a b g hl _ hx
    obtain ⟨q, rfl, hq⟩ := hq4 f hl
    obtain ⟨i, -, -, hi⟩ := hx
    rw [hnull q hq] at hi
    have := List.mem_of_getElem? hi
    simpa using this
  · rw [bdryFlagged_pairs, ep]
    rw [bdryFlagged_pairs] at hf
    have hbv : ∀ v ∈ s.verts, bf t v = bf s v := fun v hv => by unfold bf; rw [(R.old v hv).2]
    intro x hx
    obtain ⟨e, he, hxe⟩ := List.mem_flatMap.mp hx
    have h1 := hf _ (mem_pairs he)
    dsimp only at h1
    have hm : bf t (N.mid e) = true := by
      unfold bf
      rw [R.midBdry e he]
      unfold allProps
      simp only [List.foldl_cons, List.foldl_nil, BitVec.getLsbD_or]
      have := h1.1
      unfold bf at this
      rw [this]; simp
    simp only [List.mem_cons, List.not_mem_nil, or_false] at hxe
    rcases hxe with rfl | rfl
    · exact ⟨by rw [hbv _ (bt e he).1]; exact h1.1, hm⟩
    · exact ⟨hm, by rw [hbv _ (bt e he).2]; exact h1.2⟩
  · intro p
    rw [ep, winding_split (fun e => (s.E e).v1) (fun e => (s.E e).v2) N.mid p _ hbw]
    exact winding_congr hold p

end TQ.Whole

import Verif.Smoothing.Spec
import Verif.Cleanup.Lemmas
import Verif.Cleanup.Props

/-! # Lemmas on the smoothing -/

set_option linter.unusedSectionVars false
set_option linter.unusedSimpArgs false

namespace TQ.Sm
open TQ.MS TQ.MS.St TQ.MeshSpec TQ.MCSpec TQ.SmSpec TQ.MC
variable {K : Type*} [Field K] [LinearOrder K]

theorem sp_refl (s : St K) : SameButPlaces s s :=
  ⟨rfl, fun _ => ⟨rfl, rfl, rfl⟩, rfl, rfl, rfl, rfl, rfl, rfl, fun _ => ⟨rfl, rfl, rfl, rfl, rfl, rfl⟩, fun _ => ⟨rfl, rfl, rfl, rfl⟩⟩

theorem sp_trans {s t u : St K} (h : SameButPlaces s t) (g : SameButPlaces t u) : SameButPlaces s u := by
  refine ⟨g.verts.trans h.verts, fun v => ?_, g.es.trans h.es, g.tris.trans h.tris, g.quads.trans h.quads,
    g.nxt.trans h.nxt, g.area.trans h.area, g.color.trans h.color, fun e => ?_, fun f => ?_⟩
  · obtain ⟨a1, a2, a3⟩ := h.V v
    obtain ⟨b1, b2, b3⟩ := g.V v
    exact ⟨b1.trans a1, b2.trans a2, b3.trans a3⟩
  · obtain ⟨a1, a2, a3, a4, a5, a6⟩ := h.ends e
    obtain ⟨b1, b2, b3, b4, b5, b6⟩ := g.ends e
    exact ⟨b1.trans a1, b2.trans a2, b3.trans a3, b4.trans a4, b5.trans a5, b6.trans a6⟩
  · obtain ⟨a1, a2, a3, a4⟩ := h.corners f
    obtain ⟨b1, b2, b3, b4⟩ := g.corners f
    exact ⟨b1.trans a1, b2.trans a2, b3.trans a3, b4.trans a4⟩

theorem sp_of_sbp {s t : St K} (h : SameButPointers s t) : SameButPlaces s t :=
  ⟨h.verts, fun v => by rw [h.V]; exact ⟨rfl, rfl, rfl⟩, h.es, h.tris, h.quads, h.nxt, h.area, h.color, h.ends, h.corners⟩

theorem sp_live {s t : St K} (h : SameButPlaces s t) (f : FRef) : Live t f ↔ Live s f := by
  cases f <;> simp [Live, h.tris, h.quads]

theorem sp_hasSide {s t : St K} (h : SameButPlaces s t) (f : FRef) (a b : Nat) : HasSide t f a b ↔ HasSide s f a b := by
  unfold HasSide; rw [(h.corners f).1]

theorem sp_wf {s t : St K} (h : SameButPlaces s t) (w : WF s) : WF t := by
  have hl := sp_live h
  have hle : ∀ e, LiveE t e ↔ LiveE s e := fun e => by
    unfold LiveE; rw [h.es, (h.ends e).2.2.1]
  refine { edges := fun v hv => ?_, facets := fun v hv => ?_, vnd := ?_, vlt := ?_, ends := fun l => ?_, tnd := ?_,
           qnd := ?_, tlt := ?_, qlt := ?_, tcor := fun x hx => ?_, qcor := fun x hx => ?_, cor := fun f hf => ?_ }
  · rw [h.verts] at hv
    rw [(h.V v).2.1]
    refine ⟨(w.edges v hv).1, fun e => ?_⟩
    rw [hle, (h.ends e).1, (h.ends e).2.1]
    exact (w.edges v hv).2 e
  · rw [h.verts] at hv
    rw [(h.V v).2.2]
    refine ⟨(w.facets v hv).1, fun f => ?_⟩
    rw [hl, (h.corners f).1]
    exact (w.facets v hv).2 f
  · rw [h.verts]; exact w.vnd
  · rw [h.verts, h.nxt]; exact w.vlt
  · rw [h.es]
    refine ⟨(w.ends l).1, fun e he => ?_⟩
    rw [(h.ends e).1, (h.ends e).2.1, (h.ends e).2.2.1, h.verts, h.nxt]
    exact (w.ends l).2 e he
  · rw [h.tris]; exact w.tnd
  · rw [h.quads]; exact w.qnd
  · rw [h.tris, h.nxt]; exact w.tlt
  · rw [h.quads, h.nxt]; exact w.qlt
  · rw [h.tris] at hx; rw [(h.corners _).1]; exact w.tcor x hx
  · rw [h.quads] at hx; rw [(h.corners _).1]; exact w.qcor x hx
  · rw [(h.corners f).1, h.verts]; exact w.cor f ((hl f).mp hf)

theorem sp_dir {s t : St K} (h : SameButPlaces s t) (d : DirUnique s) : DirUnique t := by
  intro f g a b hf hg h1 h2
  exact d f g a b ((sp_live h f).mp hf) ((sp_live h g).mp hg) ((sp_hasSide h f a b).mp h1) ((sp_hasSide h g a b).mp h2)

theorem sp_covered {s t : St K} (h : SameButPlaces s t) (a b : Nat) : Covered t a b ↔ Covered s a b := by
  unfold Covered
  exact exists_congr fun f => and_congr (sp_live h f) (sp_hasSide h f a b)

theorem sp_connects {s t : St K} (h : SameButPlaces s t) (e a b : Nat) : Connects t e a b ↔ Connects s e a b := by
  unfold Connects; rw [(h.ends e).1, (h.ends e).2.1]

theorem sp_pinned {s t : St K} (h : SameButPlaces s t) (l : Bool) (v : Nat) : Pinned l t v ↔ Pinned l s v := by
  unfold Pinned; rw [(h.V v).1]

/-! ### Moving one vertex -/

theorem pos_setPos (s : St K) (v : Nat) (p : Pt K) (w : Nat) : (s.setPos v p).pos w = if w = v then p else s.pos w := by
  unfold setPos pos upd; dsimp only; split_ifs <;> rfl

theorem sp_setPos (s : St K) (v : Nat) (p : Pt K) : SameButPlaces s (s.setPos v p) := by
  refine ⟨rfl, fun w => ?_, rfl, rfl, rfl, rfl, rfl, rfl, fun _ => ⟨rfl, rfl, rfl, rfl, rfl, rfl⟩, fun _ => ⟨rfl, rfl, rfl, rfl⟩⟩
  unfold setPos upd; dsimp only; split_ifs <;> exact ⟨rfl, rfl, rfl⟩

theorem setPos_back (s : St K) (v : Nat) (p : Pt K) : (s.setPos v p).setPos v (s.pos v) = s := by
  have : upd (upd s.V v fun d => { d with xy := p }) v (fun d => { d with xy := s.pos v }) = s.V := by
    funext w
    unfold upd
    split_ifs with h
    · subst h; rfl
    · rfl
  unfold setPos
  dsimp only
  rw [this]

theorem keeps_iff (c : SmoothCfg K) (s : St K) (v : Nat) : s.keeps c v = true ↔ Pinned c.layers s v := by
  unfold keeps Pinned
  simp only [Flags.has, Bool.or_eq_true, Bool.and_eq_true, Bool.not_eq_true', bne_iff_ne, decide_eq_true_eq, ne_eq, or_assoc]

/-- What one turn does: nothing, or a move of a vertex that is not pinned to a valid place. -/
theorem smoothVertex_cases {c : SmoothCfg K} {rule : Rule K} {dirs : List (Pt K)} {step : K} {s t : St K}
    {x : (Nat × List Nat) × Nat} (h : smoothVertex c rule dirs step s x = some t) :
    t = s ∨ ∃ p, t = s.setPos x.1.1 p ∧ ¬ Pinned c.layers s x.1.1 ∧ t.placeValid c x.1.1 = true := by
  unfold smoothVertex at h
  dsimp only at h
  by_cases hk : s.keeps c x.1.1 = true
  · rw [if_pos hk] at h; left; exact (Option.some.inj h).symm
  · rw [if_neg hk] at h
    generalize (if Flags.has (s.V x.1.1).props Flags.vInQuadLayer = true then dirs[x.2]? else some 0) = o at h
    split at h
    · exact absurd h (by simp)
    · rename_i d _
      split at h
      · left; exact (Option.some.inj h).symm
      · rename_i delta _
        split_ifs at h with h1 h2
        · right
          refine ⟨_, (Option.some.inj h).symm, fun hp => hk ((keeps_iff c s _).mpr hp), ?_⟩
          rw [← Option.some.inj h]; exact h2
        · left; rw [← Option.some.inj h]; exact setPos_back s _ _
        · left; exact (Option.some.inj h).symm

/-! ### Invariants of the loops -/

theorem loopM_inv {α β : Type*} {f : α → β → Option α} {I : α → Prop} (h : ∀ a b a', I a → f a b = some a' → I a') :
    ∀ (l : List β) (a a' : α), I a → loopM f a l = some a' → I a' := by
  intro l
  induction l with
  | nil => intro a a' hi hl; exact Option.some.inj hl ▸ hi
  | cons b l ih =>
    intro a a' hi hl
    unfold loopM at hl
    cases hf : f a b with
    | none => rw [hf] at hl; exact absurd hl (by simp)
    | some a1 => rw [hf] at hl; exact ih a1 a' (h a b a1 hi hf) hl

/-- A property of meshes that survives the moves of free vertices to valid places. -/
def Stable (c : SmoothCfg K) (I : St K → Prop) : Prop :=
  ∀ s v p, I s → ¬ Pinned c.layers s v → (s.setPos v p).placeValid c v = true → I (s.setPos v p)

theorem smoothIter_inv {c : SmoothCfg K} {I : St K → Prop} (hI : Stable c I) {rule : Rule K} {dirs : List (Pt K)} {step : K}
    {conn : List (Nat × List Nat)} {s t : St K} (hi : I s) (h : smoothIter c rule dirs step conn s = some t) : I t := by
  refine loopM_inv (f := smoothVertex c rule dirs step) (I := I) ?_ _ _ _ hi h
  intro a b a' ha hf
  rcases smoothVertex_cases hf with rfl | ⟨p, rfl, hp, hv⟩
  · exact ha
  · exact hI a _ p ha hp hv

theorem smoothLoop_inv {c : SmoothCfg K} {I : St K → Prop} (hI : Stable c I) {rule : Rule K} {dirs : List (Pt K)} {decay : K}
    {conn : List (Nat × List Nat)} : ∀ (n : Nat) (r r' : St K × K), I r.1 → smoothLoop c rule dirs decay conn n r = some r' → I r'.1 := by
  intro n
  induction n with
  | zero => intro r r' hi h; exact Option.some.inj h ▸ hi
  | succ n ih =>
    intro r r' hi h
    unfold smoothLoop at h
    cases hf : smoothIter c rule dirs r.2 conn r.1 with
    | none => rw [hf] at h; exact absurd h (by simp)
    | some t => rw [hf] at h; exact ih _ _ (smoothIter_inv hI hi hf) h

theorem mixedLoop_inv {c : SmoothCfg K} {I : St K → Prop} (hI : Stable c I) {r1 r2 : Rule K} {dirs : List (Pt K)} {decay : K}
    {conn : List (Nat × List Nat)} : ∀ (n : Nat) (r r' : St K × K), I r.1 → mixedLoop c r1 r2 dirs decay conn n r = some r' → I r'.1 := by
  intro n
  induction n with
  | zero => intro r r' hi h; exact Option.some.inj h ▸ hi
  | succ n ih =>
    intro r r' hi h
    unfold mixedLoop at h
    cases hf : smoothIter c r1 dirs r.2 conn r.1 with
    | none => rw [hf] at h; exact absurd h (by simp)
    | some t =>
      rw [hf] at h
      dsimp only at h
      cases hg : smoothIter c r2 dirs r.2 conn t with
      | none => rw [hg] at h; exact absurd h (by simp)
      | some u => rw [hg] at h; exact ih _ _ (smoothIter_inv hI (smoothIter_inv hI hi hf) hg) h

/-! ### No undefined behaviour -/

theorem loopM_total {α β : Type*} {f : α → β → Option α} {l : List β} (h : ∀ a, ∀ b ∈ l, ∃ a', f a b = some a') :
    ∀ a, ∃ a', loopM f a l = some a' := by
  induction l with
  | nil => intro a; exact ⟨a, rfl⟩
  | cons b l ih =>
    intro a
    obtain ⟨a1, h1⟩ := h a b (by simp)
    obtain ⟨a2, h2⟩ := ih (fun a b hb => h a b (by simp [hb])) a1
    exact ⟨a2, by unfold loopM; rw [h1]; exact h2⟩

theorem smoothVertex_total {c : SmoothCfg K} {rule : Rule K} {dirs : List (Pt K)} {step : K} (s : St K)
    {x : (Nat × List Nat) × Nat} (h : x.2 < dirs.length) : ∃ t, smoothVertex c rule dirs step s x = some t := by
  unfold smoothVertex
  dsimp only
  split_ifs with hk
  · exact ⟨_, rfl⟩
  · rw [List.getElem?_eq_getElem h]
    dsimp only
    cases rule s x.1.1 x.1.2 with
    | none => exact ⟨_, rfl⟩
    | some d => dsimp only; split_ifs <;> exact ⟨_, rfl⟩
  · dsimp only
    cases rule s x.1.1 x.1.2 with
    | none => exact ⟨_, rfl⟩
    | some d => dsimp only; split_ifs <;> exact ⟨_, rfl⟩

theorem smoothIter_total {c : SmoothCfg K} {rule : Rule K} {dirs : List (Pt K)} {step : K} {conn : List (Nat × List Nat)}
    (h : conn.length ≤ dirs.length) (s : St K) : ∃ t, smoothIter c rule dirs step conn s = some t := by
  refine loopM_total (fun a b hb => smoothVertex_total a ?_) s
  have := List.mem_zipIdx hb
  omega

theorem smoothLoop_total {c : SmoothCfg K} {rule : Rule K} {dirs : List (Pt K)} {decay : K} {conn : List (Nat × List Nat)}
    (h : conn.length ≤ dirs.length) : ∀ (n : Nat) (r : St K × K), ∃ t, smoothLoop c rule dirs decay conn n r = some t := by
  intro n
  induction n with
  | zero => intro r; exact ⟨_, rfl⟩
  | succ n ih =>
    intro r
    obtain ⟨t, ht⟩ := smoothIter_total (rule := rule) (c := c) (step := r.2) h r.1
    unfold smoothLoop
    rw [ht]
    exact ih _

theorem mixedLoop_total {c : SmoothCfg K} {r1 r2 : Rule K} {dirs : List (Pt K)} {decay : K} {conn : List (Nat × List Nat)}
    (h : conn.length ≤ dirs.length) : ∀ (n : Nat) (r : St K × K), ∃ t, mixedLoop c r1 r2 dirs decay conn n r = some t := by
  intro n
  induction n with
  | zero => intro r; exact ⟨_, rfl⟩
  | succ n ih =>
    intro r
    obtain ⟨t, ht⟩ := smoothIter_total (rule := r1) (c := c) (step := r.2) h r.1
    obtain ⟨u, hu⟩ := smoothIter_total (rule := r2) (c := c) (step := r.2) h t
    unfold mixedLoop
    rw [ht]
    dsimp only
    rw [hu]
    exact ih _

theorem conn_dirs (nearest : St K → Pt K → Option Nat) (norm : Pt K → K) (c : SmoothCfg K) (s : St K) :
    (vertexConn c s).length ≤ (layerDirs nearest norm c s).length := by
  unfold vertexConn layerDirs
  simp

end TQ.Sm

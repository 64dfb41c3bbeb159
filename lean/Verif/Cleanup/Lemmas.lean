import Verif.Cleanup.Spec
import Verif.Mesh.Props

/-! # Lemmas: facet connectivity -/

set_option linter.unusedSectionVars false
set_option linter.unusedSimpArgs false

namespace TQ.MC
open TQ.MS TQ.MeshSpec TQ.MCSpec MS.St
variable {K : Type*} [Field K] [LinearOrder K]

theorem edgeIndex_congr {d d' : FData} (h : d'.corners = d.corners) (a b : Nat) : edgeIndex d' a b = edgeIndex d a b := by
  unfold edgeIndex; rw [h]

theorem sbp_refl (s : St K) : SameButPointers s s :=
  ⟨rfl, rfl, rfl, rfl, rfl, rfl, rfl, rfl, fun _ => ⟨rfl, rfl, rfl, rfl, rfl, rfl⟩, fun _ => ⟨rfl, rfl, rfl, rfl⟩⟩

theorem sbp_trans {s t u : St K} (h : SameButPointers s t) (g : SameButPointers t u) : SameButPointers s u := by
  refine ⟨g.verts.trans h.verts, g.V.trans h.V, g.es.trans h.es, g.tris.trans h.tris, g.quads.trans h.quads,
    g.nxt.trans h.nxt, g.area.trans h.area, g.color.trans h.color, fun e => ?_, fun f => ?_⟩
  · obtain ⟨a1, a2, a3, a4, a5, a6⟩ := h.ends e
    obtain ⟨b1, b2, b3, b4, b5, b6⟩ := g.ends e
    exact ⟨b1.trans a1, b2.trans a2, b3.trans a3, b4.trans a4, b5.trans a5, b6.trans a6⟩
  · obtain ⟨a1, a2, a3, a4⟩ := h.corners f
    obtain ⟨b1, b2, b3, b4⟩ := g.corners f
    exact ⟨b1.trans a1, b2.trans a2, b3.trans a3, b4.trans a4⟩

theorem sbp_pos {s s' : St K} (h : SameButPointers s s') (v : Nat) : s'.pos v = s.pos v := by
  unfold pos; rw [h.V]

theorem sbp_centroid {s s' : St K} (h : SameButPointers s s') (f : FRef) : s'.fCentroid f = s.fCentroid f := by
  unfold fCentroid pos; rw [h.V, (h.corners f).1]

theorem sbp_fArea {s s' : St K} (h : SameButPointers s s') (f : FRef) : s'.fArea f = s.fArea f := by
  unfold fArea pos; rw [h.V, (h.corners f).1]

theorem sbp_live {s s' : St K} (h : SameButPointers s s') (f : FRef) : Live s' f ↔ Live s f := by
  cases f <;> simp [Live, h.tris, h.quads]

theorem sbp_sharing {s s' : St K} (h : SameButPointers s s') (a b : Nat) : sharing s' a b = sharing s a b := by
  unfold sharing
  rw [h.V]
  congr 1
  funext f
  rw [edgeIndex_congr (h.corners f).1]

theorem sbp_hasSide {s s' : St K} (h : SameButPointers s s') (f : FRef) (a b : Nat) : HasSide s' f a b ↔ HasSide s f a b := by
  unfold HasSide; rw [(h.corners f).1]

theorem sbp_wf {s s' : St K} (h : SameButPointers s s') (w : WF s) : WF s' := by
  have hl := sbp_live h
  have hle : ∀ e, LiveE s' e ↔ LiveE s e := fun e => by
    unfold LiveE; rw [h.es, (h.ends e).2.2.1]
  refine { edges := ?_, facets := ?_, vnd := ?_, vlt := ?_, ends := ?_, tnd := ?_, qnd := ?_, tlt := ?_,
           qlt := ?_, tcor := ?_, qcor := ?_, cor := ?_ }
  · intro v hv
    rw [h.V]
    rw [h.verts] at hv
    refine ⟨(w.edges v hv).1, fun e => ?_⟩
    rw [(w.edges v hv).2 e, hle, (h.ends e).1, (h.ends e).2.1]
  · intro v hv
    rw [h.V]
    rw [h.verts] at hv
    refine ⟨(w.facets v hv).1, fun f => ?_⟩
    rw [(w.facets v hv).2 f, hl, (h.corners f).1]
  · rw [h.verts]; exact w.vnd
  · rw [h.verts, h.nxt]; exact w.vlt
  · intro l
    rw [h.es]
    refine ⟨(w.ends l).1, fun e he => ?_⟩
    obtain ⟨a1, a2, a3, -⟩ := h.ends e
    rw [a1, a2, a3, h.verts, h.nxt]
    exact (w.ends l).2 e he
  · rw [h.tris]; exact w.tnd
  · rw [h.quads]; exact w.qnd
  · rw [h.tris, h.nxt]; exact w.tlt
  · rw [h.quads, h.nxt]; exact w.qlt
  · intro t ht; rw [(h.corners _).1]; rw [h.tris] at ht; exact w.tcor t ht
  · intro t ht; rw [(h.corners _).1]; rw [h.quads] at ht; exact w.qcor t ht
  · intro f hf
    rw [(h.corners f).1, h.verts]
    exact w.cor f ((hl f).mp hf)

/-! ### One edge -/

/-- The neighbour pointers written for an interior edge. -/
def nbrWrites (s : St K) (e : Nat) : List (FRef × Nat × FRef) :=
  match sharing s (s.E e).v1 (s.E e).v2 with
  | [] => []
  | [(f1, i1)] => [(f1, i1, .null)]
  | (f1, i1) :: (f2, i2) :: _ => [(f1, i1, f2), (f2, i2, f1)]

/-- Effect on one facet pointer pair of an edge. -/
def put (eps : K) (s : St K) (a b : Nat) (d : EData) (f : FRef) : EData :=
  if isLeft eps (s.pos a) (s.pos b) (s.fCentroid f) then { d with fl := f } else { d with fr := f }

/-- The data of an interior edge after its turn. -/
def edgeAfter (eps : K) (s : St K) (e : Nat) (d : EData) : EData :=
  (((sharing s (s.E e).v1 (s.E e).v2).take 2).map Prod.fst).foldl (put eps s (s.E e).v1 (s.E e).v2) d

def applyW (ws : List (FRef × Nat × FRef)) (F : FRef → FData) : FRef → FData :=
  ws.foldl (fun F w => upd F w.1 fun d => { d with nbrs := d.nbrs.set w.2.1 w.2.2 }) F

theorem applyW_append (a b : List (FRef × Nat × FRef)) (F : FRef → FData) : applyW (a ++ b) F = applyW b (applyW a F) := by
  unfold applyW; rw [List.foldl_append]

theorem upd_congr {α β : Type*} [DecidableEq α] (f : α → β) (i : α) {g g' : β → β} (h : g (f i) = g' (f i)) :
    upd f i g = upd f i g' := by
  funext j; unfold upd; split_ifs with hj
  · subst hj; exact h
  · rfl

theorem upd_upd {α β : Type*} [DecidableEq α] (f : α → β) (i : α) (g g' : β → β) :
    upd (upd f i g) i g' = upd f i fun x => g' (g x) := by
  funext j; unfold upd; split_ifs with hj <;> rfl

theorem setNbr_sbp (s : St K) (f : FRef) (i : Nat) (g : FRef) : SameButPointers s (setNbr s f i g) := by
  refine ⟨rfl, rfl, rfl, rfl, rfl, rfl, rfl, rfl, fun _ => ⟨rfl, rfl, rfl, rfl, rfl, rfl⟩, fun h => ?_⟩
  unfold setNbr upd
  dsimp only
  split_ifs <;> simp

theorem setSide_eq (eps : K) (s : St K) (e : Nat) (f : FRef) :
    setSide eps s e f = { s with E := upd s.E e fun d => put eps s (s.E e).v1 (s.E e).v2 d f } := by
  unfold setSide put
  split_ifs <;> rfl

theorem setSide_sbp (eps : K) (s : St K) (e : Nat) (f : FRef) : SameButPointers s (setSide eps s e f) := by
  rw [setSide_eq]
  refine ⟨rfl, rfl, rfl, rfl, rfl, rfl, rfl, rfl, fun h => ?_, fun _ => ⟨rfl, rfl, rfl, rfl⟩⟩
  unfold upd put
  dsimp only
  split_ifs <;> simp

theorem put_congr {s s' : St K} (h : SameButPointers s s') (eps : K) (a b : Nat) : put eps s' a b = put eps s a b := by
  funext d f
  unfold put
  rw [sbp_pos h, sbp_pos h, sbp_centroid h]

theorem connIntr_eq (eps : K) (s : St K) (e : Nat) :
    connIntr eps s e = { s with F := applyW (nbrWrites s e) s.F, E := upd s.E e (edgeAfter eps s e) } := by
  unfold connIntr nbrWrites edgeAfter
  match hs : sharing s (s.E e).v1 (s.E e).v2 with
  | [] =>
    have : upd s.E e (fun d => d) = s.E := by funext j; unfold upd; split_ifs <;> rfl
    simp only [List.take_nil, List.map_nil, List.foldl_nil, applyW]
    rw [this]
  | [(f1, i1)] =>
    have h1 := setNbr_sbp s f1 i1 .null
    simp only [setSide_eq, List.take_succ_cons, List.take_nil, List.map_cons, List.map_nil, List.foldl_cons,
      List.foldl_nil, applyW, put_congr h1]
    rfl
  | (f1, i1) :: (f2, i2) :: r =>
    have h1 := setNbr_sbp s f1 i1 f2
    have h2 := sbp_trans h1 (setSide_sbp eps (setNbr s f1 i1 f2) e f1)
    have h3 := sbp_trans h2 (setNbr_sbp (setSide eps (setNbr s f1 i1 f2) e f1) f2 i2 f1)
    dsimp only
    rw [setSide_eq eps (setNbr (setSide eps (setNbr s f1 i1 f2) e f1) f2 i2 f1), put_congr h3,
      (h3.ends e).1, (h3.ends e).2.1]
    have e1 : setSide eps (setNbr s f1 i1 f2) e f1 =
        { setNbr s f1 i1 f2 with E := upd s.E e fun d => put eps s (s.E e).v1 (s.E e).v2 d f1 } := by
      rw [setSide_eq, put_congr h1]; rfl
    rw [e1]
    simp only [List.take_succ_cons, List.take_zero, List.map_cons, List.map_nil, List.foldl_cons,
      List.foldl_nil, applyW, setNbr, upd_upd]

theorem applyW_keep (ws : List (FRef × Nat × FRef)) (F : FRef → FData) (f : FRef) :
    (applyW ws F f).corners = (F f).corners ∧ (applyW ws F f).color = (F f).color ∧
    (applyW ws F f).active = (F f).active ∧ (applyW ws F f).nbrs.length = (F f).nbrs.length := by
  induction ws generalizing F with
  | nil => exact ⟨rfl, rfl, rfl, rfl⟩
  | cons w ws ih =>
    change (applyW ws (upd F w.1 _) f).corners = _ ∧ _
    obtain ⟨a, b, c, d⟩ := ih (upd F w.1 fun d => { d with nbrs := d.nbrs.set w.2.1 w.2.2 })
    have h2 : applyW (w :: ws) F f = applyW ws (upd F w.1 fun d => { d with nbrs := d.nbrs.set w.2.1 w.2.2 }) f := rfl
    rw [h2]
    rw [a, b, c, d]
    by_cases hf : f = w.1
    · subst hf; simp
    · simp [upd_ne _ _ hf]

theorem foldl_put_keep (eps : K) (s : St K) (a b : Nat) (fs : List FRef) (d : EData) :
    let d' := fs.foldl (put eps s a b) d
    d'.v1 = d.v1 ∧ d'.v2 = d.v2 ∧ d'.list = d.list ∧ d'.color = d.color ∧ d'.props = d.props ∧ d'.twin = d.twin := by
  induction fs generalizing d with
  | nil => exact ⟨rfl, rfl, rfl, rfl, rfl, rfl⟩
  | cons f fs ih =>
    have := ih (put eps s a b d f)
    dsimp only [List.foldl_cons] at this ⊢
    obtain ⟨h1, h2, h3, h4, h5, h6⟩ := this
    rw [h1, h2, h3, h4, h5, h6]
    unfold put
    split_ifs <;> exact ⟨rfl, rfl, rfl, rfl, rfl, rfl⟩

theorem connIntr_sbp (eps : K) (s : St K) (e : Nat) : SameButPointers s (connIntr eps s e) := by
  rw [connIntr_eq]
  refine ⟨rfl, rfl, rfl, rfl, rfl, rfl, rfl, rfl, fun j => ?_, fun f => applyW_keep _ _ f⟩
  by_cases hj : j = e
  · subst hj
    simp only [upd_self]
    exact foldl_put_keep _ _ _ _ _ _
  · simp [upd_ne _ _ hj]

theorem connBdry_sbp (eps : K) (s : St K) (e : Nat) : SameButPointers s (connBdry eps s e) := by
  unfold connBdry
  split
  · exact sbp_refl s
  · split_ifs
    · refine ⟨rfl, rfl, rfl, rfl, rfl, rfl, rfl, rfl, fun j => ?_, fun f => ⟨rfl, rfl, rfl, rfl⟩⟩
      by_cases hj : j = e
      · subst hj; simp
      · simp [upd_ne _ _ hj]
    · exact sbp_refl s

theorem nbrWrites_congr {s s' : St K} (h : SameButPointers s s') (e : Nat) : nbrWrites s' e = nbrWrites s e := by
  unfold nbrWrites
  rw [(h.ends e).1, (h.ends e).2.1, sbp_sharing h]

theorem edgeAfter_congr {s s' : St K} (h : SameButPointers s s') (eps : K) (e : Nat) : edgeAfter eps s' e = edgeAfter eps s e := by
  funext d
  unfold edgeAfter
  rw [(h.ends e).1, (h.ends e).2.1, sbp_sharing h, put_congr h]

/-! ### All edges -/

theorem foldIntr (eps : K) : ∀ (l : List Nat) (s : St K), l.Nodup →
    SameButPointers s (l.foldl (connIntr eps) s) ∧
    (l.foldl (connIntr eps) s).F = applyW (l.flatMap (nbrWrites s)) s.F ∧
    ∀ e, (l.foldl (connIntr eps) s).E e = if e ∈ l then edgeAfter eps s e (s.E e) else s.E e := by
  intro l
  induction l with
  | nil => intro s _; exact ⟨sbp_refl s, rfl, fun e => by simp⟩
  | cons a l ih =>
    intro s hn
    rw [List.nodup_cons] at hn
    have h1 := connIntr_sbp eps s a
    obtain ⟨i1, i2, i3⟩ := ih (connIntr eps s a) hn.2
    rw [List.foldl_cons]
    refine ⟨sbp_trans h1 i1, ?_, ?_⟩
    · rw [i2, List.flatMap_cons, applyW_append]
      have : nbrWrites (connIntr eps s a) = nbrWrites s := by funext e; exact nbrWrites_congr h1 e
      rw [this, connIntr_eq]
    · intro e
      rw [i3, edgeAfter_congr h1]
      have hE : (connIntr eps s a).E e = if e = a then edgeAfter eps s a (s.E a) else s.E e := by
        rw [connIntr_eq]
        by_cases he : e = a
        · subst he; simp
        · simp [upd_ne _ _ he, he]
      rw [hE]
      by_cases he : e = a
      · subst he; simp [hn.1]
      · simp [he]

/-- The data of a boundary edge after its turn. -/
def bdryAfter (eps : K) (s : St K) (e : Nat) (d : EData) : EData :=
  match sharing s (s.E e).v1 (s.E e).v2 with
  | [] => d
  | (f1, _) :: _ =>
    if isLeft eps (s.pos (s.E e).v1) (s.pos (s.E e).v2) (s.fCentroid f1) then { d with fl := f1 } else d

theorem connBdry_eq (eps : K) (s : St K) (e : Nat) : connBdry eps s e = { s with E := upd s.E e (bdryAfter eps s e) } := by
  have hid : upd s.E e (fun d => d) = s.E := by funext j; unfold upd; split_ifs <;> rfl
  unfold connBdry bdryAfter
  match hs : sharing s (s.E e).v1 (s.E e).v2 with
  | [] => dsimp only; rw [hid]
  | (f1, _) :: _ =>
    dsimp only
    split_ifs
    · rfl
    · rw [hid]

theorem bdryAfter_congr {s s' : St K} (h : SameButPointers s s') (eps : K) (e : Nat) : bdryAfter eps s' e = bdryAfter eps s e := by
  funext d
  unfold bdryAfter
  rw [(h.ends e).1, (h.ends e).2.1, sbp_sharing h]
  split
  · rfl
  · rw [sbp_pos h, sbp_pos h, sbp_centroid h]

theorem foldBdry (eps : K) : ∀ (l : List Nat) (s : St K), l.Nodup →
    SameButPointers s (l.foldl (connBdry eps) s) ∧ (l.foldl (connBdry eps) s).F = s.F ∧
    ∀ e, (l.foldl (connBdry eps) s).E e = if e ∈ l then bdryAfter eps s e (s.E e) else s.E e := by
  intro l
  induction l with
  | nil => intro s _; exact ⟨sbp_refl s, rfl, fun e => by simp⟩
  | cons a l ih =>
    intro s hn
    rw [List.nodup_cons] at hn
    have h1 := connBdry_sbp eps s a
    obtain ⟨i1, i2, i3⟩ := ih (connBdry eps s a) hn.2
    rw [List.foldl_cons]
    refine ⟨sbp_trans h1 i1, by rw [i2, connBdry_eq], ?_⟩
    intro e
    rw [i3, bdryAfter_congr h1]
    have hE : (connBdry eps s a).E e = if e = a then bdryAfter eps s a (s.E a) else s.E e := by
      rw [connBdry_eq]
      by_cases he : e = a
      · subst he; simp
      · simp [upd_ne _ _ he, he]
    rw [hE]
    by_cases he : e = a
    · subst he; simp [hn.1]
    · simp [he]

theorem setup_sbp (eps : K) {s : St K} (h : WF s) : SameButPointers s (setupConnectivity eps s) := by
  unfold setupConnectivity
  exact sbp_trans (foldIntr eps _ s (h.ends _).1).1 (foldBdry eps _ _ (h.ends _).1).1

theorem setup_F (eps : K) {s : St K} (h : WF s) :
    (setupConnectivity eps s).F = applyW ((s.es .intr).flatMap (nbrWrites s)) s.F := by
  unfold setupConnectivity
  rw [(foldBdry eps _ _ (h.ends .bdry).1).2.1, (foldIntr eps _ s (h.ends _).1).2.1]

theorem setup_E (eps : K) {s : St K} (h : WF s) (e : Nat) : (setupConnectivity eps s).E e =
    if e ∈ s.es .intr then edgeAfter eps s e (s.E e) else if e ∈ s.es .bdry then bdryAfter eps s e (s.E e) else s.E e := by
  unfold setupConnectivity
  obtain ⟨a, b, c⟩ := foldIntr eps _ s (h.ends .intr).1
  rw [(foldBdry eps _ _ (h.ends .bdry).1).2.2, bdryAfter_congr a, c]
  by_cases h1 : e ∈ s.es .intr
  · have : e ∉ s.es .bdry := fun h2 => by
      have := ((h.ends _).2 e h1).1.symm.trans ((h.ends _).2 e h2).1
      simp at this
    simp [h1, this]
  · simp [h1]

/-! ### The facets at an edge -/

theorem cornersLen {s : St K} (h : WF s) {f : FRef} (hf : Live s f) : (s.F f).corners.length = 3 ∨ (s.F f).corners.length = 4 := by
  cases f with
  | null => exact absurd hf (by simp [Live])
  | tri t => exact Or.inl (h.tcor t hf)
  | quad q => exact Or.inr (h.qcor q hf)

theorem side_mem {s : St K} {f : FRef} {i a b : Nat} (h : sideAt (s.F f).corners i = some (a, b)) :
    a ∈ (s.F f).corners ∧ b ∈ (s.F f).corners := by
  unfold sideAt at h
  split at h
  · rename_i x y hx hy
    simp only [Option.some.injEq, Prod.mk.injEq] at h
    obtain ⟨rfl, rfl⟩ := h
    exact ⟨List.mem_of_getElem? hx, List.mem_of_getElem? hy⟩
  · simp at h

/-- `sharing` lists exactly the live facets with the side, each once, with the index of the side. -/
theorem mem_sharing {s : St K} (h : WF s) {a b : Nat} (ha : a ∈ s.verts) (f : FRef) (i : Nat) :
    (f, i) ∈ sharing s a b ↔ Live s f ∧ i < (s.F f).corners.length ∧
      (sideAt (s.F f).corners i = some (a, b) ∨ sideAt (s.F f).corners i = some (b, a)) := by
  unfold sharing
  rw [List.mem_filterMap]
  constructor
  · rintro ⟨g, hg, hi⟩
    rw [Option.map_eq_some_iff] at hi
    obtain ⟨j, hj, he⟩ := hi
    simp only [Prod.mk.injEq] at he
    obtain ⟨rfl, rfl⟩ := he
    have hl := (((h.facets a ha).2 g).mp hg).1
    exact ⟨hl, (C49_edge_index (cornersLen h hl) (h.cor g hl).1 a b j).mp hj⟩
  · rintro ⟨hl, hi, hs⟩
    refine ⟨f, ((h.facets a ha).2 f).mpr ⟨hl, ?_⟩, ?_⟩
    · rcases hs with hs | hs
      · exact (side_mem hs).1
      · exact (side_mem hs).2
    · rw [(C49_edge_index (cornersLen h hl) (h.cor f hl).1 a b i).mpr ⟨hi, hs⟩]; rfl

theorem sharing_nodup {s : St K} (h : WF s) {a b : Nat} (ha : a ∈ s.verts) : ((sharing s a b).map Prod.fst).Nodup := by
  have key : ∀ l : List FRef, l.Nodup →
      ((l.filterMap fun f => (edgeIndex (s.F f) a b).map fun i => (f, i)).map Prod.fst).Nodup ∧
      ∀ x ∈ (l.filterMap fun f => (edgeIndex (s.F f) a b).map fun i => (f, i)).map Prod.fst, x ∈ l := by
    intro l
    induction l with
    | nil => intro _; simp
    | cons x l ih =>
      intro hn
      rw [List.nodup_cons] at hn
      obtain ⟨i1, i2⟩ := ih hn.2
      cases hx : edgeIndex (s.F x) a b with
      | none =>
        rw [List.filterMap_cons_none (by simp [hx])]
        exact ⟨i1, fun y hy => List.mem_cons_of_mem _ (i2 y hy)⟩
      | some i =>
        rw [List.filterMap_cons_some (b := (x, i)) (by simp [hx])]
        simp only [List.map_cons, List.nodup_cons, List.mem_cons]
        exact ⟨⟨fun hm => hn.1 (i2 _ hm), i1⟩, fun y hy => hy.imp id (i2 y)⟩
  exact (key _ (h.facets a ha).1).1

end TQ.MC

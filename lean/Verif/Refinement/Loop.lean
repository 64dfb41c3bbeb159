import Verif.Refinement.Lemmas

/-! # The loops of the refinement -/

set_option linter.unusedSectionVars false
set_option linter.unusedSimpArgs false

namespace TQ.MS.St
open TQ.MeshSpec TQ.MCSpec TQ.RefSpec
variable {K : Type*} [Field K] [LinearOrder K]

/-- Number of corners. -/
def nc (s : St K) (f : FRef) : Nat := (s.F f).corners.length

/-- The edge that `get_edge` finds. -/
def eo (s : St K) (a b : Nat) : Nat := (s.meshEdge a b).getD 0

/-- State after splitting the interior edges `di`, the boundary edges `db` and the elements `df`. -/
structure RInv (s : St K) (di db : List Nat) (df : List FRef) (r : RS K) (m : Nat → Nat) (z : FRef → Nat) : Prop where
  wf : WF r.1
  nxt : s.nxt ≤ r.1.nxt
  verts : r.1.verts = s.verts ++ di.map m ++ db.map m ++ df.map z
  sub : ∀ e ∈ di ++ db, r.2 e = some (m e)
  fresh : ∀ e ∈ di ++ db, s.nxt ≤ m e ∧ m e + 2 < r.1.nxt
  freshz : ∀ f ∈ df, s.nxt ≤ z f ∧ z f + 2 * s.nc f < r.1.nxt
  intr : r.1.es .intr = s.es .intr ++ (di.flatMap fun e => [m e + 1, m e + 2]) ++
    df.flatMap fun f => (List.range (s.nc f)).map (z f + 1 + s.nc f + ·)
  bdry : r.1.es .bdry = s.es .bdry ++ db.flatMap fun e => [m e + 1, m e + 2]
  front : r.1.es .front = s.es .front
  E : ∀ x, x < s.nxt → r.1.E x = s.E x
  halvesI : ∀ e ∈ di, r.1.E (m e + 1) = ⟨(s.E e).v1, m e, -1, 0, .intr, .null, .null, none⟩ ∧
    r.1.E (m e + 2) = ⟨m e, (s.E e).v2, -1, 0, .intr, .null, .null, none⟩
  halvesB : ∀ e ∈ db, r.1.E (m e + 1) = ⟨(s.E e).v1, m e, (s.E e).color, Flags.eOnBoundary, .bdry, .null, .null, none⟩ ∧
    r.1.E (m e + 2) = ⟨m e, (s.E e).v2, (s.E e).color, Flags.eOnBoundary, .bdry, .null, .null, none⟩
  spokes : ∀ f ∈ df, ∀ i p, (around (s.F f).corners)[i]? = some p →
    r.1.E (z f + 1 + s.nc f + i) = ⟨m (s.eo p.2.1 p.2.2), z f, -1, 0, .intr, .null, .null, none⟩
  tris : r.1.tris = s.tris
  quads : r.1.quads = s.quads ++ df.flatMap fun f => (List.range (s.nc f)).map (z f + 1 + ·)
  F : ∀ f, (∀ i, s.nxt ≤ i → f ≠ .quad i) → r.1.F f = s.F f
  subs : ∀ f ∈ df, ∀ i p, (around (s.F f).corners)[i]? = some p →
    r.1.F (.quad (z f + 1 + i)) =
      ⟨[p.2.1, m (s.eo p.2.1 p.2.2), z f, m (s.eo p.1 p.2.1)], [.null, .null, .null, .null], (s.F f).color, false⟩
  V : ∀ v ∈ s.verts, r.1.pos v = s.pos v ∧ (r.1.V v).props = (s.V v).props ∧
    ∃ new, (r.1.V v).edges = (s.V v).edges ++ new ∧ ∀ y ∈ new, s.nxt ≤ y
  midPos : ∀ e ∈ di ++ db, r.1.pos (m e) = s.edgeMid e
  ctrPos : ∀ f ∈ df, r.1.pos (z f) = s.fCentroid f
  midI : ∀ e ∈ di, (r.1.V (m e)).props = allProps s [(s.E e).v1, (s.E e).v2] &&& ~~~ Flags.vOnBoundary
  midB : ∀ e ∈ db, (r.1.V (m e)).props = allProps s [(s.E e).v1, (s.E e).v2]
  ctrProps : ∀ f ∈ df, (r.1.V (z f)).props = allProps s (s.F f).corners &&& ~~~ Flags.vOnBoundary
  area : r.1.area = s.area
  color : r.1.color = s.color

theorem rinv_start {s : St K} (h : WF s) (m : Nat → Nat) (z : FRef → Nat) : RInv s [] [] [] (s, fun _ => none) m z where
  wf := h
  nxt := le_rfl
  verts := by simp
  sub := by simp
  fresh := by simp
  freshz := by simp
  intr := by simp
  bdry := by simp
  front := rfl
  E := fun _ _ => rfl
  halvesI := by simp
  halvesB := by simp
  spokes := by simp
  tris := rfl
  quads := by simp
  F := fun _ _ => rfl
  subs := by simp
  V := fun v _ => ⟨rfl, rfl, [], by simp, by simp⟩
  midPos := by simp
  ctrPos := by simp
  midI := by simp
  midB := by simp
  ctrProps := by simp
  area := rfl
  color := rfl

theorem map_upd {α β : Type*} [DecidableEq α] (m : α → β) (e : α) (n : β) {l : List α} (h : e ∉ l) :
    l.map (upd m e fun _ => n) = l.map m := by
  apply List.map_congr_left
  intro x hx
  have : x ≠ e := fun hh => h (hh ▸ hx)
  simp [upd, this]

theorem flatMap_upd {α β γ : Type*} [DecidableEq α] (m : α → β) (e : α) (n : β) (g : α → β → List γ) {l : List α} (h : e ∉ l) :
    (l.flatMap fun x => g x ((upd m e fun _ => n) x)) = l.flatMap fun x => g x (m x) := by
  induction l with
  | nil => rfl
  | cons x l ih =>
    rw [List.mem_cons, not_or] at h
    simp only [List.flatMap_cons]
    rw [ih h.2]
    simp [upd, Ne.symm h.1]

theorem allProps_congr {s t : St K} {ws : List Nat} (h : ∀ w ∈ ws, (t.V w).props = (s.V w).props) : allProps t ws = allProps s ws := by
  unfold allProps
  generalize (0 : BitVec 8) = p
  induction ws generalizing p with
  | nil => rfl
  | cons w ws ih =>
    simp only [List.foldl_cons]
    rw [h w (List.mem_cons_self ..), ih (fun x hx => h x (List.mem_cons_of_mem _ hx))]

/-- One edge, interior or boundary. -/
theorem rinv_edge {s : St K} (h : WF s) {di db : List Nat} {r : RS K} {m : Nat → Nat} {z : FRef → Nat}
    (hi : RInv s di db [] r m z) (e : Nat) (bd : Bool) (he : e ∈ s.es (if bd then .bdry else .intr)) (hn : e ∉ di ++ db) (hdb : bd = false → db = []) :
    RInv s (if bd then di else di ++ [e]) (if bd then db ++ [e] else db) []
      (if bd then splitBdry r e else splitIntr r e) (upd m e fun _ => r.1.nxt) z := by
  obtain ⟨he1, he2, he3, he4, he5⟩ := (h.ends _).2 e he
  have hEe := hi.E e he5
  have hlist : ∀ x, x ∈ di ++ db → x ≠ e := fun x hx hh => hn (hh ▸ hx)
  have hvm : ∀ v ∈ s.verts, v ∈ r.1.verts := fun v hv => by rw [hi.verts]; simp [hv]
  have spec := splitGen_spec hi.wf (if bd then EL.bdry else EL.intr) (if bd then (r.1.E e).color else -1)
    (if bd then Flags.eOnBoundary else 0) (if bd then (fun p => p) else (fun p => p &&& ~~~ Flags.vOnBoundary)) e
    (by rw [hEe]; exact hvm _ he2) (by rw [hEe]; exact hvm _ he3)
  have hr' : (if bd then splitBdry r e else splitIntr r e) =
      (splitGen (if bd then EL.bdry else EL.intr) (if bd then (r.1.E e).color else -1)
    (if bd then Flags.eOnBoundary else 0) (if bd then (fun p => p) else (fun p => p &&& ~~~ Flags.vOnBoundary)) r.1 e,
      upd r.2 e fun _ => some r.1.nxt) := by
    cases bd
    · exact splitIntr_eq r e
    · exact splitBdry_eq r e
  rw [hr']
  obtain ⟨g1, g2, g3, g4, g5, g6, g7, g8, g9, g10, g11, g12, g13, g14, g15, g16, g17⟩ := spec
  generalize splitGen (if bd then EL.bdry else EL.intr) (if bd then (r.1.E e).color else -1)
    (if bd then Flags.eOnBoundary else 0) (if bd then (fun p => p) else (fun p => p &&& ~~~ Flags.vOnBoundary)) r.1 e = t at *
  have hndi : e ∉ di := fun hh => hn (List.mem_append_left _ hh)
  have hndb : e ∉ db := fun hh => hn (List.mem_append_right _ hh)
  have hme : (upd m e fun _ => r.1.nxt) e = r.1.nxt := by simp [upd]
  have hmx : ∀ x, x ∈ di ++ db → (upd m e fun _ => r.1.nxt) x = m x := fun x hx => by simp [upd, hlist x hx]
  have hall : allProps r.1 [(r.1.E e).v1, (r.1.E e).v2] = allProps s [(s.E e).v1, (s.E e).v2] := by
    rw [hEe]
    apply allProps_congr
    intro w hw
    simp only [List.mem_cons, List.not_mem_nil, or_false] at hw
    rcases hw with rfl | rfl
    · exact (hi.V _ he2).2.1
    · exact (hi.V _ he3).2.1
  have hmid : r.1.edgeMid e = s.edgeMid e := by
    unfold edgeMid; rw [hEe, (hi.V _ he2).1, (hi.V _ he3).1]
  have hmne : ∀ x ∈ di ++ db, m x ≠ r.1.nxt := fun x hx => by have := (hi.fresh x hx).2; omega
  have mem' : ∀ x, x ∈ (if bd then di else di ++ [e]) ++ (if bd then db ++ [e] else db) ↔ x ∈ di ++ db ∨ x = e := by
    intro x; cases bd <;> simp <;> tauto
  refine { wf := g1, nxt := ?_, verts := ?_, sub := ?_, fresh := ?_, freshz := by simp, intr := ?_, bdry := ?_, front := ?_, E := ?_,
           halvesI := ?_, halvesB := ?_, spokes := by simp, tris := g10.trans hi.tris, quads := g11.trans hi.quads, F := ?_, subs := by simp,
           V := ?_, midPos := ?_, ctrPos := by simp, midI := ?_, midB := ?_, ctrProps := by simp, area := g12.trans hi.area,
           color := g13.trans hi.color }
  · have := hi.nxt; show s.nxt ≤ t.nxt; omega
  · simp only []
    rw [g2, hi.verts]
    cases bd
    · simp [map_upd _ _ _ hndi, hme, hdb rfl]
    · simp [map_upd _ _ _ hndi, map_upd _ _ _ hndb, hme]
  · intro x hx
    rcases (mem' x).mp hx with hx | rfl
    · rw [hmx x hx]; simp only [upd, hlist x hx, if_false]; exact hi.sub x hx
    · simp [upd]
  · intro x hx
    rcases (mem' x).mp hx with hx | rfl
    · rw [hmx x hx]; have := hi.fresh x hx; exact ⟨this.1, by simp only []; omega⟩
    · rw [hme]; have := hi.nxt; exact ⟨this, by simp only []; omega⟩
  · cases bd
    · simp only [Bool.false_eq_true, if_false] at g4 ⊢
      rw [g4, hi.intr]
      simp only [List.flatMap_append, List.flatMap_nil, List.append_nil, List.flatMap_cons, hme]
      rw [flatMap_upd m e r.1.nxt (fun _ y => [y + 1, y + 2]) hndi]
      simp
    · simp only [if_true] at g5 ⊢
      rw [g5 .intr (by decide), hi.intr]
      rw [flatMap_upd m e r.1.nxt (fun _ y => [y + 1, y + 2]) hndi]
  · cases bd
    · simp only [Bool.false_eq_true, if_false] at g5 ⊢
      rw [g5 .bdry (by decide), hi.bdry]
      rw [flatMap_upd m e r.1.nxt (fun _ y => [y + 1, y + 2]) hndb]
    · simp only [if_true] at g4 ⊢
      rw [g4, hi.bdry]
      simp only [List.flatMap_append, List.flatMap_nil, List.append_nil, List.flatMap_cons, hme]
      rw [flatMap_upd m e r.1.nxt (fun _ y => [y + 1, y + 2]) hndb]
      simp
  · simp only []
    rw [g5 .front (by cases bd <;> decide), hi.front]
  · intro x hx
    have := hi.nxt
    simp only []
    rw [g8 x (by omega) (by omega), hi.E x hx]
  · intro x hx
    have hx' : x ∈ di ∨ (bd = false ∧ x = e) := by cases bd <;> simpa using hx
    rcases hx' with hx | ⟨hb, rfl⟩
    · have hf := hi.fresh x (List.mem_append_left _ hx)
      rw [hmx x (List.mem_append_left _ hx)]
      simp only []
      rw [g8 _ (by omega) (by omega), g8 _ (by omega) (by omega)]
      exact hi.halvesI x hx
    · subst hb
      rw [hme]
      simp only [Bool.false_eq_true, if_false] at g6 g7 ⊢
      rw [hEe] at g6 g7
      exact ⟨g6, g7⟩
  · intro x hx
    have hx' : x ∈ db ∨ (bd = true ∧ x = e) := by cases bd <;> simpa using hx
    rcases hx' with hx | ⟨hb, rfl⟩
    · have hf := hi.fresh x (List.mem_append_right _ hx)
      rw [hmx x (List.mem_append_right _ hx)]
      simp only []
      rw [g8 _ (by omega) (by omega), g8 _ (by omega) (by omega)]
      exact hi.halvesB x hx
    · subst hb
      rw [hme]
      simp only [if_true] at g6 g7 ⊢
      rw [hEe] at g6 g7
      exact ⟨g6, g7⟩
  · intro f hf
    simp only []
    rw [g9]; exact hi.F f hf
  · intro v hv
    have hvn : v ≠ r.1.nxt := by have := h.vlt v hv; have := hi.nxt; omega
    obtain ⟨p1, p2, new, p3, p4⟩ := hi.V v hv
    obtain ⟨new', q3, q4⟩ := g17 v hvn
    refine ⟨(g14 v hvn).1.trans p1, (g14 v hvn).2.trans p2, new ++ new', ?_, ?_⟩
    · simp only []; rw [q3, p3, List.append_assoc]
    · intro y hy
      rcases List.mem_append.mp hy with hy | hy
      · exact p4 y hy
      · have := q4 y hy; have := hi.nxt; omega
  · intro x hx
    rcases (mem' x).mp hx with hx | rfl
    · rw [hmx x hx]; exact (g14 _ (hmne x hx)).1.trans (hi.midPos x hx)
    · rw [hme]; exact g15.trans hmid
  · intro x hx
    have hx' : x ∈ di ∨ (bd = false ∧ x = e) := by cases bd <;> simpa using hx
    rcases hx' with hx | ⟨hb, rfl⟩
    · have hx2 := List.mem_append_left db hx
      rw [hmx x hx2]; exact (g14 _ (hmne x hx2)).2.trans (hi.midI x hx)
    · subst hb; rw [hme]
      simp only [Bool.false_eq_true, if_false] at g16 ⊢
      rw [g16, hall]
  · intro x hx
    have hx' : x ∈ db ∨ (bd = true ∧ x = e) := by cases bd <;> simpa using hx
    rcases hx' with hx | ⟨hb, rfl⟩
    · have hx2 := List.mem_append_right di hx
      rw [hmx x hx2]; exact (g14 _ (hmne x hx2)).2.trans (hi.midB x hx)
    · subst hb; rw [hme]
      simp only [if_true] at g16 ⊢
      rw [g16, hall]

theorem rinv_intr_loop {s : St K} (h : WF s) {z : FRef → Nat} : ∀ (l di : List Nat) (r : RS K) (m : Nat → Nat), RInv s di [] [] r m z →
    (∀ e ∈ l, e ∈ s.es .intr) → (di ++ l).Nodup → ∃ m', RInv s (di ++ l) [] [] (l.foldl splitIntr r) m' z := by
  intro l
  induction l with
  | nil => intro di r m hi _ _; exact ⟨m, by simpa using hi⟩
  | cons e l ih =>
    intro di r m hi hl hn
    have hne : e ∉ di ++ ([] : List Nat) := by
      rw [List.nodup_append] at hn
      intro hh
      exact hn.2.2 e (by simpa using hh) e (List.mem_cons_self ..) rfl
    have := rinv_edge h hi e false (hl e (List.mem_cons_self ..)) hne (fun _ => rfl)
    obtain ⟨m', hm'⟩ := ih (di ++ [e]) (splitIntr r e) _ (by simpa using this) (fun x hx => hl x (List.mem_cons_of_mem _ hx))
      (by simpa using hn)
    exact ⟨m', by simpa using hm'⟩

theorem rinv_bdry_loop {s : St K} (h : WF s) {z : FRef → Nat} {di : List Nat} : ∀ (l db : List Nat) (r : RS K) (m : Nat → Nat),
    RInv s di db [] r m z → (∀ e ∈ l, e ∈ s.es .bdry) → (∀ e ∈ l, e ∉ di) → (db ++ l).Nodup →
    ∃ m', RInv s di (db ++ l) [] (l.foldl splitBdry r) m' z := by
  intro l
  induction l with
  | nil => intro db r m hi _ _ _; exact ⟨m, by simpa using hi⟩
  | cons e l ih =>
    intro db r m hi hl hd hn
    have hne : e ∉ di ++ db := by
      rw [List.nodup_append] at hn
      intro hh
      rcases List.mem_append.mp hh with hh | hh
      · exact hd e (List.mem_cons_self ..) hh
      · exact hn.2.2 e hh e (List.mem_cons_self ..) rfl
    have := rinv_edge h hi e true (hl e (List.mem_cons_self ..)) hne (by simp)
    obtain ⟨m', hm'⟩ := ih (db ++ [e]) (splitBdry r e) _ (by simpa using this) (fun x hx => hl x (List.mem_cons_of_mem _ hx))
      (fun x hx => hd x (List.mem_cons_of_mem _ hx)) (by simpa using hn)
    exact ⟨m', by simpa using hm'⟩

end TQ.MS.St

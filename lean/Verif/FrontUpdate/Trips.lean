import Verif.FrontUpdate.Sums

/-! # Lemmas: front edges with their interior state; the flag `on_front` -/

set_option linter.unusedSectionVars false

namespace TQ.FU
open TQ.MS TQ.MeshSpec TQ.FUSpec TQ.MS.St
variable {K : Type*} [Field K] [LinearOrder K] [IsStrictOrderedRing K]

/-- A front edge: ends, interior, ghost. -/
def trip (s : St K) (e : Nat) : Nat × Nat × Bool × Bool := ((s.E e).v1, (s.E e).v2, s.isInterior e, s.isGhost e)

/-- All front edges. -/
def trips (s : St K) : List (Nat × Nat × Bool × Bool) := (s.es .front).map (trip s)

theorem Ext.trip {s s' : St K} (h : Ext s s') {e : Nat} (he : e < s.nxt) : FU.trip s' e = FU.trip s e := by
  unfold FU.trip isInterior isGhost; rw [h.E e he]

theorem trips_addFront {s : St K} (h : WF s) (a b : Nat) : trips (addFront s a b) = trips s ++ [(a, b, true, false)] := by
  have hes : (addFront s a b).es .front = s.es .front ++ [s.nxt] := by simp [addFront, addEdge]
  unfold trips
  rw [hes, List.map_append]
  congr 1
  · refine List.map_congr_left ?_
    intro e he
    exact (ext_addEdge s .front a b (-1) 0).trip ((h.ends _).2 e he).2.2.2.2
  · simp only [List.map_cons, List.map_nil, trip, isInterior, isGhost, addFront, addEdge, upd_self]
    rfl

theorem trips_addIntr {s : St K} (h : WF s) (a b : Nat) : trips (s.addIntr a b) = trips s := by
  have hes : (s.addIntr a b).es .front = s.es .front := by simp [addIntr, addEdge, upd]
  unfold trips
  rw [hes]
  refine List.map_congr_left ?_
  intro e he
  exact (ext_addEdge s .intr a b (-1) 0).trip ((h.ends _).2 e he).2.2.2.2

theorem trips_keepEdge {s : St K} (h : WF s) (e : Nat) : trips (keepEdge s e) = trips s := by
  unfold keepEdge; split_ifs
  · exact trips_addIntr h _ _
  · rfl

theorem trips_removeEdge {s : St K} (h : WF s) {e : Nat} (he : e ∈ s.es .front) :
    (trips s).Perm (trip s e :: trips (s.removeEdge e)) := by
  have hl := ((h.ends .front).2 e he).1
  have hes : (s.removeEdge e).es .front = (s.es .front).erase e := by
    rw [List.Nodup.erase_eq_filter (h.ends .front).1]
    simp only [removeEdge, upd, hl, if_true]
    refine List.filter_congr ?_
    intro x _
    simp [bne, beq_eq_decide]
  unfold trips
  rw [hes]
  exact ((List.perm_cons_erase he).map (trip s))

theorem trips_ufs (s : St K) (v : Nat) : trips (updateFrontState s v) = trips s := by
  unfold trips trip isInterior isGhost; rw [(ufs_es s v).1, (ufs_es s v).2]

/-- The front edge found between two vertices. -/
def found (s : St K) (a b : Nat) : List (Nat × Nat × Bool × Bool) :=
  ((s.getEdge .front a b).map fun e => [trip s e]).getD []

/-- The edge to create if none was found. -/
def created (s : St K) (a b : Nat) (x y : Nat) : List (Nat × Nat × Bool × Bool) :=
  match s.getEdge .front a b with
  | some _ => []
  | none => [(x, y, true, false)]

theorem advanceEdges_trips {s : St K} (h : WF s) {base v : Nat} (hb : base ∈ s.es .front) (hv : v ∈ s.verts)
    (h1 : v ≠ (s.E base).v1) (h2 : v ≠ (s.E base).v2) :
    ∃ rest, (trips s).Perm (found s v (s.E base).v1 ++ found s v (s.E base).v2 ++ rest) ∧
      (trips (advanceEdges s (s.E base).v1 (s.E base).v2 v)).Perm
        (created s v (s.E base).v1 (s.E base).v1 v ++ created s v (s.E base).v2 v (s.E base).v2 ++ rest) := by
  obtain ⟨_, hb1, hb2, hb12, hblt⟩ := (h.ends _).2 base hb
  generalize hB1 : (s.E base).v1 = b1 at *
  generalize hB2 : (s.E base).v2 = b2 at *
  unfold advanceEdges found created
  cases hg1 : s.getEdge .front v b1 with
  | none =>
    cases hg2 : s.getEdge .front v b2 with
    | none =>
      dsimp only
      have w1 : WF (addFront s b1 v) := wf_addEdge h _ _ _ hb1 hv (Ne.symm h1)
      refine ⟨trips s, by simp, ?_⟩
      rw [trips_addFront w1, trips_addFront h]
      rw [List.append_assoc]
      exact List.perm_append_comm
    | some e2 =>
      dsimp only
      obtain ⟨m2, _⟩ := getEdge_some h hv hg2
      have w1 : WF (keepEdge s e2) := wf_keepEdge h m2
      have m2' : e2 ∈ (keepEdge s e2).es .front := keepEdge_es m2
      have lt2 : e2 < s.nxt := ((h.ends _).2 e2 m2).2.2.2.2
      have w2 : WF ((keepEdge s e2).removeEdge e2) := by
        refine wf_removeEdge w1 e2 ?_
        rw [liveE_iff w1.toSound]; exact ⟨_, m2'⟩
      have hp := trips_removeEdge w1 m2'
      rw [trips_keepEdge h, (ext_keepEdge s e2).trip lt2] at hp
      refine ⟨trips ((keepEdge s e2).removeEdge e2), by simpa using hp, ?_⟩
      rw [trips_addFront w2]
      simp only [List.append_nil]
      exact List.perm_append_comm
  | some e1 =>
    obtain ⟨m1, d1⟩ := getEdge_some h hv hg1
    have lt1 : e1 < s.nxt := ((h.ends _).2 e1 m1).2.2.2.2
    have w1 : WF (keepEdge s e1) := wf_keepEdge h m1
    have m1' : e1 ∈ (keepEdge s e1).es .front := keepEdge_es m1
    cases hg2 : s.getEdge .front v b2 with
    | none =>
      dsimp only
      have w2 : WF ((keepEdge s e1).removeEdge e1) := by
        refine wf_removeEdge w1 e1 ?_
        rw [liveE_iff w1.toSound]; exact ⟨_, m1'⟩
      have hp := trips_removeEdge w1 m1'
      rw [trips_keepEdge h, (ext_keepEdge s e1).trip lt1] at hp
      refine ⟨trips ((keepEdge s e1).removeEdge e1), by simpa using hp, ?_⟩
      rw [trips_addFront w2]
      simp only [List.nil_append]
      exact List.perm_append_comm
    | some e2 =>
      dsimp only
      obtain ⟨m2, d2⟩ := getEdge_some h hv hg2
      have ne12 : e2 ≠ e1 := by
        rintro rfl
        rcases d1 with d | d <;> rcases d2 with d' | d'
        · exact hb12 (d.2.symm.trans d'.2)
        · exact h1 (d'.1.symm.trans d.2)
        · exact h2 (d.1.symm.trans d'.2)
        · exact hb12 (d.2.symm.trans d'.2)
      have lt2 : e2 < s.nxt := ((h.ends _).2 e2 m2).2.2.2.2
      have w1b : WF (keepEdge (keepEdge s e1) e2) := wf_keepEdge w1 (keepEdge_es m2)
      have x1 : Ext s (keepEdge (keepEdge s e1) e2) := (ext_keepEdge s e1).trans (ext_keepEdge _ e2)
      have m1b : e1 ∈ (keepEdge (keepEdge s e1) e2).es .front := keepEdge_es m1'
      have m2b : e2 ∈ (keepEdge (keepEdge s e1) e2).es .front := keepEdge_es (keepEdge_es m2)
      have w2 : WF ((keepEdge (keepEdge s e1) e2).removeEdge e1) := by
        refine wf_removeEdge w1b e1 ?_
        rw [liveE_iff w1b.toSound]; exact ⟨_, m1b⟩
      have m2c : e2 ∈ ((keepEdge (keepEdge s e1) e2).removeEdge e1).es .front := removeEdge_es_ne m2b ne12
      have hp1 := trips_removeEdge w1b m1b
      have hp2 := trips_removeEdge w2 m2c
      rw [x1.trip lt1, trips_keepEdge w1, trips_keepEdge h] at hp1
      rw [(x1.trans (ext_removeEdge _ e1)).trip lt2] at hp2
      refine ⟨trips (((keepEdge (keepEdge s e1) e2).removeEdge e1).removeEdge e2), ?_, by simp⟩
      exact hp1.trans (hp2.cons _)

theorem mem_found {s : St K} (h : WF s) {a b : Nat} (ha : a ∈ s.verts) {x : Nat × Nat × Bool × Bool}
    (hx : x ∈ found s a b) : (x.1 = a ∧ x.2.1 = b) ∨ (x.1 = b ∧ x.2.1 = a) := by
  unfold found at hx
  cases hg : s.getEdge .front a b with
  | none => rw [hg] at hx; simp at hx
  | some e =>
    rw [hg] at hx
    simp only [Option.map_some, Option.getD_some, List.mem_singleton] at hx
    subst hx
    obtain ⟨_, d⟩ := getEdge_some h ha hg
    unfold trip
    rcases d with d | d
    · exact Or.inl d
    · exact Or.inr ⟨d.2, d.1⟩

theorem advanceFront_trips {s : St K} (h : WF s) {base v : Nat} (t : Nat) (hb : base ∈ s.es .front)
    (hv : v ∈ s.verts) (h1 : v ≠ (s.E base).v1) (h2 : v ≠ (s.E base).v2) :
    ∃ rest, (trips s).Perm (trip s base :: (found s v (s.E base).v1 ++ found s v (s.E base).v2 ++ rest)) ∧
      (trips (advanceFront s base v t)).Perm
        (created s v (s.E base).v1 (s.E base).v1 v ++ created s v (s.E base).v2 v (s.E base).v2 ++ rest) := by
  obtain ⟨_, hb1, hb2, hb12, hblt⟩ := (h.ends _).2 base hb
  obtain ⟨w, x, bm, _, _, _⟩ := beforeRemoval_spec h hb hv h1 h2
  obtain ⟨rest, r1, r2⟩ := advanceEdges_trips h hb hv h1 h2
  have A := advanceEdges_spec h hb hv h1 h2
  have htb : trips (beforeRemoval s base v) = trips (advanceEdges s (s.E base).v1 (s.E base).v2 v) := by
    unfold beforeRemoval
    dsimp only
    have hw : WF (updateFrontState (updateFrontState (updateFrontState (advanceEdges s (s.E base).v1 (s.E base).v2 v)
        (s.E base).v1) (s.E base).v2) v) := wf_ufs (wf_ufs (wf_ufs A.wf _) _) _
    split_ifs
    · rw [trips_addIntr hw, trips_ufs, trips_ufs, trips_ufs]
    · rw [trips_ufs, trips_ufs, trips_ufs]
  have hp := trips_removeEdge w bm
  rw [htb, x.trip hblt] at hp
  have hadv : trips (advanceFront s base v t) = trips ((beforeRemoval s base v).removeEdge base) := by
    rw [advanceFront_eq]; rfl
  rw [hadv]
  have hmem : trip s base ∈ rest := by
    have hm : trip s base ∈ found s v (s.E base).v1 ++ found s v (s.E base).v2 ++ rest :=
      r1.mem_iff.mp (List.mem_map_of_mem hb)
    rw [List.mem_append, List.mem_append] at hm
    rcases hm with (hm | hm) | hm
    · exfalso
      rcases mem_found h hv hm with d | d
      · exact h1 d.1.symm
      · exact h2 d.2.symm
    · exfalso
      rcases mem_found h hv hm with d | d
      · exact h1 d.1.symm
      · exact h2 d.2.symm
    · exact hm
  refine ⟨rest.erase (trip s base), ?_, ?_⟩
  · refine r1.trans (((List.perm_cons_erase hmem).append_left _).trans ?_)
    exact List.perm_middle
  · have h3 := hp.symm.trans r2
    exact (List.perm_cons _).mp (h3.trans (((List.perm_cons_erase hmem).append_left _).trans List.perm_middle))

end TQ.FU

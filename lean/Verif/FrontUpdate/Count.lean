import Verif.FrontUpdate.Trips

/-! # Lemmas: counting edges between two vertices; the flag `on_front` -/

set_option linter.unusedSectionVars false

namespace TQ.FU
open TQ.MS TQ.MeshSpec TQ.FUSpec TQ.MS.St
variable {K : Type*} [Field K] [LinearOrder K] [IsStrictOrderedRing K]

/-- 1 if `x`, `y` are `a`, `b` in some order. -/
def cc (a b x y : Nat) : Int := if (x = a ∧ y = b) ∨ (x = b ∧ y = a) then 1 else 0

theorem cc_comm (a b x y : Nat) : cc a b x y = cc a b y x := by
  unfold cc
  congr 1
  apply propext
  constructor <;> rintro (⟨h1, h2⟩ | ⟨h1, h2⟩) <;> tauto

theorem connecting_eq (es : List (Nat × Nat)) (a b : Nat) :
    (connecting es a b : Int) = (es.map fun e => cc a b e.1 e.2).sum := by
  unfold connecting
  induction es with
  | nil => simp
  | cons e es ih =>
    rw [List.countP_cons, List.map_cons, List.sum_cons, ← ih]
    unfold cc
    by_cases h : (e.1 = a ∧ e.2 = b) ∨ (e.1 = b ∧ e.2 = a)
    · simp [h]; ring
    · simp [h]

theorem connecting_append (xs ys : List (Nat × Nat)) (a b : Nat) :
    connecting (xs ++ ys) a b = connecting xs a b + connecting ys a b := by
  unfold connecting; rw [List.countP_append]

/-- Weight of a front edge: interior edges count positive, boundary edges negative. -/
def jw (a b : Nat) (x : Nat × Nat × Bool × Bool) : Int := if x.2.2.1 then cc a b x.1 x.2.1 else - cc a b x.1 x.2.1

/-- Weighted number of front edges. -/
def jsum (a b : Nat) (xs : List (Nat × Nat × Bool × Bool)) : Int := (xs.map (jw a b)).sum

theorem jsum_append (a b : Nat) (xs ys) : jsum a b (xs ++ ys) = jsum a b xs + jsum a b ys := by
  unfold jsum; rw [List.map_append, List.sum_append]

theorem jsum_perm (a b : Nat) {xs ys} (h : xs.Perm ys) : jsum a b xs = jsum a b ys := (h.map _).sum_eq

theorem jsum_trips (s : St K) (a b : Nat) :
    jsum a b (trips s) = (connecting (frontOf s true) a b : Int) - connecting (frontOf s false) a b := by
  rw [connecting_eq, connecting_eq]
  unfold jsum trips frontOf
  rw [List.map_map, List.map_map, List.map_map]
  generalize s.es .front = es
  induction es with
  | nil => simp
  | cons e es ih =>
    rw [List.map_cons, List.sum_cons, ih]
    simp only [Function.comp, jw, trip]
    by_cases h : s.isInterior e = true
    · simp [h, List.filter_cons, Function.comp]; ring
    · simp [h, List.filter_cons, Function.comp]; ring

theorem side_balance {s : St K} (h : WF s) {v x : Nat} (hv : v ∈ s.verts) (p q : Nat)
    (hpq : (p = v ∧ q = x) ∨ (p = x ∧ q = v)) (a b : Nat) :
    cc a b v x = 2 * (connecting (((s.getEdge .front v x).map (kept s)).getD []) a b : Int) +
      jsum a b (created s v x p q) - jsum a b (found s v x) := by
  unfold created found
  cases hg : s.getEdge .front v x with
  | none =>
    have : cc a b p q = cc a b v x := by
      rcases hpq with ⟨rfl, rfl⟩ | ⟨rfl, rfl⟩
      · rfl
      · exact cc_comm _ _ _ _
    simp [jsum, jw, this, connecting]
  | some e =>
    obtain ⟨_, d⟩ := getEdge_some h hv hg
    have hcc : cc a b (s.E e).v1 (s.E e).v2 = cc a b v x := by
      rcases d with d | d
      · rw [d.1, d.2]
      · rw [d.1, d.2]; exact cc_comm _ _ _ _
    simp only [Option.map_some, Option.getD_some, jsum, List.map_nil, List.sum_nil, List.map_cons, List.sum_cons]
    unfold kept
    rw [connecting_eq]
    by_cases hi : s.isInterior e = true
    · rw [if_pos hi]
      simp only [jw, trip, hi, List.map_cons, List.map_nil, List.sum_cons, List.sum_nil, hcc, if_true]
      ring
    · rw [if_neg hi]
      have hi' : s.isInterior e = false := by simpa using hi
      simp only [jw, trip, hi', List.map_nil, List.sum_nil, hcc, Bool.false_eq_true, if_false]
      ring

theorem noGhost_iff (s : St K) : NoGhost s ↔ ∀ x ∈ trips s, x.2.2.2 = false := by
  unfold NoGhost trips
  constructor
  · intro h x hx
    obtain ⟨e, he, rfl⟩ := List.mem_map.mp hx
    exact h e he
  · intro h e he
    exact h _ (List.mem_map_of_mem (f := trip s) he)

/-- The quantity that stays constant. -/
def jconst (s : St K) (a b : Nat) : Int :=
  (connecting (sides s) a b : Int) - 2 * connecting (pairs s .intr) a b - jsum a b (trips s)

theorem same_trips {s s' : St K} (h : SameMesh s s') : trips s' = trips s := by
  unfold trips trip isInterior isGhost; rw [h.es, h.edata]

theorem reorder_trips {s : St K} {l : List Nat} (hl : l.Perm (s.es .front)) : (trips (reorder s l)).Perm (trips s) := by
  have hes : (reorder s l).es .front = l := by simp [reorder]
  unfold trips
  rw [hes]
  exact hl.map _

theorem prep_trips {env : Env K} {s s1 : St K} {b1 b2 v t : Nat} (h : Prep env s s1 b1 b2 v t) :
    trips s1 = trips s := by
  unfold trips trip isInterior isGhost; rw [h.es, h.E]

theorem run_count {env : Env K} (he : 0 < env.eps) (hq : QueryLive env) (hs : SortOK env) {s0 : St K} (h0 : WF s0)
    (hg : NoGhost s0) {log : List Entry} {s : St K} (hr : Run env s0 log s) :
    NoGhost s ∧ ∀ a b, jconst s a b = jconst s0 a b := by
  refine (run_induct he hq hs h0 (fun _ s => NoGhost s ∧ ∀ a b, jconst s a b = jconst s0 a b) ⟨hg, fun _ _ => rfl⟩
    ?_ ?_ ?_ hr).2
  · rintro log s s' base v t hwf hb ⟨ih1, ih2⟩ hd ⟨s1, hp, rfl⟩
    have hb' : base ∈ s1.es .front := by rw [hp.es]; exact hb
    have hE : s1.E base = s.E base := by rw [hp.E]
    have hn := hp.ndp
    simp only [List.nodup_cons, List.mem_cons, List.not_mem_nil, or_false, not_or] at hn
    have n1 : v ≠ (s1.E base).v1 := by rw [hE]; exact Ne.symm hn.1.2
    have n2 : v ≠ (s1.E base).v2 := by rw [hE]; exact Ne.symm hn.2.1
    obtain ⟨rest, r1, r2⟩ := advanceFront_trips hp.wf t hb' hp.vmem n1 n2
    have hA := prep_adv hb hp
    rw [prep_trips hp] at r1
    rw [noGhost_iff] at ih1
    refine ⟨?_, ?_⟩
    · rw [noGhost_iff]
      intro x hx
      rw [r2.mem_iff, List.mem_append, List.mem_append] at hx
      rcases hx with (hx | hx) | hx
      · unfold created at hx
        split at hx
        · simp at hx
        · simp only [List.mem_singleton] at hx; subst hx; rfl
      · unfold created at hx
        split at hx
        · simp at hx
        · simp only [List.mem_singleton] at hx; subst hx; rfl
      · refine ih1 x (r1.mem_iff.mpr ?_)
        simp [hx]
    · intro a b
      rw [← ih2 a b]
      have s1' := side_balance hp.wf hp.vmem (x := (s1.E base).v1) (s1.E base).v1 v (Or.inr ⟨rfl, rfl⟩) a b
      have s2' := side_balance hp.wf hp.vmem (x := (s1.E base).v2) v (s1.E base).v2 (Or.inl ⟨rfl, rfl⟩) a b
      have hgb : s1.isGhost base = false := by
        refine ih1 (trip s1 base) (r1.mem_iff.mpr ?_)
        simp
      have hbase : cc a b (s1.E base).v1 (s1.E base).v2 = 2 * (connecting (keptBase s1 base) a b : Int)
          - jw a b (trip s1 base) := by
        unfold keptBase
        rw [hgb, connecting_eq]
        by_cases hi : s1.isInterior base = true
        · simp [hi, jw, trip]; ring
        · simp [hi, jw, trip]
      unfold jconst
      rw [done_sides hd, connecting_append, hA.intr, connecting_append, connecting_append, connecting_append,
        prep_pairs hp, jsum_perm a b r1, jsum_perm a b r2]
      have hc3 : (connecting [((s.E base).v1, (s.E base).v2), ((s.E base).v2, v), (v, (s.E base).v1)] a b : Int) =
          cc a b (s.E base).v1 (s.E base).v2 + cc a b v (s.E base).v2 + cc a b v (s.E base).v1 := by
        rw [connecting_eq]
        simp only [List.map_cons, List.map_nil, List.sum_cons, List.sum_nil]
        rw [cc_comm a b (s.E base).v2 v]; ring
      have hcons : ∀ x xs, jsum a b (x :: xs) = jw a b x + jsum a b xs := fun x xs => by
        unfold jsum; rw [List.map_cons, List.sum_cons]
      rw [hcons, jsum_append, jsum_append, jsum_append, jsum_append]
      push_cast
      rw [hc3, ← hE]
      linarith
  · rintro log s s' hwf _ ⟨ih1, ih2⟩ hsame
    refine ⟨?_, fun a b => ?_⟩
    · rw [noGhost_iff, same_trips hsame, ← noGhost_iff]; exact ih1
    · rw [← ih2 a b]
      unfold jconst
      rw [same_sides hsame, same_pairs hsame, same_trips hsame]
  · rintro log s l hwf ⟨ih1, ih2⟩ hl
    refine ⟨?_, fun a b => ?_⟩
    · rw [noGhost_iff] at ih1 ⊢
      intro x hx
      exact ih1 x ((reorder_trips hl).mem_iff.mp hx)
    · rw [← ih2 a b]
      unfold jconst
      rw [jsum_perm a b (reorder_trips hl)]
      have hp : pairs (reorder s l) .intr = pairs s .intr := by
        unfold pairs reorder; simp [upd]
      rw [hp]; rfl

/-! ### The flag `on_front` -/

theorem onFront_iff (s : St K) (v : Nat) : OnFront s v ↔ ∃ x ∈ trips s, x.1 = v ∨ x.2.1 = v := by
  unfold OnFront trips
  constructor
  · rintro ⟨e, he, h⟩
    exact ⟨trip s e, List.mem_map_of_mem he, h⟩
  · rintro ⟨x, hx, h⟩
    obtain ⟨e, he, rfl⟩ := List.mem_map.mp hx
    exact ⟨e, he, h⟩

theorem any_front_iff {s : St K} (h : WF s) {v : Nat} (hv : v ∈ s.verts) :
    ((s.V v).edges.any fun e => decide ((s.E e).list = .front)) = true ↔ OnFront s v := by
  rw [List.any_eq_true]
  constructor
  · rintro ⟨e, he, hl⟩
    rw [decide_eq_true_eq] at hl
    obtain ⟨h1, h2⟩ := ((h.edges v hv).2 e).mp he
    unfold LiveE at h1
    rw [hl] at h1
    exact ⟨e, h1, h2⟩
  · rintro ⟨e, he, hh⟩
    have hl := ((h.ends _).2 e he).1
    refine ⟨e, ((h.edges v hv).2 e).mpr ⟨?_, hh⟩, ?_⟩
    · unfold LiveE; rw [hl]; exact he
    · simpa using hl

theorem ufs_flag {s : St K} (h : WF s) {v : Nat} (hv : v ∈ s.verts) : flagged (updateFrontState s v) v ↔ OnFront s v := by
  unfold updateFrontState flagged
  by_cases hc : ((s.V v).edges.any fun e => decide ((s.E e).list = .front)) = true
  · rw [if_pos hc]
    simp only [setProps, upd_self]
    refine ⟨fun _ => (any_front_iff h hv).mp hc, fun _ => ?_⟩
    generalize (s.V v).props = p
    revert p
    decide
  · rw [if_neg hc]
    simp only [setProps, upd_self]
    constructor
    · intro hh
      exfalso
      revert hh
      generalize (s.V v).props = p
      revert p
      decide
    · intro hh; exact absurd ((any_front_iff h hv).mpr hh) hc

theorem ufs_other {s : St K} {v w : Nat} (hw : w ≠ v) : flagged (updateFrontState s v) w ↔ flagged s w := by
  unfold updateFrontState flagged
  split_ifs <;> simp [setProps, upd, hw]

theorem ufs_onFront {s : St K} {v w : Nat} : OnFront (updateFrontState s v) w ↔ OnFront s w := by
  rw [onFront_iff, onFront_iff, trips_ufs]

theorem addEdge_flag {s : St K} {l : EL} {a b : Nat} {c : Int} {p : BitVec 8} (w : Nat) :
    flagged (s.addEdge l a b c p) w ↔ flagged s w := by
  have : ((s.addEdge l a b c p).V w).props = (s.V w).props := by
    simp only [addEdge, upd]; split_ifs <;> rfl
  unfold flagged; rw [this]

theorem removeEdge_flag {s : St K} {e : Nat} (w : Nat) : flagged (s.removeEdge e) w ↔ flagged s w := by
  have : ((s.removeEdge e).V w).props = (s.V w).props := by
    simp only [removeEdge, upd]; split_ifs <;> rfl
  unfold flagged; rw [this]

theorem keepEdge_flag {s : St K} {e : Nat} (w : Nat) : flagged (keepEdge s e) w ↔ flagged s w := by
  unfold keepEdge; split_ifs
  · exact addEdge_flag w
  · exact Iff.rfl

theorem advanceEdges_flag {s : St K} {b1 b2 v : Nat} (w : Nat) : flagged (advanceEdges s b1 b2 v) w ↔ flagged s w := by
  unfold advanceEdges
  split
  · rw [removeEdge_flag, removeEdge_flag, keepEdge_flag, keepEdge_flag]
  · rw [addFront, addEdge_flag, removeEdge_flag, keepEdge_flag]
  · rw [addFront, addEdge_flag, removeEdge_flag, keepEdge_flag]
  · rw [addFront, addEdge_flag, addFront, addEdge_flag]

theorem advance_flags {s : St K} (h : WF s) {base v : Nat} (t : Nat) (hb : base ∈ s.es .front)
    (hv : v ∈ s.verts) (h1 : v ≠ (s.E base).v1) (h2 : v ≠ (s.E base).v2) :
    (flagged (advanceFront s base v t) v ↔ OnFront (advanceFront s base v t) v) ∧
    flagged (advanceFront s base v t) (s.E base).v1 ∧ flagged (advanceFront s base v t) (s.E base).v2 ∧
    ∀ w, w ≠ v → w ≠ (s.E base).v1 → w ≠ (s.E base).v2 → (flagged (advanceFront s base v t) w ↔ flagged s w) := by
  obtain ⟨_, hb1, hb2, hb12, hblt⟩ := (h.ends _).2 base hb
  have A := advanceEdges_spec h hb hv h1 h2
  obtain ⟨w, x, bm, _, _, _⟩ := beforeRemoval_spec h hb hv h1 h2
  have e1 : ∀ u, flagged (advanceFront s base v t) u ↔ flagged (updateFrontState (updateFrontState (updateFrontState
      (advanceEdges s (s.E base).v1 (s.E base).v2 v) (s.E base).v1) (s.E base).v2) v) u := by
    intro u
    rw [advanceFront_eq]
    change flagged ((beforeRemoval s base v).removeEdge base) u ↔ _
    rw [removeEdge_flag]
    unfold beforeRemoval
    dsimp only
    split_ifs
    · rw [addIntr, addEdge_flag]
    · exact Iff.rfl
  have o1 : OnFront (advanceFront s base v t) v ↔ OnFront (advanceEdges s (s.E base).v1 (s.E base).v2 v) v := by
    have htb : trips (beforeRemoval s base v) = trips (advanceEdges s (s.E base).v1 (s.E base).v2 v) := by
      unfold beforeRemoval
      dsimp only
      have hw : WF (updateFrontState (updateFrontState (updateFrontState (advanceEdges s (s.E base).v1 (s.E base).v2 v)
          (s.E base).v1) (s.E base).v2) v) := wf_ufs (wf_ufs (wf_ufs A.wf _) _) _
      split_ifs
      · rw [trips_addIntr hw, trips_ufs, trips_ufs, trips_ufs]
      · rw [trips_ufs, trips_ufs, trips_ufs]
    have hp := trips_removeEdge w bm
    rw [htb, x.trip hblt] at hp
    have hadv : trips (advanceFront s base v t) = trips ((beforeRemoval s base v).removeEdge base) := by
      rw [advanceFront_eq]; rfl
    rw [onFront_iff, onFront_iff, hadv]
    constructor
    · rintro ⟨y, hy, hh⟩
      exact ⟨y, hp.mem_iff.mpr (List.mem_cons_of_mem _ hy), hh⟩
    · rintro ⟨y, hy, hh⟩
      rcases List.mem_cons.mp (hp.mem_iff.mp hy) with rfl | hy'
      · exfalso
        rcases hh with hh | hh
        · exact h1 hh.symm
        · exact h2 hh.symm
      · exact ⟨y, hy', hh⟩
  have wA := A.wf
  have vA : ∀ u, u ∈ s.verts → u ∈ (advanceEdges s (s.E base).v1 (s.E base).v2 v).verts := by
    intro u hu; rw [A.ext.verts]; exact hu
  have uv : ∀ (r : St K) (y : Nat), (updateFrontState r y).verts = r.verts := fun r y => (ext_ufs r y).verts
  have hEb : (advanceEdges s (s.E base).v1 (s.E base).v2 v).E base = s.E base := A.ext.E base hblt
  have f1 : OnFront (advanceEdges s (s.E base).v1 (s.E base).v2 v) (s.E base).v1 :=
    ⟨base, A.base_mem, Or.inl (by rw [hEb])⟩
  have f2 : OnFront (advanceEdges s (s.E base).v1 (s.E base).v2 v) (s.E base).v2 :=
    ⟨base, A.base_mem, Or.inr (by rw [hEb])⟩
  refine ⟨?_, ?_, ?_, ?_⟩
  · rw [e1, o1, ufs_flag (wf_ufs (wf_ufs wA _) _) (by rw [uv, uv]; exact vA v hv), ufs_onFront, ufs_onFront]
  · rw [e1, ufs_other (Ne.symm h1), ufs_other hb12, ufs_flag wA (vA _ hb1)]
    exact f1
  · rw [e1, ufs_other (Ne.symm h2), ufs_flag (wf_ufs wA _) (by rw [uv]; exact vA _ hb2), ufs_onFront]
    exact f2
  · intro u n1 n2 n3
    rw [e1, ufs_other n1, ufs_other n3, ufs_other n2, advanceEdges_flag]

end TQ.FU

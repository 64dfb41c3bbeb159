import Verif.FrontUpdate.Spec
import Verif.Mesh.Lemmas
import Mathlib.Data.List.Perm.Basic

/-! # Lemmas on the update of the front -/

set_option linter.unusedSectionVars false

namespace TQ.FU
open TQ.MS TQ.MeshSpec TQ.FUSpec TQ.MS.St
variable {K : Type*} [Field K] [LinearOrder K]

/-! ### Directed edges of a list -/

theorem pairs_addEdge {s : St K} (h : Sound s) (l m : EL) (a b : Nat) (c : Int) (p : BitVec 8) :
    pairs (s.addEdge l a b c p) m = pairs s m ++ if m = l then [(a, b)] else [] := by
  have hold : (s.es m).map (fun e => (((s.addEdge l a b c p).E e).v1, ((s.addEdge l a b c p).E e).v2)) = pairs s m := by
    refine List.map_congr_left ?_
    intro e he
    have : e ≠ s.nxt := ne_of_lt ((h.ends m).2 e he).2.2.2.2
    simp [addEdge, upd, this]
  unfold pairs at hold ⊢
  by_cases hm : m = l
  · subst hm
    have hes : (s.addEdge m a b c p).es m = s.es m ++ [s.nxt] := by simp [addEdge]
    rw [hes, List.map_append, hold]
    simp [addEdge]
  · have hes : (s.addEdge l a b c p).es m = s.es m := by simp [addEdge, upd, hm]
    rw [hes, hold]
    simp [hm]

theorem pairs_removeEdge {s : St K} (h : Sound s) {l : EL} {e : Nat} (he : e ∈ s.es l) :
    (pairs s l).Perm (((s.E e).v1, (s.E e).v2) :: pairs (s.removeEdge e) l) := by
  have hl := ((h.ends l).2 e he).1
  have hes : (s.removeEdge e).es l = (s.es l).erase e := by
    rw [List.Nodup.erase_eq_filter (h.ends l).1]
    simp only [removeEdge, upd, hl, if_true]
    refine List.filter_congr ?_
    intro x _
    simp [bne, beq_eq_decide]
  unfold pairs
  rw [hes]
  exact ((List.perm_cons_erase he).map (fun e => ((s.E e).v1, (s.E e).v2)))

theorem pairs_removeEdge_ne {s : St K} {l m : EL} {e : Nat} (hl : (s.E e).list = l) (hm : m ≠ l) :
    pairs (s.removeEdge e) m = pairs s m := by
  have : (s.removeEdge e).es m = s.es m := by simp [removeEdge, upd, hl, hm]
  unfold pairs; rw [this]; rfl

/-! ### What a sequence of edge operations leaves alone -/

/-- Only edges and incidence change. -/
structure Ext (s s' : St K) : Prop where
  verts : s'.verts = s.verts
  tris : s'.tris = s.tris
  quads : s'.quads = s.quads
  F : s'.F = s.F
  area : s'.area = s.area
  color : s'.color = s.color
  nxt : s.nxt ≤ s'.nxt
  E : ∀ e < s.nxt, s'.E e = s.E e
  V : ∀ v, (s'.V v).xy = (s.V v).xy ∧ (s'.V v).facets = (s.V v).facets

theorem Ext.refl (s : St K) : Ext s s := ⟨rfl, rfl, rfl, rfl, rfl, rfl, le_refl _, fun _ _ => rfl, fun _ => ⟨rfl, rfl⟩⟩

theorem Ext.trans {s t u : St K} (h1 : Ext s t) (h2 : Ext t u) : Ext s u where
  verts := h2.verts.trans h1.verts
  tris := h2.tris.trans h1.tris
  quads := h2.quads.trans h1.quads
  F := h2.F.trans h1.F
  area := h2.area.trans h1.area
  color := h2.color.trans h1.color
  nxt := le_trans h1.nxt h2.nxt
  E := fun e he => (h2.E e (lt_of_lt_of_le he h1.nxt)).trans (h1.E e he)
  V := fun v => ⟨(h2.V v).1.trans (h1.V v).1, (h2.V v).2.trans (h1.V v).2⟩

theorem ext_addEdge (s : St K) (l : EL) (a b : Nat) (c : Int) (p : BitVec 8) : Ext s (s.addEdge l a b c p) where
  verts := rfl
  tris := rfl
  quads := rfl
  F := rfl
  area := rfl
  color := rfl
  nxt := Nat.le_succ _
  E := fun e he => by simp [addEdge, upd, ne_of_lt he]
  V := fun v => by
    simp only [addEdge, upd]
    split_ifs <;> exact ⟨rfl, rfl⟩

theorem ext_removeEdge (s : St K) (e : Nat) : Ext s (s.removeEdge e) where
  verts := rfl
  tris := rfl
  quads := rfl
  F := rfl
  area := rfl
  color := rfl
  nxt := le_refl _
  E := fun _ _ => rfl
  V := fun v => by
    simp only [removeEdge, upd]
    split_ifs <;> exact ⟨rfl, rfl⟩

theorem ext_setProps (s : St K) (v : Nat) (g : BitVec 8 → BitVec 8) : Ext s (s.setProps v g) where
  verts := rfl
  tris := rfl
  quads := rfl
  F := rfl
  area := rfl
  color := rfl
  nxt := le_refl _
  E := fun _ _ => rfl
  V := fun w => by
    simp only [setProps, upd]
    split_ifs <;> exact ⟨rfl, rfl⟩

theorem Ext.pos {s s' : St K} (h : Ext s s') (v : Nat) : s'.pos v = s.pos v := (h.V v).1

theorem ext_keepEdge (s : St K) (e : Nat) : Ext s (keepEdge s e) := by
  unfold keepEdge; split_ifs
  · exact ext_addEdge ..
  · exact Ext.refl _

theorem ext_ufs (s : St K) (v : Nat) : Ext s (updateFrontState s v) := by
  unfold updateFrontState; split_ifs <;> exact ext_setProps ..

theorem wf_ufs {s : St K} (h : WF s) (v : Nat) : WF (updateFrontState s v) := by
  unfold updateFrontState; split_ifs <;> exact wf_setProps h ..

theorem ufs_es (s : St K) (v : Nat) : (updateFrontState s v).es = s.es ∧ (updateFrontState s v).E = s.E := by
  unfold updateFrontState; split_ifs <;> exact ⟨rfl, rfl⟩

theorem pairs_ufs (s : St K) (v : Nat) (l : EL) : pairs (updateFrontState s v) l = pairs s l := by
  unfold pairs; rw [(ufs_es s v).1, (ufs_es s v).2]

theorem pairs_activate (s : St K) (f : FRef) (l : EL) : pairs (s.activate f) l = pairs s l := rfl
theorem pairs_addArea (s : St K) (a : K) (l : EL) : pairs (s.addArea a) l = pairs s l := rfl

/-- The pairs an interior front edge contributes to the interior edges. -/
def kept (s : St K) (e : Nat) : List (Nat × Nat) :=
  if s.isInterior e then [((s.E e).v1, (s.E e).v2)] else []

theorem wf_keepEdge {s : St K} (h : WF s) {l : EL} {e : Nat} (he : e ∈ s.es l) : WF (keepEdge s e) := by
  unfold keepEdge
  split_ifs
  · obtain ⟨_, h1, h2, h3, _⟩ := (h.ends l).2 e he
    exact wf_addEdge h _ _ _ h1 h2 h3
  · exact h

theorem pairs_keepEdge {s : St K} (h : WF s) (e : Nat) (l : EL) :
    pairs (keepEdge s e) l = pairs s l ++ if l = .intr then kept s e else [] := by
  unfold keepEdge kept
  split_ifs with h1 h2 h3
  · rw [addIntr, pairs_addEdge h.toSound, if_pos h2]
  · rw [addIntr, pairs_addEdge h.toSound, if_neg h2]
  · simp
  · simp

theorem keepEdge_es {s : St K} {e f : Nat} {l : EL} (hf : f ∈ s.es l) : f ∈ (keepEdge s e).es l := by
  unfold keepEdge
  split_ifs
  · simp only [addIntr, addEdge, upd]
    split_ifs
    · exact List.mem_append_left _ hf
    · exact hf
  · exact hf

theorem removeEdge_es_ne {s : St K} {e f : Nat} {l : EL} (hf : f ∈ s.es l) (hne : f ≠ e) :
    f ∈ (s.removeEdge e).es l := (removeEdge_es e l f).mpr ⟨hf, fun _ => hne⟩

theorem addEdge_es_mem {s : St K} {f : Nat} {l m : EL} {a b : Nat} {c : Int} {p : BitVec 8} (hf : f ∈ s.es l) :
    f ∈ (s.addEdge m a b c p).es l := by
  simp only [addEdge, upd]
  split_ifs
  · exact List.mem_append_left _ hf
  · exact hf

theorem Ext.kept {s s' : St K} (h : Ext s s') {e : Nat} (he : e < s.nxt) : FU.kept s' e = FU.kept s e := by
  unfold FU.kept isInterior
  rw [h.E e he]

/-- What the four cases of `advance_front` do to the edge lists. -/
structure AdvEdges (s s' : St K) (b1 b2 v base : Nat) : Prop where
  wf : WF s'
  ext : Ext s s'
  base_mem : base ∈ s'.es .front
  bdry : pairs s' .bdry = pairs s .bdry
  intr : pairs s' .intr = pairs s .intr ++
    (((s.getEdge .front v b1).map (kept s)).getD []) ++ (((s.getEdge .front v b2).map (kept s)).getD [])
  front : Oriented (pairs s .front) b1 b2 v →
    ∃ out inn rest, (pairs s .front).Perm (out ++ rest) ∧ (pairs s' .front).Perm (inn ++ rest) ∧
    ((out = [(v, b1), (b2, v)] ∧ inn = []) ∨ (out = [(v, b1)] ∧ inn = [(v, b2)] ∧ (b2, v) ∉ pairs s .front) ∨
      (out = [(b2, v)] ∧ inn = [(b1, v)] ∧ (v, b1) ∉ pairs s .front) ∨
      (out = [] ∧ inn = [(b1, v), (v, b2)] ∧ (b2, v) ∉ pairs s .front ∧ (v, b1) ∉ pairs s .front))

theorem mem_pairs {s : St K} {l : EL} {e : Nat} (he : e ∈ s.es l) : ((s.E e).v1, (s.E e).v2) ∈ pairs s l :=
  List.mem_map_of_mem (f := fun e => ((s.E e).v1, (s.E e).v2)) he

theorem advanceEdges_spec {s : St K} (h : WF s) {base v : Nat} (hb : base ∈ s.es .front) (hv : v ∈ s.verts)
    (h1 : v ≠ (s.E base).v1) (h2 : v ≠ (s.E base).v2) :
    AdvEdges s (advanceEdges s (s.E base).v1 (s.E base).v2 v) (s.E base).v1 (s.E base).v2 v base := by
  obtain ⟨_, hb1, hb2, hb12, hblt⟩ := (h.ends _).2 base hb
  generalize hB1 : (s.E base).v1 = b1 at *
  generalize hB2 : (s.E base).v2 = b2 at *
  have no1 : s.getEdge .front v b1 = none → (v, b1) ∉ pairs s .front := by
    intro hg hm
    obtain ⟨e, he, hd⟩ := List.mem_map.mp hm
    rw [Prod.mk.injEq] at hd
    exact getEdge_none h hv hg e he (Or.inl hd)
  have no2 : s.getEdge .front v b2 = none → (b2, v) ∉ pairs s .front := by
    intro hg hm
    obtain ⟨e, he, hd⟩ := List.mem_map.mp hm
    rw [Prod.mk.injEq] at hd
    exact getEdge_none h hv hg e he (Or.inr ⟨hd.2, hd.1⟩)
  unfold advanceEdges
  cases hg1 : s.getEdge .front v b1 with
  | none =>
    cases hg2 : s.getEdge .front v b2 with
    | none =>
      dsimp only
      have w1 : WF (addFront s b1 v) := wf_addEdge h _ _ _ hb1 hv (Ne.symm h1)
      have w2 : WF (addFront (addFront s b1 v) v b2) := wf_addEdge w1 _ _ _ hv hb2 h2
      refine ⟨w2, (ext_addEdge ..).trans (ext_addEdge ..), addEdge_es_mem (addEdge_es_mem hb), ?_, ?_, ?_⟩
      · rw [addFront, pairs_addEdge w1.toSound, addFront, pairs_addEdge h.toSound]; simp
      · rw [addFront, pairs_addEdge w1.toSound, addFront, pairs_addEdge h.toSound]; simp [hg1, hg2]
      · intro _
        refine ⟨[], [(b1, v), (v, b2)], pairs s .front, by simp, ?_, Or.inr (Or.inr (Or.inr ⟨rfl, rfl, no2 hg2, no1 hg1⟩))⟩
        rw [addFront, pairs_addEdge w1.toSound, addFront, pairs_addEdge h.toSound]
        simp only [if_true, List.append_assoc, List.cons_append, List.nil_append]
        exact (List.perm_append_comm (l₁ := pairs s .front) (l₂ := [(b1, v), (v, b2)]))
    | some e2 =>
      dsimp only
      obtain ⟨m2, d2⟩ := getEdge_some h hv hg2
      have ne2 : base ≠ e2 := by
        rintro rfl; rw [hB1, hB2] at d2; rcases d2 with d | d
        · exact h1 d.1.symm
        · exact h2 d.1.symm
      have w1 : WF (keepEdge s e2) := wf_keepEdge h m2
      have m2' : e2 ∈ (keepEdge s e2).es .front := keepEdge_es m2
      have lt2 : e2 < s.nxt := ((h.ends _).2 e2 m2).2.2.2.2
      have E2 : (keepEdge s e2).E e2 = s.E e2 := (ext_keepEdge s e2).E e2 lt2
      have w2 : WF ((keepEdge s e2).removeEdge e2) := by
        refine wf_removeEdge w1 e2 ?_
        rw [liveE_iff w1.toSound]; exact ⟨_, m2'⟩
      have x2 : Ext s ((keepEdge s e2).removeEdge e2) := (ext_keepEdge s e2).trans (ext_removeEdge _ e2)
      have vv : v ∈ ((keepEdge s e2).removeEdge e2).verts := by rw [x2.verts]; exact hv
      have bb1 : b1 ∈ ((keepEdge s e2).removeEdge e2).verts := by rw [x2.verts]; exact hb1
      have w3 : WF (addFront ((keepEdge s e2).removeEdge e2) b1 v) := wf_addEdge w2 _ _ _ bb1 vv (Ne.symm h1)
      have hlist : ((keepEdge s e2).E e2).list = .front := ((w1.ends _).2 e2 m2').1
      refine ⟨w3, x2.trans (ext_addEdge ..), addEdge_es_mem (removeEdge_es_ne (keepEdge_es hb) ne2), ?_, ?_, ?_⟩
      · rw [addFront, pairs_addEdge w2.toSound, pairs_removeEdge_ne hlist (by decide), pairs_keepEdge h]; simp
      · rw [addFront, pairs_addEdge w2.toSound, pairs_removeEdge_ne hlist (by decide), pairs_keepEdge h]
        simp [hg1, hg2]
      · intro ho
        have hd : (s.E e2).v1 = b2 ∧ (s.E e2).v2 = v := by
          rcases d2 with d | d
          · exfalso
            apply ho.2
            have := mem_pairs m2
            rw [d.1, d.2] at this; exact this
          · exact ⟨d.2, d.1⟩
        have hp := pairs_removeEdge w1.toSound m2'
        rw [E2, hd.1, hd.2, pairs_keepEdge h] at hp
        refine ⟨[(b2, v)], [(b1, v)], pairs ((keepEdge s e2).removeEdge e2) .front, ?_, ?_, Or.inr (Or.inr (Or.inl ⟨rfl, rfl, no1 hg1⟩))⟩
        · simpa using hp
        · rw [addFront, pairs_addEdge w2.toSound]
          simp only [if_true]
          exact List.perm_append_comm
  | some e1 =>
    obtain ⟨m1, d1⟩ := getEdge_some h hv hg1
    have ne1 : base ≠ e1 := by
      rintro rfl; rw [hB1, hB2] at d1; rcases d1 with d | d
      · exact h1 d.1.symm
      · exact h2 d.1.symm
    have lt1 : e1 < s.nxt := ((h.ends _).2 e1 m1).2.2.2.2
    have w1 : WF (keepEdge s e1) := wf_keepEdge h m1
    have m1' : e1 ∈ (keepEdge s e1).es .front := keepEdge_es m1
    have E1 : (keepEdge s e1).E e1 = s.E e1 := (ext_keepEdge s e1).E e1 lt1
    have hlist : ((keepEdge s e1).E e1).list = .front := ((w1.ends _).2 e1 m1').1
    have hd1 : Oriented (pairs s .front) b1 b2 v → (s.E e1).v1 = v ∧ (s.E e1).v2 = b1 := by
      intro ho
      rcases d1 with d | d
      · exact d
      · exfalso
        apply ho.1
        have := mem_pairs m1
        rw [d.1, d.2] at this; exact this
    cases hg2 : s.getEdge .front v b2 with
    | none =>
      dsimp only
      have w2 : WF ((keepEdge s e1).removeEdge e1) := by
        refine wf_removeEdge w1 e1 ?_
        rw [liveE_iff w1.toSound]; exact ⟨_, m1'⟩
      have x2 : Ext s ((keepEdge s e1).removeEdge e1) := (ext_keepEdge s e1).trans (ext_removeEdge _ e1)
      have vv : v ∈ ((keepEdge s e1).removeEdge e1).verts := by rw [x2.verts]; exact hv
      have bb2 : b2 ∈ ((keepEdge s e1).removeEdge e1).verts := by rw [x2.verts]; exact hb2
      have w3 : WF (addFront ((keepEdge s e1).removeEdge e1) v b2) := wf_addEdge w2 _ _ _ vv bb2 h2
      refine ⟨w3, x2.trans (ext_addEdge ..), addEdge_es_mem (removeEdge_es_ne (keepEdge_es hb) ne1), ?_, ?_, ?_⟩
      · rw [addFront, pairs_addEdge w2.toSound, pairs_removeEdge_ne hlist (by decide), pairs_keepEdge h]; simp
      · rw [addFront, pairs_addEdge w2.toSound, pairs_removeEdge_ne hlist (by decide), pairs_keepEdge h]
        simp [hg1, hg2]
      · intro ho
        have hp := pairs_removeEdge w1.toSound m1'
        rw [E1, (hd1 ho).1, (hd1 ho).2, pairs_keepEdge h] at hp
        refine ⟨[(v, b1)], [(v, b2)], pairs ((keepEdge s e1).removeEdge e1) .front, ?_, ?_, Or.inr (Or.inl ⟨rfl, rfl, no2 hg2⟩)⟩
        · simpa using hp
        · rw [addFront, pairs_addEdge w2.toSound]
          simp only [if_true]
          exact List.perm_append_comm
    | some e2 =>
      dsimp only
      obtain ⟨m2, d2⟩ := getEdge_some h hv hg2
      have ne2 : base ≠ e2 := by
        rintro rfl; rw [hB1, hB2] at d2; rcases d2 with d | d
        · exact h1 d.1.symm
        · exact h2 d.1.symm
      have ne12 : e2 ≠ e1 := by
        rintro rfl
        rcases d1 with d | d <;> rcases d2 with d' | d'
        · exact hb12 (d.2.symm.trans d'.2)
        · exact h1 (d'.1.symm.trans d.2)
        · exact h2 (d.1.symm.trans d'.2)
        · exact hb12 (d.2.symm.trans d'.2)
      have lt2 : e2 < s.nxt := ((h.ends _).2 e2 m2).2.2.2.2
      have w1b : WF (keepEdge (keepEdge s e1) e2) := wf_keepEdge w1 (keepEdge_es m2)
      have x1 : Ext s (keepEdge (keepEdge s e1) e2) := (ext_keepEdge s e1).trans (ext_keepEdge _ e2)
      have m1b : e1 ∈ (keepEdge (keepEdge s e1) e2).es .front := keepEdge_es m1'
      have m2b : e2 ∈ (keepEdge (keepEdge s e1) e2).es .front := keepEdge_es (keepEdge_es m2)
      have w2 : WF ((keepEdge (keepEdge s e1) e2).removeEdge e1) := by
        refine wf_removeEdge w1b e1 ?_
        rw [liveE_iff w1b.toSound]; exact ⟨_, m1b⟩
      have m2c : e2 ∈ ((keepEdge (keepEdge s e1) e2).removeEdge e1).es .front := removeEdge_es_ne m2b ne12
      have w3 : WF (((keepEdge (keepEdge s e1) e2).removeEdge e1).removeEdge e2) := by
        refine wf_removeEdge w2 e2 ?_
        rw [liveE_iff w2.toSound]; exact ⟨_, m2c⟩
      have l1 : ((keepEdge (keepEdge s e1) e2).E e1).list = .front := ((w1b.ends _).2 e1 m1b).1
      have l2 : (((keepEdge (keepEdge s e1) e2).removeEdge e1).E e2).list = .front := ((w2.ends _).2 e2 m2c).1
      have k2 : kept (keepEdge s e1) e2 = kept s e2 := (ext_keepEdge s e1).kept lt2
      refine ⟨w3, (x1.trans (ext_removeEdge _ _)).trans (ext_removeEdge _ _),
        removeEdge_es_ne (removeEdge_es_ne (keepEdge_es (keepEdge_es hb)) ne1) ne2, ?_, ?_, ?_⟩
      · rw [pairs_removeEdge_ne l2 (by decide), pairs_removeEdge_ne l1 (by decide), pairs_keepEdge w1,
          pairs_keepEdge h]; simp
      · rw [pairs_removeEdge_ne l2 (by decide), pairs_removeEdge_ne l1 (by decide), pairs_keepEdge w1,
          pairs_keepEdge h, k2]
        simp [hg1, hg2]
      · intro ho
        have hd : (s.E e2).v1 = b2 ∧ (s.E e2).v2 = v := by
          rcases d2 with d | d
          · exfalso
            apply ho.2
            have := mem_pairs m2
            rw [d.1, d.2] at this; exact this
          · exact ⟨d.2, d.1⟩
        have hp1 := pairs_removeEdge w1b.toSound m1b
        have hp2 := pairs_removeEdge w2.toSound m2c
        rw [x1.E e1 lt1, (hd1 ho).1, (hd1 ho).2, pairs_keepEdge w1, pairs_keepEdge h] at hp1
        rw [(x1.trans (ext_removeEdge _ e1)).E e2 lt2, hd.1, hd.2] at hp2
        refine ⟨[(v, b1), (b2, v)], [], pairs (((keepEdge (keepEdge s e1) e2).removeEdge e1).removeEdge e2) .front,
          ?_, by simp, by simp⟩
        simp only [List.append_nil, reduceCtorEq, if_false] at hp1
        exact hp1.trans (hp2.cons _)

/-! ### `advance_front` as a whole -/

/-- What the base edge contributes to the interior edges. -/
def keptBase (s : St K) (e : Nat) : List (Nat × Nat) :=
  if s.isInterior e && !s.isGhost e then [((s.E e).v1, (s.E e).v2)] else []

/-- What `advance_front` does. -/
structure Adv (s s' : St K) (base v t : Nat) : Prop where
  wf : WF s'
  verts : s'.verts = s.verts
  tris : s'.tris = s.tris
  quads : s'.quads = s.quads
  F : s'.F = upd s.F (.tri t) fun d => { d with active := true }
  color : s'.color = s.color
  nxt : s.nxt ≤ s'.nxt
  E : ∀ e < s.nxt, s'.E e = s.E e
  pos : ∀ w, s'.pos w = s.pos w
  facets : ∀ w, (s'.V w).facets = (s.V w).facets
  area : s'.area = s.area + s.fArea (.tri t)
  gone : base ∉ s'.es .front
  bdry : pairs s' .bdry = pairs s .bdry
  intr : pairs s' .intr = pairs s .intr ++
    (((s.getEdge .front v (s.E base).v1).map (kept s)).getD []) ++
    (((s.getEdge .front v (s.E base).v2).map (kept s)).getD []) ++ keptBase s base
  front : Oriented (pairs s .front) (s.E base).v1 (s.E base).v2 v →
    Replaced (pairs s .front) (pairs s' .front) (s.E base).v1 (s.E base).v2 v

theorem fArea_congr {s s' : St K} {f : FRef} (h1 : (s'.F f).corners = (s.F f).corners)
    (h2 : ∀ w, s'.pos w = s.pos w) : s'.fArea f = s.fArea f := by
  unfold fArea; rw [h1]; split <;> simp only [h2]

theorem fCentroid_congr {s s' : St K} {f : FRef} (h1 : (s'.F f).corners = (s.F f).corners)
    (h2 : ∀ w, s'.pos w = s.pos w) : s'.fCentroid f = s.fCentroid f := by
  unfold fCentroid; rw [h1]; split <;> simp only [h2]

/-- The state before the base edge is removed. -/
def beforeRemoval (s : St K) (base v : Nat) : St K :=
  let s1 := advanceEdges s (s.E base).v1 (s.E base).v2 v
  let s2 := updateFrontState (updateFrontState (updateFrontState s1 (s.E base).v1) (s.E base).v2) v
  if s2.isInterior base && !s2.isGhost base then s2.addIntr (s.E base).v1 (s.E base).v2 else s2

theorem advanceFront_eq (s : St K) (base v t : Nat) : advanceFront s base v t =
    (((beforeRemoval s base v).removeEdge base).activate (.tri t)).addArea
      ((((beforeRemoval s base v).removeEdge base).activate (.tri t)).fArea (.tri t)) := rfl

theorem beforeRemoval_spec {s : St K} (h : WF s) {base v : Nat} (hb : base ∈ s.es .front) (hv : v ∈ s.verts)
    (h1 : v ≠ (s.E base).v1) (h2 : v ≠ (s.E base).v2) :
    WF (beforeRemoval s base v) ∧ Ext s (beforeRemoval s base v) ∧
    base ∈ (beforeRemoval s base v).es .front ∧
    pairs (beforeRemoval s base v) .bdry = pairs s .bdry ∧
    pairs (beforeRemoval s base v) .intr = pairs s .intr ++
      (((s.getEdge .front v (s.E base).v1).map (kept s)).getD []) ++
      (((s.getEdge .front v (s.E base).v2).map (kept s)).getD []) ++ keptBase s base ∧
    pairs (beforeRemoval s base v) .front =
      pairs (advanceEdges s (s.E base).v1 (s.E base).v2 v) .front := by
  obtain ⟨_, hb1, hb2, hb12, hblt⟩ := (h.ends _).2 base hb
  have A := advanceEdges_spec h hb hv h1 h2
  unfold beforeRemoval
  dsimp only
  generalize hs1 : advanceEdges s (s.E base).v1 (s.E base).v2 v = s1 at *
  have hs2e : ∀ s2, s2 = updateFrontState (updateFrontState (updateFrontState s1 (s.E base).v1) (s.E base).v2) v →
      WF s2 ∧ Ext s s2 ∧ base ∈ s2.es .front ∧ ∀ l, pairs s2 l = pairs s1 l := by
    rintro s2 rfl
    refine ⟨wf_ufs (wf_ufs (wf_ufs A.wf _) _) _,
      ((A.ext.trans (ext_ufs _ _)).trans (ext_ufs _ _)).trans (ext_ufs _ _), ?_, ?_⟩
    · rw [(ufs_es _ _).1, (ufs_es _ _).1, (ufs_es _ _).1]; exact A.base_mem
    · intro l; rw [pairs_ufs, pairs_ufs, pairs_ufs]
  generalize hs2 : updateFrontState (updateFrontState (updateFrontState s1 (s.E base).v1) (s.E base).v2) v = s2 at *
  obtain ⟨w2, x2, bm, hp⟩ := hs2e s2 rfl
  have hE : s2.E base = s.E base := x2.E base hblt
  have hcond : (s2.isInterior base && !s2.isGhost base) = (s.isInterior base && !s.isGhost base) := by
    unfold isInterior isGhost; rw [hE]
  rw [hcond]
  by_cases hc : (s.isInterior base && !s.isGhost base) = true
  · rw [if_pos hc]
    have hk : keptBase s base = [((s.E base).v1, (s.E base).v2)] := by unfold keptBase; rw [if_pos hc]
    refine ⟨wf_addEdge w2 _ _ _ (by rw [x2.verts]; exact hb1) (by rw [x2.verts]; exact hb2) hb12,
      x2.trans (ext_addEdge ..), addEdge_es_mem bm, ?_, ?_, ?_⟩
    · rw [addIntr, pairs_addEdge w2.toSound, hp, A.bdry]; simp
    · rw [addIntr, pairs_addEdge w2.toSound, hp, A.intr, hk]; simp
    · rw [addIntr, pairs_addEdge w2.toSound, hp]; simp
  · rw [if_neg hc]
    have hk : keptBase s base = [] := by unfold keptBase; rw [if_neg hc]
    refine ⟨w2, x2, bm, ?_, ?_, ?_⟩
    · rw [hp, A.bdry]
    · rw [hp, A.intr, hk]; simp
    · rw [hp]

theorem advanceFront_spec {s : St K} (h : WF s) {base v : Nat} (t : Nat) (hb : base ∈ s.es .front)
    (hv : v ∈ s.verts) (h1 : v ≠ (s.E base).v1) (h2 : v ≠ (s.E base).v2) :
    Adv s (advanceFront s base v t) base v t := by
  obtain ⟨_, hb1, hb2, hb12, hblt⟩ := (h.ends _).2 base hb
  obtain ⟨w, x, bm, p1, p2, p3⟩ := beforeRemoval_spec h hb hv h1 h2
  have A := advanceEdges_spec h hb hv h1 h2
  rw [advanceFront_eq]
  have hE : (beforeRemoval s base v).E base = s.E base := x.E base hblt
  have hl : ((beforeRemoval s base v).E base).list = .front := ((w.ends _).2 base bm).1
  have wr : WF ((beforeRemoval s base v).removeEdge base) := by
    refine wf_removeEdge w base ?_
    rw [liveE_iff w.toSound]; exact ⟨_, bm⟩
  have xr := x.trans (ext_removeEdge (beforeRemoval s base v) base)
  have hF : (((beforeRemoval s base v).removeEdge base).activate (.tri t)).F =
      upd s.F (.tri t) fun d => { d with active := true } := by
    simp only [activate]; rw [xr.F]
  have hcor : ∀ f, ((((beforeRemoval s base v).removeEdge base).activate (.tri t)).F f).corners = (s.F f).corners := by
    intro f; rw [hF]; simp only [upd]; split_ifs <;> rfl
  have hpos : ∀ w, (((beforeRemoval s base v).removeEdge base).activate (.tri t)).pos w = s.pos w := xr.pos
  refine ⟨wf_addArea (wf_activate wr _) _, xr.verts, xr.tris, xr.quads, hF, xr.color, xr.nxt, xr.E, hpos, fun w => (xr.V w).2,
    ?_, ?_, ?_, ?_, ?_⟩
  · simp only [addArea]
    rw [fArea_congr (hcor _) hpos]
    congr 1
    exact xr.area
  · intro hmem
    exact ((removeEdge_es base .front base).mp hmem).2 hl.symm rfl
  · rw [pairs_addArea, pairs_activate, pairs_removeEdge_ne hl (by decide), p1]
  · rw [pairs_addArea, pairs_activate, pairs_removeEdge_ne hl (by decide), p2]
  · intro ho
    obtain ⟨out, inn, rest, q1, q2, q3⟩ := A.front ho
    rw [pairs_addArea, pairs_activate]
    have hp := pairs_removeEdge w.toSound bm
    rw [hE, p3] at hp
    have hin : ((s.E base).v1, (s.E base).v2) ∈ rest := by
      have hm := q1.mem_iff.mp (mem_pairs hb)
      rw [List.mem_append] at hm
      rcases hm with hm | hm
      · exfalso
        rcases q3 with ⟨rfl, _⟩ | ⟨rfl, _, _⟩ | ⟨rfl, _, _⟩ | ⟨rfl, _, _⟩ <;>
          simp only [List.mem_cons, Prod.mk.injEq, List.not_mem_nil, or_false] at hm
        · rcases hm with hm | hm
          · exact h1 hm.1.symm
          · exact h2 hm.2.symm
        · exact h1 hm.1.symm
        · exact h2 hm.2.symm
      · exact hm
    refine ⟨out, inn, rest.erase ((s.E base).v1, (s.E base).v2), ?_, ?_, q3⟩
    · refine q1.trans ?_
      refine ((List.perm_cons_erase hin).append_left out).trans ?_
      exact List.perm_middle
    · have h3 := hp.symm.trans q2
      have h4 : (inn ++ rest).Perm (((s.E base).v1, (s.E base).v2) :: (inn ++ rest.erase ((s.E base).v1, (s.E base).v2))) :=
        ((List.perm_cons_erase hin).append_left inn).trans List.perm_middle
      exact (List.perm_cons _).mp (h3.trans h4)

end TQ.FU

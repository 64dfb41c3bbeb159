import Verif.Merger.Spec
import Verif.Mesh.Lemmas
import Verif.Refinement.Result

/-! # Lemmas for the merging of meshes: the loops -/

set_option linter.unusedSectionVars false
set_option linter.unusedSimpArgs false

namespace TQ.MM
open TQ.MS TQ.MS.St TQ.MC TQ.MeshSpec TQ.MCSpec TQ.RefSpec TQ.MergeSpec
variable {K : Type*} [Field K] [LinearOrder K]

/-- `t` extends `s`: nothing of `s` changes, except for the lists of `t`. -/
structure Ext (s t : St K) : Prop where
  nxt : s.nxt ≤ t.nxt
  E : ∀ e < s.nxt, t.E e = s.E e
  Ft : ∀ i < s.nxt, t.F (.tri i) = s.F (.tri i)
  Fq : ∀ i < s.nxt, t.F (.quad i) = s.F (.quad i)
  pos : ∀ v < s.nxt, t.pos v = s.pos v
  props : ∀ v < s.nxt, (t.V v).props = (s.V v).props
  area : t.area = s.area
  color : t.color = s.color

theorem Ext.refl (s : St K) : Ext s s :=
  ⟨le_rfl, fun _ _ => rfl, fun _ _ => rfl, fun _ _ => rfl, fun _ _ => rfl, fun _ _ => rfl, rfl, rfl⟩

theorem Ext.trans {s t u : St K} (h : Ext s t) (g : Ext t u) : Ext s u where
  nxt := h.nxt.trans g.nxt
  E := fun e he => (g.E e (lt_of_lt_of_le he h.nxt)).trans (h.E e he)
  Ft := fun e he => (g.Ft e (lt_of_lt_of_le he h.nxt)).trans (h.Ft e he)
  Fq := fun e he => (g.Fq e (lt_of_lt_of_le he h.nxt)).trans (h.Fq e he)
  pos := fun e he => (g.pos e (lt_of_lt_of_le he h.nxt)).trans (h.pos e he)
  props := fun e he => (g.props e (lt_of_lt_of_le he h.nxt)).trans (h.props e he)
  area := g.area.trans h.area
  color := g.color.trans h.color

theorem regFacet_keep (f : FRef) : ∀ (cs : List Nat) (V : Nat → VData K) (v : Nat),
    (regFacet V f cs v).xy = (V v).xy ∧ (regFacet V f cs v).props = (V v).props := by
  intro cs
  induction cs with
  | nil => intro V v; exact ⟨rfl, rfl⟩
  | cons c cs ih =>
    intro V v
    have h := ih (upd V c (vAddFacet f)) v
    have e : (upd V c (vAddFacet f) v).xy = (V v).xy ∧ (upd V c (vAddFacet f) v).props = (V v).props := by
      unfold upd; split_ifs <;> exact ⟨rfl, rfl⟩
    exact ⟨h.1.trans e.1, h.2.trans e.2⟩

theorem ext_addQuad (s : St K) (a b c d : Nat) (col : Int) : Ext s (s.addQuad a b c d col) where
  nxt := Nat.le_succ _
  E := fun _ _ => rfl
  Ft := fun i hi => by simp [addQuad, upd]
  Fq := fun i hi => by simp [addQuad, upd, Nat.ne_of_lt hi]
  pos := fun v _ => (regFacet_keep _ _ _ v).1
  props := fun v _ => (regFacet_keep _ _ _ v).2
  area := rfl
  color := rfl

theorem ext_addTri (s : St K) (a b c : Nat) (col : Int) : Ext s (s.addTri a b c col) where
  nxt := Nat.le_succ _
  E := fun _ _ => rfl
  Fq := fun i hi => by simp [addTri, upd]
  Ft := fun i hi => by simp [addTri, upd, Nat.ne_of_lt hi]
  pos := fun v _ => (regFacet_keep _ _ _ v).1
  props := fun v _ => (regFacet_keep _ _ _ v).2
  area := rfl
  color := rfl

theorem addEdge_keep (s : St K) (l : EL) (a b : Nat) (col : Int) (p : BitVec 8) (v : Nat) :
    (s.addEdge l a b col p).pos v = s.pos v ∧ ((s.addEdge l a b col p).V v).props = (s.V v).props := by
  unfold pos addEdge upd
  dsimp only
  split_ifs <;> exact ⟨rfl, rfl⟩

theorem ext_addEdge (s : St K) (l : EL) (a b : Nat) (col : Int) (p : BitVec 8) : Ext s (s.addEdge l a b col p) where
  nxt := Nat.le_succ _
  E := fun e he => by simp [addEdge, upd, Nat.ne_of_lt he]
  Fq := fun _ _ => rfl
  Ft := fun _ _ => rfl
  pos := fun v _ => (addEdge_keep s l a b col p v).1
  props := fun v _ => (addEdge_keep s l a b col p v).2
  area := rfl
  color := rfl

/-- Copies of quads. -/
theorem copyQuads_spec {d : St K} {new : NewV} {φ : Nat → Nat} : ∀ (l : List Nat) (s : St K), WF s →
    (∀ q ∈ l, (d.F (.quad q)).corners.length = 4 ∧ (∀ x ∈ (d.F (.quad q)).corners, new x = some (φ x) ∧ φ x ∈ s.verts) ∧
      ((d.F (.quad q)).corners.map φ).Nodup) →
    ∃ t n, loopM (copyQuad d new) s l = some t ∧ WF t ∧ Ext s t ∧ t.verts = s.verts ∧ t.es = s.es ∧ t.tris = s.tris ∧
      t.quads = s.quads ++ n ∧
      List.Forall₂ (fun q y => s.nxt ≤ y ∧ y < t.nxt ∧ CopiedF d t s.color φ (.quad q) (.quad y)) l n := by
  intro l
  induction l with
  | nil => intro s h _; exact ⟨s, [], rfl, h, Ext.refl s, rfl, rfl, rfl, by simp, List.Forall₂.nil⟩
  | cons q l ih =>
    intro s h hl
    obtain ⟨h1, h2, h3⟩ := hl q (List.mem_cons_self ..)
    obtain ⟨a, b, c, e, hc⟩ : ∃ a b c e, (d.F (.quad q)).corners = [a, b, c, e] := by
      match hh : (d.F (.quad q)).corners, h1 with
      | [a, b, c, e], _ => exact ⟨a, b, c, e, rfl⟩
    rw [hc] at h2 h3
    have ha := h2 a (by simp); have hb := h2 b (by simp); have hcc := h2 c (by simp); have he := h2 e (by simp)
    have hstep : copyQuad d new s q = some (s.addQuad (φ a) (φ b) (φ c) (φ e) (d.F (.quad q)).color) := by
      unfold copyQuad
      rw [hc]
      simp [ha.1, hb.1, hcc.1, he.1]
    have hw := wf_addQuad h (d.F (.quad q)).color ha.2 hb.2 hcc.2 he.2 (by simpa using h3)
    obtain ⟨t, n, g1, g2, g3, g4, g5, g6, g7, g8⟩ := ih _ hw (fun x hx => by
      obtain ⟨k1, k2, k3⟩ := hl x (List.mem_cons_of_mem _ hx)
      exact ⟨k1, k2, k3⟩)
    have hx := ext_addQuad s (φ a) (φ b) (φ c) (φ e) (d.F (.quad q)).color
    have hn1 : (s.addQuad (φ a) (φ b) (φ c) (φ e) (d.F (.quad q)).color).nxt = s.nxt + 1 := rfl
    refine ⟨t, s.nxt :: n, ?_, g2, hx.trans g3, g4, g5, g6, ?_, ?_⟩
    · unfold loopM; rw [hstep]; exact g1
    · rw [g7]; simp [addQuad]
    · refine List.Forall₂.cons ⟨le_rfl, by have := g3.nxt; omega, ?_⟩ (g8.imp fun x y hxy => ⟨by omega, hxy.2.1, hxy.2.2⟩)
      have hF := g3.Fq s.nxt (by omega)
      unfold CopiedF
      rw [hF, hc]
      simp [addQuad, upd, newColor]

/-- Copies of triangles. -/
theorem copyTris_spec {d : St K} {new : NewV} {φ : Nat → Nat} : ∀ (l : List Nat) (s : St K), WF s →
    (∀ q ∈ l, (d.F (.tri q)).corners.length = 3 ∧ (∀ x ∈ (d.F (.tri q)).corners, new x = some (φ x) ∧ φ x ∈ s.verts) ∧
      ((d.F (.tri q)).corners.map φ).Nodup) →
    ∃ t n, loopM (copyTri d new) s l = some t ∧ WF t ∧ Ext s t ∧ t.verts = s.verts ∧ t.es = s.es ∧ t.quads = s.quads ∧
      t.tris = s.tris ++ n ∧
      List.Forall₂ (fun q y => s.nxt ≤ y ∧ y < t.nxt ∧ CopiedF d t s.color φ (.tri q) (.tri y)) l n := by
  intro l
  induction l with
  | nil => intro s h _; exact ⟨s, [], rfl, h, Ext.refl s, rfl, rfl, rfl, by simp, List.Forall₂.nil⟩
  | cons q l ih =>
    intro s h hl
    obtain ⟨h1, h2, h3⟩ := hl q (List.mem_cons_self ..)
    obtain ⟨a, b, c, hc⟩ : ∃ a b c, (d.F (.tri q)).corners = [a, b, c] := by
      match hh : (d.F (.tri q)).corners, h1 with
      | [a, b, c], _ => exact ⟨a, b, c, rfl⟩
    rw [hc] at h2 h3
    have ha := h2 a (by simp); have hb := h2 b (by simp); have hcc := h2 c (by simp)
    have hstep : copyTri d new s q = some (s.addTri (φ a) (φ b) (φ c) (d.F (.tri q)).color) := by
      unfold copyTri
      rw [hc]
      simp [ha.1, hb.1, hcc.1]
    have hw := wf_addTri h (d.F (.tri q)).color ha.2 hb.2 hcc.2 (by simpa using h3)
    obtain ⟨t, n, g1, g2, g3, g4, g5, g6, g7, g8⟩ := ih _ hw (fun x hx => by
      obtain ⟨k1, k2, k3⟩ := hl x (List.mem_cons_of_mem _ hx)
      exact ⟨k1, k2, k3⟩)
    have hx := ext_addTri s (φ a) (φ b) (φ c) (d.F (.tri q)).color
    have hn1 : (s.addTri (φ a) (φ b) (φ c) (d.F (.tri q)).color).nxt = s.nxt + 1 := rfl
    refine ⟨t, s.nxt :: n, ?_, g2, hx.trans g3, g4, g5, g6, ?_, ?_⟩
    · unfold loopM; rw [hstep]; exact g1
    · rw [g7]; simp [addTri]
    · refine List.Forall₂.cons ⟨le_rfl, by have := g3.nxt; omega, ?_⟩ (g8.imp fun x y hxy => ⟨by omega, hxy.2.1, hxy.2.2⟩)
      have hF := g3.Ft s.nxt (by omega)
      unfold CopiedF
      rw [hF, hc]
      simp [addTri, upd, newColor]

/-- Additions of edges to one list. -/
theorem addEdges_spec (k : EL) {α : Type*} (f : α → EData) : ∀ (l : List α) (s : St K), WF s →
    (∀ x ∈ l, (f x).v1 ∈ s.verts ∧ (f x).v2 ∈ s.verts ∧ (f x).v1 ≠ (f x).v2) →
    let t := l.foldl (fun s x => s.addEdge k (f x).v1 (f x).v2 (f x).color (f x).props) s
    ∃ n, WF t ∧ Ext s t ∧ t.verts = s.verts ∧ t.tris = s.tris ∧ t.quads = s.quads ∧ t.es k = s.es k ++ n ∧
      (∀ k', k' ≠ k → t.es k' = s.es k') ∧
      List.Forall₂ (fun x y => s.nxt ≤ y ∧ y < t.nxt ∧ t.E y = ⟨(f x).v1, (f x).v2, (f x).color, (f x).props, k, .null, .null, none⟩) l n := by
  intro l
  induction l with
  | nil => intro s h _; exact ⟨[], h, Ext.refl s, rfl, rfl, rfl, by simp, fun _ _ => rfl, List.Forall₂.nil⟩
  | cons x l ih =>
    intro s h hl t
    obtain ⟨h1, h2, h3⟩ := hl x (List.mem_cons_self ..)
    have hw := wf_addEdge h k (f x).color (f x).props h1 h2 h3
    obtain ⟨n, g2, g3, g4, g5, g6, g7, g8, g9⟩ := ih _ hw (fun y hy => hl y (List.mem_cons_of_mem _ hy))
    have hx := ext_addEdge s k (f x).v1 (f x).v2 (f x).color (f x).props
    have hn1 : (s.addEdge k (f x).v1 (f x).v2 (f x).color (f x).props).nxt = s.nxt + 1 := rfl
    refine ⟨s.nxt :: n, g2, hx.trans g3, g4, g5, g6, ?_, fun k' hk' => ?_, ?_⟩
    · change (List.foldl _ (s.addEdge _ _ _ _ _) l).es k = _
      rw [g7]; simp [addEdge, upd]
    · change (List.foldl _ (s.addEdge _ _ _ _ _) l).es k' = _
      rw [g8 k' hk']; simp [addEdge, upd, hk']
    · refine List.Forall₂.cons ⟨le_rfl, ?_, ?_⟩ (g9.imp fun x y hxy => ⟨by omega, hxy.2.1, hxy.2.2⟩)
      · have := g3.nxt
        change s.nxt < (List.foldl _ (s.addEdge _ _ _ _ _) l).nxt
        omega
      · change (List.foldl _ (s.addEdge _ _ _ _ _) l).E s.nxt = _
        rw [g3.E s.nxt (by omega)]
        simp [addEdge, upd]

theorem copyIntrs_eq {d : St K} {new : NewV} {φ : Nat → Nat} : ∀ (l : List Nat) (s : St K),
    (∀ e ∈ l, new (d.E e).v1 = some (φ (d.E e).v1) ∧ new (d.E e).v2 = some (φ (d.E e).v2)) →
    loopM (copyIntr d new) s l = some (l.foldl (fun s e => s.addEdge .intr (φ (d.E e).v1) (φ (d.E e).v2) (-1) (d.E e).props) s) := by
  intro l
  induction l with
  | nil => intro s _; rfl
  | cons e l ih =>
    intro s h
    obtain ⟨h1, h2⟩ := h e (List.mem_cons_self ..)
    have hstep : copyIntr d new s e = some (s.addEdge .intr (φ (d.E e).v1) (φ (d.E e).v2) (-1) (d.E e).props) := by
      unfold copyIntr; rw [h1, h2]
    unfold loopM
    rw [hstep]
    exact ih _ fun x hx => h x (List.mem_cons_of_mem _ hx)

/-- Copies of vertices. -/
theorem copyVertices_spec {d : St K} : ∀ (l : List Nat) (c : St K × NewV), WF c.1 → l.Nodup →
    let c' := l.foldl (copyVertex d) c
    WF c'.1 ∧ Ext c.1 c'.1 ∧ c'.1.es = c.1.es ∧ c'.1.tris = c.1.tris ∧ c'.1.quads = c.1.quads ∧
    (∀ v, v ∉ l ∨ (c.2 v).isSome → c'.2 v = c.2 v) ∧
    ∃ φ : Nat → Nat, c'.1.verts = c.1.verts ++ (l.filter fun v => (c.2 v).isNone).map φ ∧
      (∀ v ∈ l, c.2 v = none → c'.2 v = some (φ v) ∧ c.1.nxt ≤ φ v ∧ φ v < c'.1.nxt ∧ c'.1.pos (φ v) = d.pos v ∧
        (c'.1.V (φ v)).props = (d.V v).props) ∧
      (∀ u ∈ l, ∀ v ∈ l, c.2 u = none → c.2 v = none → φ u = φ v → u = v) := by
  intro l
  induction l with
  | nil =>
    intro c h _
    exact ⟨h, Ext.refl _, rfl, rfl, rfl, fun _ _ => rfl, fun x => x, by simp, by simp, by simp⟩
  | cons v l ih =>
    intro c h hn c'
    rw [List.nodup_cons] at hn
    cases hv : c.2 v with
    | some a =>
      have hstep : copyVertex d c v = c := by unfold copyVertex; rw [hv]
      have hc' : c' = l.foldl (copyVertex d) c := by
        change l.foldl (copyVertex d) (copyVertex d c v) = _
        rw [hstep]
      obtain ⟨g1, g2, g3, g4, g5, g6, φ, g7, g8, g9⟩ := ih c h hn.2
      rw [← hc'] at g1 g2 g3 g4 g5 g6 g7 g8
      refine ⟨g1, g2, g3, g4, g5, fun x hx => ?_, φ, ?_, ?_, ?_⟩
      · apply g6
        rcases hx with hx | hx
        · exact Or.inl fun hh => hx (List.mem_cons_of_mem _ hh)
        · exact Or.inr hx
      · rw [g7]; simp [hv]
      · intro x hx hnone
        rcases List.mem_cons.mp hx with rfl | hx
        · rw [hv] at hnone; exact absurd hnone (by simp)
        · exact g8 x hx hnone
      · intro x hx y hy h1 h2
        rcases List.mem_cons.mp hx with rfl | hx
        · rw [hv] at h1; exact absurd h1 (by simp)
        rcases List.mem_cons.mp hy with rfl | hy
        · rw [hv] at h2; exact absurd h2 (by simp)
        exact g9 x hx y hy h1 h2
    | none =>
      have hstep : copyVertex d c v = ((c.1.addVertex (d.pos v)).setProps c.1.nxt (Flags.add · (d.V v).props), upd c.2 v fun _ => some c.1.nxt) := by
        unfold copyVertex; rw [hv]
      have hw : WF ((c.1.addVertex (d.pos v)).setProps c.1.nxt (Flags.add · (d.V v).props)) := wf_setProps (wf_addVertex h _) _ _
      have hx : Ext c.1 ((c.1.addVertex (d.pos v)).setProps c.1.nxt (Flags.add · (d.V v).props)) := by
        refine ⟨Nat.le_succ _, fun _ _ => rfl, fun _ _ => rfl, fun _ _ => rfl, fun x hx => ?_, fun x hx => ?_, rfl, rfl⟩ <;>
        · simp [addVertex, setProps, upd, pos, Nat.ne_of_lt hx]
      have hc' : c' = l.foldl (copyVertex d) ((c.1.addVertex (d.pos v)).setProps c.1.nxt (Flags.add · (d.V v).props), upd c.2 v fun _ => some c.1.nxt) := by
        change l.foldl (copyVertex d) (copyVertex d c v) = _
        rw [hstep]
      obtain ⟨g1, g2, g3, g4, g5, g6, φ, g7, g8, g9⟩ := ih ((c.1.addVertex (d.pos v)).setProps c.1.nxt (Flags.add · (d.V v).props), upd c.2 v fun _ => some c.1.nxt) hw hn.2
      rw [← hc'] at g1 g2 g3 g4 g5 g6 g7 g8
      dsimp only at g1 g2 g3 g4 g5 g6 g7 g8 g9
      have hne : ∀ x ∈ l, x ≠ v := fun x hx hh => hn.1 (hh ▸ hx)
      have hnone : ∀ x, x ≠ v → (upd c.2 v fun _ => some c.1.nxt) x = c.2 x := fun x hx => by simp [upd, hx]
      have hnx : ((c.1.addVertex (d.pos v)).setProps c.1.nxt (Flags.add · (d.V v).props)).nxt = c.1.nxt + 1 := rfl
      refine ⟨g1, hx.trans g2, g3, g4, g5, fun x hx => ?_, upd φ v fun _ => c.1.nxt, ?_, ?_, ?_⟩
      · have hxv : x ≠ v := by
          rintro rfl
          rcases hx with hx | hx
          · exact hx (List.mem_cons_self ..)
          · rw [hv] at hx; simp at hx
        rw [g6 x ?_, hnone x hxv]
        rw [hnone x hxv]
        rcases hx with hx | hx
        · exact Or.inl fun hh => hx (List.mem_cons_of_mem _ hh)
        · exact Or.inr hx
      · rw [g7, List.filter_cons_of_pos (by simp [hv])]
        have e1 : l.filter (fun x => ((upd c.2 v fun _ => some c.1.nxt) x).isNone) = l.filter (fun x => (c.2 x).isNone) :=
          List.filter_congr fun x hx => by rw [hnone x (hne x hx)]
        rw [e1, List.map_cons]
        have e2 : (l.filter (fun x => (c.2 x).isNone)).map (upd φ v fun _ => c.1.nxt) = (l.filter (fun x => (c.2 x).isNone)).map φ :=
          List.map_congr_left fun x hx => by simp [upd, hne x (List.mem_of_mem_filter hx)]
        rw [e2]
        simp [setProps, addVertex, upd]
      · intro x hxm hxn
        rcases List.mem_cons.mp hxm with rfl | hxm
        · have ev : (upd φ x fun _ => c.1.nxt) x = c.1.nxt := by simp [upd]
          rw [ev]
          refine ⟨?_, le_rfl, by have := g2.nxt; omega, ?_, ?_⟩
          · rw [g6 x (Or.inl hn.1)]; simp [upd]
          · rw [g2.pos _ (by omega)]; simp [setProps, addVertex, upd, pos]
          · rw [g2.props _ (by omega)]; simp [setProps, addVertex, upd, Flags.add]
        · have ev : (upd φ v fun _ => c.1.nxt) x = φ x := by simp [upd, hne x hxm]
          rw [ev]
          obtain ⟨k1, k2, k3⟩ := g8 x hxm (by rw [hnone x (hne x hxm)]; exact hxn)
          exact ⟨k1, by omega, k3⟩
      · intro x hx y hy h1 h2 he
        have big : ∀ z ∈ l, c.2 z = none → φ z ≠ c.1.nxt := fun z hz hzn => by
          have := (g8 z hz (by rw [hnone z (hne z hz)]; exact hzn)).2.1
          omega
        rcases List.mem_cons.mp hx with rfl | hx' <;> rcases List.mem_cons.mp hy with rfl | hy'
        · rfl
        · simp [upd, hne y hy'] at he; exact absurd he.symm (big y hy' h2)
        · simp [upd, hne x hx'] at he; exact absurd he (big x hx' h1)
        · simp [upd, hne x hx', hne y hy'] at he
          exact g9 x hx' y hy' (by rw [hnone x (hne x hx')]; exact h1) (by rw [hnone y (hne y hy')]; exact h2) he

end TQ.MM

import Verif.Refinement.Spec
import Verif.Mesh.Lemmas

/-! # Lemmas for the refinement of meshes -/

set_option linter.unusedSectionVars false
set_option linter.unusedSimpArgs false

namespace TQ.MS.St
open TQ.MeshSpec TQ.MCSpec TQ.RefSpec
variable {K : Type*} [Field K] [LinearOrder K]

theorem inheritProps_spec (v : Nat) : ∀ (ws : List Nat) (s : St K), v ∉ ws →
    (s.inheritProps v ws).V v = { s.V v with props := ws.foldl (fun p w => p ||| (s.V w).props) (s.V v).props } ∧
    (∀ x, x ≠ v → (s.inheritProps v ws).V x = s.V x) ∧
    (s.inheritProps v ws).verts = s.verts ∧ (s.inheritProps v ws).es = s.es ∧ (s.inheritProps v ws).E = s.E ∧
    (s.inheritProps v ws).tris = s.tris ∧ (s.inheritProps v ws).quads = s.quads ∧ (s.inheritProps v ws).F = s.F ∧
    (s.inheritProps v ws).nxt = s.nxt ∧ (s.inheritProps v ws).area = s.area ∧ (s.inheritProps v ws).color = s.color := by
  intro ws
  induction ws with
  | nil => intro s _; simp [inheritProps]
  | cons w ws ih =>
    intro s hv
    rw [List.mem_cons, not_or] at hv
    have hstep : s.inheritProps v (w :: ws) = (s.setProps v fun p => Flags.add p (s.V w).props).inheritProps v ws := rfl
    obtain ⟨h1, h2, h3⟩ := ih (s.setProps v fun p => Flags.add p (s.V w).props) hv.2
    rw [hstep]
    refine ⟨?_, ?_, h3⟩
    · rw [h1]
      have hf : ∀ (l : List Nat) (p : BitVec 8), v ∉ l →
          l.foldl (fun p w' => p ||| ((s.setProps v fun p => Flags.add p (s.V w).props).V w').props) p =
          l.foldl (fun p w' => p ||| (s.V w').props) p := by
        intro l
        induction l with
        | nil => intro p _; rfl
        | cons x l ihl =>
          intro p hx
          rw [List.mem_cons, not_or] at hx
          simp only [List.foldl_cons]
          have : ((s.setProps v fun p => Flags.add p (s.V w).props).V x) = s.V x := by
            simp [setProps, upd, Ne.symm hx.1]
          rw [this]; exact ihl _ hx.2
      rw [hf _ _ hv.2]
      simp [setProps, upd, Flags.add]
    · intro x hx
      rw [h2 x hx]; simp [setProps, upd, hx]

theorem wf_inheritProps (v : Nat) : ∀ (ws : List Nat) (s : St K), WF s → WF (s.inheritProps v ws) := by
  intro ws
  induction ws with
  | nil => intro s h; exact h
  | cons w ws ih => intro s h; exact ih _ (wf_setProps h _ _)

theorem clear_has (p : BitVec 8) :
    (if Flags.has p Flags.vOnBoundary then Flags.remove p Flags.vOnBoundary else p) = p &&& ~~~ Flags.vOnBoundary := by
  unfold Flags.has Flags.remove
  by_cases h : (p &&& Flags.vOnBoundary) = 0
  · rw [if_neg (by simp [h])]
    revert h p; unfold Flags.vOnBoundary; decide
  · rw [if_pos (by simpa using h)]

/-- The common part of the steps for interior and boundary edges. -/
def splitGen (l : EL) (col : Int) (pr : BitVec 8) (g : BitVec 8 → BitVec 8) (s : St K) (e : Nat) : St K :=
  (((((s.addVertex (s.edgeMid e)).addEdge l (s.E e).v1 s.nxt col pr).addEdge l s.nxt (s.E e).v2 col pr).inheritProps
    s.nxt [(s.E e).v1, (s.E e).v2]).setProps s.nxt g)

theorem splitIntr_eq (r : RS K) (e : Nat) : splitIntr r e =
    (splitGen .intr (-1) 0 (fun p => p &&& ~~~ Flags.vOnBoundary) r.1 e, upd r.2 e fun _ => some r.1.nxt) := by
  unfold splitIntr splitGen clearBoundary
  simp only [clear_has]

theorem setProps_id (s : St K) (v : Nat) : s.setProps v (fun p => p) = s := by
  unfold setProps
  have : upd s.V v (fun d => { d with props := d.props }) = s.V := by
    funext x; unfold upd; split_ifs <;> rfl
  rw [this]

theorem splitBdry_eq (r : RS K) (e : Nat) : splitBdry r e =
    (splitGen .bdry (r.1.E e).color Flags.eOnBoundary (fun p => p) r.1 e, upd r.2 e fun _ => some r.1.nxt) := by
  unfold splitBdry splitGen
  rw [setProps_id]
  rfl

/-- One edge is split. -/
theorem splitGen_spec {s : St K} (h : WF s) (l : EL) (col : Int) (pr : BitVec 8) (g : BitVec 8 → BitVec 8) (e : Nat)
    (ha : (s.E e).v1 ∈ s.verts) (hb : (s.E e).v2 ∈ s.verts) :
    let t := splitGen l col pr g s e
    WF t ∧ t.verts = s.verts ++ [s.nxt] ∧ t.nxt = s.nxt + 3 ∧ t.es l = s.es l ++ [s.nxt + 1, s.nxt + 2] ∧
    (∀ k, k ≠ l → t.es k = s.es k) ∧
    t.E (s.nxt + 1) = ⟨(s.E e).v1, s.nxt, col, pr, l, .null, .null, none⟩ ∧
    t.E (s.nxt + 2) = ⟨s.nxt, (s.E e).v2, col, pr, l, .null, .null, none⟩ ∧
    (∀ x, x ≠ s.nxt + 1 → x ≠ s.nxt + 2 → t.E x = s.E x) ∧
    t.F = s.F ∧ t.tris = s.tris ∧ t.quads = s.quads ∧ t.area = s.area ∧ t.color = s.color ∧
    (∀ x, x ≠ s.nxt → t.pos x = s.pos x ∧ (t.V x).props = (s.V x).props) ∧
    t.pos s.nxt = s.edgeMid e ∧ (t.V s.nxt).props = g (allProps s [(s.E e).v1, (s.E e).v2]) ∧
    (∀ x, x ≠ s.nxt → ∃ new, (t.V x).edges = (s.V x).edges ++ new ∧ ∀ y ∈ new, s.nxt ≤ y) := by
  intro t
  have han : (s.E e).v1 ≠ s.nxt := Nat.ne_of_lt (h.vlt _ ha)
  have hbn : (s.E e).v2 ≠ s.nxt := Nat.ne_of_lt (h.vlt _ hb)
  have hw1 : WF (s.addVertex (s.edgeMid e)) := wf_addVertex h _
  have hw2 := wf_addEdge hw1 l (a := (s.E e).v1) (b := s.nxt) col pr (by simp [addVertex, ha]) (by simp [addVertex]) han
  have hw3 := wf_addEdge hw2 l (a := s.nxt) (b := (s.E e).v2) col pr (by simp [addVertex, addEdge])
    (by simp [addVertex, addEdge, hb]) (Ne.symm hbn)
  have hw4 := wf_inheritProps s.nxt [(s.E e).v1, (s.E e).v2] _ hw3
  have hw5 := wf_setProps hw4 s.nxt g
  obtain ⟨i1, i2, i3, i4, i5, i6, i7, i8, i9, i10, i11⟩ := inheritProps_spec s.nxt [(s.E e).v1, (s.E e).v2]
    (((s.addVertex (s.edgeMid e)).addEdge l (s.E e).v1 s.nxt col pr).addEdge l s.nxt (s.E e).v2 col pr)
    (by simp [Ne.symm han, Ne.symm hbn])
  have hVold : ∀ x, x ≠ s.nxt → t.V x =
      (((s.addVertex (s.edgeMid e)).addEdge l (s.E e).v1 s.nxt col pr).addEdge l s.nxt (s.E e).v2 col pr).V x := by
    intro x hx
    rw [← i2 x hx]
    simp [t, splitGen, setProps, upd, hx]
  have hVn : t.V s.nxt = { (((s.addVertex (s.edgeMid e)).addEdge l (s.E e).v1 s.nxt col pr).addEdge l s.nxt (s.E e).v2 col pr).V s.nxt
      with props := g (allProps s [(s.E e).v1, (s.E e).v2]) } := by
    have : t.V s.nxt = { ((((s.addVertex (s.edgeMid e)).addEdge l (s.E e).v1 s.nxt col pr).addEdge l s.nxt
        (s.E e).v2 col pr).inheritProps s.nxt [(s.E e).v1, (s.E e).v2]).V s.nxt with
          props := g (((((s.addVertex (s.edgeMid e)).addEdge l (s.E e).v1 s.nxt col pr).addEdge l s.nxt
        (s.E e).v2 col pr).inheritProps s.nxt [(s.E e).v1, (s.E e).v2]).V s.nxt).props } := by
      simp [t, splitGen, setProps, upd]
    rw [this, i1]
    congr 2
    simp only [allProps, List.foldl_cons, List.foldl_nil]
    rw [addEdge_V _ _ _ _ _ (Ne.symm hbn), addEdge_V _ _ _ _ _ han, addEdge_V _ _ _ _ _ (Ne.symm hbn),
      addEdge_V _ _ _ _ _ han, addEdge_V _ _ _ _ _ (Ne.symm hbn), addEdge_V _ _ _ _ _ han]
    simp [vAddEdge, addVertex, upd, han, hbn, Ne.symm han, Ne.symm hbn]
    split_ifs <;> rfl
  have tes := show t.es = _ from i4
  have tE := show t.E = _ from i5
  refine ⟨hw5, ?_, ?_, ?_, ?_, ?_, ?_, ?_, ?_, ?_, ?_, ?_, ?_, ?_, ?_, ?_, ?_⟩
  · change (inheritProps _ _ _).verts = _
    rw [i3]; simp [addEdge, addVertex]
  · change (inheritProps _ _ _).nxt = _
    rw [i9]; simp [addEdge, addVertex]
  · rw [tes]; simp [addEdge, addVertex]
  · intro k hk
    rw [tes]; simp [addEdge, addVertex, upd, hk]
  · rw [tE]; simp [addEdge, addVertex, upd]
  · rw [tE]; simp [addEdge, addVertex, upd]
  · intro x h1 h2
    rw [tE]; simp [addEdge, addVertex, upd, h1, h2]
  · change (inheritProps _ _ _).F = _
    rw [i8]; rfl
  · change (inheritProps _ _ _).tris = _
    rw [i6]; rfl
  · change (inheritProps _ _ _).quads = _
    rw [i7]; rfl
  · change (inheritProps _ _ _).area = _
    rw [i10]; rfl
  · change (inheritProps _ _ _).color = _
    rw [i11]; rfl
  · intro x hx
    unfold pos
    rw [hVold x hx, addEdge_V _ _ _ _ _ (Ne.symm hbn), addEdge_V _ _ _ _ _ han]
    have : (s.addVertex (s.edgeMid e)).V x = s.V x := by simp [addVertex, upd, hx]
    rw [this]
    constructor <;> split_ifs <;> rfl
  · unfold pos
    rw [hVn, addEdge_V _ _ _ _ _ (Ne.symm hbn), addEdge_V _ _ _ _ _ han]
    simp [vAddEdge, addVertex, upd]
  · rw [hVn]
  · intro x hx
    rw [hVold x hx, addEdge_V _ _ _ _ _ (Ne.symm hbn), addEdge_V _ _ _ _ _ han]
    have : (s.addVertex (s.edgeMid e)).V x = s.V x := by simp [addVertex, upd, hx]
    rw [this]
    have h1 : (s.addVertex (s.edgeMid e)).nxt = s.nxt + 1 := rfl
    have h2 : ((s.addVertex (s.edgeMid e)).addEdge l (s.E e).v1 s.nxt col pr).nxt = s.nxt + 2 := rfl
    rw [h1, h2]
    split_ifs
    · exact ⟨[s.nxt + 1, s.nxt + 2], by simp [vAddEdge], by simp⟩
    · exact ⟨[s.nxt + 2], by simp [vAddEdge], by simp⟩
    · exact ⟨[s.nxt + 1], by simp [vAddEdge], by simp⟩
    · exact ⟨[], by simp, by simp⟩

/-- Sub quads are added. -/
theorem addSubs_spec (c : Int) : ∀ (qs : List (Nat × Nat × Nat × Nat)) (s : St K), WF s →
    (∀ q ∈ qs, q.1 ∈ s.verts ∧ q.2.1 ∈ s.verts ∧ q.2.2.1 ∈ s.verts ∧ q.2.2.2 ∈ s.verts ∧ [q.1, q.2.1, q.2.2.1, q.2.2.2].Nodup) →
    let t := qs.foldl (fun t q => t.addSub c q) s
    WF t ∧ t.verts = s.verts ∧ t.nxt = s.nxt + qs.length ∧ t.es = s.es ∧ t.E = s.E ∧ t.tris = s.tris ∧
    t.quads = s.quads ++ (List.range qs.length).map (s.nxt + ·) ∧ t.area = s.area ∧ t.color = s.color ∧
    (∀ f, (∀ i < qs.length, f ≠ .quad (s.nxt + i)) → t.F f = s.F f) ∧
    (∀ i q, qs[i]? = some q → t.F (.quad (s.nxt + i)) = ⟨[q.1, q.2.1, q.2.2.1, q.2.2.2], [.null, .null, .null, .null], c, false⟩) ∧
    ∀ x, t.pos x = s.pos x ∧ (t.V x).props = (s.V x).props ∧ (t.V x).edges = (s.V x).edges := by
  intro qs
  induction qs with
  | nil => intro s h _; simp [h]
  | cons q qs ih =>
    intro s h hq t
    obtain ⟨q1, q2, q3, q4, q5⟩ := hq q (List.mem_cons_self ..)
    have hw := wf_addQuad h (-1) q1 q2 q3 q4 q5
    have hw' : WF (s.addSub c q) := by
      refine { edges := hw.edges, facets := ?_, vnd := hw.vnd, vlt := hw.vlt, ends := hw.ends, tnd := hw.tnd, qnd := hw.qnd,
               tlt := hw.tlt, qlt := hw.qlt, tcor := ?_, qcor := ?_, cor := ?_ }
      all_goals
        have hc : ∀ f, ((s.addSub c q).F f).corners = ((s.addQuad q.1 q.2.1 q.2.2.1 q.2.2.2 (-1)).F f).corners := by
          intro f; simp only [addSub, setColor, upd]; split_ifs <;> rfl
        have hlive : ∀ f, Live (s.addSub c q) f ↔ Live (s.addQuad q.1 q.2.1 q.2.2.1 q.2.2.2 (-1)) f := by
          intro f; cases f <;> exact Iff.rfl
      · intro v hv
        refine ⟨(hw.facets v hv).1, fun f => ?_⟩
        rw [hlive, hc]; exact (hw.facets v hv).2 f
      · intro x hx; rw [hc]; exact hw.tcor x hx
      · intro x hx; rw [hc]; exact hw.qcor x hx
      · intro f hf; rw [hlive] at hf; rw [hc]; exact hw.cor f hf
    have hn : (s.addSub c q).nxt = s.nxt + 1 := rfl
    obtain ⟨g1, g2, g3, g4, g5, g6, g7, g8, g9, g10, g11, g12⟩ := ih (s.addSub c q) hw'
      (fun x hx => hq x (List.mem_cons_of_mem _ hx))
    have ht : t = qs.foldl (fun t q => t.addSub c q) (s.addSub c q) := rfl
    rw [← ht] at g1 g2 g3 g4 g5 g6 g7 g8 g9 g10 g11 g12
    refine ⟨g1, g2, ?_, g4, g5, g6, ?_, g8, g9, ?_, ?_, ?_⟩
    · rw [g3, hn, List.length_cons]; omega
    · rw [g7, List.length_cons, List.range_succ_eq_map, hn]
      have : (s.addSub c q).quads = s.quads ++ [s.nxt] := rfl
      rw [this]
      simp [List.map_map, Function.comp_def, Nat.add_assoc, Nat.add_comm 1]
    · intro f hf
      rw [g10 f]
      · have h0 : f ≠ .quad s.nxt := by simpa using hf 0 (by simp)
        simp [addSub, setColor, addQuad, upd, h0]
      · intro i hi
        rw [hn]
        have := hf (i + 1) (by simpa using hi)
        rwa [show s.nxt + (i + 1) = s.nxt + 1 + i by omega] at this
    · intro i x hx
      cases i with
      | zero =>
        simp only [List.getElem?_cons_zero, Option.some.injEq] at hx
        subst hx
        rw [Nat.add_zero, g10]
        · simp [addSub, setColor, addQuad, upd]
        · intro i hi hh
          rw [hn] at hh
          simp only [FRef.quad.injEq] at hh
          omega
      | succ i =>
        rw [List.getElem?_cons_succ] at hx
        have := g11 i x hx
        rwa [hn, show s.nxt + 1 + i = s.nxt + (i + 1) by omega] at this
    · intro x
      obtain ⟨p1, p2, p3⟩ := g12 x
      have hV : ((s.addSub c q).V x) = regFacet s.V (.quad s.nxt) [q.1, q.2.1, q.2.2.1, q.2.2.2] x := rfl
      rw [regFacet_apply _ _ _ _ q5] at hV
      unfold pos at p1 ⊢
      rw [p1, p2, p3, hV]
      split_ifs <;> simp [vAddFacet]

/-- Inner edges are added. -/
theorem addSpokes_spec (z : Nat) : ∀ (ms : List Nat) (s : St K), WF s → z ∈ s.verts → (∀ m ∈ ms, m ∈ s.verts ∧ m ≠ z) →
    let t := ms.foldl (fun t m => t.addEdge .intr m z (-1) 0) s
    WF t ∧ t.verts = s.verts ∧ t.nxt = s.nxt + ms.length ∧ t.F = s.F ∧ t.tris = s.tris ∧ t.quads = s.quads ∧
    t.es .intr = s.es .intr ++ (List.range ms.length).map (s.nxt + ·) ∧ (∀ k, k ≠ .intr → t.es k = s.es k) ∧
    t.area = s.area ∧ t.color = s.color ∧
    (∀ x, (∀ i < ms.length, x ≠ s.nxt + i) → t.E x = s.E x) ∧
    (∀ i m, ms[i]? = some m → t.E (s.nxt + i) = ⟨m, z, -1, 0, .intr, .null, .null, none⟩) ∧
    ∀ x, t.pos x = s.pos x ∧ (t.V x).props = (s.V x).props ∧ ∃ new, (t.V x).edges = (s.V x).edges ++ new ∧ ∀ y ∈ new, s.nxt ≤ y := by
  intro ms
  induction ms with
  | nil => intro s h hz _; simp [h]
  | cons m ms ih =>
    intro s h hz hm t
    obtain ⟨m1, m2⟩ := hm m (List.mem_cons_self ..)
    have hw := wf_addEdge h .intr (-1) 0 m1 hz m2
    have hn : (s.addEdge .intr m z (-1) 0).nxt = s.nxt + 1 := rfl
    obtain ⟨g1, g2, g3, g4, g5, g6, g7, g8, g9, g10, g11, g12, g13⟩ := ih (s.addEdge .intr m z (-1) 0) hw hz
      (fun x hx => hm x (List.mem_cons_of_mem _ hx))
    have ht : t = ms.foldl (fun t m => t.addEdge .intr m z (-1) 0) (s.addEdge .intr m z (-1) 0) := rfl
    rw [← ht] at g1 g2 g3 g4 g5 g6 g7 g8 g9 g10 g11 g12 g13
    refine ⟨g1, g2, ?_, g4, g5, g6, ?_, ?_, g9, g10, ?_, ?_, ?_⟩
    · rw [g3, hn, List.length_cons]; omega
    · rw [g7, List.length_cons, List.range_succ_eq_map, hn]
      simp [addEdge, upd, List.map_map, Function.comp_def, Nat.add_assoc, Nat.add_comm 1]
    · intro k hk
      rw [g8 k hk]; simp [addEdge, upd, hk]
    · intro x hx
      rw [g11 x]
      · have h0 : x ≠ s.nxt := by simpa using hx 0 (by simp)
        simp [addEdge, upd, h0]
      · intro i hi
        rw [hn]
        have := hx (i + 1) (by simpa using hi)
        omega
    · intro i x hx
      cases i with
      | zero =>
        simp only [List.getElem?_cons_zero, Option.some.injEq] at hx
        subst hx
        rw [Nat.add_zero, g11]
        · simp [addEdge, upd]
        · intro i hi; rw [hn]; omega
      | succ i =>
        rw [List.getElem?_cons_succ] at hx
        have := g12 i x hx
        rwa [hn, show s.nxt + 1 + i = s.nxt + (i + 1) by omega] at this
    · intro x
      obtain ⟨p1, p2, new, p3, p4⟩ := g13 x
      have hV := addEdge_V (s := s) .intr m z (-1) 0 m2 x
      unfold pos at p1 ⊢
      rw [p1, p2, p3, hV]
      rw [hn] at p4
      split_ifs
      · refine ⟨rfl, rfl, s.nxt :: new, by simp [vAddEdge], ?_⟩
        intro y hy
        rcases List.mem_cons.mp hy with rfl | hy
        · exact le_rfl
        · have := p4 y hy; omega
      · exact ⟨rfl, rfl, new, rfl, fun y hy => by have := p4 y hy; omega⟩

/-- One element is split. -/
theorem splitFacet_spec {s : St K} (h : WF s) (p : Pt K) (vs : List Nat) (c : Int) (qs : List (Nat × Nat × Nat × Nat)) (ms : List Nat)
    (hv : ∀ v ∈ vs, v ∈ s.verts) (hl : qs.length = ms.length)
    (hq : ∀ q ∈ qs, q.1 ∈ s.verts ∧ q.2.1 ∈ s.verts ∧ q.2.2.1 = s.nxt ∧ q.2.2.2 ∈ s.verts ∧ [q.1, q.2.1, q.2.2.1, q.2.2.2].Nodup)
    (hm : ∀ m ∈ ms, m ∈ s.verts) :
    let t := s.splitFacet p vs c qs ms
    let n := ms.length
    WF t ∧ t.verts = s.verts ++ [s.nxt] ∧ t.nxt = s.nxt + 1 + n + n ∧ t.tris = s.tris ∧
    t.quads = s.quads ++ (List.range n).map (s.nxt + 1 + ·) ∧
    t.es .intr = s.es .intr ++ (List.range n).map (s.nxt + 1 + n + ·) ∧ (∀ k, k ≠ .intr → t.es k = s.es k) ∧
    t.area = s.area ∧ t.color = s.color ∧
    (∀ x, x < s.nxt → t.E x = s.E x) ∧ (∀ f, (∀ i, s.nxt ≤ i → f ≠ .quad i) → t.F f = s.F f) ∧
    (∀ i q, qs[i]? = some q → t.F (.quad (s.nxt + 1 + i)) = ⟨[q.1, q.2.1, q.2.2.1, q.2.2.2], [.null, .null, .null, .null], c, false⟩) ∧
    (∀ i m, ms[i]? = some m → t.E (s.nxt + 1 + n + i) = ⟨m, s.nxt, -1, 0, .intr, .null, .null, none⟩) ∧
    (∀ x, x ≠ s.nxt → t.pos x = s.pos x ∧ (t.V x).props = (s.V x).props ∧
      ∃ new, (t.V x).edges = (s.V x).edges ++ new ∧ ∀ y ∈ new, s.nxt ≤ y) ∧
    t.pos s.nxt = p ∧ (t.V s.nxt).props = allProps s vs &&& ~~~ Flags.vOnBoundary := by
  intro t n
  have hnv : s.nxt ∉ vs := fun hx => lt_irrefl _ (h.vlt _ (hv _ hx))
  have hnm : ∀ v ∈ s.verts, v ≠ s.nxt := fun v hx => Nat.ne_of_lt (h.vlt _ hx)
  obtain ⟨i1, i2, i3, i4, i5, i6, i7, i8, i9, i10, i11⟩ := inheritProps_spec s.nxt vs (s.addVertex p) hnv
  -- the state after adding the vertex
  obtain ⟨u, hu⟩ : ∃ u, u = ((s.addVertex p).inheritProps s.nxt vs).clearBoundary s.nxt := ⟨_, rfl⟩
  have uw : WF u := by
    rw [hu]; exact wf_setProps (wf_inheritProps _ _ _ (wf_addVertex h _)) _ _
  have uverts : u.verts = s.verts ++ [s.nxt] := by rw [hu]; exact i3
  have ues : u.es = s.es := by rw [hu]; exact i4
  have uE : u.E = s.E := by rw [hu]; exact i5
  have utris : u.tris = s.tris := by rw [hu]; exact i6
  have uquads : u.quads = s.quads := by rw [hu]; exact i7
  have uF : u.F = s.F := by rw [hu]; exact i8
  have unxt : u.nxt = s.nxt + 1 := by rw [hu]; exact i9
  have uarea : u.area = s.area := by rw [hu]; exact i10
  have ucolor : u.color = s.color := by rw [hu]; exact i11
  have uV : ∀ x, x ≠ s.nxt → u.V x = s.V x := by
    intro x hx
    have h1 : u.V x = ((s.addVertex p).inheritProps s.nxt vs).V x := by
      rw [hu]; simp [clearBoundary, setProps, upd, hx]
    rw [h1, i2 x hx]; simp [addVertex, upd, hx]
  have uVn : u.pos s.nxt = p ∧ (u.V s.nxt).props = allProps s vs &&& ~~~ Flags.vOnBoundary := by
    have h1 : u.V s.nxt = { ((s.addVertex p).inheritProps s.nxt vs).V s.nxt with
        props := (((s.addVertex p).inheritProps s.nxt vs).V s.nxt).props &&& ~~~ Flags.vOnBoundary } := by
      rw [hu, ← clear_has]; simp [clearBoundary, setProps, upd]
    have hf : ∀ (l : List Nat) (q : BitVec 8), s.nxt ∉ l →
        l.foldl (fun q w => q ||| ((s.addVertex p).V w).props) q = l.foldl (fun q w => q ||| (s.V w).props) q := by
      intro l
      induction l with
      | nil => intro q _; rfl
      | cons x l ihl =>
        intro q hx
        rw [List.mem_cons, not_or] at hx
        simp only [List.foldl_cons]
        have : ((s.addVertex p).V x) = s.V x := by simp [addVertex, upd, Ne.symm hx.1]
        rw [this]; exact ihl _ hx.2
    have h0 : (s.addVertex p).V s.nxt = ⟨p, 0, [], []⟩ := by simp [addVertex, upd]
    unfold pos
    rw [h1, i1, hf _ _ hnv, h0]
    exact ⟨rfl, rfl⟩
  have hmem : ∀ x, x ∈ s.verts → x ∈ u.verts := fun x hx => by rw [uverts]; simp [hx]
  have hzu : s.nxt ∈ u.verts := by rw [uverts]; simp
  obtain ⟨a1, a2, a3, a4, a5, a6, a7, a8, a9, a10, a11, a12⟩ := addSubs_spec c qs u uw (fun q hqq => by
    obtain ⟨b1, b2, b3, b4, b5⟩ := hq q hqq
    exact ⟨hmem _ b1, hmem _ b2, by rw [b3]; exact hzu, hmem _ b4, b5⟩)
  obtain ⟨w, hwdef⟩ : ∃ w, w = qs.foldl (fun t q => t.addSub c q) u := ⟨_, rfl⟩
  rw [← hwdef] at a1 a2 a3 a4 a5 a6 a7 a8 a9 a10 a11 a12
  obtain ⟨b1, b2, b3, b4, b5, b6, b7, b8, b9, b10, b11, b12, b13⟩ := addSpokes_spec s.nxt ms w a1 (by rw [a2]; exact hzu)
    (fun m hmm => ⟨by rw [a2]; exact hmem _ (hm m hmm), hnm _ (hm m hmm)⟩)
  have ht : t = ms.foldl (fun t m => t.addEdge .intr m s.nxt (-1) 0) w := by rw [hwdef, hu]; rfl
  rw [← ht] at b1 b2 b3 b4 b5 b6 b7 b8 b9 b10 b11 b12 b13
  have hwn : w.nxt = s.nxt + 1 + n := by rw [a3, unxt, hl]
  refine ⟨b1, by rw [b2, a2, uverts], by rw [b3, hwn], by rw [b5, a6, utris], ?_, ?_, ?_, by rw [b9, a8, uarea],
    by rw [b10, a9, ucolor], ?_, ?_, ?_, ?_, ?_, ?_, ?_⟩
  · rw [b6, a7, uquads, unxt, hl]
  · rw [b7, a4, ues, hwn]
  · intro k hk; rw [b8 k hk, a4, ues]
  · intro x hx
    rw [b11 x (fun i _ => by rw [hwn]; omega), a5, uE]
  · intro f hf
    rw [b4, a10 f (fun i _ => hf _ (by rw [unxt]; omega)), uF]
  · intro i q hqi
    rw [b4]
    have := a11 i q hqi
    rwa [unxt] at this
  · intro i m hmi
    have := b12 i m hmi
    rwa [hwn] at this
  · intro x hx
    obtain ⟨p1, p2, new, p3, p4⟩ := b13 x
    obtain ⟨c1, c2, c3⟩ := a12 x
    have hux := uV x hx
    refine ⟨?_, ?_, new, ?_, fun y hy => ?_⟩
    · rw [p1, c1]; unfold pos; rw [hux]
    · rw [p2, c2, hux]
    · rw [p3, c3, hux]
    · have := p4 y hy; rw [hwn] at this; omega
  · rw [(b13 _).1, (a12 _).1]; exact uVn.1
  · rw [(b13 _).2.1, (a12 _).2.1]; exact uVn.2

end TQ.MS.St

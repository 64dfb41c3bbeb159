import Verif.Cleanup.Conn

/-! # Lemmas: merging pairs of triangles to quads -/

set_option linter.unusedSectionVars false
set_option linter.unusedSimpArgs false

namespace TQ.MC
open TQ TQ.MS TQ.MeshSpec TQ.MCSpec MS.St
variable {K : Type*} [Field K] [LinearOrder K]

/-- A list of corners is a rotation of `[a, b, c]`. -/
def Rot3 (cs : List Nat) (a b c : Nat) : Prop := cs = [a, b, c] ∨ cs = [b, c, a] ∨ cs = [c, a, b]

theorem rot3_of_side {s : St K} (h : WF s) {t a b : Nat} (ht : t ∈ s.tris) (hs : HasSide s (.tri t) a b) :
    ∃ c, Rot3 (s.F (.tri t)).corners a b c ∧ [a, b, c].Nodup ∧ a ∈ s.verts ∧ b ∈ s.verts ∧ c ∈ s.verts ∧
      ∃ i, edgeIndex (s.F (.tri t)) a b = some i ∧ edgeIndex (s.F (.tri t)) b a = some i ∧ (s.F (.tri t)).corners[i]? = some c := by
  obtain ⟨i, hi, hs⟩ := hs
  have hlen := h.tcor t ht
  obtain ⟨hn, hv⟩ := h.cor (.tri t) ht
  have i1 := (C49_edge_index (Or.inl hlen) hn a b i).mpr ⟨hi, Or.inl hs⟩
  have i2 := (C49_edge_index (Or.inl hlen) hn b a i).mpr ⟨hi, Or.inr hs⟩
  match hcs : (s.F (.tri t)).corners, hlen with
  | [x, y, z], _ =>
    rw [hcs] at hs hi hn hv
    have hxy : x ≠ y ∧ x ≠ z ∧ y ≠ z := by simp at hn; tauto
    have : i = 0 ∨ i = 1 ∨ i = 2 := by simp at hi; omega
    rcases this with rfl | rfl | rfl
    · simp [sideAt] at hs; obtain ⟨rfl, rfl⟩ := hs
      exact ⟨x, Or.inr (Or.inr rfl), by simp; tauto, hv _ (by simp), hv _ (by simp), hv _ (by simp), 0, i1, i2, by simp⟩
    · simp [sideAt] at hs; obtain ⟨rfl, rfl⟩ := hs
      exact ⟨y, Or.inr (Or.inl rfl), by simp; tauto, hv _ (by simp), hv _ (by simp), hv _ (by simp), 1, i1, i2, by simp⟩
    · simp [sideAt] at hs; obtain ⟨rfl, rfl⟩ := hs
      exact ⟨z, Or.inl rfl, by simp; tauto, hv _ (by simp), hv _ (by simp), hv _ (by simp), 2, i1, i2, by simp⟩

theorem rot3_side {s : St K} {f : FRef} {a b c : Nat} (h : Rot3 (s.F f).corners a b c) (x y : Nat) :
    HasSide s f x y ↔ (x, y) = (a, b) ∨ (x, y) = (b, c) ∨ (x, y) = (c, a) := by
  have key : ∀ p q r, (∃ i < ([p, q, r] : List Nat).length, sideAt [p, q, r] i = some (x, y)) ↔
      (x, y) = (q, r) ∨ (x, y) = (r, p) ∨ (x, y) = (p, q) := by
    intro p q r
    constructor
    · rintro ⟨i, hi, hs⟩
      have : i = 0 ∨ i = 1 ∨ i = 2 := by simp at hi; omega
      rcases this with rfl | rfl | rfl <;> simp [sideAt] at hs <;> obtain ⟨rfl, rfl⟩ := hs <;> simp
    · rintro (h | h | h) <;> cases h
      · exact ⟨0, by simp, by simp [sideAt]⟩
      · exact ⟨1, by simp, by simp [sideAt]⟩
      · exact ⟨2, by simp, by simp [sideAt]⟩
  unfold HasSide
  rcases h with h | h | h <;> rw [h, key] <;> tauto

theorem quad_side {s : St K} {f : FRef} {a b c d : Nat} (h : (s.F f).corners = [a, b, c, d]) (x y : Nat) :
    HasSide s f x y ↔ (x, y) = (a, b) ∨ (x, y) = (b, c) ∨ (x, y) = (c, d) ∨ (x, y) = (d, a) := by
  unfold HasSide
  rw [h]
  constructor
  · rintro ⟨i, hi, hs⟩
    have : i = 0 ∨ i = 1 ∨ i = 2 ∨ i = 3 := by simp at hi; omega
    rcases this with rfl | rfl | rfl | rfl <;> simp [sideAt] at hs <;> obtain ⟨rfl, rfl⟩ := hs <;> simp
  · rintro (h | h | h | h) <;> cases h
    · exact ⟨3, by simp, by simp [sideAt]⟩
    · exact ⟨0, by simp, by simp [sideAt]⟩
    · exact ⟨1, by simp, by simp [sideAt]⟩
    · exact ⟨2, by simp, by simp [sideAt]⟩

theorem rot3_area {s : St K} {f : FRef} {a b c : Nat} (h : Rot3 (s.F f).corners a b c) :
    s.fArea f = triArea (s.pos a) (s.pos b) (s.pos c) := by
  have r : ∀ p q r : Pt K, triArea q r p = triArea p q r := by
    intro p q r; unfold triArea Pt.cross; simp only [Pt.sub_x, Pt.sub_y]; ring
  unfold fArea
  rcases h with h | h | h <;> rw [h] <;> dsimp only
  · rw [r]
  · rw [r, r]

/-! ### Redirection of pointers -/

/-- What `redirect` does with an edge. -/
def redir (fl fr q : FRef) (d : EData) : EData :=
  { d with fl := if d.fl = fl ∨ d.fl = fr then q else d.fl
           fr := if d.fr = fl ∨ d.fr = fr then q else d.fr }

theorem redir_idem {fl fr q : FRef} (h1 : q ≠ fl) (h2 : q ≠ fr) (d : EData) : redir fl fr q (redir fl fr q d) = redir fl fr q d := by
  unfold redir
  by_cases a : d.fl = fl ∨ d.fl = fr <;> by_cases b : d.fr = fl ∨ d.fr = fr <;> simp [a, b, h1, h2]

theorem redirect_sbp (fl fr q : FRef) (s : St K) (ab : Nat × Nat) : SameButPointers s (redirect fl fr q s ab) := by
  unfold redirect
  split
  · exact sbp_refl s
  · refine ⟨rfl, rfl, rfl, rfl, rfl, rfl, rfl, rfl, fun e => ?_, fun _ => ⟨rfl, rfl, rfl, rfl⟩⟩
    unfold upd
    dsimp only
    split_ifs <;> exact ⟨rfl, rfl, rfl, rfl, rfl, rfl⟩

theorem getEdge_sbp {s t : St K} (h : SameButPointers s t) (l : EL) (a b : Nat) : t.getEdge l a b = s.getEdge l a b := by
  unfold getEdge
  rw [h.V]
  congr 1
  funext e
  obtain ⟨e1, e2, e3, -⟩ := h.ends e
  rw [e1, e2, e3]

theorem redirect_F (fl fr q : FRef) (s : St K) (ab : Nat × Nat) : (redirect fl fr q s ab).F = s.F := by
  unfold redirect; split <;> rfl

theorem redirectFold {fl fr q : FRef} (h1 : q ≠ fl) (h2 : q ≠ fr) : ∀ (l : List (Nat × Nat)) (s : St K),
    SameButPointers s (l.foldl (redirect fl fr q) s) ∧ (l.foldl (redirect fl fr q) s).F = s.F ∧
    ∀ x, (l.foldl (redirect fl fr q) s).E x =
      if (∃ ab ∈ l, s.getEdge .intr ab.1 ab.2 = some x) then redir fl fr q (s.E x) else s.E x := by
  intro l
  induction l with
  | nil => intro s; exact ⟨sbp_refl s, rfl, by simp⟩
  | cons ab l ih =>
    intro s
    have hb := redirect_sbp fl fr q s ab
    obtain ⟨i1, i2, i3⟩ := ih (redirect fl fr q s ab)
    rw [List.foldl_cons]
    refine ⟨sbp_trans hb i1, i2.trans (redirect_F ..), fun x => ?_⟩
    rw [i3]
    simp only [getEdge_sbp hb, List.mem_cons, exists_eq_or_imp]
    have hx : (redirect fl fr q s ab).E x = if s.getEdge .intr ab.1 ab.2 = some x then redir fl fr q (s.E x) else s.E x := by
      unfold redirect
      cases hg : s.getEdge .intr ab.1 ab.2 with
      | none => simp
      | some e =>
        by_cases hxe : x = e
        · subst hxe; simp [upd, redir]
        · have : e ≠ x := fun hh => hxe hh.symm
          simp [upd, hxe, this]
    rw [hx]
    by_cases c1 : s.getEdge .intr ab.1 ab.2 = some x <;> by_cases c2 : ∃ ab ∈ l, s.getEdge .intr ab.1 ab.2 = some x <;>
      simp only [c1, c2, if_true, if_false, or_true, true_or, or_false, false_or, redir_idem h1 h2]

/-! ### Sums -/

theorem filter_cons_perm {l : List Nat} (hn : l.Nodup) {x : Nat} (hx : x ∈ l) : l.Perm (x :: l.filter (· ≠ x)) := by
  have h1 := List.perm_cons_erase hx
  rw [hn.erase_eq_filter] at h1
  refine h1.trans (List.Perm.of_eq ?_)
  congr 1
  exact List.filter_congr (fun y _ => by by_cases h : y = x <;> simp [h])

theorem sum_filter_ne {l : List Nat} (hn : l.Nodup) {x : Nat} (hx : x ∈ l) (f : Nat → K) :
    (l.map f).sum = f x + ((l.filter (· ≠ x)).map f).sum := by
  have := ((filter_cons_perm hn hx).map f).sum_eq
  rw [this]; simp

/-! ### One merge -/

/-- What a merge of the triangles `tl`, `tr` at the edge `e` does. -/
structure Merged (t u : St K) (e tl tr ql qr : Nat) (col : FData → Int) : Prop where
  wf : WF u
  verts : u.verts = t.verts
  pos : ∀ v, u.pos v = t.pos v
  props : ∀ v, (u.V v).props = (t.V v).props
  intr : u.es .intr = (t.es .intr).filter (· ≠ e)
  others : ∀ l, l ≠ .intr → u.es l = t.es l
  tris : u.tris = (t.tris.filter (· ≠ tl)).filter (· ≠ tr)
  quads : u.quads = t.quads ++ [t.nxt]
  F : ∀ f, f ≠ .quad t.nxt → u.F f = t.F f
  Fq : u.F (.quad t.nxt) = ⟨[ql, (t.E e).v1, qr, (t.E e).v2], [.null, .null, .null, .null], t.newColor (col (t.F (.tri tl))), true⟩
  E : ∀ x ∈ t.es .intr, x ≠ e → u.E x = if (∃ ab ∈ [(ql, (t.E e).v1), ((t.E e).v1, qr), (qr, (t.E e).v2), ((t.E e).v2, ql)],
    ((t.E x).v1 = ab.1 ∧ (t.E x).v2 = ab.2) ∨ ((t.E x).v2 = ab.1 ∧ (t.E x).v1 = ab.2)) then
      redir (.tri tl) (.tri tr) (.quad t.nxt) (t.E x) else t.E x
  ends : ∀ x, (u.E x).v1 = (t.E x).v1 ∧ (u.E x).v2 = (t.E x).v2 ∧ (u.E x).list = (t.E x).list ∧
    (u.E x).color = (t.E x).color ∧ (u.E x).props = (t.E x).props ∧ (u.E x).twin = (t.E x).twin
  area : u.area = t.area
  color : u.color = t.color

/-- The configuration at a linked edge between two triangles. -/
structure Config (t : St K) (e tl tr ql qr : Nat) : Prop where
  hl : tl ∈ t.tris
  hr : tr ∈ t.tris
  fl : (t.E e).fl = .tri tl
  fr : (t.E e).fr = .tri tr
  rl : Rot3 (t.F (.tri tl)).corners (t.E e).v1 (t.E e).v2 ql
  rr : Rot3 (t.F (.tri tr)).corners (t.E e).v2 (t.E e).v1 qr
  ne : tl ≠ tr
  nd : [ql, (t.E e).v1, qr, (t.E e).v2].Nodup
  pl : 0 < triArea (t.pos (t.E e).v1) (t.pos (t.E e).v2) (t.pos ql)
  pr : 0 < triArea (t.pos (t.E e).v2) (t.pos (t.E e).v1) (t.pos qr)

variable [IsStrictOrderedRing K]

theorem ccw_rot {t : St K} (hc : TrisCCW t) {x a b c : Nat} (hx : x ∈ t.tris) (h : Rot3 (t.F (.tri x)).corners a b c) :
    0 < triArea (t.pos a) (t.pos b) (t.pos c) := by
  have r : ∀ p q r : Pt K, triArea q r p = triArea p q r := by
    intro p q r; unfold triArea Pt.cross; simp only [Pt.sub_x, Pt.sub_y]; ring
  rcases h with h | h | h
  · exact hc x hx _ _ _ h
  · rw [← r]; exact hc x hx _ _ _ h
  · rw [← r, ← r]; exact hc x hx _ _ _ h

theorem merge_step (col : FData → Int) {t : St K} (w : WF t) (hu : UniqueIntr t) (hc : TrisCCW t) {e : Nat}
    (he : e ∈ t.es .intr) (hl : Linked t e) (h3 : ¬ (nVerts t (t.E e).fl > 3 ∨ nVerts t (t.E e).fr > 3)) :
    ∃ tl tr ql qr u, mergeEdge col t e = some u ∧ Config t e tl tr ql qr ∧ Merged t u e tl tr ql qr col := by
  obtain ⟨⟨l1, l2⟩, ⟨r1, r2⟩⟩ := hl
  rw [not_or] at h3
  have isTri : ∀ f, Live t f → ¬ nVerts t f > 3 → ∃ x, f = .tri x ∧ x ∈ t.tris := by
    intro f hf hn
    cases f with
    | null => exact absurd hf (by simp [Live])
    | tri x => exact ⟨x, rfl, hf⟩
    | quad q => exact absurd (w.qcor q hf) (by unfold nVerts at hn; omega)
  obtain ⟨tl, efl, htl⟩ := isTri _ l1 h3.1
  obtain ⟨tr, efr, htr⟩ := isTri _ r1 h3.2
  rw [efl] at l2
  rw [efr] at r2
  obtain ⟨ql, rl, nl, va, vb, vql, il, il1, -, il3⟩ := rot3_of_side w htl l2
  obtain ⟨qr, rr, nr, -, -, vqr, ir, -, ir2, ir3⟩ := rot3_of_side w htr r2
  have pl := ccw_rot hc htl rl
  have pr := ccw_rot hc htr rr
  have hq : ql ≠ qr := by
    rintro rfl
    have : triArea (t.pos (t.E e).v2) (t.pos (t.E e).v1) (t.pos ql) = - triArea (t.pos (t.E e).v1) (t.pos (t.E e).v2) (t.pos ql) := by
      unfold triArea Pt.cross; simp only [Pt.sub_x, Pt.sub_y]; ring
    rw [this] at pr; linarith
  have hne : tl ≠ tr := by
    rintro rfl
    have := (rot3_side rl _ _).mp r2
    simp at this nl
    omega
  have nd : [ql, (t.E e).v1, qr, (t.E e).v2].Nodup := by
    simp at nl nr ⊢; refine ⟨⟨?_, ?_, ?_⟩, ⟨?_, ?_⟩, ?_⟩ <;> omega
  refine ⟨tl, tr, ql, qr, (([(ql, (t.E e).v1), ((t.E e).v1, qr), (qr, (t.E e).v2), ((t.E e).v2, ql)].foldl
      (redirect (.tri tl) (.tri tr) (.quad (t.removeIntr e).nxt))
      (((t.removeIntr e).addQuad ql (t.E e).v1 qr (t.E e).v2 (col (t.F (.tri tl)))).activate (.quad (t.removeIntr e).nxt))).removeTri
        tl).removeTri tr, ?_, ⟨htl, htr, efl, efr, rl, rr, hne, nd, pl, pr⟩, ?_⟩
  · unfold mergeEdge
    dsimp only
    rw [if_neg (by rw [not_or]; exact h3), efl, efr, il1, ir2]
    dsimp only
    rw [il3, ir3]
    rfl
  · generalize hs1 : t.removeIntr e = s1
    have hlist := ((w.ends _).2 e he).1
    have hr : t.removeIntr e = t.removeEdge e := by unfold removeIntr; rw [hlist]; simp
    have w1 : WF s1 := by rw [← hs1, hr]; exact wf_removeEdge w e ((liveE_iff w.toSound e).mpr ⟨_, he⟩)
    have es1 : ∀ l, s1.es l = if l = .intr then (t.es l).filter (· ≠ e) else t.es l := by
      intro l; rw [← hs1, hr]; simp only [removeEdge, hlist, upd]
    have E1 : s1.E = t.E := by rw [← hs1, hr]; rfl
    have F1 : s1.F = t.F := by rw [← hs1, hr]; rfl
    have x1 : s1.nxt = t.nxt ∧ s1.verts = t.verts ∧ s1.tris = t.tris ∧ s1.quads = t.quads ∧ s1.area = t.area ∧ s1.color = t.color := by
      rw [← hs1, hr]; exact ⟨rfl, rfl, rfl, rfl, rfl, rfl⟩
    obtain ⟨n1, v1', t1, q1, a1, c1⟩ := x1
    have P1 : ∀ v, s1.pos v = t.pos v ∧ (s1.V v).props = (t.V v).props := by
      intro v; rw [← hs1, hr]; simp only [pos, removeEdge, upd]; split_ifs <;> exact ⟨rfl, rfl⟩
    generalize ha : (t.E e).v1 = a at *
    generalize hb : (t.E e).v2 = b at *
    generalize hs2 : (s1.addQuad ql a qr b (col (t.F (.tri tl)))).activate (.quad s1.nxt) = s2
    have w2 : WF s2 := by
      rw [← hs2]
      refine wf_activate (wf_addQuad w1 _ ?_ ?_ ?_ ?_ nd) _ <;> rw [v1'] <;> assumption
    have es2 : s2.es = s1.es ∧ s2.E = s1.E ∧ s2.verts = s1.verts ∧ s2.tris = s1.tris ∧ s2.quads = s1.quads ++ [s1.nxt] ∧
        s2.area = s1.area ∧ s2.color = s1.color := by
      rw [← hs2]; exact ⟨rfl, rfl, rfl, rfl, rfl, rfl, rfl⟩
    obtain ⟨es2, E2, v2', t2, q2, a2, c2⟩ := es2
    have F2 : ∀ f, f ≠ .quad t.nxt → s2.F f = t.F f := by
      intro f hf
      rw [← hs2]
      simp [activate, addQuad, upd, n1, hf, F1]
    have F2q : s2.F (.quad t.nxt) = ⟨[ql, a, qr, b], [.null, .null, .null, .null], t.newColor (col (t.F (.tri tl))), true⟩ := by
      rw [← hs2]
      simp [activate, addQuad, upd, n1, newColor, c1]
    have P2 : ∀ v, s2.pos v = s1.pos v ∧ (s2.V v).props = (s1.V v).props ∧ (s2.V v).edges = (s1.V v).edges := by
      intro v
      rw [← hs2]
      simp only [pos, activate, addQuad, regFacet_apply _ _ _ _ nd]
      split_ifs <;> exact ⟨rfl, rfl, rfl⟩
    obtain ⟨b3, F3, E3⟩ := redirectFold (fl := .tri tl) (fr := .tri tr) (q := .quad s1.nxt) (by simp) (by simp)
      [(ql, a), (a, qr), (qr, b), (b, ql)] s2
    generalize hs3 : [(ql, a), (a, qr), (qr, b), (b, ql)].foldl (redirect (.tri tl) (.tri tr) (.quad s1.nxt)) s2 = s3 at b3 F3 E3
    have w3 := sbp_wf b3 w2
    change Merged t ((s3.removeTri tl).removeTri tr) e tl tr ql qr col
    have unreg : ∀ (u : St K) x v, (u.removeTri x).pos v = u.pos v ∧ ((u.removeTri x).V v).props = (u.V v).props := by
      intro u x v
      simp only [pos, removeTri, unregFacet_apply]
      split_ifs <;> exact ⟨rfl, rfl⟩
    refine ⟨wf_removeTri (wf_removeTri w3 tl) tr, ?_, ?_, ?_, ?_, ?_, ?_, ?_, ?_, ?_, ?_, ?_, ?_, ?_⟩
    · change s3.verts = _; rw [b3.verts, v2', v1']
    · intro v; rw [(unreg _ _ v).1, (unreg _ _ v).1, sbp_pos b3, (P2 v).1, (P1 v).1]
    · intro v; rw [(unreg _ _ v).2, (unreg _ _ v).2, b3.V, (P2 v).2.1, (P1 v).2]
    · change s3.es .intr = _; rw [b3.es, es2, es1, if_pos rfl]
    · intro l hl; change s3.es l = _; rw [b3.es, es2, es1, if_neg hl]
    · change (s3.tris.filter (· ≠ tl)).filter (· ≠ tr) = _; rw [b3.tris, t2, t1]
    · change s3.quads = _; rw [b3.quads, q2, q1, n1]
    · intro f hf; change s3.F f = _; rw [F3, F2 f hf]
    · change s3.F _ = _; rw [F3, F2q, ha, hb]
    · intro x hx hxe
      change s3.E x = _
      rw [E3, E2, E1, n1, ha, hb]
      have hmem : x ∈ s2.es .intr := by
        rw [es2, es1, if_pos rfl, List.mem_filter]; exact ⟨hx, by simp [hxe]⟩
      have hiff : ∀ c d, c ∈ t.verts → (s2.getEdge .intr c d = some x ↔
          ((t.E x).v1 = c ∧ (t.E x).v2 = d) ∨ ((t.E x).v2 = c ∧ (t.E x).v1 = d)) := by
        intro c d hcv
        have hcv2 : c ∈ s2.verts := by rw [v2', v1']; exact hcv
        constructor
        · intro hg
          have := (getEdge_some w2 hcv2 hg).2
          rwa [E2, E1] at this
        · intro hcd
          cases hg : s2.getEdge .intr c d with
          | none =>
            refine absurd ?_ (getEdge_none w2 hcv2 hg x hmem)
            rw [E2, E1]; exact hcd
          | some y =>
            obtain ⟨g1, g2⟩ := getEdge_some w2 hcv2 hg
            rw [es2, es1, if_pos rfl, List.mem_filter] at g1
            rw [E2, E1] at g2
            congr 1
            refine hu y g1.1 x hx ?_
            rcases hcd with ⟨p, q⟩ | ⟨p, q⟩ <;> rcases g2 with ⟨p', q'⟩ | ⟨p', q'⟩ <;> subst p q <;> tauto
      have : (∃ ab ∈ [(ql, a), (a, qr), (qr, b), (b, ql)], s2.getEdge .intr ab.1 ab.2 = some x) ↔
          ∃ ab ∈ [(ql, a), (a, qr), (qr, b), (b, ql)], ((t.E x).v1 = ab.1 ∧ (t.E x).v2 = ab.2) ∨ ((t.E x).v2 = ab.1 ∧ (t.E x).v1 = ab.2) := by
        simp only [List.mem_cons, List.not_mem_nil, or_false, exists_eq_or_imp, exists_eq_left]
        rw [hiff _ _ vql, hiff _ _ va, hiff _ _ vqr, hiff _ _ vb]
      simp only [this]
    · intro x
      have := b3.ends x
      rw [E2, E1] at this
      exact this
    · change s3.area = _; rw [b3.area, a2, a1]
    · change s3.color = _; rw [b3.color, c2, c1]

/-! ### Consequences of one merge -/

section
variable {t u : St K} {e tl tr ql qr : Nat} {col : FData → Int}

theorem merged_live (w : WF t) (hm : Merged t u e tl tr ql qr col) (f : FRef) :
    Live u f ↔ (Live t f ∧ f ≠ .tri tl ∧ f ≠ .tri tr) ∨ f = .quad t.nxt := by
  cases f with
  | null => simp [Live]
  | tri x => simp [Live, hm.tris, and_assoc]; intro _; exact and_comm
  | quad q => simp [Live, hm.quads]

theorem live_ne_new (w : WF t) {f : FRef} (hf : Live t f) : f ≠ .quad t.nxt := by
  rintro rfl; exact lt_irrefl _ (w.qlt _ hf)

theorem merged_side (w : WF t) (hm : Merged t u e tl tr ql qr col) {f : FRef} (hf : Live t f) (a b : Nat) :
    HasSide u f a b ↔ HasSide t f a b := by
  unfold HasSide; rw [hm.F f (live_ne_new w hf)]

theorem merged_qside (hm : Merged t u e tl tr ql qr col) (a b : Nat) : HasSide u (.quad t.nxt) a b ↔
    (a, b) = (ql, (t.E e).v1) ∨ (a, b) = ((t.E e).v1, qr) ∨ (a, b) = (qr, (t.E e).v2) ∨ (a, b) = ((t.E e).v2, ql) :=
  quad_side (by rw [hm.Fq]) a b

/-- The facet that takes the place of `f`. -/
def succF (t : St K) (tl tr : Nat) (f : FRef) : FRef := if f = .tri tl ∨ f = .tri tr then .quad t.nxt else f

theorem succF_side (w : WF t) (hcf : Config t e tl tr ql qr) (hm : Merged t u e tl tr ql qr col) {f : FRef} (hf : Live t f)
    {a b : Nat} (hs : HasSide t f a b) (hne : ¬ Connects t e a b) :
    Live u (succF t tl tr f) ∧ HasSide u (succF t tl tr f) a b := by
  unfold succF
  by_cases h1 : f = .tri tl
  · subst h1
    rw [if_pos (Or.inl rfl)]
    refine ⟨(merged_live w hm _).mpr (Or.inr rfl), (merged_qside hm a b).mpr ?_⟩
    rcases (rot3_side hcf.rl a b).mp hs with h | h | h <;> cases h
    · exact absurd (Or.inl ⟨rfl, rfl⟩) hne
    · simp
    · simp
  · by_cases h2 : f = .tri tr
    · subst h2
      rw [if_pos (Or.inr rfl)]
      refine ⟨(merged_live w hm _).mpr (Or.inr rfl), (merged_qside hm a b).mpr ?_⟩
      rcases (rot3_side hcf.rr a b).mp hs with h | h | h <;> cases h
      · exact absurd (Or.inr ⟨rfl, rfl⟩) hne
      · simp
      · simp
    · rw [if_neg (by simp [h1, h2])]
      exact ⟨(merged_live w hm f).mpr (Or.inl ⟨hf, h1, h2⟩), (merged_side w hm hf a b).mpr hs⟩

/-- A side of the new quad comes from one of the triangles and does not connect the ends of `e`. -/
theorem qside_old (hcf : Config t e tl tr ql qr) (hm : Merged t u e tl tr ql qr col) {a b : Nat} (hs : HasSide u (.quad t.nxt) a b) :
    (HasSide t (.tri tl) a b ∨ HasSide t (.tri tr) a b) ∧ ¬ Connects t e a b := by
  have nd := hcf.nd
  simp at nd
  have h1 := rot3_side hcf.rl a b
  have h2 := rot3_side hcf.rr a b
  rcases (merged_qside hm a b).mp hs with h | h | h | h <;> cases h
  · exact ⟨Or.inl (h1.mpr (by simp)), by unfold Connects; omega⟩
  · exact ⟨Or.inr (h2.mpr (by simp)), by unfold Connects; omega⟩
  · exact ⟨Or.inr (h2.mpr (by simp)), by unfold Connects; omega⟩
  · exact ⟨Or.inl (h1.mpr (by simp)), by unfold Connects; omega⟩

theorem merged_covered (w : WF t) (hd : DirUnique t) (hcf : Config t e tl tr ql qr) (hm : Merged t u e tl tr ql qr col) (a b : Nat) :
    Covered u a b ↔ Covered t a b ∧ ¬ Connects t e a b := by
  constructor
  · rintro ⟨f, hf, hs⟩
    rcases (merged_live w hm f).mp hf with ⟨h1, h2, h3⟩ | rfl
    · rw [merged_side w hm h1] at hs
      refine ⟨⟨f, h1, hs⟩, ?_⟩
      rintro (⟨rfl, rfl⟩ | ⟨rfl, rfl⟩)
      · exact h2 (hd _ _ _ _ h1 hcf.hl hs ((rot3_side hcf.rl _ _).mpr (Or.inl rfl)))
      · exact h3 (hd _ _ _ _ h1 hcf.hr hs ((rot3_side hcf.rr _ _).mpr (Or.inl rfl)))
    · obtain ⟨h1, h2⟩ := qside_old hcf hm hs
      rcases h1 with h1 | h1
      · exact ⟨⟨.tri tl, hcf.hl, h1⟩, h2⟩
      · exact ⟨⟨.tri tr, hcf.hr, h1⟩, h2⟩
  · rintro ⟨⟨f, hf, hs⟩, hne⟩
    exact ⟨_, succF_side w hcf hm hf hs hne⟩

theorem merged_dir (w : WF t) (hd : DirUnique t) (hcf : Config t e tl tr ql qr) (hm : Merged t u e tl tr ql qr col) : DirUnique u := by
  have key : ∀ f a b, Live t f → f ≠ .tri tl → f ≠ .tri tr → HasSide t f a b → ¬ HasSide u (.quad t.nxt) a b := by
    intro f a b hf h1 h2 hs hq
    rcases (qside_old hcf hm hq).1 with h | h
    · exact h1 (hd _ _ _ _ hf hcf.hl hs h)
    · exact h2 (hd _ _ _ _ hf hcf.hr hs h)
  intro f g a b hf hg h1 h2
  rcases (merged_live w hm f).mp hf with ⟨f1, f2, f3⟩ | rfl <;> rcases (merged_live w hm g).mp hg with ⟨g1, g2, g3⟩ | rfl
  · rw [merged_side w hm f1] at h1
    rw [merged_side w hm g1] at h2
    exact hd f g a b f1 g1 h1 h2
  · rw [merged_side w hm f1] at h1
    exact absurd h2 (key f a b f1 f2 f3 h1)
  · rw [merged_side w hm g1] at h2
    exact absurd h1 (key g a b g1 g2 g3 h2)
  · rfl

theorem merged_unique (hu : UniqueIntr t) (hm : Merged t u e tl tr ql qr col) : UniqueIntr u := by
  intro x hx y hy h
  rw [hm.intr] at hx hy
  obtain ⟨x1, x2, -⟩ := hm.ends x
  obtain ⟨y1, y2, -⟩ := hm.ends y
  rw [x1, x2, y1, y2] at h
  exact hu x (List.mem_filter.mp hx).1 y (List.mem_filter.mp hy).1 h

theorem merged_ccw (w : WF t) (hc : TrisCCW t) (hm : Merged t u e tl tr ql qr col) : TrisCCW u := by
  intro x hx a b c hcs
  rw [hm.tris] at hx
  rw [hm.F _ (by simp)] at hcs
  simp only [hm.pos]
  exact hc x (List.mem_filter.mp (List.mem_filter.mp hx).1).1 a b c hcs

theorem merged_linked (w : WF t) (hu : UniqueIntr t) (he : e ∈ t.es .intr) (hcf : Config t e tl tr ql qr)
    (hm : Merged t u e tl tr ql qr col) {x : Nat} (hx : x ∈ t.es .intr) (hxe : x ≠ e) (hl : Linked t x) : Linked u x := by
  have hne1 : ¬ Connects t e (t.E x).v1 (t.E x).v2 := by
    rintro (⟨p, q⟩ | ⟨p, q⟩)
    · exact hxe (hu x hx e he (Or.inl ⟨p.symm, q.symm⟩))
    · exact hxe (hu x hx e he (Or.inr ⟨q.symm, p.symm⟩))
  have hne2 : ¬ Connects t e (t.E x).v2 (t.E x).v1 := fun h => hne1 h.symm
  have hE := hm.E x hx hxe
  obtain ⟨⟨l1, l2⟩, ⟨r1, r2⟩⟩ := hl
  obtain ⟨x1, x2, -⟩ := hm.ends x
  have sides : ∀ f a b, Live t f → HasSide t f a b → ¬ Connects t e a b → f = .tri tl ∨ f = .tri tr →
      (a, b) ∈ [(ql, (t.E e).v1), ((t.E e).v1, qr), (qr, (t.E e).v2), ((t.E e).v2, ql)] := by
    intro f a b hf hs hne hh
    have := (succF_side w hcf hm hf hs hne).2
    unfold succF at this
    rw [if_pos hh] at this
    have := (merged_qside hm a b).mp this
    simpa using this
  have hfl : (u.E x).fl = succF t tl tr (t.E x).fl := by
    rw [hE]
    unfold succF
    by_cases hh : (t.E x).fl = .tri tl ∨ (t.E x).fl = .tri tr
    · have := sides _ _ _ l1 l2 hne1 hh
      rw [if_pos ⟨_, this, Or.inl ⟨rfl, rfl⟩⟩]
      rfl
    · rw [if_neg hh]
      split_ifs
      · simp [redir, hh]
      · rfl
  have hfr : (u.E x).fr = succF t tl tr (t.E x).fr := by
    rw [hE]
    unfold succF
    by_cases hh : (t.E x).fr = .tri tl ∨ (t.E x).fr = .tri tr
    · have := sides _ _ _ r1 r2 hne2 hh
      rw [if_pos ⟨_, this, Or.inr ⟨rfl, rfl⟩⟩]
      rfl
    · rw [if_neg hh]
      split_ifs
      · simp [redir, hh]
      · rfl
  unfold Linked
  rw [hfl, hfr, x1, x2]
  exact ⟨succF_side w hcf hm l1 l2 hne1, succF_side w hcf hm r1 r2 hne2⟩

theorem merged_fArea (hm : Merged t u e tl tr ql qr col) {f : FRef} (hf : f ≠ .quad t.nxt) : u.fArea f = t.fArea f := by
  unfold fArea; rw [hm.F f hf]; simp only [hm.pos]

theorem merged_area (w : WF t) (hcf : Config t e tl tr ql qr) (hm : Merged t u e tl tr ql qr col) : meshArea u = meshArea t := by
  unfold meshArea
  rw [hm.tris, hm.quads]
  have e1 : ∀ l : List Nat, l.map (fun t => u.fArea (.tri t)) = l.map fun x => t.fArea (.tri x) :=
    fun l => List.map_congr_left fun x _ => merged_fArea hm (by simp)
  have e2 : t.quads.map (fun t => u.fArea (.quad t)) = t.quads.map fun x => t.fArea (.quad x) :=
    List.map_congr_left fun x hx => merged_fArea hm (by
      have := w.qlt x hx
      simp; omega)
  rw [e1, List.map_append, List.sum_append, e2]
  rw [sum_filter_ne w.tnd hcf.hl, sum_filter_ne (w.tnd.filter _) (x := tr) (by
    rw [List.mem_filter]; exact ⟨hcf.hr, by simp [hcf.ne.symm]⟩)]
  have : u.fArea (.quad t.nxt) = t.fArea (.tri tl) + t.fArea (.tri tr) := by
    rw [rot3_area hcf.rl, rot3_area hcf.rr]
    unfold fArea
    rw [hm.Fq]
    simp only [hm.pos]
    unfold quadArea triArea Pt.cross
    simp only [Pt.sub_x, Pt.sub_y]
    ring
  simp only [List.map_cons, List.map_nil, List.sum_cons, List.sum_nil, this]
  ring

end

/-! ### The loop -/

/-- Invariant of the loop. -/
structure MInv (col : FData → Int) (s t : St K) (done rest : List Nat) : Prop where
  wf : WF t
  uniq : UniqueIntr t
  dir : DirUnique t
  ccw : TrisCCW t
  linked : ∀ e ∈ rest, e ∈ t.es .intr ∧ Linked t e
  nxt : t.nxt = s.nxt + (t.quads.length - s.quads.length) ∨ s.nxt ≤ t.nxt
  color : t.color = s.color
  F : ∀ x, t.F (.tri x) = s.F (.tri x)
  done : ∀ e ∈ done, e ∈ t.es .intr → ∃ q ∈ t.quads, Touches t (.quad q) (t.E e).v1 (t.E e).v2
  nulls : ∀ q ∈ t.quads, q ∈ s.quads ∨ (t.F (.quad q)).nbrs = [.null, .null, .null, .null]
  merged : PairsMerged col s t

theorem minv_start {col : FData → Int} {s : St K} (w : WF s) (hu : UniqueIntr s) (hd : DirUnique s) (hc : TrisCCW s) {l : List Nat}
    (hl : ∀ e ∈ l, e ∈ s.es .intr ∧ Linked s e) : MInv col s s [] l where
  wf := w
  uniq := hu
  dir := hd
  ccw := hc
  linked := hl
  nxt := Or.inr (le_refl _)
  color := rfl
  F := fun _ => rfl
  done := by simp
  nulls := fun _ h => Or.inl h
  merged :=
    { verts := rfl
      vdata := fun _ => ⟨rfl, rfl⟩
      lists := fun _ _ => rfl
      edata := fun _ => ⟨rfl, rfl, rfl, rfl⟩
      intr := List.Sublist.refl _
      nEdges := rfl
      nElems := rfl
      area := rfl
      tris := ⟨List.Sublist.refl _, fun _ _ => rfl⟩
      oldQuads := fun _ _ => rfl
      newQuads := ⟨[], by simp, by simp⟩
      sides := fun a b => ⟨fun h => ⟨h, fun ⟨e, h1, h2, _⟩ => h2 h1⟩, fun h => h.1⟩ }

theorem minv_step {col : FData → Int} {s t : St K} {done rest : List Nat} {e : Nat} (hs : WF s) (hi : MInv col s t done (e :: rest))
    (hn : e ∉ rest) : ∃ u, mergeEdge col t e = some u ∧ MInv col s u (done ++ [e]) rest := by
  obtain ⟨he, hl⟩ := hi.linked e (by simp)
  by_cases h3 : nVerts t (t.E e).fl > 3 ∨ nVerts t (t.E e).fr > 3
  · refine ⟨t, by unfold mergeEdge; dsimp only; rw [if_pos h3],
      { hi with linked := fun x hx => hi.linked x (by simp [hx]), done := ?_ }⟩
    intro x hx hxi
    rcases List.mem_append.mp hx with hx | hx
    · exact hi.done x hx hxi
    · rw [List.mem_singleton] at hx
      subst hx
      have isQ : ∀ f, Live t f → nVerts t f > 3 → ∃ q, f = .quad q ∧ q ∈ t.quads := by
        intro f hf hn
        cases f with
        | null => exact absurd hf (by simp [Live])
        | tri x => exact absurd (hi.wf.tcor x hf) (by unfold nVerts at hn; omega)
        | quad q => exact ⟨q, rfl, hf⟩
      rcases h3 with h3 | h3
      · obtain ⟨q, q1, q2⟩ := isQ _ hl.1.1 h3
        exact ⟨q, q2, Or.inl (q1 ▸ hl.1.2)⟩
      · obtain ⟨q, q1, q2⟩ := isQ _ hl.2.1 h3
        exact ⟨q, q2, Or.inr (q1 ▸ hl.2.2)⟩
  · obtain ⟨tl, tr, ql, qr, u, hu, hcf, hm⟩ := merge_step col hi.wf hi.uniq hi.ccw he hl h3
    have p := hi.merged
    refine ⟨u, hu, ?_⟩
    have hnd := (hi.wf.ends .intr).1
    have ub : ∀ x, x ∈ u.es .intr ↔ x ∈ t.es .intr ∧ x ≠ e := by
      intro x; rw [hm.intr, List.mem_filter]; simp
    have lenI : (u.es .intr).length + 1 = (t.es .intr).length := by
      have := (filter_cons_perm hnd he).length_eq
      rw [hm.intr]; simp at this ⊢; omega
    have lenT : u.tris.length + 2 = t.tris.length := by
      have h1 := (filter_cons_perm hi.wf.tnd hcf.hl).length_eq
      have h2 := (filter_cons_perm (hi.wf.tnd.filter (· ≠ tl)) (x := tr) (by
        rw [List.mem_filter]; exact ⟨hcf.hr, by simp [hcf.ne.symm]⟩)).length_eq
      rw [hm.tris]; simp only [List.length_cons] at h1 h2; omega
    have qsub : ∀ q ∈ s.quads, q ∈ t.quads := by
      obtain ⟨new, hnew, -⟩ := p.newQuads
      intro q hq; rw [hnew]; exact List.mem_append_left _ hq
    refine { wf := hm.wf, uniq := merged_unique hi.uniq hm, dir := merged_dir hi.wf hi.dir hcf hm, ccw := merged_ccw hi.wf hi.ccw hm,
             linked := ?_, nxt := ?_, color := hm.color.trans hi.color, F := fun x => (hm.F _ (by simp)).trans (hi.F x), done := ?_, nulls := ?_, merged := ?_ }
    · intro x hx
      have hxe : x ≠ e := fun hh => hn (hh ▸ hx)
      obtain ⟨h1, h2⟩ := hi.linked x (by simp [hx])
      exact ⟨(ub x).mpr ⟨h1, hxe⟩, merged_linked hi.wf hi.uniq he hcf hm h1 hxe h2⟩
    · right
      have h1 := hm.wf.qlt t.nxt (by rw [hm.quads]; simp)
      rcases hi.nxt with h | h <;> omega
    · intro x hx hxi
      obtain ⟨x1, x2, -⟩ := hm.ends x
      rw [ub] at hxi
      rcases List.mem_append.mp hx with hx | hx
      · obtain ⟨q, q1, q2⟩ := hi.done x hx hxi.1
        refine ⟨q, by rw [hm.quads]; exact List.mem_append_left _ q1, ?_⟩
        rw [x1, x2]
        unfold Touches at q2 ⊢
        rwa [merged_side hi.wf hm (show Live t (.quad q) from q1), merged_side hi.wf hm (show Live t (.quad q) from q1)]
      · rw [List.mem_singleton] at hx; exact absurd hx hxi.2
    · intro q hq
      rw [hm.quads] at hq
      rcases List.mem_append.mp hq with hq | hq
      · rw [hm.F (.quad q) (live_ne_new hi.wf (show Live t (.quad q) from hq))]; exact hi.nulls q hq
      · rw [List.mem_singleton] at hq; subst hq; right; rw [hm.Fq]
    · refine { verts := hm.verts.trans p.verts, vdata := fun v => ⟨(hm.pos v).trans (p.vdata v).1, (hm.props v).trans (p.vdata v).2⟩,
               lists := fun l h => (hm.others l h).trans (p.lists l h), edata := fun x => ?_, intr := ?_, nEdges := ?_, nElems := ?_,
               area := (merged_area hi.wf hcf hm).trans p.area, tris := ⟨?_, fun x hx => (hm.F _ (by simp)).trans (hi.F x)⟩,
               oldQuads := ?_, newQuads := ?_, sides := ?_ }
      · obtain ⟨a1, a2, -, a4, a5, -⟩ := hm.ends x
        obtain ⟨b1, b2, b3, b4⟩ := p.edata x
        exact ⟨a1.trans b1, a2.trans b2, a4.trans b3, a5.trans b4⟩
      · rw [hm.intr]; exact List.filter_sublist.trans p.intr
      · have := p.nEdges; rw [hm.quads]; simp; omega
      · have := p.nElems; rw [hm.quads]; simp; omega
      · rw [hm.tris]; exact List.filter_sublist.trans (List.filter_sublist.trans p.tris.1)
      · intro q hq
        rw [hm.F (.quad q) (live_ne_new hi.wf (show Live t (.quad q) from qsub q hq))]
        exact p.oldQuads q hq
      · obtain ⟨new, hnew, hprop⟩ := p.newQuads
        refine ⟨new ++ [t.nxt], by rw [hm.quads, hnew, List.append_assoc], ?_⟩
        intro q hq
        rcases List.mem_append.mp hq with hq | hq
        · obtain ⟨a, b, c, d, x, y, h1, h1', h2, h3, h4, h5, h6, h7, h8, h9, h10, h11, h12⟩ := hprop q hq
          have hF : u.F (.quad q) = t.F (.quad q) := hm.F _ (live_ne_new hi.wf (show Live t (.quad q) by
            change q ∈ t.quads; rw [hnew]; exact List.mem_append_right _ hq))
          rw [hF]
          have sub : ∀ x, x ∉ t.tris → x ∉ u.tris := by
            intro x hx hxu
            rw [hm.tris] at hxu
            exact hx (List.mem_filter.mp (List.mem_filter.mp hxu).1).1
          exact ⟨a, b, c, d, x, y, h1, h1', h2, h3, h4, h5, sub _ h6, sub _ h7, h8, h9, h10, h11, h12⟩
        · rw [List.mem_singleton] at hq
          subst hq
          have tm : ∀ x, x ∈ t.tris → x ∈ s.tris := fun x hx => p.tris.1.subset hx
          refine ⟨ql, (t.E e).v1, qr, (t.E e).v2, tl, tr, by rw [hm.Fq], by rw [hm.Fq], hcf.nd, tm _ hcf.hl, tm _ hcf.hr, hcf.ne, ?_, ?_, ?_, ?_, ?_, ?_, ?_⟩
          · rw [hm.tris]; simp
          · rw [hm.tris]; simp
          · unfold TriIs; rw [← hi.F tl]; exact hcf.rl
          · unfold TriIs; rw [← hi.F tr]; exact hcf.rr
          · have := hcf.pl; simp only [(p.vdata _).1] at this; exact this
          · have := hcf.pr; simp only [(p.vdata _).1] at this; exact this
          · rw [hm.Fq, ← hi.F tl]; unfold newColor; rw [hi.color]
      · intro a b
        rw [merged_covered hi.wf hi.dir hcf hm, p.sides]
        have hco : ∀ x, Connects t x a b ↔ Connects s x a b := by
          intro x; unfold Connects; rw [(p.edata x).1, (p.edata x).2.1]
        constructor
        · rintro ⟨⟨h1, h2⟩, h3⟩
          refine ⟨h1, ?_⟩
          rintro ⟨x, x1, x2, x3⟩
          by_cases hxt : x ∈ t.es .intr
          · have : x = e := by
              by_contra hne; exact x2 ((ub x).mpr ⟨hxt, hne⟩)
            subst this
            exact h3 ((hco x).mpr x3)
          · exact h2 ⟨x, x1, hxt, x3⟩
        · rintro ⟨h1, h2⟩
          refine ⟨⟨h1, ?_⟩, ?_⟩
          · rintro ⟨x, x1, x2, x3⟩
            exact h2 ⟨x, x1, fun hx => x2 ((ub x).mp hx).1, x3⟩
          · intro h3
            exact h2 ⟨e, p.intr.subset he, fun hx => ((ub e).mp hx).2 rfl, (hco e).mp h3⟩

theorem minv_loop {col : FData → Int} {s : St K} (hs : WF s) : ∀ (rest done : List Nat) (t : St K), MInv col s t done rest → rest.Nodup →
    ∃ u, mergeTriangles col rest t = some u ∧ MInv col s u (done ++ rest) [] := by
  intro rest
  induction rest with
  | nil => intro done t hi _; exact ⟨t, rfl, by simpa using hi⟩
  | cons e rest ih =>
    intro done t hi hn
    rw [List.nodup_cons] at hn
    obtain ⟨u, h1, h2⟩ := minv_step hs hi hn.1
    obtain ⟨v, h3, h4⟩ := ih (done ++ [e]) u h2 hn.2
    exact ⟨v, by simp only [mergeTriangles, h1, Option.bind_some, h3], by simpa using h4⟩

end TQ.MC

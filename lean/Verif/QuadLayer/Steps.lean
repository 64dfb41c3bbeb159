import Verif.QuadLayer.Lemmas

/-! # Lemmas on quad layers: wedges, quads and splits -/

set_option linter.unusedSectionVars false

namespace TQ.QL
open TQ.MS TQ.MeshSpec TQ.FUSpec TQ.MCSpec TQ.QLSpec TQ.FU MS.St
variable {K : Type*} [Field K] [LinearOrder K] [IsStrictOrderedRing K]

theorem kept_gap2 {L : LEnv K} {s s1 : St K} (h : WF s) {a b c e1 e2 : Nat} {p : Pt K} (hn : [a, b, c].Nodup)
    (ha : a ∈ s.verts) (hb : b ∈ s.verts) (hc : c ∈ s.verts)
    (hs1 : s1 = ((s.addVertex p).addTri a b s.nxt (-1)).addTri b c s.nxt (-1))
    (v1 : triangleIsValid L.env s1 (s.nxt + 1) a b s.nxt = true) (v2 : triangleIsValid L.env s1 (s.nxt + 2) b c s.nxt = true)
    (g1 : s1.getEdge .front a b = some e1) (g2 : (advanceFront s1 e1 s.nxt (s.nxt + 1)).getEdge .front b c = some e2)
    (good1 : GoodEntry ⟨pairs s .front, a, b, s.nxt⟩)
    (good2 : GoodEntry ⟨pairs (advanceFront s1 e1 s.nxt (s.nxt + 1)) .front, b, c, s.nxt⟩) :
    Kept s [.tri ⟨pairs s .front, a, b, s.nxt⟩ (advanceFront s1 e1 s.nxt (s.nxt + 1)),
        .tri ⟨pairs (advanceFront s1 e1 s.nxt (s.nxt + 1)) .front, b, c, s.nxt⟩
          (advanceFront (advanceFront s1 e1 s.nxt (s.nxt + 1)) e2 s.nxt (s.nxt + 2))]
      (advanceFront (advanceFront s1 e1 s.nxt (s.nxt + 1)) e2 s.nxt (s.nxt + 2)) := by
  obtain ⟨x1, x2, x3⟩ := good1
  obtain ⟨y1, y2, y3⟩ := good2
  dsimp only at x1 x2 x3 y1 y2 y3
  have hn' := hn
  simp only [List.nodup_cons, List.mem_cons, List.not_mem_nil, or_false, not_or] at hn
  have na : a ≠ s.nxt := Nat.ne_of_lt (h.vlt a ha)
  have nb : b ≠ s.nxt := Nat.ne_of_lt (h.vlt b hb)
  have nc : c ≠ s.nxt := Nat.ne_of_lt (h.vlt c hc)
  have k0 := kept_addVertex h p
  have vm : s.nxt ∈ (s.addVertex p).verts := by simp [addVertex]
  have k1 : WF ((s.addVertex p).addTri a b s.nxt (-1)) := by
    refine wf_addTri k0.wf (-1) (List.mem_append_left _ ha) (List.mem_append_left _ hb) vm ?_
    simp only [List.nodup_cons, List.mem_cons, List.not_mem_nil, or_false, not_or]
    exact ⟨⟨hn.1.1, na⟩, nb, not_false, List.nodup_nil⟩
  have k2 : WF (((s.addVertex p).addTri a b s.nxt (-1)).addTri b c s.nxt (-1)) := by
    refine wf_addTri k1 (-1) (List.mem_append_left _ hb) (List.mem_append_left _ hc) vm ?_
    simp only [List.nodup_cons, List.mem_cons, List.not_mem_nil, or_false, not_or]
    exact ⟨⟨hn.2.1, nb⟩, nc, not_false, List.nodup_nil⟩
  rw [← hs1] at k2
  have hb1 : b ∈ s1.verts := by rw [hs1]; exact List.mem_append_left _ hb
  have ha1 : a ∈ s1.verts := by rw [hs1]; exact List.mem_append_left _ ha
  have hv1 : s.nxt ∈ s1.verts := by rw [hs1]; exact vm
  have hpr : pairs s1 .front = pairs s .front := by rw [hs1]; rfl
  obtain ⟨he1, d1, d2⟩ := found_dir k2 ha1 (by rw [hpr]; exact x2) (by rw [hpr]; exact x1) g1
  have A1 := advanceFront_spec k2 (s.nxt + 1) he1 (v := s.nxt) hv1 (by rw [d1]; exact Ne.symm na) (by rw [d2]; exact Ne.symm nb)
  generalize hs2 : advanceFront s1 e1 s.nxt (s.nxt + 1) = s2 at *
  obtain ⟨he2, d3, d4⟩ := found_dir A1.wf (by rw [A1.verts]; exact hb1) y2 y1 g2
  have A2 := advanceFront_spec A1.wf (s.nxt + 2) he2 (v := s.nxt) (by rw [A1.verts]; exact hv1) (by rw [d3]; exact Ne.symm nb)
    (by rw [d4]; exact Ne.symm nc)
  generalize hs3 : advanceFront s2 e2 s.nxt (s.nxt + 2) = s3 at *
  have p1 : ∀ v, s1.pos v = (s.addVertex p).pos v := by intro v; rw [hs1, addTri_pos, addTri_pos]
  have hA1 := triArea_pos_of_checkValidity (checkValidity_of_valid v1)
  have hA2 := triArea_pos_of_checkValidity (checkValidity_of_valid v2)
  have m1 : meshArea s1 = meshArea s + triArea (s1.pos a) (s1.pos b) (s1.pos s.nxt) +
      triArea (s1.pos b) (s1.pos c) (s1.pos s.nxt) := by
    have e0 : meshArea (s.addVertex p) = meshArea s := by
      have := k0.area
      have e : (s.addVertex p).area = s.area := rfl
      rw [e] at this; linear_combination -this
    simp only [p1]
    rw [hs1, addTri_area k1, addTri_area k0.wf, e0]
    simp only [addTri_pos]
  have f1 : s1.fArea (.tri (s.nxt + 1)) = triArea (s1.pos a) (s1.pos b) (s1.pos s.nxt) := by
    have : (s1.F (.tri (s.nxt + 1))).corners = [a, b, s.nxt] := by
      rw [hs1]; simp [addTri, addVertex, upd]
    unfold fArea; rw [this]
  have f2 : s2.fArea (.tri (s.nxt + 2)) = triArea (s1.pos b) (s1.pos c) (s1.pos s.nxt) := by
    have : (s1.F (.tri (s.nxt + 2))).corners = [b, c, s.nxt] := by
      rw [hs1]; simp [addTri, addVertex, upd]
    unfold fArea; rw [adv_cor A1, this]
    dsimp only; rw [A1.pos, A1.pos, A1.pos]
  refine ⟨A2.wf, ?_, ?_, ?_, ?_, ?_⟩
  · intro v hv; rw [A2.verts, A1.verts, hs1]; exact List.mem_append_left _ hv
  · intro v hv; rw [A2.pos, A1.pos, p1, addVertex_pos h p hv]
  · intro w hw _
    have r1 := adv_acct k2 A1 (by rw [d1, d2, hpr]; exact x3) w hw
    have r2 := adv_acct A1.wf A2 (by rw [d3, d4]; exact y3) w hw
    have r0 := k0.sum w hw (by intro a b n bd hm; simp at hm)
    have rr : acct w s1 = acct w s + tw w s1 a b s.nxt + tw w s1 b c s.nxt := by
      have q1 : tw w s1 a b s.nxt = tw w (s.addVertex p) a b s.nxt := by unfold tw; simp only [p1]
      have q2 : tw w s1 b c s.nxt = tw w ((s.addVertex p).addTri a b s.nxt (-1)) b c s.nxt := by
        unfold tw; simp only [p1, addTri_pos]
      rw [q1, q2, hs1, addTri_acct k1, addTri_acct k0.wf, r0]
    have q3 : tw w s2 b c s.nxt = tw w s1 b c s.nxt := by unfold tw; simp only [A1.pos]
    rw [d1, d2] at r1
    rw [d3, d4, q3] at r2
    linear_combination r1 + r2 + rr
  · rw [adv_meshArea A1.wf A2, adv_meshArea k2 A1, m1, A2.area, A1.area, f1, f2]
    have : s1.area = s.area := by rw [hs1]; rfl
    rw [this]; ring
  · intro he
    refine adv_elem A1.wf A2 (adv_elem k2 A1 ?_)
    rw [hs1]
    refine addTri_elem k1 ?_ (addTri_elem k0.wf ?_ (k0.elem he))
    · simp only [p1] at hA2; simp only [addTri_pos]; exact hA2
    · simp only [p1] at hA1; exact hA1

/-! ### Two triangles become a quad -/

theorem remove_perm {l : List Nat} (hn : l.Nodup) {t : Nat} (ht : t ∈ l) : l.Perm (t :: l.filter (fun x => decide (x ≠ t))) := by
  have h1 := List.perm_cons_erase ht
  have h2 : l.erase t = l.filter (fun x => decide (x ≠ t)) := by
    rw [hn.erase_eq_filter]
    congr 1
    funext x
    simp [bne, beq_eq_decide]
  rw [← h2]; exact h1

theorem kept_toQuad {s : St K} (h : WF s) {e t1 t2 a b q1 q2 : Nat} (he : e ∈ s.es .intr) (h1 : t1 ∈ s.tris) (h2 : t2 ∈ s.tris)
    (hne : t1 ≠ t2) (c1 : (s.F (.tri t1)).corners = [a, b, q1]) (c2 : (s.F (.tri t2)).corners = [q1, b, q2]) (hq : q2 ≠ a) :
    Kept s [] (toQuad s e t1 t2 a b q2 q1) := by
  have hl : (s.E e).list = .intr := ((h.ends _).2 e he).1
  have hi : s.removeIntr e = s.removeEdge e := by unfold removeIntr; simp [hl]
  have hl' : LiveE s e := by unfold LiveE; rw [hl]; exact he
  have w1 : WF (((s.removeEdge e).removeTri t1).removeTri t2) := wf_removeTri (wf_removeTri (wf_removeEdge h e hl') _) _
  obtain ⟨n1, m1⟩ := h.cor (.tri t1) h1
  obtain ⟨n2, m2⟩ := h.cor (.tri t2) h2
  rw [c1] at n1 m1
  rw [c2] at n2 m2
  simp only [List.nodup_cons, List.mem_cons, List.not_mem_nil, or_false, not_or] at n1 n2
  have ma := m1 a (by simp)
  have mb := m1 b (by simp)
  have mq1 := m1 q1 (by simp)
  have mq2 := m2 q2 (by simp)
  unfold toQuad
  rw [hi]
  dsimp only
  generalize hs1 : ((s.removeEdge e).removeTri t1).removeTri t2 = s1 at *
  have ev : s1.verts = s.verts := by rw [← hs1]; rfl
  have ep : ∀ v, s1.pos v = s.pos v := by
    intro v
    rw [← hs1, removeTri_pos, removeTri_pos]
    exact ((ext_removeEdge s e).V v).1
  have eF : s1.F = s.F := by rw [← hs1]; rfl
  have et : s1.tris = (s.tris.filter (fun x => decide (x ≠ t1))).filter (fun x => decide (x ≠ t2)) := by rw [← hs1]; rfl
  have eq : s1.quads = s.quads := by rw [← hs1]; rfl
  have ef : pairs s1 .front = pairs s .front := by
    have : pairs s1 .front = pairs (s.removeEdge e) .front := by rw [← hs1]; rfl
    rw [this]; exact pairs_removeEdge_ne hl (by decide)
  have ea : s1.area = s.area := by rw [← hs1]; rfl
  have hn4 : [a, b, q2, q1].Nodup := by
    simp only [List.nodup_cons, List.mem_cons, List.not_mem_nil, or_false, not_or]
    exact ⟨⟨n1.1.1, Ne.symm hq, n1.1.2⟩, ⟨n2.2.1, n1.2.1⟩, Ne.symm n2.1.2, not_false, List.nodup_nil⟩
  have w2 : WF (s1.addQuad a b q2 q1 (-1)) := wf_addQuad w1 (-1) (ev ▸ ma) (ev ▸ mb) (ev ▸ mq2) (ev ▸ mq1) hn4
  have w3 := wf_activate w2 (.quad s1.nxt)
  generalize hs3 : (s1.addQuad a b q2 q1 (-1)).activate (.quad s1.nxt) = s3 at *
  have p3 : ∀ v, s3.pos v = s.pos v := by
    intro v
    have : s3.pos v = (s1.addQuad a b q2 q1 (-1)).pos v := by rw [← hs3]; rfl
    rw [this, addQuad_pos, ep]
  have lt1 : ∀ t ∈ s1.tris, t ∈ s.tris := by
    intro t ht; rw [et] at ht; exact (List.mem_filter.mp (List.mem_filter.mp ht).1).1
  have nq : ∀ q ∈ s.quads, q ≠ s1.nxt := fun q hq => Nat.ne_of_lt (w1.qlt q (by rw [eq]; exact hq))
  have F3 : ∀ f, f ≠ .quad s1.nxt → s3.F f = s.F f := by
    intro f hf
    rw [← hs3, ← eF]
    simp only [activate, addQuad, upd, if_neg hf]
  have F3q : (s3.F (.quad s1.nxt)).corners = [a, b, q2, q1] := by
    rw [← hs3]; simp [activate, addQuad, upd]
  have t3 : s3.tris = s1.tris := by rw [← hs3]; rfl
  have q3 : s3.quads = s.quads ++ [s1.nxt] := by rw [← hs3, ← eq]; rfl
  have f3 : pairs s3 .front = pairs s .front := by rw [← ef, ← hs3]; rfl
  have perm : s.tris.Perm (t1 :: t2 :: s1.tris) := by
    rw [et]
    refine (remove_perm h.tnd h1).trans (List.Perm.cons _ ?_)
    exact remove_perm (h.tnd.filter _) (List.mem_filter.mpr ⟨h2, by simpa using Ne.symm hne⟩)
  -- sums over the elements
  have key : ∀ (g : St K → List Nat → K) (_ : ∀ l, g s3 l = g s l),
      ((s3.tris.map fun t => g s3 (s3.F (.tri t)).corners).sum + (s3.quads.map fun q => g s3 (s3.F (.quad q)).corners).sum) +
        (g s [a, b, q1] + g s [q1, b, q2]) =
      ((s.tris.map fun t => g s (s.F (.tri t)).corners).sum + (s.quads.map fun q => g s (s.F (.quad q)).corners).sum) +
        g s [a, b, q2, q1] := by
    intro g hg
    rw [(perm.map fun t => g s (s.F (.tri t)).corners).sum_eq, t3, q3, List.map_append, List.sum_append]
    simp only [List.map_cons, List.sum_cons, List.map_nil, List.sum_nil, c1, c2, F3q, hg]
    have r1 : (s1.tris.map fun t => g s (s3.F (.tri t)).corners) = s1.tris.map fun t => g s (s.F (.tri t)).corners :=
      List.map_congr_left fun t _ => by rw [F3 _ (by simp)]
    have r2 : (s.quads.map fun t => g s (s3.F (.quad t)).corners) = s.quads.map fun t => g s (s.F (.quad t)).corners :=
      List.map_congr_left fun t ht => by rw [F3 _ (by simpa using nq t ht)]
    rw [r1, r2]; ring
  have qa : ∀ x y z u : Pt K, quadArea x y z u = triArea x y u + triArea u y z := by
    intro x y z u
    simp only [quadArea, triArea, Pt.cross, Pt.sub_x, Pt.sub_y]; ring
  have areaQ : s3.fArea (.quad s1.nxt) = s.fArea (.tri t1) + s.fArea (.tri t2) := by
    unfold fArea
    rw [F3q, c1, c2]
    dsimp only
    rw [p3, p3, p3, p3, qa]
  refine ⟨w3, ?_, fun v _ => p3 v, ?_, ?_, ?_⟩
  · intro v hv
    have : s3.verts = s.verts := by rw [← hs3, ← ev]; rfl
    rw [this]; exact hv
  · intro w hw _
    have e : ∀ l, wsum w s3 l = wsum w s l := fun l => wsum_congr w fun e _ => ⟨p3 _, p3 _⟩
    have hk := key (fun s cs => wsum w s (bdryOf cs)) (fun l => e _)
    have hsum : ∀ x : St K, wsum w x (elemSides x) = ((x.tris.map fun t => wsum w x (bdryOf (x.F (.tri t)).corners)).sum +
        (x.quads.map fun q => wsum w x (bdryOf (x.F (.quad q)).corners)).sum) := by
      intro x
      unfold elemSides sides triCorners
      rw [wsum_append, wsum_flat, wsum_flat, List.map_map, List.map_map]
      rfl
    have hq4 : wsum w s (bdryOf [a, b, q1]) + wsum w s (bdryOf [q1, b, q2]) = wsum w s (bdryOf [a, b, q2, q1]) := by
      rw [bdry3, bdry3, bdry4]
      unfold wsum
      simp only [List.map_cons, List.map_nil, List.sum_cons, List.sum_nil]
      have := hw (b, s.pos b) (q1, s.pos q1)
      linear_combination this
    unfold acct
    rw [f3, e, hsum, hsum]
    linear_combination hk - hq4
  · have hk := key (fun s cs => match cs with
        | [a, b, c] => triArea (s.pos a) (s.pos b) (s.pos c)
        | [a, b, c, d] => quadArea (s.pos a) (s.pos b) (s.pos c) (s.pos d)
        | _ => 0) (fun l => by simp only [p3])
    have ha3 : s3.area = s.area := by rw [← ea, ← hs3]; rfl
    rw [ha3]
    have : meshArea s3 = meshArea s := by
      unfold meshArea fArea
      dsimp only at hk
      rw [qa] at hk
      linear_combination hk
    rw [this]
  · intro hp f hf
    have hold : Live s f → f ≠ .quad s1.nxt → 0 < s3.fArea f := fun hl hn => by
      rw [fArea_kept h hl (fun v _ => p3 v) (by rw [F3 f hn])]; exact hp f hl
    cases f with
    | null => exact absurd hf (by simp [Live])
    | tri t => simp only [Live, t3] at hf; exact hold (lt1 t hf) (by simp)
    | quad q =>
      simp only [Live, q3, List.mem_append, List.mem_singleton] at hf
      rcases hf with hf | rfl
      · exact hold hf (by simpa using nq q hf)
      · rw [areaQ]; exact add_pos (hp _ h1) (hp _ h2)

/-! ### Split of a front edge -/

theorem ext_kept {s s' : St K} (h : WF s) (w : WF s') (x : Ext s s') (hf : pairs s' .front = pairs s .front) : Kept s [] s' :=
  kept_of_same h w (fun v hv => by rw [x.verts]; exact hv) (fun v _ => x.pos v) hf x.tris x.quads x.area
    (fun f _ => by rw [x.F])

theorem between_of {sf : K} (h0 : 0 < sf) (h1 : sf < 1) (p q : Pt K) : Between (Pt.smul sf p + Pt.smul (1 - sf) q) p q :=
  ⟨1 - sf, by linarith, by linarith, by apply Pt.ext' <;> simp only [Pt.add_x, Pt.add_y, Pt.sub_x, Pt.sub_y, Pt.smul_x, Pt.smul_y] <;> ring⟩

theorem splitFront_spec {s s' : St K} (h : WF s) {e : Nat} {sf : K} (he : e ∈ s.es .front)
    (hs : splitFront s e sf = some s') (bd : Bool) :
    Kept s [.split (s.E e).v1 (s.E e).v2 s.nxt bd] s' ∧ s'.verts = s.verts ++ [s.nxt] ∧
    s'.pos s.nxt = Pt.smul sf (s.pos (s.E e).v1) + Pt.smul (1 - sf) (s.pos (s.E e).v2) ∧ 0 < sf ∧ sf < 1 ∧
    ((((s.E e).v1, (s.E e).v2)) :: pairs s' .front).Perm (pairs s .front ++ [((s.E e).v1, s.nxt), (s.nxt, (s.E e).v2)]) ∧
    s'.tris = s.tris ∧ s'.quads = s.quads ∧ s'.F = s.F ∧ s.nxt < s'.nxt ∧ (∀ x < s.nxt, s'.E x = s.E x) ∧
    (∀ l, l ≠ .front → s'.es l = s.es l) := by
  obtain ⟨hl, m1, m2, n12, hlt⟩ := (h.ends _).2 e he
  unfold splitFront at hs
  by_cases hc : 1 ≤ sf ∨ sf ≤ 0
  · rw [if_pos hc] at hs; exact absurd hs (by simp)
  rw [if_neg hc] at hs
  push Not at hc
  dsimp only at hs
  have k0 := kept_addVertex h (Pt.smul sf (s.pos (s.E e).v1) + Pt.smul (1 - sf) (s.pos (s.E e).v2))
  generalize hs1 : s.addVertex (Pt.smul sf (s.pos (s.E e).v1) + Pt.smul (1 - sf) (s.pos (s.E e).v2)) = s1 at *
  have v1 : s1.verts = s.verts ++ [s.nxt] := by rw [← hs1]; rfl
  have E1 : s1.E = s.E := by rw [← hs1]; rfl
  have es1 : s1.es = s.es := by rw [← hs1]; rfl
  have nx1 : s1.nxt = s.nxt + 1 := by rw [← hs1]; rfl
  have pn : s1.pos s.nxt = Pt.smul sf (s.pos (s.E e).v1) + Pt.smul (1 - sf) (s.pos (s.E e).v2) := by
    rw [← hs1]; simp [addVertex, pos, upd]
  have t1 : s1.tris = s.tris ∧ s1.quads = s.quads ∧ s1.F = s.F := by rw [← hs1]; exact ⟨rfl, rfl, rfl⟩
  -- the properties of the new vertex
  obtain ⟨s3, hs3, k3, x3, es3, E3, nx3⟩ : ∃ s3 : St K, (if s.isInterior e then
      (s1.setProps s.nxt fun p => Flags.add (Flags.add p (s.V (s.E e).v1).props) (s.V (s.E e).v2).props).setProps s.nxt
        (Flags.remove · Flags.vOnBoundary)
      else s1.setProps s.nxt fun p => Flags.add (Flags.add p (s.V (s.E e).v1).props) (s.V (s.E e).v2).props) = s3 ∧
      Kept s1 [] s3 ∧ Ext s1 s3 ∧ s3.es = s1.es ∧ s3.E = s1.E ∧ s3.nxt = s1.nxt := by
    refine ⟨_, rfl, ?_⟩
    have a1 := kept_mark k0.wf s.nxt fun p => Flags.add (Flags.add p (s.V (s.E e).v1).props) (s.V (s.E e).v2).props
    split_ifs
    · exact ⟨a1.trans (kept_mark a1.wf _ _), (ext_setProps _ _ _).trans (ext_setProps _ _ _), rfl, rfl, rfl⟩
    · exact ⟨a1, ext_setProps _ _ _, rfl, rfl, rfl⟩
  rw [hs3] at hs
  have v3 : s3.verts = s.verts ++ [s.nxt] := by rw [x3.verts, v1]
  have a3 : (s.E e).v1 ∈ s3.verts := by rw [v3]; exact List.mem_append_left _ m1
  have b3 : (s.E e).v2 ∈ s3.verts := by rw [v3]; exact List.mem_append_left _ m2
  have n3 : s.nxt ∈ s3.verts := by rw [v3]; simp
  have na : (s.E e).v1 ≠ s.nxt := Nat.ne_of_lt (h.vlt _ m1)
  have nb : (s.E e).v2 ≠ s.nxt := Nat.ne_of_lt (h.vlt _ m2)
  have w4 : WF (s3.addEdge .front (s.E e).v1 s.nxt (s.E e).color (s.E e).props) := wf_addEdge k3.wf _ _ _ a3 n3 na
  have w5 := wf_addEdge w4 .front (s.E e).color (s.E e).props n3 b3 (Ne.symm nb)
  have p4 := pairs_addEdge k3.wf.toSound .front .front (s.E e).v1 s.nxt (s.E e).color (s.E e).props
  have p5 := pairs_addEdge w4.toSound .front .front s.nxt (s.E e).v2 (s.E e).color (s.E e).props
  have x5 := (ext_addEdge s3 .front (s.E e).v1 s.nxt (s.E e).color (s.E e).props).trans
    (ext_addEdge (s3.addEdge .front (s.E e).v1 s.nxt (s.E e).color (s.E e).props) .front s.nxt (s.E e).v2 (s.E e).color
      (s.E e).props)
  have es5 : ∀ l, l ≠ .front → ((s3.addEdge .front (s.E e).v1 s.nxt (s.E e).color (s.E e).props).addEdge .front s.nxt
      (s.E e).v2 (s.E e).color (s.E e).props).es l = s3.es l := by
    intro l hl; simp [addEdge, upd, hl]
  generalize hs5 : (s3.addEdge .front (s.E e).v1 s.nxt (s.E e).color (s.E e).props).addEdge .front s.nxt (s.E e).v2
    (s.E e).color (s.E e).props = s5 at *
  simp only [↓reduceIte] at p4 p5
  rw [p4] at p5
  have he5 : e ∈ s5.es .front := by
    rw [← hs5]
    refine addEdge_es_mem (addEdge_es_mem ?_)
    rw [es3, es1]; exact he
  have hlt3 : e < s3.nxt := by rw [nx3, nx1]; omega
  have hE5 : s5.E e = s.E e := by rw [x5.E e hlt3, E3, E1]
  have w6 : WF (s5.removeEdge e) := wf_removeEdge w5 e (by unfold LiveE; rw [hE5, hl]; exact he5)
  have p6 := pairs_removeEdge w5.toSound he5
  have x6 := ext_removeEdge s5 e
  have hl5 : (s5.E e).list = .front := by rw [hE5, hl]
  simp only [Option.some.injEq] at hs
  subst hs
  have pr3 : pairs s3 .front = pairs s .front := by unfold pairs; rw [es3, es1, E3, E1]
  rw [pr3] at p5
  rw [hE5, p5, List.append_assoc] at p6
  have xx := x5.trans x6
  have pos6 : ∀ v, (s5.removeEdge e).pos v = s1.pos v := fun v => (xx.pos v).trans (x3.pos v)
  have pold : ∀ v ∈ s.verts, (s5.removeEdge e).pos v = s.pos v := fun v hv => (pos6 v).trans (k0.pos v hv)
  have hbt := between_of hc.2 hc.1 (s.pos (s.E e).v1) (s.pos (s.E e).v2)
  have hF6 : (s5.removeEdge e).F = s.F := by rw [xx.F, x3.F, t1.2.2]
  have ht6 : (s5.removeEdge e).tris = s.tris := by rw [xx.tris, x3.tris, t1.1]
  have hq6 : (s5.removeEdge e).quads = s.quads := by rw [xx.quads, x3.quads, t1.2.1]
  refine ⟨⟨w6, ?_, pold, ?_, ?_, ?_⟩, ?_, ?_, hc.2, hc.1, p6.symm, ht6, hq6, hF6, ?_, ?_, ?_⟩
  · intro v hv; rw [xx.verts, v3]; exact List.mem_append_left _ hv
  · intro w hw hsp
    have hes : elemSides (s5.removeEdge e) = elemSides s := elemSides_congr ht6 hq6 fun f _ => by rw [hF6]
    unfold acct
    rw [hes]
    have c1 : wsum w (s5.removeEdge e) (elemSides s) = wsum w s (elemSides s) :=
      wsum_congr w fun x hx => ⟨pold _ (elemSides_verts h x hx).1, pold _ (elemSides_verts h x hx).2⟩
    have c2 : wsum w (s5.removeEdge e) (pairs s .front) = wsum w s (pairs s .front) :=
      wsum_congr w fun x hx => ⟨pold _ (pairs_verts h x hx).1, pold _ (pairs_verts h x hx).2⟩
    have c3 := wsum_perm w (s5.removeEdge e) p6
    rw [wsum_append, c2] at c3
    have c4 := hsp (s.E e).v1 (s.E e).v2 s.nxt bd (by simp) (s.pos (s.E e).v1) (s.pos (s.E e).v2) _ hbt
    have c5 : wsum w (s5.removeEdge e) ([((s.E e).v1, s.nxt)] ++ [(s.nxt, (s.E e).v2)]) =
        w ((s.E e).v1, s.pos (s.E e).v1) ((s.E e).v2, s.pos (s.E e).v2) := by
      unfold wsum
      simp only [List.cons_append, List.nil_append, List.map_cons, List.map_nil, List.sum_cons, List.sum_nil]
      rw [pold _ m1, pold _ m2, pos6, pn, ← c4]; ring
    have c6 : wsum w (s5.removeEdge e) (((s.E e).v1, (s.E e).v2) :: pairs (s5.removeEdge e) .front) =
        w ((s.E e).v1, s.pos (s.E e).v1) ((s.E e).v2, s.pos (s.E e).v2) + wsum w (s5.removeEdge e) (pairs (s5.removeEdge e) .front) := by
      unfold wsum
      rw [List.map_cons, List.sum_cons, pold _ m1, pold _ m2]
    rw [c5, c6] at c3
    rw [c1]
    linear_combination -c3
  · rw [xx.area, x3.area, meshArea_congr h pold ht6 hq6 fun f _ => by rw [hF6]]
    have : s1.area = s.area := by rw [← hs1]; rfl
    rw [this]
  · intro hp f hf
    have hl := (live_congr ht6 hq6 f).mp hf
    rw [fArea_kept h hl pold (by rw [hF6])]; exact hp f hl
  · rw [xx.verts, v3]
  · rw [pos6, pn]
  · have := xx.nxt; rw [nx3, nx1] at this; omega
  · intro x hx
    rw [xx.E x (by rw [nx3, nx1]; omega), E3, E1]
  · intro l hl
    have : (s5.removeEdge e).es l = s5.es l := by simp [removeEdge, upd, hl5, hl]
    rw [this, es5 l hl, es3, es1]

theorem split_spec {s s' : St K} (h : WF s) {e n : Nat} {sf : K} (he : e ∈ s.es .front)
    (hs : QL.split s e sf = some (s', n)) : n = s.nxt ∧ Kept s [.split (s.E e).v1 (s.E e).v2 n (s.getEdge .bdry (s.E e).v1 (s.E e).v2).isSome] s' ∧
    s'.verts = s.verts ++ [n] ∧
    s'.pos n = Pt.smul sf (s.pos (s.E e).v1) + Pt.smul (1 - sf) (s.pos (s.E e).v2) ∧ 0 < sf ∧ sf < 1 ∧
    ((((s.E e).v1, (s.E e).v2)) :: pairs s' .front).Perm (pairs s .front ++ [((s.E e).v1, n), (n, (s.E e).v2)]) ∧
    s'.tris = s.tris ∧ s'.quads = s.quads ∧ s'.F = s.F ∧
    (match s.getEdge .bdry (s.E e).v1 (s.E e).v2 with
      | none => pairs s' .bdry = pairs s .bdry
      | some b => ((((s.E b).v1, (s.E b).v2)) :: pairs s' .bdry).Perm
          (pairs s .bdry ++ [((s.E e).v1, n), (n, (s.E e).v2)])) := by
  obtain ⟨hl, m1, m2, n12, hlt⟩ := (h.ends _).2 e he
  unfold QL.split at hs
  dsimp only at hs
  cases h1 : splitFront s e sf with
  | none => rw [h1] at hs; simp at hs
  | some s1 =>
    rw [h1] at hs
    dsimp only at hs
    obtain ⟨k, hv, hp, h0, h1', hpr, ht, hq, hF, hnx, hE, hes⟩ := splitFront_spec h he h1 (s.getEdge .bdry (s.E e).v1 (s.E e).v2).isSome
    cases hb : s.getEdge .bdry (s.E e).v1 (s.E e).v2 with
    | none =>
      rw [hb] at hs k
      simp only [Option.some.injEq, Prod.mk.injEq] at hs
      obtain ⟨rfl, rfl⟩ := hs
      refine ⟨rfl, k, hv, hp, h0, h1', hpr, ht, hq, hF, ?_⟩
      show pairs s1 .bdry = pairs s .bdry
      unfold pairs
      rw [hes .bdry (by decide)]
      refine List.map_congr_left fun x hx => ?_
      rw [hE x ((h.ends _).2 x hx).2.2.2.2]
    | some b =>
      rw [hb] at hs k
      obtain ⟨hbm, _⟩ := getEdge_some h m1 hb
      obtain ⟨hbl, _, _, _, hblt⟩ := (h.ends _).2 b hbm
      have hbm1 : b ∈ s1.es .bdry := by rw [hes .bdry (by decide)]; exact hbm
      have hEb : s1.E b = s.E b := hE b hblt
      have hbl1 : (s1.E b).list = .bdry := by rw [hEb]; exact hbl
      unfold splitBdry at hs
      dsimp only at hs
      cases hn : s1.nextEdge b with
      | none => rw [hn] at hs; simp at hs
      | some x =>
        rw [hn] at hs
        simp only [Option.map_some, Option.some.injEq, Prod.mk.injEq] at hs
        obtain ⟨rfl, rfl⟩ := hs
        have w1 := wf_removeEdge k.wf b (by unfold LiveE; rw [hbl1]; exact hbm1)
        have x1 := ext_removeEdge s1 b
        have mv : ∀ v ∈ s.verts ++ [s.nxt], v ∈ (s1.removeEdge b).verts := by
          intro v hv'; rw [x1.verts, hv]; exact hv'
        have na : (s.E e).v1 ≠ s.nxt := Nat.ne_of_lt (h.vlt _ m1)
        have nb : (s.E e).v2 ≠ s.nxt := Nat.ne_of_lt (h.vlt _ m2)
        have w2 := wf_addEdge w1 .bdry (s.E e).color (s.E e).props (mv _ (List.mem_append_left _ m1)) (mv s.nxt (by simp)) na
        have x2 := ext_addEdge (s1.removeEdge b) .bdry (s.E e).v1 s.nxt (s.E e).color (s.E e).props
        have w3 := wf_addEdge w2 .bdry (s.E e).color (s.E e).props (by rw [x2.verts]; exact mv s.nxt (by simp))
          (by rw [x2.verts]; exact mv _ (List.mem_append_left _ m2)) (Ne.symm nb)
        have x3 := ext_addEdge ((s1.removeEdge b).addEdge .bdry (s.E e).v1 s.nxt (s.E e).color (s.E e).props) .bdry s.nxt
          (s.E e).v2 (s.E e).color (s.E e).props
        have p1 := pairs_removeEdge k.wf.toSound hbm1
        have p1' := pairs_removeEdge_ne (m := .front) hbl1 (by decide)
        have p2 := fun l => pairs_addEdge w1.toSound .bdry l (s.E e).v1 s.nxt (s.E e).color (s.E e).props
        have p3 := fun l => pairs_addEdge w2.toSound .bdry l s.nxt (s.E e).v2 (s.E e).color (s.E e).props
        have xx := (x1.trans x2).trans x3
        have pb : pairs s1 .bdry = pairs s .bdry := by
          unfold pairs
          rw [hes .bdry (by decide)]
          refine List.map_congr_left fun x hx => ?_
          rw [hE x ((h.ends _).2 x hx).2.2.2.2]
        have pf : pairs (((s1.removeEdge b).addEdge .bdry (s.E e).v1 s.nxt (s.E e).color (s.E e).props).addEdge .bdry s.nxt
          (s.E e).v2 (s.E e).color (s.E e).props) .front = pairs s1 .front := by
          rw [p3 .front, p2 .front, p1']; simp
        have kk := ext_kept k.wf w3 xx pf
        refine ⟨rfl, by simpa using k.trans kk, xx.verts.trans hv, (xx.pos _).trans hp, h0, h1', ?_, xx.tris.trans ht,
          xx.quads.trans hq, xx.F.trans hF, ?_⟩
        · rw [pf]; exact hpr
        · show (((s.E b).v1, (s.E b).v2) :: pairs _ .bdry).Perm _
          rw [p3 .bdry, p2 .bdry]
          simp only [↓reduceIte]
          rw [pb, hEb] at p1
          rw [List.append_assoc, ← List.cons_append]
          exact (p1.symm.append_right _)

end TQ.QL

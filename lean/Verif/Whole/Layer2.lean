import Verif.Whole.Layer

/-! # Lemmas: the changes made by quad layers keep a domain partly meshed, continued -/

set_option linter.unusedSectionVars false
set_option linter.unusedSimpArgs false

namespace TQ.Whole
open TQ.MS TQ.MeshSpec TQ.FUSpec TQ.MS.St TQ.GeoSpec TQ.FU TQ.Sm TQ.MCSpec TQ.WholeSpec TQ.RefSpec TQ.QLSpec TQ.QL
variable {K : Type*} [Field K] [LinearOrder K] [IsStrictOrderedRing K]

/-! ### Wedges of two triangles -/

/-- A segment that ends in `v` on the other side of `b → v` meets the triangle `b c v` in `v` only. -/
theorem meets_end {a b c v x : Pt K} (hA : 0 < side a b v) (hx : OnClosed a v x) (hi : InClosed x b c v) : x = v := by
  obtain ⟨u, u0, u1, rfl⟩ := hx
  have h3 := hi.2.2
  have e : side v b (onSeg a v u) = -(1 - u) * side a b v := by
    unfold side
    rw [onSeg_x, onSeg_y]
    ring
  rw [e] at h3
  have : u = 1 := by
    by_contra hne
    have : 0 < 1 - u := by
      have := lt_of_le_of_ne u1 hne
      linarith
    have := mul_pos this hA
    linarith
  rw [this]
  apply Pt.ext' <;> simp [onSeg]

theorem replaced_mem {old new : List (Nat × Nat)} {b1 b2 v : Nat} (h : Replaced old new b1 b2 v) {e : Nat × Nat} (he : e ∈ new) :
    e ∈ old ∨ e = (b1, v) ∨ e = (v, b2) := by
  obtain ⟨out, inn, rest, p1, p2, p3⟩ := h
  have hm := p2.mem_iff.mp he
  rw [List.mem_append] at hm
  rcases hm with hm | hm
  · right
    rcases p3 with ⟨_, rfl⟩ | ⟨_, rfl, _⟩ | ⟨_, rfl, _⟩ | ⟨_, rfl, _⟩ <;>
      simp only [List.mem_cons, List.not_mem_nil, or_false] at hm
    · exact Or.inr hm
    · exact Or.inl hm
    · exact hm
  · left
    refine p1.mem_iff.mpr ?_
    simp [hm]

variable {L : LEnv K} (he : 0 < L.env.eps) (hq : QueryExact L.env) (hso : SortOK L.env)
  (hn : ∀ p, 0 ≤ L.env.norm p ∧ Pt.normSq p ≤ L.env.norm p * L.env.norm p)
include he hq hso hn

omit hso in
theorem meshing_gap2 {s s1 : St K} (h : Meshing s) {a b c e1 e2 : Nat} {p : Pt K} (hnd : [a, b, c].Nodup)
    (ha : a ∈ s.verts) (hb : b ∈ s.verts) (hc : c ∈ s.verts)
    (hs1 : s1 = ((s.addVertex p).addTri a b s.nxt (-1)).addTri b c s.nxt (-1))
    (v1 : triangleIsValid L.env s1 (s.nxt + 1) a b s.nxt = true) (v2 : triangleIsValid L.env s1 (s.nxt + 2) b c s.nxt = true)
    (g1 : s1.getEdge .front a b = some e1) (g2 : (advanceFront s1 e1 s.nxt (s.nxt + 1)).getEdge .front b c = some e2)
    (m1 : (a, b) ∈ pairs s .front) (m2 : (b, c) ∈ pairs (advanceFront s1 e1 s.nxt (s.nxt + 1)) .front)
    (hr1 : Reach L.env (advanceFront s1 e1 s.nxt (s.nxt + 1)).pos (pairs s .front) a b s.nxt)
    (hr2 : Reach L.env (advanceFront (advanceFront s1 e1 s.nxt (s.nxt + 1)) e2 s.nxt (s.nxt + 2)).pos
      (pairs (advanceFront s1 e1 s.nxt (s.nxt + 1)) .front) b c s.nxt)
    (hres : Resolved L.env.eps (advanceFront (advanceFront s1 e1 s.nxt (s.nxt + 1)) e2 s.nxt (s.nxt + 2))) :
    Meshing (advanceFront (advanceFront s1 e1 s.nxt (s.nxt + 1)) e2 s.nxt (s.nxt + 2)) ∧
      (∀ v ∈ s.verts, v ∈ (advanceFront (advanceFront s1 e1 s.nxt (s.nxt + 1)) e2 s.nxt (s.nxt + 2)).verts) ∧
      GoodEntry ⟨pairs s .front, a, b, s.nxt⟩ ∧ GoodEntry ⟨pairs (advanceFront s1 e1 s.nxt (s.nxt + 1)) .front, b, c, s.nxt⟩ := by
  simp only [List.nodup_cons, List.mem_cons, List.not_mem_nil, or_false, not_or] at hnd
  have na : a ≠ s.nxt := Nat.ne_of_lt (h.wf.vlt a ha)
  have nb : b ≠ s.nxt := Nat.ne_of_lt (h.wf.vlt b hb)
  have nc : c ≠ s.nxt := Nat.ne_of_lt (h.wf.vlt c hc)
  have k0 := kept_addVertex h.wf p
  have vm : s.nxt ∈ (s.addVertex p).verts := by simp [addVertex]
  have k1 : WF ((s.addVertex p).addTri a b s.nxt (-1)) := by
    refine wf_addTri k0.wf (-1) (List.mem_append_left _ ha) (List.mem_append_left _ hb) vm ?_
    simp only [List.nodup_cons, List.mem_cons, List.not_mem_nil, or_false, not_or]
    exact ⟨⟨hnd.1.1, na⟩, nb, not_false, List.nodup_nil⟩
  have w1 : WF s1 := by
    rw [hs1]
    refine wf_addTri k1 (-1) (List.mem_append_left _ hb) (List.mem_append_left _ hc) vm ?_
    simp only [List.nodup_cons, List.mem_cons, List.not_mem_nil, or_false, not_or]
    exact ⟨⟨hnd.2.1, nb⟩, nc, not_false, List.nodup_nil⟩
  have p1 : ∀ v, s1.pos v = (s.addVertex p).pos v := by intro v; rw [hs1, addTri_pos, addTri_pos]
  have ps : ∀ v ∈ s.verts, s1.pos v = s.pos v := fun v hv => by rw [p1, addVertex_pos h.wf p hv]
  have hvt : s1.verts = s.verts ++ [s.nxt] := by rw [hs1]; rfl
  have hes : s1.es = s.es := by rw [hs1]; rfl
  have hE : s1.E = s.E := by rw [hs1]; rfl
  have htr : s1.tris = s.tris ++ [s.nxt + 1, s.nxt + 2] := by
    rw [hs1]
    show (s.tris ++ [s.nxt + 1]) ++ [s.nxt + 2] = _
    simp
  have hqd : s1.quads = s.quads := by rw [hs1]; rfl
  have hF : ∀ f, Live s f → (s1.F f).corners = (s.F f).corners := by
    intro f hf
    have n1 : f ≠ .tri (s.nxt + 1) := by
      rintro rfl
      have := h.wf.tlt _ hf
      omega
    have n2 : f ≠ .tri (s.nxt + 2) := by
      rintro rfl
      have := h.wf.tlt _ hf
      omega
    rw [hs1]
    simp only [addTri, addVertex, upd, if_neg n1, if_neg n2]
  have hc1 : (s1.F (.tri (s.nxt + 1))).corners = [a, b, s.nxt] := by
    rw [hs1]; simp [addTri, addVertex, upd]
  have hc2 : (s1.F (.tri (s.nxt + 2))).corners = [b, c, s.nxt] := by
    rw [hs1]; simp [addTri, addVertex, upd]
  have hpr : ∀ l, pairs s1 l = pairs s l := fun l => by rw [hs1]; rfl
  clear hs1 k0 k1 vm p1
  have ha1 : a ∈ s1.verts := by rw [hvt]; exact List.mem_append_left _ ha
  have hb1 : b ∈ s1.verts := by rw [hvt]; exact List.mem_append_left _ hb
  have hc1' : c ∈ s1.verts := by rw [hvt]; exact List.mem_append_left _ hc
  have hv1 : s.nxt ∈ s1.verts := by rw [hvt]; simp
  generalize s.nxt = v at *
  have r1 : Rim s1 (allSides s) := (Meshing.rim h).congr w1 ps hes hE
  obtain ⟨he1, d1, d2⟩ := found_dir w1 ha1 (simple_of_front r1.front) (by rw [hpr]; exact m1) g1
  have A1 := advanceFront_spec w1 (v + 1) he1 (v := v) hv1 (by rw [d1]; exact Ne.symm na) (by rw [d2]; exact Ne.symm nb)
  have bd1 := advanceFront_bdry w1 (v + 1) he1 (v := v) hv1 (by rw [d1]; exact Ne.symm na) (by rw [d2]; exact Ne.symm nb)
  have adv1 := fun hA hf => r1.advance (v + 1) he1 (v := v) hv1 (by rw [d1]; exact Ne.symm na) (by rw [d2]; exact Ne.symm nb) hA hf
  have q1 : (advanceFront s1 e1 v (v + 1)).pos = s1.pos := funext A1.pos
  generalize advanceFront s1 e1 v (v + 1) = s2 at *
  obtain ⟨em2, ed2⟩ := getEdge_some A1.wf (by rw [A1.verts]; exact hb1) g2
  have hvn : v ≠ (s2.E e2).v1 ∧ v ≠ (s2.E e2).v2 := by
    rcases ed2 with ed2 | ed2
    · rw [ed2.1, ed2.2]; exact ⟨Ne.symm nb, Ne.symm nc⟩
    · rw [ed2.1, ed2.2]; exact ⟨Ne.symm nc, Ne.symm nb⟩
  have A2 := advanceFront_spec A1.wf (v + 2) em2 (v := v) (by rw [A1.verts]; exact hv1) hvn.1 hvn.2
  have bd2 := advanceFront_bdry A1.wf (v + 2) em2 (v := v) (by rw [A1.verts]; exact hv1) hvn.1 hvn.2
  have adv2 := fun {sd} (r : Rim s2 sd) hA hf => r.advance (v + 2) em2 (v := v) (by rw [A1.verts]; exact hv1) hvn.1 hvn.2 hA hf
  have q2 : (advanceFront s2 e2 v (v + 2)).pos = s1.pos := (funext A2.pos).trans q1
  generalize advanceFront s2 e2 v (v + 2) = s3 at *
  have hv3 : s3.verts = s1.verts := A2.verts.trans A1.verts
  have hres1 : Resolved L.env.eps s1 := by
    intro x hx y hy z hz
    have := hres x (by rw [hv3]; exact hx) y (by rw [hv3]; exact hy) z (by rw [hv3]; exact hz)
    rw [q2] at this
    exact this
  rw [q1] at hr1
  rw [q2] at hr2
  -- the first triangle
  have f1 := checked_free he hq hn w1 v1 ha1 hb1 hv1 hres1 (l := s1.es .front) (fun _ h => h)
    (by show Reach L.env s1.pos (pairs s1 .front) a b v; rw [hpr]; exact hr1)
  have hf1 : Free s1.pos (pairs s1 .front) (s1.E e1).v1 (s1.E e1).v2 v := by rw [d1, d2]; exact f1.2
  have hA1 : 0 < side (s1.pos (s1.E e1).v1) (s1.pos (s1.E e1).v2) (s1.pos v) := by rw [d1, d2]; exact f1.1
  have r2 := adv1 hA1 hf1
  have rep := A1.front (free_oriented r1.front (mem_pairs he1) hA1 hf1)
  rw [d1, d2] at r2 rep
  -- the second triangle
  obtain ⟨he2, d3, d4⟩ := found_dir A1.wf (by rw [A1.verts]; exact hb1) (simple_of_front r2.front) m2 g2
  have f2 := checked_free he hq hn w1 v2 hb1 hc1' hv1 hres1
    (l := (s1.es .front).filter fun e => decide (((s1.E e).v1, (s1.E e).v2) ∈ pairs s2 .front))
    (fun _ h => (List.mem_filter.mp h).1) (by
      intro e hem
      obtain ⟨x, hx, rfl⟩ := List.mem_map.mp hem
      exact hr2 _ (by simpa using (List.mem_filter.mp hx).2))
  have hf2 : Free s2.pos (pairs s2 .front) (s2.E e2).v1 (s2.E e2).v2 v := by
    rw [d3, d4, q1]
    intro e hem
    rcases replaced_mem rep hem with ho | rfl | rfl
    · refine f2.2 e ?_
      obtain ⟨x, hx, rfl⟩ := List.mem_map.mp ho
      exact List.mem_map_of_mem (List.mem_filter.mpr ⟨hx, by simpa using hem⟩)
    · refine Or.inr (Or.inr (Or.inr fun x hx hi => ?_))
      have := meets_end f1.1 hx hi
      exact ⟨Or.inr this, Or.inr (Or.inr this)⟩
    · exact Or.inr (Or.inr (Or.inl (Or.inl rfl)))
  have r3 := adv2 r2 (by rw [d3, d4, q1]; exact f2.1) hf2
  rw [d3, d4] at r3
  have hAF : ∀ f, (s3.F f).corners = (s1.F f).corners := by
    intro f
    rw [A2.F, A1.F]
    unfold upd
    split_ifs with h1 h2 h2
    · rw [h1]
    · rw [h1]
    · rw [h2]
    · rfl
  refine ⟨meshing_grown h (ts := [(v + 1, a, b, v), (v + 2, b, c, v)]) r3 ?_ ?_ ?_ ?_ ?_ ?_ ?_ ?_ ?_, ?_,
    ⟨m1, simple_of_front h.front, ?_⟩, m2, simple_of_front r2.front, ?_⟩
  · rw [List.append_assoc]; exact List.Perm.refl _
  · rw [A2.tris, A1.tris, htr]; rfl
  · rw [A2.quads, A1.quads, hqd]
  · intro f hf'
    rw [hAF, hF f hf']
  · intro x hx
    rw [hAF]
    simp only [List.mem_cons, List.not_mem_nil, or_false] at hx
    rcases hx with rfl | rfl
    · exact hc1
    · exact hc2
  · intro x hx
    rw [q2]
    simp only [List.mem_cons, List.not_mem_nil, or_false] at hx
    rcases hx with rfl | rfl
    · exact f1.1
    · exact f2.1
  · intro w hw; rw [q2, ps w hw]
  · rw [bd2, bd1, hes]
  · intro x hx
    rw [← hes] at hx
    have hlt : x < s1.nxt := ((w1.ends _).2 x hx).2.2.2.2
    rw [A2.E x (lt_of_lt_of_le hlt A1.nxt), A1.E x hlt, hE]
  · intro w hw; rw [hv3, hvt]; exact List.mem_append_left _ hw
  · have := free_oriented r1.front (mem_pairs he1) hA1 hf1
    rw [d1, d2, hpr] at this
    exact this
  · have := free_oriented r2.front (mem_pairs he2) (by rw [d3, d4, q1]; exact f2.1) hf2
    rw [d3, d4] at this
    exact this

end TQ.Whole

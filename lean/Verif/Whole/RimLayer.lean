import Verif.Whole.Next

/-! # Lemmas: quad layers and the links to other meshes -/

set_option linter.unusedSectionVars false
set_option linter.unusedSimpArgs false

namespace TQ.Whole
open TQ.MS TQ.MeshSpec TQ.FUSpec TQ.MS.St TQ.GeoSpec TQ.FU TQ.MCSpec TQ.WholeSpec TQ.RefSpec TQ.QLSpec TQ.QL TQ.AM TQ.AppSpec TQ.MC
variable {K : Type*} [Field K] [LinearOrder K] [IsStrictOrderedRing K]

theorem same_of {s t : St K} (h : WF s) (hb : t.es .bdry = s.es .bdry) (hE : ∀ e ∈ s.es .bdry, t.E e = s.E e)
    (hp : ∀ v ∈ s.verts, t.pos v = s.pos v) : RimSame s t := by
  refine ⟨hb, fun e he => ?_⟩
  have := (h.ends _).2 e he
  rw [hE e he]
  exact ⟨rfl, rfl, rfl, hp _ this.2.1, hp _ this.2.2.1⟩

theorem same_adv {s : St K} (h : WF s) {base v t : Nat} (hb : base ∈ s.es .front) (hv : v ∈ s.verts) (n1 : v ≠ (s.E base).v1)
    (n2 : v ≠ (s.E base).v2) : RimSame s (advanceFront s base v t) := by
  have A := advanceFront_spec h t hb hv n1 n2
  refine same_of h (advanceFront_bdry h t hb hv n1 n2) (fun e he => A.E e ((h.ends _).2 e he).2.2.2.2) fun v _ => A.pos v

/-- Cutting a boundary edge without link. -/
theorem rim_split {s s' : St K} (h : Meshing s) {e n : Nat} {sf : K} (hm : e ∈ s.es .front) (hsp : QL.split s e sf = some (s', n))
    (hbd : (s.getEdge .bdry (s.E e).v1 (s.E e).v2).isSome = true)
    (hoff : ∀ b ∈ s.es .bdry, (s.E b).twin ≠ none → ((s.E b).v1, (s.E b).v2) ≠ ((s.E e).v1, (s.E e).v2)) : RimKept s s' := by
  obtain ⟨b, hb⟩ := Option.isSome_iff_exists.mp hbd
  obtain ⟨hbm, d1, d2, -⟩ := front_on_bdry h hm hb
  obtain ⟨hnx, k, -, hpn, s0, s1, -⟩ := split_spec h.wf hm hsp
  have S := split_edges h.wf hm hsp hb
  have hbt : (s.E b).twin = none := by
    by_contra hc
    exact hoff b hbm hc (by rw [d1, d2])
  have hE : ∀ x ∈ s.es .bdry, s'.E x = s.E x := fun x hx => S.E x (Nat.le_of_lt ((h.wf.ends _).2 x hx).2.2.2.2)
  have hpos : ∀ x ∈ s.es .bdry, s'.pos (s.E x).v1 = s.pos (s.E x).v1 ∧ s'.pos (s.E x).v2 = s.pos (s.E x).v2 := by
    intro x hx
    have := (h.wf.ends _).2 x hx
    exact ⟨k.pos _ this.2.1, k.pos _ this.2.2.1⟩
  have hmem : ∀ x, x ∈ s'.es .bdry ↔ (x ∈ s.es .bdry ∧ x ≠ b) ∨ x = s.nxt + 3 ∨ x = s.nxt + 4 := by
    intro x
    rw [S.bdry]
    simp only [List.mem_append, List.mem_filter, decide_eq_true_eq, List.mem_cons, List.not_mem_nil, or_false]
  have hon : OnClosed (s.pos (s.E b).v1) (s.pos (s.E b).v2) (s'.pos s.nxt) := by
    rw [← hnx, hpn, d1, d2]
    refine ⟨1 - sf, by linarith, by linarith, ?_⟩
    apply Pt.ext' <;> simp [GeoSpec.onSeg, Pt.smul] <;> ring
  obtain ⟨pb1, pb2⟩ := hpos b hbm
  refine { linked := ?_, only := ?_, parts := ?_ }
  · intro x hx ht
    obtain ⟨p1, p2⟩ := hpos x hx
    refine ⟨(hmem x).mpr (Or.inl ⟨hx, fun hh => ht (by rw [hh]; exact hbt)⟩), ?_⟩
    rw [hE x hx]
    exact ⟨rfl, rfl, rfl, p1, p2⟩
  · intro x hx ht
    rcases (hmem x).mp hx with ⟨hx, -⟩ | rfl | rfl
    · exact ⟨hx, by rw [hE x hx]⟩
    · rw [S.e3] at ht; simp at ht
    · rw [S.e4] at ht; simp at ht
  · intro x hx ht
    rcases (hmem x).mp hx with ⟨hx, -⟩ | rfl | rfl
    · obtain ⟨p1, p2⟩ := hpos x hx
      rw [hE x hx] at ht
      refine ⟨x, hx, ht, ?_⟩
      rw [hE x hx, p1, p2]
      exact ⟨closed_left _ _, closed_right _ _⟩
    · refine ⟨b, hbm, hbt, ?_⟩
      rw [S.e3]
      dsimp only
      rw [← d1, pb1]
      exact ⟨closed_left _ _, hon⟩
    · refine ⟨b, hbm, hbt, ?_⟩
      rw [S.e4]
      dsimp only
      rw [← d2, pb2]
      exact ⟨hon, closed_right _ _⟩

variable {L : LEnv K} (he : 0 < L.env.eps) (hq : QueryExact L.env) (hso : SortOK L.env)
  (hn : ∀ p, 0 ≤ L.env.norm p ∧ Pt.normSq p ≤ L.env.norm p * L.env.norm p)
include he hq hso hn

theorem same_update {s s' : St K} (h : WF s) {base t v : Nat} {np sp : Pt K} {r : K} (hb : base ∈ s.es .front)
    (hu : updateFront L.env s base np sp r = (s', some t)) (hv : (s'.F (.tri t)).corners[2]? = some v) : RimSame s s' :=
  same_frame h (run_frame he (queryExact_live hq) hso h (.update .start hb hu hv)).2

theorem rim_step {s s' : St K} {l : List (Ev K)} (h : Meshing s) (st : LStep L s l s') (fine : ∀ x ∈ l, Fine L.env x)
    (off : ∀ x ∈ l, OffLinks s x) : RimKept s s' := by
  have hql : QueryLive L.env := queryExact_live hq
  cases st with
  | @fail _ base np sp r hb hu =>
    have ho := updateFront_outcome he hql hso h.wf hb np sp r
    rw [hu] at ho
    cases ho with
    | fail same wf _ =>
      exact rim_same (same_of h.wf (by rw [same.es]) (fun e _ => by rw [same.edata]) fun v hv => by unfold pos; rw [same.vdata v hv])
  | @tri _ base np sp r t v hb hu hv => exact rim_same (same_update he hq hso hn h.wf hb hu hv)
  | @quad s1 s2 base np sp r t1 q1 dg np' sp' r' t2 q2 er hb hu1 hq1 hdg hu2 hq2 her =>
    obtain ⟨v', d1⟩ := updateFront_done he hql hso h.wf hb hu1
    have : v' = q1 := by rw [d1.cor] at hq1; simpa using hq1
    subst this
    obtain ⟨hdm, -⟩ := getEdge_some d1.wf d1.vmem hdg
    obtain ⟨v'', d2⟩ := updateFront_done he hql hso d1.wf hdm hu2
    have hm2 : (s.E base).v2 ∈ s2.verts := d2.verts _ (d1.verts _ ((h.wf.ends _).2 base hb).2.2.1)
    obtain ⟨herm, -⟩ := getEdge_some d2.wf hm2 her
    have hl : (s2.E er).list = .intr := ((d2.wf.ends _).2 er herm).1
    have hi : s2.removeIntr er = s2.removeEdge er := by unfold removeIntr; simp [hl]
    refine rim_same (same_trans (same_update he hq hso hn h.wf hb hu1 hq1) (same_trans (same_update he hq hso hn d1.wf hdm hu2 hq2)
      (same_of d2.wf ?_ ?_ ?_)))
    · have : ((s2.removeEdge er).es .bdry) = s2.es .bdry := by simp [removeEdge, upd, hl]
      unfold toQuad
      rw [hi]
      exact this
    · intro e _
      unfold toQuad
      rw [hi]
      rfl
    · intro v _
      unfold toQuad
      rw [hi]
      show ((((s2.removeEdge er).removeTri t1).removeTri t2).addQuad _ _ _ _ (-1)).pos v = _
      rw [addQuad_pos, removeTri_pos, removeTri_pos, (ext_removeEdge s2 er).pos]
  | gapFail hnd ha hb hc =>
    exact rim_same (same_of h.wf rfl (fun _ _ => rfl) fun v _ => by rw [removeTri_pos, addTri_pos])
  | @gap a b c e hnd ha hb hc hv hg =>
    have w1 := wf_addTri h.wf (-1) ha hb hc hnd
    obtain ⟨hm, hd⟩ := getEdge_some w1 (show b ∈ (s.addTri a b c (-1)).verts from hb) hg
    simp only [List.nodup_cons, List.mem_cons, List.not_mem_nil, or_false, not_or] at hnd
    have A := same_adv w1 (t := s.nxt) hm (v := a) ha
      (by rcases hd with ⟨x, y⟩ | ⟨x, y⟩ <;> (first | rw [x] | rw [y]) <;> (first | exact hnd.1.1 | exact hnd.1.2))
      (by rcases hd with ⟨x, y⟩ | ⟨x, y⟩ <;> (first | rw [x] | rw [y]) <;> (first | exact hnd.1.1 | exact hnd.1.2))
    exact rim_same (same_trans (t := s.addTri a b c (-1)) (same_of h.wf rfl (fun _ _ => rfl) fun v _ => by rw [addTri_pos]) A)
  | @gap2Fail a b c p hnd ha hb hc =>
    have k := kept_gap2Fail h.wf p hnd ha hb hc
    exact rim_same (same_of h.wf rfl (fun _ _ => rfl) k.pos)
  | @gap2 s1 a b c e1 e2 p hnd ha hb hc hs1 hv1 hv2 hg1 hg2 =>
    simp only [List.nodup_cons, List.mem_cons, List.not_mem_nil, or_false, not_or] at hnd
    have na : a ≠ s.nxt := Nat.ne_of_lt (h.wf.vlt a ha)
    have nb : b ≠ s.nxt := Nat.ne_of_lt (h.wf.vlt b hb)
    have nc : c ≠ s.nxt := Nat.ne_of_lt (h.wf.vlt c hc)
    have k0 := kept_addVertex h.wf p
    have vm : s.nxt ∈ (s.addVertex p).verts := by simp [addVertex]
    have k1 : WF ((s.addVertex p).addTri a b s.nxt (-1)) := by
      refine wf_addTri k0.wf (-1) (List.mem_append_left _ ha) (List.mem_append_left _ hb) vm ?_
      simp only [List.nodup_cons, List.mem_cons, List.not_mem_nil, or_false, not_or]
      exact ⟨⟨hnd.1.1, na⟩, nb, not_false, List.nodup_nil⟩
    have w1 : WF s1 := by
      rw [hs1]
      refine wf_addTri k1 (-1) (List.mem_append_left _ hb) (List.mem_append_left _ hc) vm ?_
      simp only [List.nodup_cons, List.mem_cons, List.not_mem_nil, or_false, not_or]
      exact ⟨⟨hnd.2.1, nb⟩, nc, not_false, List.nodup_nil⟩
    have kk : RimSame s s1 := by
      refine same_of h.wf (by rw [hs1]; rfl) (fun e _ => by rw [hs1]; rfl) fun v hv => ?_
      rw [hs1, addTri_pos, addTri_pos]
      exact k0.pos v hv
    have hvt : s1.verts = s.verts ++ [s.nxt] := by rw [hs1]; rfl
    have ha1 : a ∈ s1.verts := by rw [hvt]; exact List.mem_append_left _ ha
    have hb1 : b ∈ s1.verts := by rw [hvt]; exact List.mem_append_left _ hb
    have hv1 : s.nxt ∈ s1.verts := by rw [hvt]; simp
    clear hs1 k0 k1 vm fine
    obtain ⟨he1, d1⟩ := getEdge_some w1 ha1 hg1
    have n1 : s.nxt ≠ (s1.E e1).v1 := by rcases d1 with ⟨x, y⟩ | ⟨x, y⟩ <;> (first | rw [x] | rw [y]) <;> (first | exact Ne.symm na | exact Ne.symm nb)
    have n2 : s.nxt ≠ (s1.E e1).v2 := by rcases d1 with ⟨x, y⟩ | ⟨x, y⟩ <;> (first | rw [x] | rw [y]) <;> (first | exact Ne.symm na | exact Ne.symm nb)
    have A1 := advanceFront_spec w1 (s.nxt + 1) he1 (v := s.nxt) hv1 n1 n2
    obtain ⟨he2, d2⟩ := getEdge_some A1.wf (by rw [A1.verts]; exact hb1) hg2
    exact rim_same (same_trans kk (same_trans (same_adv w1 he1 hv1 n1 n2) (same_adv A1.wf he2 (by rw [A1.verts]; exact hv1)
      (by rcases d2 with ⟨x, y⟩ | ⟨x, y⟩ <;> (first | rw [x] | rw [y]) <;> (first | exact Ne.symm nb | exact Ne.symm nc))
      (by rcases d2 with ⟨x, y⟩ | ⟨x, y⟩ <;> (first | rw [x] | rw [y]) <;> (first | exact Ne.symm nb | exact Ne.symm nc)))))
  | @split _ e sf n hm hsp =>
    exact rim_split h hm hsp (fine _ (List.mem_singleton.mpr rfl)) (off _ (List.mem_singleton.mpr rfl))
  | move hv => exact absurd (fine _ (List.mem_singleton.mpr rfl)) (by simp [Fine])
  | mark =>
    exact rim_same (same_of h.wf rfl (fun _ _ => rfl) fun v _ => by unfold setProps pos upd; dsimp only; split_ifs <;> rfl)

/-- Conditions on the first state are conditions on later ones. -/
theorem off_later {s t : St K} (k : RimKept s t) {x : Ev K} (h : OffLinks s x) : OffLinks t x := by
  cases x with
  | split a b n bd =>
    intro e he ht
    obtain ⟨o1, o2⟩ := k.only e he ht
    obtain ⟨-, k1, k2, -⟩ := k.linked e o1 (by rw [o2]; exact ht)
    rw [k1, k2]
    exact h e o1 (by rw [o2]; exact ht)
  | tri _ _ => trivial
  | move _ => trivial

theorem rim_lrun {s0 s : St K} {log : List (Ev K)} (h : Meshing s0) (r : LRun L s0 log s) (f : ∀ x ∈ log, Fine L.env x)
    (off : ∀ x ∈ log, OffLinks s0 x) : RimKept s0 s := by
  induction r with
  | start => exact rim_refl _
  | step hr st ih =>
    have f1 := fun x hx => f x (List.mem_append_left _ hx)
    have k := ih f1 fun x hx => off x (List.mem_append_left _ hx)
    exact rim_trans k (rim_step he hq hso hn (fine_good he hq hso hn h hr f1).1 st (fun x hx => f x (List.mem_append_right _ hx))
      fun x hx => off_later he hq hso hn k (off x (List.mem_append_right _ hx)))

theorem same_finish {s : St K} (h : Meshing s) : WF (finishStep s) ∧ RimSame s (finishStep s) := by
  obtain ⟨new, R⟩ := MC.rinv_all (meshing_remaining h).1
  obtain ⟨c1, c2, -, c4, c5, -⟩ := MC.clearFront_spec R.wf
  refine ⟨c1, same_of h.wf ((c4 .bdry (by decide)).trans R.bdry) (fun e hx => ?_) fun v _ => (c2.pos v).trans (R.se.pos v)⟩
  show (clearFront (addRemaining s)).E e = _
  rw [c5]
  exact R.old e ((h.wf.ends _).2 e hx).2.2.2.2

/-- Sets of quad layers that cut no linked edges keep the links. -/
theorem rim_layerAll {fuel : Nat} {s0 : St K} (h0 : Bare s0) : ∀ {ds : List (LayerDef K)} {s t : St K}, Staged L s0 s → WF s →
    LayersFine L fuel ds s → LayersOff L fuel ds s → layerAll L fuel ds s = some t → RimKept s t
  | [], s, t, hs, _, _, _, h => by
    simp only [layerAll, Option.some.injEq] at h
    rw [← h]; exact rim_refl _
  | d :: ds, s, t, hs, hw, hf, ho, h => by
    simp only [layerAll, Option.bind_eq_some_iff] at h
    obtain ⟨r, h1, h2⟩ := h
    unfold QL.generate at h1
    unfold LayersFine at hf
    unfold LayersOff at ho
    by_cases hb : (s.es .bdry).length < 1
    · rw [if_pos hb] at h1 hf ho
      simp only [Option.some.injEq] at h1
      rw [← h1] at h2
      exact rim_layerAll h0 hs hw hf ho h2
    · rw [if_neg hb] at h1 hf ho
      simp only [Option.map_eq_some_iff] at h1
      obtain ⟨r', h3, rfl⟩ := h1
      have hwk : Work L s0 r'.1 := .layers (staged_start hs) h3 hf.1
      have hm := (work_inv he hq hso hn h0 hwk).mesh
      have hm0 := (work_inv he hq hso hn h0 (staged_start hs)).mesh
      have k1 := rim_same (same_start L.env.eps hw)
      have hr := (layers_tracks (R := regFine he hq hso hn) he (queryExact_live hq) hso _ hm0 h3 hf.1).1
      have k2 := rim_lrun he hq hso hn hm0 hr hf.1 fun x hx => off_later he hq hso hn k1 (ho.1 x hx)
      obtain ⟨w3, k3⟩ := same_finish he hq hso hn hm
      exact rim_trans k1 (rim_trans k2 (rim_trans (rim_same k3)
        (rim_layerAll h0 (.left hwk (hf.2 _ h3).1) w3 (hf.2 _ h3).2 (ho.2 _ h3) h2)))

end TQ.Whole

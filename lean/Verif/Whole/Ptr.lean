import Verif.Whole.Work
import Verif.Whole.Coarse

/-! # Lemmas: neighbour pointers while a domain is meshed -/

set_option linter.unusedSectionVars false
set_option linter.unusedSimpArgs false
set_option linter.unusedVariables false

namespace TQ.Whole
open TQ.MS TQ.MeshSpec TQ.FUSpec TQ.MS.St TQ.GeoSpec TQ.FU TQ.Sm TQ.MCSpec TQ.WholeSpec TQ.RefSpec TQ.QLSpec TQ.QL TQ.CleanSpec
variable {K : Type*} [Field K] [LinearOrder K] [IsStrictOrderedRing K]

/-- Elements have a pointer for each side, and none across a boundary edge. -/
structure BPtr (s : St K) : Prop where
  len : NbrLen s
  null : ∀ f i a b g, Live s f → sideAt (s.F f).corners i = some (a, b) → (s.F f).nbrs[i]? = some g →
    ((a, b) ∈ pairs s .bdry ∨ (b, a) ∈ pairs s .bdry) → g = .null

/-- Elements of `s'` are old or without pointers, boundary edges are old or have a new end. -/
structure Kin (s s' : St K) : Prop where
  verts : ∀ v ∈ s.verts, v ∈ s'.verts
  bdry : ∀ p ∈ pairs s' .bdry, p ∈ pairs s .bdry ∨ p.1 ∉ s.verts ∨ p.2 ∉ s.verts
  old : ∀ f, Live s' f → (Live s f ∧ (s'.F f).corners = (s.F f).corners ∧ (s'.F f).nbrs = (s.F f).nbrs) ∨
    ((s'.F f).nbrs.length = (s'.F f).corners.length ∧ ∀ g ∈ (s'.F f).nbrs, g = .null)

theorem Kin.refl (s : St K) : Kin s s := ⟨fun _ h => h, fun _ h => Or.inl h, fun _ h => Or.inl ⟨h, rfl, rfl⟩⟩

theorem Kin.trans {s t u : St K} (a : Kin s t) (b : Kin t u) : Kin s u where
  verts := fun v hv => b.verts v (a.verts v hv)
  bdry := fun p hp => by
    rcases b.bdry p hp with h | h | h
    · exact a.bdry p h
    · exact Or.inr (Or.inl fun hv => h (a.verts _ hv))
    · exact Or.inr (Or.inr fun hv => h (a.verts _ hv))
  old := fun f hf => by
    rcases b.old f hf with ⟨h1, h2, h3⟩ | h
    · rcases a.old f h1 with ⟨k1, k2, k3⟩ | ⟨k1, k2⟩
      · exact Or.inl ⟨k1, h2.trans k2, h3.trans k3⟩
      · exact Or.inr ⟨by rw [h2, h3, k1], by rw [h3]; exact k2⟩
    · exact Or.inr h

theorem bptr_kin {s s' : St K} (hw : WF s) (h : BPtr s) (k : Kin s s') : BPtr s' where
  len := fun f hf => by
    rcases k.old f hf with ⟨h1, h2, h3⟩ | ⟨h1, -⟩
    · rw [h2, h3]; exact h.len f h1
    · exact h1
  null := fun f i a b g hf hs hg hb => by
    rcases k.old f hf with ⟨h1, h2, h3⟩ | ⟨-, h2⟩
    · rw [h2] at hs
      rw [h3] at hg
      have hc := (hw.cor f h1).2
      have ha : a ∈ s.verts := hc a (by
        unfold sideAt at hs
        split at hs <;> grind)
      have hb' : b ∈ s.verts := hc b (by
        unfold sideAt at hs
        split at hs <;> grind)
      refine h.null f i a b g h1 hs hg ?_
      rcases hb with hb | hb
      · rcases k.bdry _ hb with x | x | x
        · exact Or.inl x
        · exact absurd ha x
        · exact absurd hb' x
      · rcases k.bdry _ hb with x | x | x
        · exact Or.inr x
        · exact absurd hb' x
        · exact absurd ha x
    · exact h2 g (List.mem_of_getElem? hg)

/-- Same lists, and the same data of the elements. -/
theorem kin_same {s s' : St K} (v : ∀ w ∈ s.verts, w ∈ s'.verts) (e : s'.es .bdry = s.es .bdry) (E : ∀ b ∈ s.es .bdry, s'.E b = s.E b)
    (t : ∀ x ∈ s'.tris, x ∈ s.tris) (q : ∀ x ∈ s'.quads, x ∈ s.quads) (F : ∀ f, Live s f → s'.F f = s.F f) : Kin s s' where
  verts := v
  bdry := fun p hp => by
    left
    unfold pairs at hp ⊢
    rw [e] at hp
    rwa [List.map_congr_left fun b hb => by rw [E b hb]] at hp
  old := fun f hf => by
    have : Live s f := by
      cases f with
      | null => exact hf
      | tri x => exact t x hf
      | quad x => exact q x hf
    exact Or.inl ⟨this, by rw [F f this], by rw [F f this]⟩

theorem kin_prep {env : Env K} {s s1 : St K} {b1 b2 v t : Nat} (h : Prep env s s1 b1 b2 v t) : Kin s s1 where
  verts := fun w hw => by
    rcases h.verts with x | ⟨x, -⟩
    · rw [x]; exact hw
    · rw [x]; exact List.mem_append_left _ hw
  bdry := fun p hp => by left; rwa [prep_pairs h] at hp
  old := fun f hf => by
    cases f with
    | null => exact hf.elim
    | tri x =>
      have hx : x ∈ s1.tris := hf
      rw [h.tris, List.mem_append, List.mem_singleton] at hx
      rcases hx with hx | rfl
      · exact Or.inl ⟨hx, by rw [h.F (.tri x) hx], by rw [h.F (.tri x) hx]⟩
      · right
        rw [h.Ft]
        exact ⟨rfl, by simp⟩
    | quad x =>
      have hx : x ∈ s1.quads := hf
      rw [h.quads] at hx
      exact Or.inl ⟨hx, by rw [h.F (.quad x) hx], by rw [h.F (.quad x) hx]⟩

theorem kin_adv {s s' : St K} {base v t : Nat} (h : Adv s s' base v t) : Kin s s' where
  verts := fun w hw => by rw [h.verts]; exact hw
  bdry := fun p hp => by left; rwa [h.bdry] at hp
  old := fun f hf => by
    have : Live s f := by
      cases f with
      | null => exact hf
      | tri x => exact show x ∈ s.tris from h.tris ▸ (show x ∈ s'.tris from hf)
      | quad x => exact show x ∈ s.quads from h.quads ▸ (show x ∈ s'.quads from hf)
    refine Or.inl ⟨this, ?_, ?_⟩ <;>
    · rw [h.F]
      unfold upd
      split_ifs with e
      · rw [e]
      · rfl

theorem kin_addTri {s : St K} (h : WF s) (a b c : Nat) (col : Int) : Kin s (s.addTri a b c col) where
  verts := fun w hw => hw
  bdry := fun p hp => Or.inl hp
  old := fun f hf => by
    by_cases hl : Live s f
    · left
      have := addTri_fresh h hl a b c col
      exact ⟨hl, by rw [this], by rw [this]⟩
    · right
      cases f with
      | null => exact hf.elim
      | tri x =>
        have hx : x ∈ s.tris ++ [s.nxt] := hf
        rw [List.mem_append, List.mem_singleton] at hx
        rcases hx with hx | rfl
        · exact absurd hx hl
        · simp [addTri, upd]
      | quad x => exact absurd hf hl

theorem kin_addVertex (s : St K) (p : Pt K) : Kin s (s.addVertex p) where
  verts := fun w hw => List.mem_append_left _ hw
  bdry := fun p hp => Or.inl hp
  old := fun f hf => Or.inl ⟨hf, rfl, rfl⟩

theorem kin_toQuad {s : St K} (h : WF s) (e t1 t2 a b q2 q1 : Nat) (he : e ∈ s.es .intr) : Kin s (toQuad s e t1 t2 a b q2 q1) := by
  have hl : (s.E e).list = .intr := ((h.ends _).2 e he).1
  have hi : s.removeIntr e = s.removeEdge e := by unfold removeIntr; simp [hl]
  unfold toQuad
  rw [hi]
  dsimp only
  refine ⟨fun w hw => hw, fun p hp => Or.inl ?_, fun f hf => ?_⟩
  · have : ((s.removeEdge e).es .bdry) = s.es .bdry := by simp [removeEdge, upd, hl]
    unfold pairs at hp ⊢
    have hp' : p ∈ ((s.removeEdge e).es .bdry).map fun x => ((s.E x).v1, (s.E x).v2) := hp
    rwa [this] at hp'
  · have key : ∀ f, Live s f → ((((((s.removeEdge e).removeTri t1).removeTri t2).addQuad a b q2 q1 (-1)).activate
        (.quad (((s.removeEdge e).removeTri t1).removeTri t2).nxt)).F f) = s.F f := by
      intro f hf
      have : f ≠ .quad s.nxt := by
        rintro rfl
        exact absurd (h.qlt _ hf) (lt_irrefl _)
      have this' : f ≠ .quad (((s.removeEdge e).removeTri t1).removeTri t2).nxt := this
      simp only [activate, addQuad, upd, if_neg this']
      rfl
    by_cases hl : Live s f
    · left
      exact ⟨hl, by rw [key f hl], by rw [key f hl]⟩
    · right
      cases f with
      | null => exact hf.elim
      | tri x =>
        have hx : x ∈ (s.tris.filter (fun x => decide (x ≠ t1))).filter (fun x => decide (x ≠ t2)) := hf
        exact absurd (List.mem_filter.mp (List.mem_filter.mp hx).1).1 hl
      | quad x =>
        have hx : x ∈ s.quads ++ [s.nxt] := hf
        rw [List.mem_append, List.mem_singleton] at hx
        rcases hx with hx | rfl
        · exact absurd hx hl
        · have : s.nxt = (((s.removeEdge e).removeTri t1).removeTri t2).nxt := rfl
          rw [this]
          simp [activate, addQuad, upd]

theorem kin_run {env : Env K} (he : 0 < env.eps) (hq : QueryLive env) (hs : SortOK env) {s0 : St K} (h0 : WF s0)
    {log : List Entry} {s : St K} (hr : Run env s0 log s) : Kin s0 s := by
  refine (run_induct he hq hs h0 (fun _ s => Kin s0 s) (Kin.refl s0) ?_ ?_ ?_ hr).2
  · rintro log s s' base v t hwf hb ih hd ⟨s1, hp, rfl⟩
    exact ih.trans ((kin_prep hp).trans (kin_adv (prep_adv hb hp)))
  · intro log s s' hw hw' ih same
    exact ih.trans (kin_same (fun _ hv => by rw [same.verts]; exact hv) (by rw [same.es]) (fun _ _ => by rw [same.edata]) (by rw [same.tris]; exact fun _ h => h)
      (by rw [same.quads]; exact fun _ h => h) same.fdata)
  · intro log s l hw ih hl
    refine ih.trans ⟨fun _ h => h, fun p hp => Or.inl ?_, fun f hf => Or.inl ⟨hf, rfl, rfl⟩⟩
    have : (reorder s l).es .bdry = s.es .bdry := by simp [reorder, upd]
    unfold pairs at hp ⊢
    rwa [this] at hp

variable {L : LEnv K} (he : 0 < L.env.eps) (hq : QueryExact L.env) (hso : SortOK L.env)
  (hn : ∀ p, 0 ≤ L.env.norm p ∧ Pt.normSq p ≤ L.env.norm p * L.env.norm p)
include he hq hso hn

theorem kin_update {s s' : St K} (h : WF s) {base t : Nat} {np sp : Pt K} {r : K} (hb : base ∈ s.es .front)
    (hu : updateFront L.env s base np sp r = (s', some t)) : Kin s s' := by
  have ho := updateFront_outcome he (queryExact_live hq) hso h hb np sp r
  rw [hu] at ho
  cases ho with
  | ok prep => exact (kin_prep prep).trans (kin_adv (prep_adv hb prep))

theorem kin_step {s s' : St K} {l : List (Ev K)} (h : Meshing s) (st : LStep L s l s') (fine : ∀ x ∈ l, Fine L.env x) : Kin s s' := by
  have hql : QueryLive L.env := queryExact_live hq
  cases st with
  | @fail _ base np sp r hb hu =>
    have ho := updateFront_outcome he hql hso h.wf hb np sp r
    rw [hu] at ho
    cases ho with
    | fail same wf _ =>
      exact kin_same (fun _ hv => by rw [same.verts]; exact hv) (by rw [same.es]) (fun _ _ => by rw [same.edata]) (by rw [same.tris]; exact fun _ h => h)
        (by rw [same.quads]; exact fun _ h => h) same.fdata
  | @tri _ base np sp r t v hb hu hv => exact kin_update he hq hso hn h.wf hb hu
  | @quad s1 s2 base np sp r t1 q1 dg np' sp' r' t2 q2 er hb hu1 hq1 hdg hu2 hq2 her =>
    obtain ⟨v', d1⟩ := updateFront_done he hql hso h.wf hb hu1
    have : v' = q1 := by rw [d1.cor] at hq1; simpa using hq1
    subst this
    obtain ⟨hdm, -⟩ := getEdge_some d1.wf d1.vmem hdg
    obtain ⟨v'', d2⟩ := updateFront_done he hql hso d1.wf hdm hu2
    have hm2 : (s.E base).v2 ∈ s2.verts := d2.verts _ (d1.verts _ ((h.wf.ends _).2 base hb).2.2.1)
    obtain ⟨herm, -⟩ := getEdge_some d2.wf hm2 her
    exact (kin_update he hq hso hn h.wf hb hu1).trans ((kin_update he hq hso hn d1.wf hdm hu2).trans (kin_toQuad d2.wf _ _ _ _ _ _ _ herm))
  | gapFail hnd ha hb hc =>
    exact kin_same (fun _ hv => hv) rfl (fun _ _ => rfl) (fun x hx => by rw [← filter_fresh h.wf.tlt]; exact hx) (fun _ hx => hx)
      fun f hf => addTri_fresh h.wf hf _ _ _ (-1)
  | @gap a b c e hnd ha hb hc hv hg =>
    have w1 := wf_addTri h.wf (-1) ha hb hc hnd
    obtain ⟨hm, hd⟩ := getEdge_some w1 (show b ∈ (s.addTri a b c (-1)).verts from hb) hg
    simp only [List.nodup_cons, List.mem_cons, List.not_mem_nil, or_false, not_or] at hnd
    refine (kin_addTri h.wf a b c (-1)).trans (kin_adv (advanceFront_spec w1 _ hm ha ?_ ?_)) <;>
    · rcases hd with ⟨e1, e2⟩ | ⟨e1, e2⟩ <;> (first | rw [e1] | rw [e2]) <;> tauto
  | @gap2Fail a b c p hnd ha hb hc =>
    have k := kept_gap2Fail h.wf p hnd ha hb hc
    refine kin_same k.verts rfl (fun _ _ => rfl) (fun x hx => ?_) (fun _ hx => hx) fun f hf => ?_
    · have hx' : x ∈ ((s.tris ++ [s.nxt + 1] ++ [s.nxt + 2]).filter (fun x => decide (x ≠ s.nxt + 1))).filter
        (fun x => decide (x ≠ s.nxt + 2)) := hx
      simp only [List.mem_filter, List.mem_append, List.mem_singleton, decide_eq_true_eq] at hx'
      tauto
    · have n1 : f ≠ .tri (s.nxt + 1) := by
        rintro rfl; have : s.nxt + 1 < s.nxt := h.wf.tlt _ hf
        omega
      have n2 : f ≠ .tri (s.nxt + 2) := by
        rintro rfl; have : s.nxt + 2 < s.nxt := h.wf.tlt _ hf
        omega
      show ((upd (upd s.F (.tri (s.nxt + 1)) fun _ => ⟨[a, b, s.nxt], [.null, .null, .null], s.newColor (-1), false⟩)
        (.tri (s.nxt + 2)) fun _ => ⟨[b, c, s.nxt], [.null, .null, .null], s.newColor (-1), false⟩) f) = _
      simp only [upd, if_neg n1, if_neg n2]
  | @gap2 s1 a b c e1 e2 p hnd ha hb hc hs1 hv1 hv2 hg1 hg2 =>
    simp only [List.nodup_cons, List.mem_cons, List.not_mem_nil, or_false, not_or] at hnd
    have na : a ≠ s.nxt := Nat.ne_of_lt (h.wf.vlt a ha)
    have nb : b ≠ s.nxt := Nat.ne_of_lt (h.wf.vlt b hb)
    have nc : c ≠ s.nxt := Nat.ne_of_lt (h.wf.vlt c hc)
    have k0 := kept_addVertex h.wf p
    have vm : s.nxt ∈ (s.addVertex p).verts := by simp [addVertex]
    have k1 : WF ((s.addVertex p).addTri a b s.nxt (-1)) := by
      refine wf_addTri k0.wf (-1) (List.mem_append_left _ ha) (List.mem_append_left _ hb) vm ?_
      simp only [List.nodup_cons, List.mem_cons, List.not_mem_nil, or_false, not_or]
      exact ⟨⟨hnd.1.1, na⟩, nb, not_false, List.nodup_nil⟩
    have w1 : WF s1 := by
      rw [hs1]
      refine wf_addTri k1 (-1) (List.mem_append_left _ hb) (List.mem_append_left _ hc) vm ?_
      simp only [List.nodup_cons, List.mem_cons, List.not_mem_nil, or_false, not_or]
      exact ⟨⟨hnd.2.1, nb⟩, nc, not_false, List.nodup_nil⟩
    have kk : Kin s s1 := by
      rw [hs1]
      exact (kin_addVertex s p).trans ((kin_addTri k0.wf _ _ _ _).trans (kin_addTri k1 _ _ _ _))
    have hvt : s1.verts = s.verts ++ [s.nxt] := by rw [hs1]; rfl
    have ha1 : a ∈ s1.verts := by rw [hvt]; exact List.mem_append_left _ ha
    have hb1 : b ∈ s1.verts := by rw [hvt]; exact List.mem_append_left _ hb
    have hv1 : s.nxt ∈ s1.verts := by rw [hvt]; simp
    clear hs1 k0 k1 vm fine
    obtain ⟨he1, d1⟩ := getEdge_some w1 ha1 hg1
    have A1 := advanceFront_spec w1 (s.nxt + 1) he1 (v := s.nxt) hv1
      (by rcases d1 with ⟨x, y⟩ | ⟨x, y⟩ <;> (first | rw [x] | rw [y]) <;> (first | exact Ne.symm na | exact Ne.symm nb))
      (by rcases d1 with ⟨x, y⟩ | ⟨x, y⟩ <;> (first | rw [x] | rw [y]) <;> (first | exact Ne.symm na | exact Ne.symm nb))
    obtain ⟨he2, d2⟩ := getEdge_some A1.wf (by rw [A1.verts]; exact hb1) hg2
    have A2 := advanceFront_spec A1.wf (s.nxt + 2) he2 (v := s.nxt) (by rw [A1.verts]; exact hv1)
      (by rcases d2 with ⟨x, y⟩ | ⟨x, y⟩ <;> (first | rw [x] | rw [y]) <;> (first | exact Ne.symm nb | exact Ne.symm nc))
      (by rcases d2 with ⟨x, y⟩ | ⟨x, y⟩ <;> (first | rw [x] | rw [y]) <;> (first | exact Ne.symm nb | exact Ne.symm nc))
    exact kk.trans ((kin_adv A1).trans (kin_adv A2))
  | @split _ e sf n hm hsp =>
    obtain ⟨hnx, k, hv, -, -, -, -, ht, hqd, hF, pb⟩ := split_spec h.wf hm hsp
    have hnv : n ∉ s.verts := fun hh => by
      have := h.wf.vlt n hh
      omega
    refine ⟨k.verts, fun p hp => ?_, fun f hf => Or.inl ⟨?_, by rw [hF], by rw [hF]⟩⟩
    · cases hb : s.getEdge .bdry (s.E e).v1 (s.E e).v2 with
      | none =>
        rw [hb] at pb
        left
        rw [← pb]; exact hp
      | some b =>
        rw [hb] at pb
        have := pb.mem_iff.mp (List.mem_cons_of_mem _ hp)
        simp only [List.mem_append, List.mem_cons, List.not_mem_nil, or_false] at this
        rcases this with x | rfl | rfl
        · exact Or.inl x
        · exact Or.inr (Or.inr hnv)
        · exact Or.inr (Or.inl hnv)
    · cases f with
      | null => exact hf
      | tri x => exact show x ∈ s.tris from ht ▸ (show x ∈ s'.tris from hf)
      | quad x => exact show x ∈ s.quads from hqd ▸ (show x ∈ s'.quads from hf)
  | move hv => exact absurd (fine _ (List.mem_singleton.mpr rfl)) (by simp [Fine])
  | mark => exact kin_same (fun _ hv => hv) rfl (fun _ _ => rfl) (fun _ hx => hx) (fun _ hx => hx) fun f hf => rfl

theorem kin_lrun {s0 s : St K} {log : List (Ev K)} (h : Meshing s0) (r : LRun L s0 log s) (f : ∀ x ∈ log, Fine L.env x) : Kin s0 s := by
  induction r with
  | start => exact Kin.refl _
  | step hr st ih =>
    have f1 := fun x hx => f x (List.mem_append_left _ hx)
    exact (ih f1).trans (kin_step he hq hso hn (fine_good he hq hso hn h hr f1).1 st fun x hx => f x (List.mem_append_right _ hx))

omit he hq hso hn in
theorem foldl_F {g : St K → Nat → St K} (hg : ∀ t e, (g t e).F = t.F) : ∀ (l : List Nat) (t : St K), (l.foldl g t).F = t.F
  | [], _ => rfl
  | e :: l, t => by rw [List.foldl_cons, foldl_F hg l, hg]

omit he hq hso hn in
theorem finish_F (s : St K) : (MC.finishStep s).F = s.F := by
  unfold MC.finishStep MC.clearFront
  rw [foldl_F (g := removeEdge) (fun _ _ => rfl)]
  unfold MC.addRemaining
  refine foldl_F (fun t e => ?_) _ _
  unfold MC.addRemaining1
  dsimp only
  split_ifs <;> rfl

omit he hq hso hn in
theorem start_F (eps : K) (s : St K) : (MC.startStep eps s).F = (MC.setupConnectivity eps s).F := by
  unfold MC.startStep MC.removeInvalid
  rw [foldl_F (K := K) (g := removeIntr) (fun t e => by unfold removeIntr; split_ifs <;> rfl)]
  unfold MC.initFront
  exact foldl_F (g := MC.addFrontEdge) (fun _ _ => rfl) _ _

omit he hq hso hn in
theorem bptr_resume {eps : K} {s : St K} (h : Meshing s) (hb : BPtr s) (hlf : LeftFacets eps s) :
    BPtr (MC.startStep eps (MC.finishStep s)) := by
  have hr := (meshing_remaining h).1
  obtain ⟨new, R⟩ := MC.rinv_all hr
  obtain ⟨c1, c2, c3, c4, c5, c6, c7⟩ := MC.clearFront_spec R.wf
  obtain ⟨-, m2, -, m4, m5, -⟩ := MC.resume hr hlf
  have hF := start_F eps (MC.finishStep s)
  have hFc := finish_F s
  have hcs : MC.finishStep s = MC.clearFront (MC.addRemaining s) := rfl
  generalize hc : MC.finishStep s = c at *
  rw [← hcs] at c1 c2 c4 c5
  have sec : SameElements s c := MC.se_trans R.se c2
  have hdc := MC.se_dir sec hr.dir
  generalize MC.startStep eps c = t at *
  have hbp : pairs t .bdry = pairs s .bdry := by
    unfold pairs
    rw [m4]
    exact List.map_congr_left fun e he => (m5 e (Or.inr he)).1
  have hlive : ∀ f, Live t f → Live s f := fun f hf => (MC.se_live m2 f).mp hf
  refine ⟨fun f hf => ?_, fun f i a b g hf hs hg hpb => ?_⟩
  · rw [hF, ((MC.setup_sbp eps c1).corners f).2.2.2, hFc, ((MC.setup_sbp eps c1).corners f).1, hFc]
    exact hb.len f (hlive f hf)
  · rw [hbp] at hpb
    have hs' : sideAt (c.F f).corners i = some (a, b) := by rw [← ((MC.setup_sbp eps c1).corners f).1, ← hF]; exact hs
    rw [hF, MC.setup_nbr_keep c1 hdc hs' ?_, hFc] at hg
    · rw [hFc] at hs'
      exact hb.null f i a b g (hlive f hf) hs' hg hpb
    · rintro ⟨e, e1, e2⟩
      -- no interior edge runs along a boundary edge
      obtain ⟨y, y1, y2⟩ : ∃ y ∈ s.es .bdry, ((s.E y).v1 = a ∧ (s.E y).v2 = b) ∨ ((s.E y).v1 = b ∧ (s.E y).v2 = a) := by
        unfold pairs at hpb
        simp only [List.mem_map, Prod.mk.injEq] at hpb
        rcases hpb with ⟨y, y1, y2, y3⟩ | ⟨y, y1, y2, y3⟩
        · exact ⟨y, y1, Or.inl ⟨y2, y3⟩⟩
        · exact ⟨y, y1, Or.inr ⟨y2, y3⟩⟩
      rw [c4 _ (by simp), R.intr, List.mem_append] at e1
      rcases e1 with e1 | e1
      · rw [c5, R.old e (MC.edge_lt hr.wf e1)] at e2
        obtain ⟨⟨f1, l1, s1⟩, f2, l2, s2⟩ := hr.intrFull e e1
        have hno := hr.bdryRight y y1
        rcases e2 with ⟨z1, z2⟩ | ⟨z1, z2⟩ <;> rcases y2 with ⟨w1, w2⟩ | ⟨w1, w2⟩ <;> rw [z1, z2] at s1 s2 <;> rw [w1, w2] at hno
        · exact hno f2 l2 s2
        · exact hno f1 l1 s1
        · exact hno f1 l1 s1
        · exact hno f2 l2 s2
      · rw [c5] at e2
        have : MC.pairOf (MC.addRemaining s) e ∈ new.map (MC.pairOf (MC.addRemaining s)) := List.mem_map_of_mem e1
        rw [R.newE, List.mem_map] at this
        obtain ⟨x, hx, hx2⟩ := this
        obtain ⟨x1, x2⟩ := List.mem_filter.mp hx
        have hx3 : (s.E x).v1 = ((MC.addRemaining s).E e).v1 ∧ (s.E x).v2 = ((MC.addRemaining s).E e).v2 := by
          simpa [MC.pairOf] using hx2
        rw [← hx3.1, ← hx3.2] at e2
        simp only [decide_eq_true_eq] at x2
        apply x2
        refine ⟨y, y1, ?_⟩
        unfold SameEnds
        rcases e2 with ⟨z1, z2⟩ | ⟨z1, z2⟩ <;> rcases y2 with ⟨w1, w2⟩ | ⟨w1, w2⟩ <;> rw [z1, z2, w1, w2] <;> simp

omit he hq hso hn in
theorem bptr_bare (eps : K) {s : St K} (h : Bare s) : BPtr (MC.startStep eps s) := by
  obtain ⟨d1, d2, -⟩ := start_bare eps h.wf h.tris h.quads h.intr h.front h.null
  have : ∀ f, ¬ Live (MC.startStep eps s) f := fun f hf => by
    have := (MC.se_live d2 f).mp hf
    cases f with
    | null => exact this
    | tri x => exact absurd (show x ∈ s.tris from this) (by rw [h.tris]; simp)
    | quad x => exact absurd (show x ∈ s.quads from this) (by rw [h.quads]; simp)
  exact ⟨fun f hf => absurd hf (this f), fun f _ _ _ _ hf => absurd hf (this f)⟩

theorem work_bptr {s0 s : St K} (h0 : Bare s0) (h : Work L s0 s) : BPtr s := by
  have hql := queryExact_live hq
  induction h with
  | start => exact bptr_bare _ h0
  | @run s s' log hss hrun hres hreach ih =>
    have hw := (work_inv he hq hso hn h0 hss).mesh.wf
    exact bptr_kin hw ih (kin_run he hql hso hw hrun)
  | @layers s fuel n growth ht xs xe r hss hl hf ih =>
    have hm := (work_inv he hq hso hn h0 hss).mesh
    have hr := (layers_tracks (R := regFine he hq hso hn) he hql hso n hm hl hf).1
    exact bptr_kin hm.wf ih (kin_lrun he hq hso hn hm hr hf)
  | @resume s hss hlf ih => exact bptr_resume (work_inv he hq hso hn h0 hss).mesh ih hlf

/-- A completely meshed domain is complete, with the pointers that clean-ups need. -/
theorem work_complete {s0 s : St K} (h0 : Bare s0) (h : Work L s0 s) (hf : s.es .front = []) : Complete s ∧ NbrLen s ∧ FreshPointers s := by
  have hm := (work_inv he hq hso hn h0 h).mesh
  have hb := work_bptr he hq hso hn h0 h
  have hc := meshing_conforming hm hf
  refine ⟨{ toConforming := hc, front := hf, bdry := hm.bdry, ccw := hm.ccw, plain := hm.plain }, hb.len, ?_⟩
  rintro f a b g hl hni ⟨i, hi, hs, hv⟩
  have key : ∀ x y, sideAt (s.F f).corners i = some (x, y) → ¬ IntrEdge s x y → g = .null := by
    intro x y hxy hn'
    refine hb.null f i x y g hl hxy hv ?_
    obtain ⟨e, e1, e2⟩ := hc.sides x y ⟨f, hl, by
      exact ⟨i, hi, hxy⟩⟩
    rcases e1 with e1 | e1
    · exact absurd ⟨e, e1, e2⟩ hn'
    · rcases e2 with ⟨h1, h2⟩ | ⟨h1, h2⟩
      · left; rw [← h1, ← h2]; exact mem_pairs e1
      · right; rw [← h1, ← h2]; exact mem_pairs e1
  rcases hs with hs | hs
  · exact key a b hs hni
  · exact key b a hs fun ⟨e, e1, e2⟩ => hni ⟨e, e1, e2.symm⟩

end TQ.Whole

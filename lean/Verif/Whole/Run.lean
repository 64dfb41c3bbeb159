import Verif.Whole.Conform

/-! # Lemmas: advancing the front keeps a domain partly meshed -/

set_option linter.unusedSectionVars false
set_option linter.unusedSimpArgs false

namespace TQ.Whole
open TQ.MS TQ.MeshSpec TQ.FUSpec TQ.MS.St TQ.GeoSpec TQ.FU TQ.Sm TQ.MCSpec TQ.WholeSpec TQ.RefSpec
variable {K : Type*} [Field K] [LinearOrder K] [IsStrictOrderedRing K]

/-! ### Boundary edges are left alone -/

theorem removeEdge_bdry {s : St K} {e : Nat} (h : (s.E e).list = .front) : (s.removeEdge e).es .bdry = s.es .bdry := by
  unfold removeEdge
  rw [h]
  simp [upd]

theorem addEdge_bdry {s : St K} {l : EL} (h : l ≠ .bdry) (a b : Nat) (c : Int) (p : BitVec 8) :
    (s.addEdge l a b c p).es .bdry = s.es .bdry := by
  unfold addEdge
  simp only [upd]
  rw [if_neg (Ne.symm h)]

theorem keepEdge_bdry (s : St K) (e : Nat) : (keepEdge s e).es .bdry = s.es .bdry := by
  unfold keepEdge
  split_ifs
  · exact addEdge_bdry (by decide) _ _ _ _
  · rfl

theorem ufs_bdry (s : St K) (v : Nat) : (updateFrontState s v).es .bdry = s.es .bdry := by
  unfold updateFrontState; split_ifs <;> rfl

theorem keepEdge_E {s : St K} {e x : Nat} (hx : x < s.nxt) : (keepEdge s e).E x = s.E x := by
  unfold keepEdge
  split_ifs
  · simp only [addIntr, addEdge, upd]
    rw [if_neg (by omega)]
  · rfl

theorem keepEdge_nxt (s : St K) (e : Nat) : s.nxt ≤ (keepEdge s e).nxt := by
  unfold keepEdge
  split_ifs
  · simp [addIntr, addEdge]
  · exact le_rfl

theorem advanceFront_bdry {s : St K} (h : WF s) {base v : Nat} (t : Nat) (hb : base ∈ s.es .front) (hv : v ∈ s.verts)
    (h1 : v ≠ (s.E base).v1) (h2 : v ≠ (s.E base).v2) : (advanceFront s base v t).es .bdry = s.es .bdry := by
  obtain ⟨_, hb1, hb2, hb12, hblt⟩ := (h.ends _).2 base hb
  obtain ⟨w, x, bm, _, _, _⟩ := beforeRemoval_spec h hb hv h1 h2
  have front : ∀ {a b e}, a ∈ s.verts → s.getEdge .front a b = some e → (s.E e).list = .front ∧ e < s.nxt := by
    intro a b e ha he
    have hm := (getEdge_some h ha he).1
    exact ⟨((h.ends _).2 e hm).1, ((h.ends _).2 e hm).2.2.2.2⟩
  have hA : (advanceEdges s (s.E base).v1 (s.E base).v2 v).es .bdry = s.es .bdry := by
    unfold advanceEdges
    split
    · rename_i e1 e2 g1 g2
      obtain ⟨l1, n1⟩ := front hv g1
      obtain ⟨l2, n2⟩ := front hv g2
      have k1 : ((keepEdge (keepEdge s e1) e2).E e1).list = .front := by
        rw [keepEdge_E (lt_of_lt_of_le n1 (keepEdge_nxt _ _)), keepEdge_E n1]; exact l1
      have k2 : (((keepEdge (keepEdge s e1) e2).removeEdge e1).E e2).list = .front := by
        show ((keepEdge (keepEdge s e1) e2).E e2).list = .front
        rw [keepEdge_E (lt_of_lt_of_le n2 (keepEdge_nxt _ _)), keepEdge_E n2]; exact l2
      rw [removeEdge_bdry k2, removeEdge_bdry k1, keepEdge_bdry, keepEdge_bdry]
    · rename_i e1 g1 _
      obtain ⟨l1, n1⟩ := front hv g1
      have k1 : ((keepEdge s e1).E e1).list = .front := by rw [keepEdge_E n1]; exact l1
      unfold addFront
      rw [addEdge_bdry (by decide), removeEdge_bdry k1, keepEdge_bdry]
    · rename_i e2 _ g2
      obtain ⟨l2, n2⟩ := front hv g2
      have k2 : ((keepEdge s e2).E e2).list = .front := by rw [keepEdge_E n2]; exact l2
      unfold addFront
      rw [addEdge_bdry (by decide), removeEdge_bdry k2, keepEdge_bdry]
    · unfold addFront
      rw [addEdge_bdry (by decide), addEdge_bdry (by decide)]
  have hB : (beforeRemoval s base v).es .bdry = s.es .bdry := by
    unfold beforeRemoval
    dsimp only
    split_ifs
    · unfold addIntr
      rw [addEdge_bdry (by decide), ufs_bdry, ufs_bdry, ufs_bdry, hA]
    · rw [ufs_bdry, ufs_bdry, ufs_bdry, hA]
  rw [advanceFront_eq]
  show ((beforeRemoval s base v).removeEdge base).es .bdry = _
  rw [removeEdge_bdry ((w.ends _).2 base bm).1, hB]

/-! ### What a run keeps -/

theorem mem_frontOf {s : St K} {i : Bool} {x : Nat × Nat} : x ∈ frontOf s i ↔ ∃ y ∈ trips s, (y.1, y.2.1) = x ∧ y.2.2.1 = i := by
  unfold frontOf trips
  simp only [List.mem_map, List.mem_filter, beq_iff_eq]
  constructor
  · rintro ⟨e, ⟨h1, h2⟩, h3⟩
    exact ⟨trip s e, ⟨e, h1, rfl⟩, h3, h2⟩
  · rintro ⟨y, ⟨e, he, rfl⟩, h3, h2⟩
    exact ⟨e, ⟨he, h2⟩, h3⟩

structure Frame (s0 s : St K) : Prop where
  verts : ∀ w ∈ s0.verts, w ∈ s.verts
  pos : ∀ w ∈ s0.verts, s.pos w = s0.pos w
  quads : s.quads = s0.quads
  live : ∀ f, Live s0 f → Live s f
  F : ∀ f, Live s0 f → s.F f = s0.F f
  bdry : s.es .bdry = s0.es .bdry
  E : ∀ e ∈ s0.es .bdry, s.E e = s0.E e
  front : ∀ x ∈ frontOf s false, x ∈ frontOf s0 false

theorem Frame.refl (s : St K) : Frame s s :=
  ⟨fun _ h => h, fun _ _ => rfl, rfl, fun _ h => h, fun _ _ => rfl, rfl, fun _ _ => rfl, fun _ h => h⟩

theorem run_frame {env : Env K} (he : 0 < env.eps) (hq : QueryLive env) (hs : SortOK env) {s0 : St K} (h0 : WF s0)
    {log : List Entry} {s : St K} (hr : Run env s0 log s) : WF s ∧ Frame s0 s := by
  refine run_induct he hq hs h0 (fun _ s => Frame s0 s) (Frame.refl s0) ?_ ?_ ?_ hr
  · rintro log s s' base v t hwf hb ih hd ⟨s1, hp, rfl⟩
    have hb' : base ∈ s1.es .front := by rw [hp.es]; exact hb
    have hE : s1.E base = s.E base := by rw [hp.E]
    have hn := hp.ndp
    simp only [List.nodup_cons, List.mem_cons, List.not_mem_nil, or_false, not_or] at hn
    have n1 : v ≠ (s1.E base).v1 := by rw [hE]; exact Ne.symm hn.1.2
    have n2 : v ≠ (s1.E base).v2 := by rw [hE]; exact Ne.symm hn.2.1
    obtain ⟨rest, r1, r2⟩ := advanceFront_trips hp.wf t hb' hp.vmem n1 n2
    have hA := prep_adv hb hp
    rw [prep_trips hp] at r1
    have hlive : ∀ f, Live s f → Live (advanceFront s1 base v t) f := by
      intro f hf
      cases f with
      | null => exact absurd hf (by simp [Live])
      | tri t' => show t' ∈ _; rw [hd.tris]; exact List.mem_append_left _ hf
      | quad q => show q ∈ _; rw [hd.quads]; exact hf
    have hbd : (advanceFront s1 base v t).es .bdry = s.es .bdry := by
      rw [advanceFront_bdry hp.wf t hb' hp.vmem n1 n2, hp.es]
    refine ⟨fun w hw => hd.verts _ (ih.verts w hw), fun w hw => (hd.pos w (ih.verts w hw)).trans (ih.pos w hw),
      hd.quads.trans ih.quads, fun f hf => hlive f (ih.live f hf), fun f hf => (hd.fold f (ih.live f hf)).trans (ih.F f hf),
      hbd.trans ih.bdry, fun e hem => ?_, fun x hx => ?_⟩
    · rw [← ih.E e hem]
      have hlt : e < s.nxt := ((hwf.ends .bdry).2 e (by rw [ih.bdry]; exact hem)).2.2.2.2
      rw [hA.E e (lt_of_lt_of_le hlt hp.nxt), hp.E]
    · refine ih.front x ?_
      rw [mem_frontOf] at hx ⊢
      obtain ⟨y, hy, hyx, hyi⟩ := hx
      refine ⟨y, ?_, hyx, hyi⟩
      rw [r2.mem_iff, List.mem_append, List.mem_append] at hy
      rcases hy with (hy | hy) | hy
      · exfalso
        unfold created at hy
        split at hy
        · simp at hy
        · simp only [List.mem_singleton] at hy; rw [hy] at hyi; simp at hyi
      · exfalso
        unfold created at hy
        split at hy
        · simp at hy
        · simp only [List.mem_singleton] at hy; rw [hy] at hyi; simp at hyi
      · rw [r1.mem_iff]; simp [hy]
  · intro log s s' hwf _ ih hsame
    have hlive : ∀ f, Live s f → Live s' f := by
      intro f hf
      cases f with
      | null => exact absurd hf (by simp [Live])
      | tri t' => show t' ∈ _; rw [hsame.tris]; exact hf
      | quad q => show q ∈ _; rw [hsame.quads]; exact hf
    refine ⟨fun w hw => by rw [hsame.verts]; exact ih.verts w hw, fun w hw => (same_pos hsame (ih.verts w hw)).trans (ih.pos w hw),
      hsame.quads.trans ih.quads, fun f hf => hlive f (ih.live f hf), fun f hf => (hsame.fdata f (ih.live f hf)).trans (ih.F f hf),
      by rw [hsame.es]; exact ih.bdry, fun e hem => by rw [hsame.edata]; exact ih.E e hem, fun x hx => ih.front x ?_⟩
    rw [mem_frontOf] at hx ⊢
    rwa [same_trips hsame] at hx
  · intro log s l hwf ih hl
    refine ⟨ih.verts, ih.pos, ih.quads, fun f hf => by have := ih.live f hf; cases f <;> exact this, ih.F, ?_, ih.E, fun x hx => ih.front x ?_⟩
    · simp only [reorder, upd]; exact ih.bdry
    · rw [mem_frontOf] at hx ⊢
      obtain ⟨y, hy, hyx⟩ := hx
      exact ⟨y, (reorder_trips hl).mem_iff.mp hy, hyx⟩

/-! ### Sides of triangles and of quads -/

/-- The sides of the quads. -/
def quadSides (s : St K) : List (Nat × Nat) := s.quads.flatMap fun q => sidesOf (s.F (.quad q)).corners

theorem allSides_split {s : St K} (h : WF s) : (allSides s).Perm (sides s ++ quadSides s) := by
  unfold allSides facets
  rw [List.flatMap_append, List.flatMap_map, List.flatMap_map]
  refine List.Perm.append ?_ (List.Perm.refl _)
  unfold sides triCorners
  rw [List.flatMap_map]
  refine List.Perm.flatMap_left _ fun t ht => ?_
  rcases corners_cases h (f := .tri t) ht with ⟨a, b, c, hc⟩ | ⟨a, b, c, d, hc⟩
  · rw [hc, sides3]
    show [(b, c), (c, a), (a, b)].Perm [(a, b), (b, c), (c, a)]
    exact (List.perm_append_comm (l₁ := [(b, c), (c, a)]) (l₂ := [(a, b)]))
  · have := h.tcor t ht
    rw [hc] at this; simp at this

theorem connecting_perm {xs ys : List (Nat × Nat)} (h : xs.Perm ys) (a b : Nat) : connecting xs a b = connecting ys a b := by
  unfold connecting; exact h.countP_eq _

theorem connecting_app (xs ys : List (Nat × Nat)) (a b : Nat) : connecting (xs ++ ys) a b = connecting xs a b + connecting ys a b := by
  unfold connecting; exact List.countP_append ..

/-- Advancing the front keeps a simple domain partly meshed. -/
theorem meshing_run {env : Env K} (he : 0 < env.eps) (hq : QueryExact env) (hs : SortOK env)
    (hn : ∀ p, 0 ≤ env.norm p ∧ Pt.normSq p ≤ env.norm p * env.norm p) {s0 : St K} (h0 : Meshing s0)
    {log : List Entry} {s : St K} (hr : Run env s0 log s) (hres : Resolved env.eps s) (hreach : AllReach env s.pos log) :
    Meshing s := by
  have hql := queryExact_live hq
  obtain ⟨w, fr⟩ := run_frame he hql hs h0.wf hr
  obtain ⟨ho, hsi⟩ := C140_stays_simple he hq hs hn h0.wf h0.front hr hres hreach
  have hbp : pairs s .bdry = pairs s0 .bdry := by
    unfold pairs
    rw [fr.bdry]
    exact List.map_congr_left fun e hem => by rw [fr.E e hem]
  have hqs : quadSides s = quadSides s0 := by
    unfold quadSides
    rw [fr.quads]
    rw [List.flatMap_def, List.flatMap_def]
    congr 1
    exact List.map_congr_left fun q hq => by rw [fr.F (.quad q) hq]
  refine ⟨w, ?_, hsi, ?_, ?_, ?_, ?_, (run_count he hql hs h0.wf h0.ghost hr).1, ?_, ?_⟩
  · intro x hx
    obtain ⟨hl, hm⟩ := mem_pieces.mp hx
    obtain ⟨f, a, b, c⟩ := x
    cases f with
    | null => exact absurd hl (by simp [Live])
    | tri t =>
      rcases corners_cases w hl with ⟨x, y, z, hc⟩ | ⟨x, y, z, u, hc⟩
      · rw [hc] at hm
        simp only [halves, List.mem_singleton, Prod.mk.injEq, true_and] at hm
        obtain ⟨rfl, rfl, rfl⟩ := hm
        refine (run_ccw he hql hs h0.wf ?_ hr).2 t hl _ _ _ hc
        intro t ht a b c hcor
        exact h0.ccw (.tri t, a, b, c) (mem_pieces.mpr ⟨ht, by simp [hcor, halves]⟩)
      · have := w.tcor t hl
        rw [hc] at this; simp at this
    | quad q =>
      have hl0 : Live s0 (.quad q) := by show q ∈ s0.quads; rw [← fr.quads]; exact hl
      rw [fr.F _ hl0] at hm
      have hv : ∀ y ∈ (s0.F (.quad q)).corners, s.pos y = s0.pos y := fun y hy => fr.pos y ((h0.wf.cor _ hl0).2 y hy)
      have hin := halves_mem hm
      rw [halves_congr hv] at hm
      have := h0.ccw _ (mem_pieces.mpr ⟨hl0, hm⟩)
      dsimp only at this ⊢
      rw [hv a hin.1, hv b hin.2.1, hv c hin.2.2]
      exact this
  · rw [hbp]
    exact simple_congr (fun e hem => ⟨fr.pos _ (pairs_verts h0.wf e hem).1, fr.pos _ (pairs_verts h0.wf e hem).2⟩) h0.bdry
  · intro a b
    have h1 := C35_chain he hql hs h0.wf hr ho a b
    have h2 := h0.chain a b
    rw [chain_perm (allSides_split w), chain_append, hqs, hbp]
    rw [chain_perm (allSides_split h0.wf), chain_append] at h2
    omega
  · intro a b
    have h1 := C37_sides_counted he hql hs h0.wf h0.ghost hr a b
    have h2 := h0.count a b
    rw [connecting_perm (allSides_split w), connecting_app, hqs, hbp]
    rw [connecting_perm (allSides_split h0.wf), connecting_app] at h2
    omega
  · intro x hx
    rw [hbp]
    exact h0.marked x (fr.front x hx)
  · intro b hb
    rw [fr.bdry] at hb
    unfold isInterior isGhost
    rw [fr.E b hb]
    exact h0.plain b hb
  · intro b hb hno
    rw [fr.bdry] at hb
    rw [fr.E b hb] at hno ⊢
    refine h0.null b hb fun f hf hside => hno f (fr.live f hf) ?_
    unfold HasSide at hside ⊢
    rw [fr.F f hf]; exact hside

end TQ.Whole

import Verif.Whole.Ptr
import Verif.Smoothing.Spec

/-! # Lemmas: boundary flags while a domain is meshed -/

set_option linter.unusedSectionVars false
set_option linter.unusedSimpArgs false
set_option linter.unusedVariables false

namespace TQ.Whole
open TQ.MS TQ.MeshSpec TQ.FUSpec TQ.MS.St TQ.GeoSpec TQ.FU TQ.Sm TQ.MCSpec TQ.WholeSpec TQ.RefSpec TQ.QLSpec TQ.QL TQ.CleanSpec TQ.SmSpec
variable {K : Type*} [Field K] [LinearOrder K] [IsStrictOrderedRing K]

/-- The boundary flag of a vertex. -/
def bf (s : St K) (v : Nat) : Bool := (s.V v).props.getLsbD 3

theorem bf_iff : ∀ x : BitVec 8, x &&& Flags.vOnBoundary ≠ 0 ↔ x.getLsbD 3 = true := by decide

theorem bf_addFront : ∀ x : BitVec 8, (Flags.add x Flags.vOnFront).getLsbD 3 = x.getLsbD 3 := by decide
theorem bf_remFront : ∀ x : BitVec 8, (Flags.remove x Flags.vOnFront).getLsbD 3 = x.getLsbD 3 := by decide
theorem bf_addLayer : ∀ x : BitVec 8, (Flags.add x Flags.vInQuadLayer).getLsbD 3 = x.getLsbD 3 := by decide

theorem bdryFlagged_iff (s : St K) : BdryFlagged s ↔ ∀ e ∈ s.es .bdry, bf s (s.E e).v1 = true ∧ bf s (s.E e).v2 = true := by
  unfold BdryFlagged bf
  simp only [bf_iff]

theorem bdryFlagged_pairs (s : St K) : BdryFlagged s ↔ ∀ p ∈ pairs s .bdry, bf s p.1 = true ∧ bf s p.2 = true := by
  rw [bdryFlagged_iff]
  unfold pairs
  simp

theorem bf_setProps {g : BitVec 8 → BitVec 8} (hg : ∀ x, (g x).getLsbD 3 = x.getLsbD 3) (s : St K) (u v : Nat) :
    bf (s.setProps u g) v = bf s v := by
  unfold bf setProps upd
  dsimp only
  split_ifs with h
  · rw [h, hg]
  · rfl

theorem bf_addEdge (s : St K) (l : EL) (a b : Nat) (c : Int) (p : BitVec 8) (v : Nat) : bf (s.addEdge l a b c p) v = bf s v := by
  unfold bf addEdge upd vAddEdge
  dsimp only
  split_ifs <;> rfl

theorem bf_removeEdge (s : St K) (e : Nat) (v : Nat) : bf (s.removeEdge e) v = bf s v := by
  unfold bf removeEdge upd vRemEdge
  dsimp only
  split_ifs <;> rfl

theorem bf_removeIntr (s : St K) (e : Nat) (v : Nat) : bf (s.removeIntr e) v = bf s v := by
  unfold removeIntr
  split_ifs
  · rfl
  · exact bf_removeEdge s e v

theorem props_regFacet (f : FRef) (cs : List Nat) : ∀ (V : Nat → VData K) (v : Nat), (regFacet V f cs v).props = (V v).props := by
  induction cs with
  | nil => intro V v; rfl
  | cons c cs ih =>
    intro V v
    show (regFacet (upd V c (vAddFacet f)) f cs v).props = _
    rw [ih]
    unfold upd; split_ifs <;> rfl

theorem props_unregFacet (f : FRef) (cs : List Nat) : ∀ (V : Nat → VData K) (v : Nat), (unregFacet V f cs v).props = (V v).props := by
  induction cs with
  | nil => intro V v; rfl
  | cons c cs ih =>
    intro V v
    show (unregFacet (upd V c (vRemFacet f)) f cs v).props = _
    rw [ih]
    unfold upd; split_ifs <;> rfl

theorem bf_addTri (s : St K) (a b c : Nat) (col : Int) (v : Nat) : bf (s.addTri a b c col) v = bf s v :=
  congrArg (fun x : BitVec 8 => x.getLsbD 3) (props_regFacet _ _ _ _)
theorem bf_addQuad (s : St K) (a b c d : Nat) (col : Int) (v : Nat) : bf (s.addQuad a b c d col) v = bf s v :=
  congrArg (fun x : BitVec 8 => x.getLsbD 3) (props_regFacet _ _ _ _)
theorem bf_removeTri (s : St K) (t v : Nat) : bf (s.removeTri t) v = bf s v :=
  congrArg (fun x : BitVec 8 => x.getLsbD 3) (props_unregFacet _ _ _ _)

theorem bf_addVertex {s : St K} (h : WF s) (p : Pt K) {v : Nat} (hv : v ∈ s.verts) : bf (s.addVertex p) v = bf s v := by
  have : v ≠ s.nxt := Nat.ne_of_lt (h.vlt v hv)
  unfold bf addVertex upd
  simp only [if_neg this]

theorem bf_updateFrontState (s : St K) (u v : Nat) : bf (updateFrontState s u) v = bf s v := by
  unfold updateFrontState
  split_ifs
  · exact bf_setProps bf_addFront s u v
  · exact bf_setProps bf_remFront s u v

theorem bf_keepEdge (s : St K) (e v : Nat) : bf (keepEdge s e) v = bf s v := by
  unfold keepEdge
  split_ifs
  · exact bf_addEdge ..
  · rfl

theorem bf_advanceEdges (s : St K) (b1 b2 w v : Nat) : bf (advanceEdges s b1 b2 w) v = bf s v := by
  unfold advanceEdges addFront
  split <;> simp only [bf_addEdge, bf_removeEdge, bf_keepEdge]

theorem bf_advanceFront (s : St K) (base w t v : Nat) : bf (advanceFront s base w t) v = bf s v := by
  rw [advanceFront_eq]
  show bf ((beforeRemoval s base w).removeEdge base) v = _
  rw [bf_removeEdge]
  unfold beforeRemoval
  dsimp only
  split_ifs
  · unfold addIntr
    simp only [bf_addEdge, bf_updateFrontState, bf_advanceEdges]
  · simp only [bf_updateFrontState, bf_advanceEdges]

theorem bf_foldl {g : St K → Nat → St K} (hg : ∀ t e v, bf (g t e) v = bf t v) : ∀ (l : List Nat) (t : St K) (v : Nat),
    bf (l.foldl g t) v = bf t v
  | [], _, _ => rfl
  | e :: l, t, v => by rw [List.foldl_cons, bf_foldl hg l, hg]

theorem bf_finish (s : St K) (v : Nat) : bf (MC.finishStep s) v = bf s v := by
  unfold MC.finishStep MC.clearFront
  rw [bf_foldl (g := removeEdge) (fun _ _ _ => bf_removeEdge ..)]
  unfold MC.addRemaining
  refine bf_foldl (g := MC.addRemaining1) (fun t e v => ?_) _ _ _
  unfold MC.addRemaining1 addIntr
  dsimp only
  split_ifs <;> simp only [bf_addEdge, bf_setProps bf_remFront]

theorem bf_start {eps : K} {s : St K} (h : WF s) (v : Nat) : bf (MC.startStep eps s) v = bf s v := by
  unfold MC.startStep MC.removeInvalid
  rw [bf_foldl (g := removeIntr) (fun _ _ _ => bf_removeIntr ..)]
  unfold MC.initFront
  rw [bf_foldl (g := MC.addFrontEdge) (fun t e v => by
    unfold MC.addFrontEdge
    rw [bf_addEdge, bf_setProps bf_addFront, bf_setProps bf_addFront])]
  unfold bf
  rw [(MC.setup_sbp eps h).V]

/-- Boundary vertices stay flagged. -/
structure BKin (s s' : St K) : Prop where
  verts : ∀ v ∈ s.verts, v ∈ s'.verts
  flag : ∀ v ∈ s.verts, bf s' v = bf s v
  bdry : BdryFlagged s → BdryFlagged s'

theorem BKin.refl (s : St K) : BKin s s := ⟨fun _ h => h, fun _ _ => rfl, fun h => h⟩
theorem BKin.trans {s t u : St K} (a : BKin s t) (b : BKin t u) : BKin s u :=
  ⟨fun v hv => b.verts v (a.verts v hv), fun v hv => (b.flag v (a.verts v hv)).trans (a.flag v hv), fun h => b.bdry (a.bdry h)⟩

/-- Same boundary edges, same flags. -/
theorem bkin_same {s s' : St K} (h : WF s) (v : ∀ w ∈ s.verts, w ∈ s'.verts) (p : pairs s' .bdry = pairs s .bdry)
    (f : ∀ v ∈ s.verts, bf s' v = bf s v) : BKin s s' where
  verts := v
  flag := f
  bdry := fun hb => by
    rw [bdryFlagged_pairs] at hb ⊢
    intro x hx
    rw [p] at hx
    obtain ⟨m1, m2⟩ := pairs_verts h x hx
    rw [f _ m1, f _ m2]
    exact hb x hx

theorem bkin_prep {env : Env K} {s s1 : St K} {b1 b2 v t : Nat} (hw : WF s) (h : Prep env s s1 b1 b2 v t) : BKin s s1 := by
  refine bkin_same hw (kin_prep h).verts (prep_pairs h .bdry) fun w hw' => ?_
  unfold bf
  rw [(h.V w hw').2.1]

theorem bkin_adv {s : St K} {base v t : Nat} (hw : WF s) (h : Adv s (advanceFront s base v t) base v t) : BKin s (advanceFront s base v t) :=
  bkin_same hw (kin_adv h).verts h.bdry fun w _ => bf_advanceFront ..

theorem bkin_run {env : Env K} (he : 0 < env.eps) (hq : QueryLive env) (hs : SortOK env) {s0 : St K} (h0 : WF s0)
    {log : List Entry} {s : St K} (hr : Run env s0 log s) : BKin s0 s := by
  refine (run_induct he hq hs h0 (fun _ s => BKin s0 s) (BKin.refl s0) ?_ ?_ ?_ hr).2
  · rintro log s s' base v t hwf hb ih hd ⟨s1, hp, rfl⟩
    exact ih.trans ((bkin_prep hwf hp).trans (bkin_adv hp.wf (prep_adv hb hp)))
  · intro log s s' hw hw' ih same
    refine ih.trans (bkin_same hw (fun v hv => by rw [same.verts]; exact hv) (same_pairs same .bdry) fun v hv => ?_)
    unfold bf
    rw [same.vdata v hv]
  · intro log s l hw ih hl
    refine ih.trans (bkin_same hw (fun _ h => h) ?_ fun v _ => rfl)
    have : (reorder s l).es .bdry = s.es .bdry := by simp [reorder, upd]
    unfold pairs
    rw [this]
    rfl

theorem bf_split {s s' : St K} (h : WF s) {e n : Nat} {sf : K} (he : e ∈ s.es .front) (hs : QL.split s e sf = some (s', n)) :
    (∀ v ∈ s.verts, bf s' v = bf s v) ∧
    (s.isInterior e = false → bf s' n = (bf s (s.E e).v1 || bf s (s.E e).v2)) := by
  have key : ∀ s1, splitFront s e sf = some s1 → (∀ v ∈ s.verts, bf s1 v = bf s v) ∧
    (s.isInterior e = false → bf s1 s.nxt = (bf s (s.E e).v1 || bf s (s.E e).v2)) := by
    intro s1 h1
    unfold splitFront at h1
    by_cases hc : 1 ≤ sf ∨ sf ≤ 0
    · rw [if_pos hc] at h1; exact absurd h1 (by simp)
    rw [if_neg hc] at h1
    dsimp only at h1
    simp only [Option.some.injEq] at h1
    subst h1
    refine ⟨fun v hv => ?_, fun hi => ?_⟩
    · have hvn : v ≠ s.nxt := Nat.ne_of_lt (h.vlt v hv)
      rw [bf_removeEdge, bf_addEdge, bf_addEdge]
      have k : ∀ (t : St K) (g : BitVec 8 → BitVec 8), bf (t.setProps s.nxt g) v = bf t v := by
        intro t g
        unfold bf setProps upd
        simp only [if_neg hvn]
      split_ifs <;> simp only [k, bf_addVertex h _ hv]
    · rw [bf_removeEdge, bf_addEdge, bf_addEdge, if_neg (by rw [hi]; decide)]
      unfold bf setProps upd addVertex Flags.add
      simp [upd]
  have hnx := (split_spec h he hs).1
  unfold QL.split at hs
  dsimp only at hs
  cases h1 : splitFront s e sf with
  | none => rw [h1] at hs; simp at hs
  | some s1 =>
    obtain ⟨k1, k2⟩ := key s1 h1
    rw [h1] at hs
    cases hb : s.getEdge .bdry (s.E e).v1 (s.E e).v2 with
    | none =>
      rw [hb] at hs
      simp only [Option.some.injEq, Prod.mk.injEq] at hs
      rw [← hs.1, hnx]
      exact ⟨k1, k2⟩
    | some b =>
      rw [hb] at hs
      dsimp only at hs
      unfold QL.splitBdry at hs
      cases hn : s1.nextEdge b with
      | none => rw [hn] at hs; simp at hs
      | some x =>
        rw [hn] at hs
        simp only [Option.map_some, Option.some.injEq, Prod.mk.injEq] at hs
        rw [← hs.1, hnx]
        simp only [bf_addEdge, bf_removeEdge]
        exact ⟨k1, k2⟩

variable {L : LEnv K} (he : 0 < L.env.eps) (hq : QueryExact L.env) (hso : SortOK L.env)
  (hn : ∀ p, 0 ≤ L.env.norm p ∧ Pt.normSq p ≤ L.env.norm p * L.env.norm p)
include he hq hso hn

theorem bkin_update {s s' : St K} (h : WF s) {base t : Nat} {np sp : Pt K} {r : K} (hb : base ∈ s.es .front)
    (hu : updateFront L.env s base np sp r = (s', some t)) : BKin s s' := by
  have ho := updateFront_outcome he (queryExact_live hq) hso h hb np sp r
  rw [hu] at ho
  cases ho with
  | ok prep => exact (bkin_prep h prep).trans (bkin_adv prep.wf (prep_adv hb prep))

theorem bkin_step {s s' : St K} {l : List (Ev K)} (h : Meshing s) (st : LStep L s l s') (fine : ∀ x ∈ l, Fine L.env x) : BKin s s' := by
  have hql : QueryLive L.env := queryExact_live hq
  have kv := (kin_step he hq hso hn h st fine).verts
  cases st with
  | @fail _ base np sp r hb hu =>
    have ho := updateFront_outcome he hql hso h.wf hb np sp r
    rw [hu] at ho
    cases ho with
    | fail same wf _ =>
      refine bkin_same h.wf kv (same_pairs same .bdry) fun v hv => ?_
      unfold bf
      rw [same.vdata v hv]
  | @tri _ base np sp r t v hb hu hv => exact bkin_update he hq hso hn h.wf hb hu
  | @quad s1 s2 base np sp r t1 q1 dg np' sp' r' t2 q2 er hb hu1 hq1 hdg hu2 hq2 her =>
    obtain ⟨v', d1⟩ := updateFront_done he hql hso h.wf hb hu1
    have : v' = q1 := by rw [d1.cor] at hq1; simpa using hq1
    subst this
    obtain ⟨hdm, -⟩ := getEdge_some d1.wf d1.vmem hdg
    obtain ⟨v'', d2⟩ := updateFront_done he hql hso d1.wf hdm hu2
    have hm2 : (s.E base).v2 ∈ s2.verts := d2.verts _ (d1.verts _ ((h.wf.ends _).2 base hb).2.2.1)
    obtain ⟨herm, -⟩ := getEdge_some d2.wf hm2 her
    refine (bkin_update he hq hso hn h.wf hb hu1).trans ((bkin_update he hq hso hn d1.wf hdm hu2).trans
      (bkin_same d2.wf (kin_toQuad d2.wf _ _ _ _ _ _ _ herm).verts ?_ fun v _ => ?_))
    · have hl : (s2.E er).list = .intr := ((d2.wf.ends _).2 er herm).1
      have hi : s2.removeIntr er = s2.removeEdge er := by unfold removeIntr; simp [hl]
      have : ((s2.removeEdge er).es .bdry) = s2.es .bdry := by simp [removeEdge, upd, hl]
      unfold toQuad
      rw [hi]
      show ((s2.removeEdge er).es .bdry).map _ = _
      rw [this]
      rfl
    · show bf ((((s2.removeIntr er).removeTri t1).removeTri t2).addQuad _ _ _ _ (-1)) v = _
      rw [bf_addQuad, bf_removeTri, bf_removeTri, bf_removeIntr]
  | gapFail hnd ha hb hc =>
    exact bkin_same h.wf kv rfl fun v _ => by rw [bf_removeTri, bf_addTri]
  | @gap a b c e hnd ha hb hc hv hg =>
    have w1 := wf_addTri h.wf (-1) ha hb hc hnd
    obtain ⟨hm, hd⟩ := getEdge_some w1 (show b ∈ (s.addTri a b c (-1)).verts from hb) hg
    simp only [List.nodup_cons, List.mem_cons, List.not_mem_nil, or_false, not_or] at hnd
    have A := advanceFront_spec w1 s.nxt hm ha (v := a)
      (by rcases hd with ⟨x, y⟩ | ⟨x, y⟩ <;> (first | rw [x] | rw [y]) <;> (first | exact hnd.1.1 | exact hnd.1.2))
      (by rcases hd with ⟨x, y⟩ | ⟨x, y⟩ <;> (first | rw [x] | rw [y]) <;> (first | exact hnd.1.1 | exact hnd.1.2))
    have k1 : BKin s (s.addTri a b c (-1)) := bkin_same h.wf (fun _ h => h) rfl fun v _ => bf_addTri ..
    exact k1.trans (bkin_adv w1 A)
  | @gap2Fail a b c p hnd ha hb hc =>
    refine bkin_same h.wf kv rfl fun v hv => ?_
    show bf (((((s.addVertex p).addTri a b s.nxt (-1)).addTri b c s.nxt (-1)).removeTri (s.nxt + 1)).removeTri (s.nxt + 2)) v = _
    rw [bf_removeTri, bf_removeTri, bf_addTri, bf_addTri, bf_addVertex h.wf p hv]
  | @gap2 s1 a b c e1 e2 p hnd ha hb hc hs1 hv1 hv2 hg1 hg2 =>
    simp only [List.nodup_cons, List.mem_cons, List.not_mem_nil, or_false, not_or] at hnd
    have na : a ≠ s.nxt := Nat.ne_of_lt (h.wf.vlt a ha)
    have nb : b ≠ s.nxt := Nat.ne_of_lt (h.wf.vlt b hb)
    have nc : c ≠ s.nxt := Nat.ne_of_lt (h.wf.vlt c hc)
    have k0 := kept_addVertex h.wf p
    have vm : s.nxt ∈ (s.addVertex p).verts := by simp [addVertex]
    have k1 : WF ((s.addVertex p).addTri a b s.nxt (-1)) := by
      refine wf_addTri k0.wf (-1) (List.mem_append_left _ ha) (List.mem_append_left _ hb) vm ?_
      simp only [List.nodup_cons, List.mem_cons, List.not_mem_nil, or_false, not_or]
      exact ⟨⟨hnd.1.1, na⟩, nb, not_false, List.nodup_nil⟩
    have w1 : WF s1 := by
      rw [hs1]
      refine wf_addTri k1 (-1) (List.mem_append_left _ hb) (List.mem_append_left _ hc) vm ?_
      simp only [List.nodup_cons, List.mem_cons, List.not_mem_nil, or_false, not_or]
      exact ⟨⟨hnd.2.1, nb⟩, nc, not_false, List.nodup_nil⟩
    have kk : BKin s s1 := by
      refine bkin_same h.wf (fun v hv => by rw [hs1]; exact List.mem_append_left _ hv) (by rw [hs1]; rfl) fun v hv => ?_
      rw [hs1, bf_addTri, bf_addTri, bf_addVertex h.wf p hv]
    have hvt : s1.verts = s.verts ++ [s.nxt] := by rw [hs1]; rfl
    have ha1 : a ∈ s1.verts := by rw [hvt]; exact List.mem_append_left _ ha
    have hb1 : b ∈ s1.verts := by rw [hvt]; exact List.mem_append_left _ hb
    have hv1 : s.nxt ∈ s1.verts := by rw [hvt]; simp
    clear hs1 k0 k1 vm fine
    obtain ⟨he1, d1⟩ := getEdge_some w1 ha1 hg1
    have A1 := advanceFront_spec w1 (s.nxt + 1) he1 (v := s.nxt) hv1
      (by rcases d1 with ⟨x, y⟩ | ⟨x, y⟩ <;> (first | rw [x] | rw [y]) <;> (first | exact Ne.symm na | exact Ne.symm nb))
      (by rcases d1 with ⟨x, y⟩ | ⟨x, y⟩ <;> (first | rw [x] | rw [y]) <;> (first | exact Ne.symm na | exact Ne.symm nb))
    obtain ⟨he2, d2⟩ := getEdge_some A1.wf (by rw [A1.verts]; exact hb1) hg2
    have A2 := advanceFront_spec A1.wf (s.nxt + 2) he2 (v := s.nxt) (by rw [A1.verts]; exact hv1)
      (by rcases d2 with ⟨x, y⟩ | ⟨x, y⟩ <;> (first | rw [x] | rw [y]) <;> (first | exact Ne.symm nb | exact Ne.symm nc))
      (by rcases d2 with ⟨x, y⟩ | ⟨x, y⟩ <;> (first | rw [x] | rw [y]) <;> (first | exact Ne.symm nb | exact Ne.symm nc))
    exact kk.trans ((bkin_adv w1 A1).trans (bkin_adv A1.wf A2))
  | @split _ e sf n hm hsp =>
    have hbd : (s.getEdge .bdry (s.E e).v1 (s.E e).v2).isSome = true := fine _ (List.mem_singleton.mpr rfl)
    obtain ⟨b, hb⟩ := Option.isSome_iff_exists.mp hbd
    obtain ⟨hbm, d1, d2, hni⟩ := front_on_bdry h hm hb
    obtain ⟨hnx, k, hv, -, -, -, -, ht, hqd, hF, pb⟩ := split_spec h.wf hm hsp
    obtain ⟨f1, f2⟩ := bf_split h.wf hm hsp
    refine ⟨kv, f1, fun hb0 => ?_⟩
    rw [bdryFlagged_pairs] at hb0 ⊢
    intro x hx
    rw [hb] at pb
    have := pb.mem_iff.mp (List.mem_cons_of_mem _ hx)
    have eb := hb0 _ (mem_pairs hbm)
    dsimp only at eb
    rw [d1, d2] at eb
    obtain ⟨hl, m1, m2, n12, hlt⟩ := (h.wf.ends _).2 e hm
    have hnn : bf s' n = true := by rw [f2 hni, eb.1]; rfl
    simp only [List.mem_append, List.mem_cons, List.not_mem_nil, or_false] at this
    rcases this with x1 | rfl | rfl
    · obtain ⟨y1, y2⟩ := pairs_verts h.wf x x1
      rw [f1 _ y1, f1 _ y2]
      exact hb0 x x1
    · exact ⟨by rw [f1 _ m1]; exact eb.1, hnn⟩
    · exact ⟨hnn, by rw [f1 _ m2]; exact eb.2⟩
  | move hv => exact absurd (fine _ (List.mem_singleton.mpr rfl)) (by simp [Fine])
  | mark => exact bkin_same h.wf kv rfl fun v _ => bf_setProps bf_addLayer ..

theorem bkin_lrun {s0 s : St K} {log : List (Ev K)} (h : Meshing s0) (r : LRun L s0 log s) (f : ∀ x ∈ log, Fine L.env x) : BKin s0 s := by
  induction r with
  | start => exact BKin.refl _
  | step hr st ih =>
    have f1 := fun x hx => f x (List.mem_append_left _ hx)
    exact (ih f1).trans (bkin_step he hq hso hn (fine_good he hq hso hn h hr f1).1 st fun x hx => f x (List.mem_append_right _ hx))

theorem work_flagged {s0 s : St K} (h0 : Bare s0) (hb0 : BdryFlagged s0) (h : Work L s0 s) : BdryFlagged s := by
  have hql := queryExact_live hq
  induction h with
  | start =>
    obtain ⟨d1, d2, d3, d4, d5, d6, d7, -⟩ := start_bare L.env.eps h0.wf h0.tris h0.quads h0.intr h0.front h0.null
    refine (bkin_same h0.wf (fun v hv => by rw [d2.verts]; exact hv) ?_ fun v _ => bf_start h0.wf v).bdry hb0
    unfold pairs
    rw [d4]
    exact List.map_congr_left fun e he => by rw [d6 e he]
  | @run s s' log hss hrun hres hreach ih =>
    exact (bkin_run he hql hso (work_inv he hq hso hn h0 hss).mesh.wf hrun).bdry ih
  | @layers s fuel n growth ht xs xe r hss hl hf ih =>
    have hm := (work_inv he hq hso hn h0 hss).mesh
    have hr := (layers_tracks (R := regFine he hq hso hn) he hql hso n hm hl hf).1
    exact (bkin_lrun he hq hso hn hm hr hf).bdry ih
  | @resume s hss hlf ih =>
    have hm := (work_inv he hq hso hn h0 hss).mesh
    have hr := (meshing_remaining hm).1
    obtain ⟨-, m2, -, m4, m5, -⟩ := MC.resume hr hlf
    obtain ⟨new, R⟩ := MC.rinv_all hr
    have c1 := (MC.clearFront_spec R.wf).1
    refine (bkin_same hm.wf (fun v hv => by rw [m2.verts]; exact hv) ?_ fun v _ => ?_).bdry ih
    · unfold pairs
      rw [m4]
      exact List.map_congr_left fun e he => (m5 e (Or.inr he)).1
    · rw [bf_start (show WF (MC.finishStep s) from c1), bf_finish]

end TQ.Whole

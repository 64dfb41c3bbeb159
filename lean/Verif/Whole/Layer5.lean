import Verif.Whole.Layer4
import Verif.QuadLayer.Layers
import Verif.FrontUpdate.SimpleProps

/-! # Lemmas: quad layers keep a domain partly meshed -/

set_option linter.unusedSectionVars false
set_option linter.unusedSimpArgs false

namespace TQ.WholeSpec
open TQ.MS TQ.MeshSpec TQ.FUSpec TQ.QLSpec
variable {K : Type*} [Field K] [LinearOrder K] [IsStrictOrderedRing K]

/-- A change of the quad layers that keeps a domain partly meshed: a triangle is put on a front edge, near to the edges
that it could meet, in a resolved mesh; the split front edge is a boundary edge; nothing is moved. -/
def Fine (env : FU.Env K) : Ev K → Prop
  | .tri e s => (e.b1, e.b2) ∈ e.front ∧ Reach env s.pos e.front e.b1 e.b2 e.v ∧ Resolved env.eps s
  | .split _ _ _ bd => bd = true
  | .move _ => False

end TQ.WholeSpec

namespace TQ.Whole
open TQ.MS TQ.MeshSpec TQ.FUSpec TQ.MS.St TQ.GeoSpec TQ.FU TQ.Sm TQ.MCSpec TQ.WholeSpec TQ.RefSpec TQ.QLSpec TQ.QL
variable {K : Type*} [Field K] [LinearOrder K] [IsStrictOrderedRing K]

theorem meshing_gapFail {s : St K} (h : Meshing s) {a b c : Nat} (hn : [a, b, c].Nodup) (ha : a ∈ s.verts)
    (hb : b ∈ s.verts) (hc : c ∈ s.verts) : Meshing ((s.addTri a b c (-1)).removeTri s.nxt) := by
  refine Meshing.congr h (wf_removeTri (wf_addTri h.wf (-1) ha hb hc hn) _) ?_ rfl rfl ?_ rfl ?_
  · intro v _; rw [removeTri_pos, addTri_pos]
  · exact filter_fresh h.wf.tlt
  · intro f hf
    have := addTri_fresh h.wf hf a b c (-1)
    show ((s.addTri a b c (-1)).F f).corners = _
    rw [this]

theorem meshing_gap2Fail {s : St K} (h : Meshing s) {a b c : Nat} {p : Pt K} (hn : [a, b, c].Nodup) (ha : a ∈ s.verts)
    (hb : b ∈ s.verts) (hc : c ∈ s.verts) :
    Meshing ((((((s.addVertex p).addTri a b s.nxt (-1)).addTri b c s.nxt (-1)).removeTri (s.nxt + 1)).removeTri
        (s.nxt + 2)).removeVertex s.nxt) := by
  have k := kept_gap2Fail h.wf p hn ha hb hc
  refine Meshing.congr h k.wf k.pos rfl rfl ?_ rfl ?_
  · show ((s.tris ++ [s.nxt + 1] ++ [s.nxt + 2]).filter (fun x => decide (x ≠ s.nxt + 1))).filter
      (fun x => decide (x ≠ s.nxt + 2)) = _
    rw [List.filter_comm, filter_fresh, filter_fresh]
    · intro x hx; have := h.wf.tlt x hx; omega
    · intro x hx
      rw [List.mem_append, List.mem_singleton] at hx
      rcases hx with hx | rfl
      · have := h.wf.tlt x hx; omega
      · omega
  · intro f hf
    have n1 : f ≠ .tri (s.nxt + 1) := by
      rintro rfl; have : s.nxt + 1 < s.nxt := h.wf.tlt _ hf
      omega
    have n2 : f ≠ .tri (s.nxt + 2) := by
      rintro rfl; have : s.nxt + 2 < s.nxt := h.wf.tlt _ hf
      omega
    show ((upd (upd s.F (.tri (s.nxt + 1)) fun _ => ⟨[a, b, s.nxt], [.null, .null, .null], s.newColor (-1), false⟩)
      (.tri (s.nxt + 2)) fun _ => ⟨[b, c, s.nxt], [.null, .null, .null], s.newColor (-1), false⟩) f).corners = _
    simp only [upd, if_neg n1, if_neg n2]

theorem meshing_mark {s : St K} (h : Meshing s) (v : Nat) (g : BitVec 8 → BitVec 8) : Meshing (s.setProps v g) :=
  Meshing.congr h (wf_setProps h.wf v g) (fun u _ => by unfold setProps pos upd; dsimp only; split_ifs <;> rfl) rfl rfl rfl rfl
    (fun _ _ => rfl)

variable {L : LEnv K} (he : 0 < L.env.eps) (hq : QueryExact L.env) (hso : SortOK L.env)
  (hn : ∀ p, 0 ≤ L.env.norm p ∧ Pt.normSq p ≤ L.env.norm p * L.env.norm p)
include he hq hso hn

theorem tri_good {s s' : St K} (h : Meshing s) {base t v : Nat} {np sp : Pt K} {r : K} (hb : base ∈ s.es .front)
    (hu : updateFront L.env s base np sp r = (s', some t)) (hv : (s'.F (.tri t)).corners[2]? = some v)
    (hreach : Reach L.env s'.pos (pairs s .front) (s.E base).v1 (s.E base).v2 v) (hres : Resolved L.env.eps s') :
    GoodEntry ⟨pairs s .front, (s.E base).v1, (s.E base).v2, v⟩ := by
  refine ⟨mem_pairs hb, simple_of_front h.front, ?_⟩
  have := (C140_stays_simple he hq hso hn h.wf h.front (.update .start hb hu hv) hres fun e hem => by
    simp only [List.nil_append, List.mem_singleton] at hem
    subst hem
    exact hreach).1
  exact this _ (by simp)

theorem meshing_step {s s' : St K} {l : List (Ev K)} (h : Meshing s) (st : LStep L s l s') (fine : ∀ x ∈ l, Fine L.env x) :
    Meshing s' ∧ (∀ v ∈ s.verts, v ∈ s'.verts) ∧ ∀ x ∈ l, Good x := by
  have hql : QueryLive L.env := queryExact_live hq
  cases st with
  | @fail _ base np sp r hb hu =>
    have ho := updateFront_outcome he hql hso h.wf hb np sp r
    rw [hu] at ho
    cases ho with
    | fail same wf _ =>
      refine ⟨Meshing.congr h wf (fun v hv => by unfold pos; rw [same.vdata v hv]) same.es same.edata same.tris same.quads
        fun f hf => by rw [same.fdata f hf], fun v hv => by rw [same.verts]; exact hv, by simp⟩
  | @tri _ base np sp r t v hb hu hv =>
    obtain ⟨v', d⟩ := updateFront_done he hql hso h.wf hb hu
    obtain ⟨-, g2, g3⟩ : _ ∧ _ ∧ _ := fine _ (List.mem_singleton.mpr rfl)
    refine ⟨meshing_tri he hq hso hn h hb hu hv g2 g3, d.verts, fun x hx => ?_⟩
    rw [List.mem_singleton] at hx
    subst hx
    exact tri_good he hq hso hn h hb hu hv g2 g3
  | @quad s1 s2 base np sp r t1 q1 dg np' sp' r' t2 q2 er hb hu1 hq1 hdg hu2 hq2 her =>
    obtain ⟨-, f2, f3⟩ : _ ∧ _ ∧ _ := fine _ List.mem_cons_self
    obtain ⟨-, f5, f6⟩ : _ ∧ _ ∧ _ := fine _ (List.mem_cons_of_mem _ (List.mem_singleton.mpr rfl))
    have h1 := meshing_tri he hq hso hn h hb hu1 hq1 f2 f3
    obtain ⟨v', d1⟩ := updateFront_done he hql hso h.wf hb hu1
    have : v' = q1 := by rw [d1.cor] at hq1; simpa using hq1
    subst this
    obtain ⟨hdm, hdd⟩ := getEdge_some d1.wf d1.vmem hdg
    have h2 := meshing_tri he hq hso hn h1 hdm hu2 hq2 f5 f6
    obtain ⟨v'', d2⟩ := updateFront_done he hql hso d1.wf hdm hu2
    have : v'' = q2 := by rw [d2.cor] at hq2; simpa using hq2
    subst this
    have t1m : t1 ∈ s1.tris := by rw [d1.tris]; simp
    have hdir : (s1.E dg).v1 = v' ∧ (s1.E dg).v2 = (s.E base).v2 := by
      rcases hdd with hdd | hdd
      · exact hdd
      · exfalso
        have hm := mem_pairs hdm
        rw [hdd.1, hdd.2] at hm
        refine meshing_open h1 hm (f := .tri t1) t1m ?_
        unfold HasSide
        rw [d1.cor]
        exact ⟨0, by simp, rfl⟩
    have t1m2 : t1 ∈ s2.tris := by rw [d2.tris]; exact List.mem_append_left _ t1m
    have t2m : t2 ∈ s2.tris := by rw [d2.tris]; simp
    have tne : t1 ≠ t2 := by
      rintro rfl
      have := d2.wf.tnd
      rw [d2.tris, List.nodup_append] at this
      exact this.2.2 _ t1m _ (List.mem_singleton.mpr rfl) rfl
    have c1 : (s2.F (.tri t1)).corners = [(s.E base).v1, (s.E base).v2, v'] := by rw [d2.fold (.tri t1) t1m, d1.cor]
    have c2 : (s2.F (.tri t2)).corners = [v', (s.E base).v2, v''] := by rw [d2.cor, hdir.1, hdir.2]
    have hm2 : (s.E base).v2 ∈ s2.verts := by
      have := (d2.wf.cor (.tri t1) t1m2).2
      rw [c1] at this
      exact this _ (by simp)
    obtain ⟨herm, herd⟩ := getEdge_some d2.wf hm2 her
    have hqa : v'' ≠ (s.E base).v1 := by
      intro hh
      have p1 := d1.tpos
      have p2 := d2.tpos
      rw [hdir.1, hdir.2, hh] at p2
      have m : ∀ x ∈ [(s.E base).v1, (s.E base).v2, v'], s2.pos x = s1.pos x := by
        intro x hx
        refine d2.pos x ?_
        have := (d1.wf.cor (.tri t1) t1m).2
        rw [d1.cor] at this
        exact this x hx
      rw [m _ (by simp), m (s.E base).v2 (by simp), m (s.E base).v1 (by simp)] at p2
      have : St.triArea (s1.pos v') (s1.pos (s.E base).v2) (s1.pos (s.E base).v1) =
        - St.triArea (s1.pos (s.E base).v1) (s1.pos (s.E base).v2) (s1.pos v') := by
        simp only [St.triArea, Pt.cross, Pt.sub_x, Pt.sub_y]; ring
      rw [this] at p2
      linarith
    obtain ⟨h3, k3⟩ := meshing_toQuad h2 herm t1m2 t2m tne c1 c2 hqa (by
      rcases herd with ⟨e1, e2⟩ | ⟨e1, e2⟩
      · left; rw [e1, e2]
      · right; rw [e1, e2])
    refine ⟨h3, fun v hv => k3 v (d2.verts v (d1.verts v hv)), fun x hx => ?_⟩
    simp only [List.mem_cons, List.not_mem_nil, or_false] at hx
    rcases hx with rfl | rfl
    · exact tri_good he hq hso hn h hb hu1 hq1 f2 f3
    · exact tri_good he hq hso hn h1 hdm hu2 hq2 f5 f6
  | gapFail hnd ha hb hc => exact ⟨meshing_gapFail h hnd ha hb hc, fun _ hv => hv, by simp⟩
  | gap hnd ha hb hc hv hg =>
    obtain ⟨g1, g2, g3⟩ : _ ∧ _ ∧ _ := fine _ (List.mem_singleton.mpr rfl)
    obtain ⟨x1, x2, x3⟩ := meshing_gap he hq hn h hnd ha hb hc hv hg g1 g2 g3
    refine ⟨x1, x2, fun x hx => ?_⟩
    rw [List.mem_singleton] at hx
    subst hx
    exact x3
  | @gap2Fail a b c p hnd ha hb hc =>
    have k := kept_gap2Fail h.wf p hnd ha hb hc
    exact ⟨meshing_gap2Fail h hnd ha hb hc, k.verts, by simp⟩
  | gap2 hnd ha hb hc hs1 hv1 hv2 hg1 hg2 =>
    obtain ⟨g1, g2, g3⟩ : _ ∧ _ ∧ _ := fine _ List.mem_cons_self
    obtain ⟨g4, g5, g6⟩ : _ ∧ _ ∧ _ := fine _ (List.mem_cons_of_mem _ (List.mem_singleton.mpr rfl))
    obtain ⟨x1, x2, x3, x4⟩ := meshing_gap2 he hq hn h hnd ha hb hc hs1 hv1 hv2 hg1 hg2 g1 g4 g2 g5 g6
    refine ⟨x1, x2, fun x hx => ?_⟩
    simp only [List.mem_cons, List.not_mem_nil, or_false] at hx
    rcases hx with rfl | rfl
    · exact x3
    · exact x4
  | split hm hsp =>
    obtain ⟨x1, x2⟩ := meshing_split h hm hsp (fine _ (List.mem_singleton.mpr rfl))
    refine ⟨x1, x2, fun x hx => ?_⟩
    rw [List.mem_singleton] at hx
    subst hx
    exact trivial
  | move hv => exact absurd (fine _ (List.mem_singleton.mpr rfl)) (by simp [Fine])
  | mark => exact ⟨meshing_mark h _ _, fun _ hv => hv, by simp⟩

/-- The regime of fine changes. -/
def regFine : Regime L where
  I := Meshing
  ok := Fine L.env
  wf := fun h => h.wf
  keep := fun h st f => ⟨(meshing_step he hq hso hn h st f).1, (meshing_step he hq hso hn h st f).2.1⟩

/-- On a partly meshed domain fine changes are good. -/
theorem fine_good {s0 s : St K} {log : List (Ev K)} (h : Meshing s0) (r : LRun L s0 log s) (f : ∀ x ∈ log, Fine L.env x) :
    Meshing s ∧ ∀ x ∈ log, Good x := by
  induction r with
  | start => exact ⟨h, by simp⟩
  | step _ st ih =>
    obtain ⟨i1, g1⟩ := ih fun x hx => f x (List.mem_append_left _ hx)
    obtain ⟨i2, -, g2⟩ := meshing_step he hq hso hn i1 st fun x hx => f x (List.mem_append_right _ hx)
    refine ⟨i2, fun x hx => ?_⟩
    rcases List.mem_append.mp hx with hx | hx
    · exact g1 x hx
    · exact g2 x hx

/-- Quad layers keep a domain partly meshed. -/
theorem meshing_layers {s : St K} (h : Meshing s) {fuel n : Nat} {growth ht : K} {xs xe : Pt K} {r}
    (hl : layers L fuel growth n s xs xe ht = some r) (f : ∀ x ∈ layersLog L fuel growth n s xs xe ht, Fine L.env x) :
    Meshing r.1 ∧ Kept s (layersLog L fuel growth n s xs xe ht) r.1 := by
  have hql := queryExact_live hq
  have hr := (layers_tracks (R := regFine he hq hso hn) he hql hso n h hl f).1
  obtain ⟨m, g⟩ := fine_good he hq hso hn h hr f
  exact ⟨m, kept_run he hql hso h.wf hr g⟩

end TQ.Whole

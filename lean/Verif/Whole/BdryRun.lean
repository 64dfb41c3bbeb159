import Verif.Whole.BdryMarks
import Verif.Whole.UnionProps
import Verif.Whole.AppRun

/-! # Lemmas: the markers of the boundary edges in a run of the application -/

set_option linter.unusedSectionVars false
set_option linter.unusedSimpArgs false
set_option linter.unusedVariables false

namespace TQ.Whole
open TQ TQ.MS TQ.MS.St TQ.MeshSpec TQ.FUSpec TQ.MCSpec TQ.WholeSpec TQ.FU TQ.Sm TQ.MC TQ.RefSpec TQ.CleanSpec TQ.MM TQ.MergeSpec TQ.SmSpec TQ.AM TQ.AppSpec TQ.QL TQ.QLSpec
variable {K : Type*} [Field K] [LinearOrder K] [IsStrictOrderedRing K]

theorem rcol_coarsened {s t : St K} (h : Coarsened s t) (ht : t.tw = s.tw) : RimCol s t := ⟨same_coarsened h ht, fun e _ => (h.edata e).2.2.1⟩

section
variable {L : LEnv K} (he : 0 < L.env.eps) (hq : QueryExact L.env) (hso : SortOK L.env)
  (hn : ∀ p, 0 ≤ L.env.norm p ∧ Pt.normSq p ≤ L.env.norm p * L.env.norm p)
include he hq hso hn

theorem rcol_triangulate {s0 a : St K} (h0 : Bare s0) (hb : BdryFlagged s0)
    (h : Staged L s0 a) (hw : WF a) {par : TG.Par K} {fuel : Nat} {ix0 : FRef → Nat} (hm : MeshedWell L.env par 0 fuel a) {t : St K}
    (ht : triangulate L.env par 0 fuel ix0 a = .ret true t) : RimCol a t := by
  unfold triangulate at ht
  split_ifs at ht
  · simp at ht
  · split at ht
    · simp at ht
    · simp at ht
    · rename_i ok u c hg
      split at ht
      · simp at ht
      · rename_i t' hi
        simp only [Out.ret.injEq] at ht
        obtain ⟨rfl, rfl⟩ := ht
        obtain ⟨hwk, hres, hf⟩ := generate_work he hq hso hn h0 h hm hg
        have hf := (hf rfl).resolve_right (fun x => absurd x.1 (lt_irrefl 0))
        rw [finish_complete hf] at hi
        obtain ⟨v, h1, -, h3⟩ := C155_improved he hq hso hn h0 hb hwk hf hres ix0
        rw [hi] at h1
        obtain rfl := Option.some.inj h1
        have hws := (work_inv he hq hso hn h0 (staged_start h)).mesh.wf
        obtain ⟨⟨log, hr, -⟩, -⟩ := C41_limit he (queryExact_live hq) hso par hws (generate_front hg) hg
        obtain ⟨-, fr⟩ := run_frame he (queryExact_live hq) hso hws hr
        exact rcol_trans (rcol_trans (rcol_start _ hw) (rcol_frame hws fr)) (rcol_coarsened h3 (tw_improve hi))

/-- The mesh of a definition up to the quads: the boundary edges are parts of those of the prepared mesh, with the same markers. -/
theorem cut_part {fuel : Nat} {J : Job K} {s0 a b c : St K} (h0 : Bare s0) (hb : BdryFlagged s0) (h1 : layerAll L fuel J.layers s0 = some a)
    (h3 : (if J.toQuad then tri2quad L.env.eps J.ix2 (J.order b) b else some b) = some c) (g1 : LayersFine L fuel J.layers s0)
    (g2 : MeshedWell L.env J.par 0 fuel a) (g3 : triangulate L.env J.par 0 fuel J.ix1 a = .ret true b)
    (g4 : J.toQuad = true → LeftFacets L.env.eps b ∧ (J.order b).Perm (triEdges (setupConnectivity L.env.eps b))) : RimCut s0 c := by
  have hst := layerAll_staged .prepared g1 h1
  obtain ⟨m1, a1⟩ := C160_complete he hq hso hn h0 hb hst g2 g3
  have hwa : WF a := by
    rcases hst with _ | ⟨hw, hl⟩
    · exact h0.wf
    · obtain ⟨new, R⟩ := MC.rinv_all (meshing_remaining (work_inv he hq hso hn h0 hw).mesh).1
      exact (MC.clearFront_spec R.wf).1
  have f0 : FI (trip s0) s0 := by
    intro l hl e he
    cases l with
    | bdry => exact absurd rfl hl
    | intr => rw [h0.intr] at he; simp at he
    | front => rw [h0.front] at he; simp at he
  have r0 := cut_layerAll he hq hso hn h0 .prepared h0.wf g1 f0 h1
  have r1 := cut_trans r0 (rcol_cut (rcol_triangulate he hq hso hn h0 hb hst hwa g2 g3))
  by_cases ht : J.toQuad = true
  · rw [if_pos ht] at h3
    obtain ⟨k1, k2⟩ := g4 ht
    obtain ⟨v, g1, g2, -, g4, g5, g6⟩ := C154_modify J.ix2 m1.complete m1.len m1.fresh k1 k2
    rw [h3] at g1
    obtain rfl := Option.some.inj g1
    exact cut_trans r1 (rcol_cut (rcol_coarsened g4 (tw_tri2quad h3)))
  · rw [if_neg ht] at h3
    rw [← Option.some.inj h3]
    exact r1

end

theorem cut_refined {s t : St K} {N : Names} (R : Refined s t N) (hw : WF s) : RimCut s t := by
  have hmid : ∀ e ∈ s.es .bdry, OnClosed (s.pos (s.E e).v1) (s.pos (s.E e).v2) (t.pos (N.mid e)) := by
    intro e he
    obtain ⟨m1, m2⟩ := R.midPos .bdry (by decide) e he
    refine ⟨1 / 2, by norm_num, by norm_num, ?_⟩
    apply Pt.ext' <;> simp [GeoSpec.onSeg, Pt.smul] <;> linarith
  refine ⟨fun x hx => ?_, fun e he z hz => ?_⟩
  · rw [R.bdry] at hx
    obtain ⟨e, he, hx⟩ := List.mem_flatMap.mp hx
    obtain ⟨-, v1, v2, -⟩ := (hw.ends _).2 e he
    obtain ⟨⟨a1, a2⟩, a3, a4⟩ := R.halves .bdry (by decide) e he
    refine ⟨e, he, (R.markers e he x hx).1, ?_⟩
    simp only [List.mem_cons, List.not_mem_nil, or_false] at hx
    rcases hx with rfl | rfl
    · rw [a1, a2, (R.old _ v1).1]
      exact ⟨closed_left _ _, hmid e he⟩
    · rw [a3, a4, (R.old _ v2).1]
      exact ⟨hmid e he, closed_right _ _⟩
  · obtain ⟨-, v1, v2, -⟩ := (hw.ends _).2 e he
    obtain ⟨⟨a1, a2⟩, a3, a4⟩ := R.halves .bdry (by decide) e he
    have key : ∀ x ∈ [(N.half e).1, (N.half e).2], x ∈ t.es .bdry ∧ (t.E x).color = (s.E e).color := fun x hx =>
      ⟨by rw [R.bdry]; exact List.mem_flatMap.mpr ⟨e, he, hx⟩, (R.markers e he x hx).1⟩
    rcases closed_cases (hmid e he) hz with hz | hz
    · obtain ⟨k1, k2⟩ := key (N.half e).1 (by simp)
      refine ⟨_, k1, k2, ?_⟩
      rw [a1, a2, (R.old _ v1).1]; exact hz
    · obtain ⟨k1, k2⟩ := key (N.half e).2 (by simp)
      refine ⟨_, k1, k2, ?_⟩
      rw [a3, a4, (R.old _ v2).1]; exact hz

theorem cut_places {s t : St K} (hf : BdryFlagged s) {l : Bool} (hp : SameButPlaces s t) (hq : ∀ v, Pinned l s v → t.pos v = s.pos v) : RimCut s t := by
  have key : ∀ e ∈ s.es .bdry, t.pos (t.E e).v1 = s.pos (s.E e).v1 ∧ t.pos (t.E e).v2 = s.pos (s.E e).v2 ∧ (t.E e).color = (s.E e).color := by
    intro e he
    obtain ⟨e1, e2, -, e4, -⟩ := hp.ends e
    rw [e1, e2]
    exact ⟨hq _ (Or.inr (Or.inl (hf e he).1)), hq _ (Or.inr (Or.inl (hf e he).2)), e4⟩
  refine ⟨fun e he => ?_, fun e he z hz => ?_⟩
  · rw [hp.es] at he
    obtain ⟨p1, p2, p3⟩ := key e he
    refine ⟨e, he, p3, ?_⟩
    rw [p1, p2]
    exact ⟨closed_left _ _, closed_right _ _⟩
  · obtain ⟨p1, p2, p3⟩ := key e he
    refine ⟨e, by rw [hp.es]; exact he, p3, ?_⟩
    rw [p1, p2]; exact hz

theorem cut_twins {s t : St K} (h : SameButTwins s t) : RimCut s t := by
  have e4 : t.pos = s.pos := by rw [h.1]; rfl
  have e5 : t.es .bdry = s.es .bdry := by rw [h.1]
  refine ⟨fun e he => ?_, fun e he z hz => ?_⟩
  · refine ⟨e, by rw [← e5]; exact he, ?_⟩
    rw [e4, h.2 e]
    exact ⟨rfl, closed_left _ _, closed_right _ _⟩
  · refine ⟨e, by rw [e5]; exact he, ?_⟩
    rw [e4, h.2 e]
    exact ⟨rfl, hz⟩

theorem cut_refineAll {s0 : St K} : ∀ {n : Nat} {s t : St K}, MeshOf s0 s → (n = 0 ∨ ConvexElements s) → refineAll n s = some t → RimCut s t
  | 0, s, t, h, _, hr => by
    simp only [refineAll, Option.some.injEq] at hr
    rw [← hr]; exact cut_refl _
  | n + 1, s, t, h, hc, hr => by
    have hc := hc.resolve_left (Nat.succ_ne_zero n)
    simp only [refineAll, Option.bind_eq_some_iff] at hr
    obtain ⟨⟨u, b⟩, h1, h2⟩ := hr
    by_cases ht : NoTwins s
    · obtain ⟨v, N, k1, k2, k3, k4, k5⟩ := C157_refine h ht hc
      rw [h1] at k1
      simp only [Option.some.injEq, Prod.mk.injEq] at k1
      obtain ⟨rfl, rfl⟩ := k1
      exact cut_trans (cut_refined k2 h.complete.wf) (cut_refineAll k3 (Or.inr k5) h2)
    · have := C56_refused ht
      rw [h1] at this
      simp only [Option.some.injEq, Prod.mk.injEq] at this
      obtain ⟨rfl, rfl⟩ := this
      exact cut_refineAll h (Or.inr hc) h2

/-- Every boundary edge with its marker fulfils `M`. -/
def Mk (M : Pt K → Pt K → Int → Prop) (s : St K) : Prop := ∀ e ∈ s.es .bdry, M (s.pos (s.E e).v1) (s.pos (s.E e).v2) (s.E e).color

/-- With a segment also its parts. -/
def Parts (M : Pt K → Pt K → Int → Prop) : Prop := ∀ p q c x y, M p q c → OnClosed p q x → OnClosed p q y → M x y c

theorem mk_cut {M : Pt K → Pt K → Int → Prop} (hM : Parts M) {s t : St K} (h : Mk M s) (hc : RimCut s t) : Mk M t := by
  intro e he
  obtain ⟨b, hb, h1, h2, h3⟩ := hc.part e he
  rw [h1]
  exact hM _ _ _ _ _ (h b hb) h2 h3

theorem mk_merge {M : Pt K → Pt K → Int → Prop} {w w' : World K} {ri di : Nat} {φ : Nat → Nat} (G : Merged w w' ri di φ) (h1 : WF (w ri)) (h2 : WF (w di))
    (hR : Mk M (w ri)) (hD : Mk M (w di)) : Mk M (w' ri) := by
  intro e he
  obtain ⟨n1, hb, hf⟩ := G.bdry
  rw [hb] at he
  rcases List.mem_append.mp he with he | he
  · have hm := List.mem_of_mem_filter he
    obtain ⟨-, v1, v2, -⟩ := (h1.ends _).2 e hm
    obtain ⟨o1, o2, o3, -⟩ := G.oldE .bdry e hm
    rw [o1, o2, o3, (G.old _ v1).1, (G.old _ v2).1]
    exact hR e hm
  · obtain ⟨x, hx, hc, hcol, -⟩ := forall₂_mem (List.Forall₂.flip hf) e he
    have hm := List.mem_of_mem_filter hx
    obtain ⟨-, v1, v2, -⟩ := (h2.ends _).2 x hm
    rw [hcol, hc.1, hc.2.1, G.pos _ v1, G.pos _ v2]
    exact hD x hm

end TQ.Whole

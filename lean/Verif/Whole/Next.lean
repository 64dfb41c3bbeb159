import Verif.Whole.NextSpec
import Verif.Whole.Links
import Verif.Whole.AppProps
import Verif.Whole.UnionProps

/-! # Lemmas: several mesh definitions -/

set_option linter.unusedSectionVars false
set_option linter.unusedSimpArgs false
set_option linter.unusedVariables false

namespace TQ.Whole
open TQ TQ.MS TQ.MS.St TQ.MeshSpec TQ.FUSpec TQ.MCSpec TQ.WholeSpec TQ.FU TQ.Sm TQ.MC TQ.RefSpec TQ.CleanSpec TQ.MM TQ.MergeSpec TQ.SmSpec TQ.AM TQ.AppSpec TQ.QL TQ.QLSpec
variable {K : Type*} [Field K] [LinearOrder K] [IsStrictOrderedRing K]

/-! ### Changed links -/

theorem sbt_form {s t : St K} (h : SameButTwins s t) : t = { s with E := fun e => { s.E e with twin := (t.E e).twin } } := by
  conv_lhs => rw [h.1]
  congr 1
  funext e
  exact h.2 e

theorem wf_twins {s : St K} {τ : Nat → Option (Nat × Nat)} (h : WF s) : WF ({ s with E := fun e => { s.E e with twin := τ e } } : St K) where
  edges := h.edges
  facets := h.facets
  vnd := h.vnd
  vlt := h.vlt
  ends := h.ends
  tnd := h.tnd
  qnd := h.qnd
  tlt := h.tlt
  qlt := h.qlt
  tcor := h.tcor
  qcor := h.qcor
  cor := h.cor

theorem complete_twins {s : St K} {τ : Nat → Option (Nat × Nat)} (h : Complete s) :
    Complete ({ s with E := fun e => { s.E e with twin := τ e } } : St K) where
  wf := wf_twins h.wf
  dir := h.dir
  sides := h.sides
  right := h.right
  unique := h.unique
  intrFull := h.intrFull
  bdryFull := h.bdryFull
  front := h.front
  bdry := h.bdry
  ccw := h.ccw
  plain := h.plain

/-- Links are not part of what makes a mesh complete. -/
theorem meshOf_twins {b s t : St K} (hm : MeshOf b s) (h : SameButTwins s t) : MeshOf b t := by
  rw [sbt_form h]
  exact ⟨complete_twins hm.complete, complete_tiled (complete_twins hm.complete), hm.area, hm.region, hm.flagged, hm.len, hm.fresh⟩

/-! ### Kept boundary edges -/

/-- All boundary edges are kept with their ends and links. -/
def RimSame (s t : St K) : Prop :=
  t.es .bdry = s.es .bdry ∧ ∀ e ∈ s.es .bdry, (t.E e).v1 = (s.E e).v1 ∧ (t.E e).v2 = (s.E e).v2 ∧ (t.E e).twin = (s.E e).twin ∧
    t.pos (s.E e).v1 = s.pos (s.E e).v1 ∧ t.pos (s.E e).v2 = s.pos (s.E e).v2

theorem same_refl (s : St K) : RimSame s s := ⟨rfl, fun _ _ => ⟨rfl, rfl, rfl, rfl, rfl⟩⟩
theorem same_trans {s t u : St K} (a : RimSame s t) (b : RimSame t u) : RimSame s u := by
  refine ⟨b.1.trans a.1, fun e he => ?_⟩
  obtain ⟨a1, a2, a3, a4, a5⟩ := a.2 e he
  obtain ⟨b1, b2, b3, b4, b5⟩ := b.2 e (by rw [a.1]; exact he)
  rw [a1] at b4
  rw [a2] at b5
  exact ⟨b1.trans a1, b2.trans a2, b3.trans a3, b4.trans a4, b5.trans a5⟩

theorem closed_left (a b : Pt K) : OnClosed a b a := ⟨0, le_refl _, zero_le_one, by simp [GeoSpec.onSeg, Pt.smul]⟩
theorem closed_right (a b : Pt K) : OnClosed a b b := ⟨1, zero_le_one, le_refl _, by apply Pt.ext' <;> simp [GeoSpec.onSeg, Pt.smul]⟩

/-- Segments are convex. -/
theorem closed_trans {a b p q x : Pt K} (hp : OnClosed a b p) (hq : OnClosed a b q) (hx : OnClosed p q x) : OnClosed a b x := by
  obtain ⟨s, s0, s1, rfl⟩ := hp
  obtain ⟨t, t0, t1, rfl⟩ := hq
  obtain ⟨r, r0, r1, rfl⟩ := hx
  refine ⟨(1 - r) * s + r * t, by nlinarith [mul_nonneg (sub_nonneg.mpr r1) s0, mul_nonneg r0 t0],
    by nlinarith [mul_nonneg (sub_nonneg.mpr r1) (sub_nonneg.mpr s1), mul_nonneg r0 (sub_nonneg.mpr t1)], ?_⟩
  apply Pt.ext' <;> simp [GeoSpec.onSeg, Pt.smul] <;> ring

/-- An end of a segment is on a part of it only as an end of the part. -/
theorem closed_end {a b p q x : Pt K} (hp : OnClosed a b p) (hq : OnClosed a b q) (hx : OnClosed p q x) (h : x = a ∨ x = b) : x = p ∨ x = q := by
  obtain ⟨s, s0, s1, rfl⟩ := hp
  obtain ⟨t, t0, t1, rfl⟩ := hq
  obtain ⟨r, r0, r1, hr⟩ := hx
  have key : x = GeoSpec.onSeg a b ((1 - r) * s + r * t) := by
    rw [hr]; apply Pt.ext' <;> simp [GeoSpec.onSeg, Pt.smul] <;> ring
  have aux : ∀ k : K, (1 - r) * (s - k) + r * (t - k) = 0 → (0 ≤ s - k ∧ 0 ≤ t - k) ∨ (s - k ≤ 0 ∧ t - k ≤ 0) → s = k ∨ t = k := by
    intro k hk hsg
    by_contra hc
    rw [not_or] at hc
    have e1 : s - k ≠ 0 := sub_ne_zero.mpr hc.1
    have e2 : t - k ≠ 0 := sub_ne_zero.mpr hc.2
    rcases hsg with ⟨g1, g2⟩ | ⟨g1, g2⟩
    · have p1 := lt_of_le_of_ne g1 (Ne.symm e1)
      have p2 := lt_of_le_of_ne g2 (Ne.symm e2)
      rcases r0.lt_or_eq with h0 | h0
      · nlinarith [mul_pos h0 p2, mul_nonneg (sub_nonneg.mpr r1) g1]
      · rw [← h0] at hk; apply e1; linarith
    · have p1 := lt_of_le_of_ne g1 e1
      have p2 := lt_of_le_of_ne g2 e2
      rcases r0.lt_or_eq with h0 | h0
      · nlinarith [mul_pos h0 (neg_pos.mpr p2), mul_nonneg (sub_nonneg.mpr r1) (neg_nonneg.mpr g1)]
      · rw [← h0] at hk; apply e1; linarith
  by_cases hab : a = b
  · left
    rw [key, hab]
    apply Pt.ext' <;> simp [GeoSpec.onSeg, Pt.smul]
  have param : ∀ u v : K, GeoSpec.onSeg a b u = GeoSpec.onSeg a b v → u = v := by
    intro u v huv
    by_contra hne
    apply hab
    have h1 := congrArg Pt.x huv
    have h2 := congrArg Pt.y huv
    simp only [GeoSpec.onSeg, Pt.smul, Pt.add_x, Pt.add_y, Pt.sub_x, Pt.sub_y] at h1 h2
    have hd : u - v ≠ 0 := sub_ne_zero.mpr hne
    apply Pt.ext'
    · have : (u - v) * (b.x - a.x) = 0 := by linear_combination h1
      rcases mul_eq_zero.mp this with h | h
      · exact absurd h hd
      · linarith
    · have : (u - v) * (b.y - a.y) = 0 := by linear_combination h2
      rcases mul_eq_zero.mp this with h | h
      · exact absurd h hd
      · linarith
  rcases h with h | h
  · have e0 : x = GeoSpec.onSeg a b 0 := by rw [h]; apply Pt.ext' <;> simp [GeoSpec.onSeg, Pt.smul]
    have := param _ _ (key.symm.trans e0)
    rcases aux 0 (by rw [sub_zero, sub_zero]; exact this) (Or.inl (by rw [sub_zero, sub_zero]; exact ⟨s0, t0⟩)) with k | k
    · left; rw [e0, k]
    · right; rw [e0, k]
  · have e0 : x = GeoSpec.onSeg a b 1 := by rw [h]; apply Pt.ext' <;> simp [GeoSpec.onSeg, Pt.smul]
    have := param _ _ (key.symm.trans e0)
    rcases aux 1 (by linear_combination this) (Or.inr ⟨by linarith, by linarith⟩) with k | k
    · left; rw [e0, k]
    · right; rw [e0, k]

theorem rim_same {s t : St K} (h : RimSame s t) : RimKept s t where
  linked := fun e he _ => ⟨by rw [h.1]; exact he, h.2 e he⟩
  only := fun e he _ => by
    rw [h.1] at he
    exact ⟨he, (h.2 e he).2.2.1.symm⟩
  parts := fun e he ht => by
    rw [h.1] at he
    obtain ⟨a1, a2, a3, a4, a5⟩ := h.2 e he
    refine ⟨e, he, by rw [← a3]; exact ht, ?_, ?_⟩
    · rw [a1, a4]; exact closed_left _ _
    · rw [a2, a5]; exact closed_right _ _

theorem rim_refl (s : St K) : RimKept s s := rim_same (same_refl s)

theorem rim_trans {s t u : St K} (a : RimKept s t) (b : RimKept t u) : RimKept s u where
  linked := fun e he ht => by
    obtain ⟨a0, a1, a2, a3, a4, a5⟩ := a.linked e he ht
    obtain ⟨b0, b1, b2, b3, b4, b5⟩ := b.linked e a0 (by rw [a3]; exact ht)
    rw [a1] at b4
    rw [a2] at b5
    exact ⟨b0, b1.trans a1, b2.trans a2, b3.trans a3, b4.trans a4, b5.trans a5⟩
  only := fun e he ht => by
    obtain ⟨b1, b2⟩ := b.only e he ht
    obtain ⟨a1, a2⟩ := a.only e b1 (by rw [b2]; exact ht)
    exact ⟨a1, a2.trans b2⟩
  parts := fun e he ht => by
    obtain ⟨e1, m1, t1, p1, q1⟩ := b.parts e he ht
    obtain ⟨e0, m0, t0, p0, q0⟩ := a.parts e1 m1 t1
    exact ⟨e0, m0, t0, closed_trans p0 q0 p1, closed_trans p0 q0 q1⟩

/-- Old edges keep their data, vertices their places. -/
def OldKept (s t : St K) : Prop :=
  t.es .bdry = s.es .bdry ∧ s.nxt ≤ t.nxt ∧ (∀ x, x < s.nxt → (t.E x).v1 = (s.E x).v1 ∧ (t.E x).v2 = (s.E x).v2 ∧ (t.E x).twin = (s.E x).twin) ∧
  ∀ v, t.pos v = s.pos v

theorem OldKept.trans {s t u : St K} (a : OldKept s t) (b : OldKept t u) : OldKept s u := by
  obtain ⟨a1, a2, a3, a4⟩ := a
  obtain ⟨b1, b2, b3, b4⟩ := b
  refine ⟨b1.trans a1, a2.trans b2, fun x hx => ?_, fun v => (b4 v).trans (a4 v)⟩
  obtain ⟨c1, c2, c3⟩ := a3 x hx
  obtain ⟨d1, d2, d3⟩ := b3 x (lt_of_lt_of_le hx a2)
  exact ⟨d1.trans c1, d2.trans c2, d3.trans c3⟩

theorem oldKept_foldl {g : St K → Nat → St K} (hg : ∀ t e, OldKept t (g t e)) : ∀ (l : List Nat) (t : St K), OldKept t (l.foldl g t)
  | [], t => ⟨rfl, le_refl _, fun _ _ => ⟨rfl, rfl, rfl⟩, fun _ => rfl⟩
  | e :: l, t => by rw [List.foldl_cons]; exact (hg t e).trans (oldKept_foldl hg l _)

theorem xy_upd (V : Nat → VData K) (a : Nat) (g : VData K → VData K) (h : ∀ d, (g d).xy = d.xy) (v : Nat) : (upd V a g v).xy = (V v).xy := by
  unfold upd
  split_ifs
  · exact h _
  · rfl

theorem same_old {s t : St K} (h : WF s) (k : OldKept s t) : RimSame s t := by
  obtain ⟨k1, k2, k3, k4⟩ := k
  refine ⟨k1, fun e he => ?_⟩
  obtain ⟨h1, h2, h3⟩ := k3 e ((h.ends _).2 e he).2.2.2.2
  exact ⟨h1, h2, h3, k4 _, k4 _⟩

theorem same_start (eps : K) {s : St K} (h : WF s) : RimSame s (startStep eps s) := by
  apply same_old h
  have b := setup_sbp eps h
  have o1 : OldKept s (setupConnectivity eps s) := by
    refine ⟨by rw [b.es], le_of_eq b.nxt.symm, fun x _ => ⟨(b.ends x).1, (b.ends x).2.1, congrFun (tw_setup eps s) x⟩, fun v => ?_⟩
    unfold pos; rw [b.V]
  refine o1.trans ?_
  unfold startStep removeInvalid initFront
  refine OldKept.trans (oldKept_foldl (fun t e => ?_) _ _) (oldKept_foldl (fun t e => ?_) _ _)
  · unfold addFrontEdge addEdge setProps
    refine ⟨by simp [upd], Nat.le_succ _, fun x hx => ?_, fun v => ?_⟩
    · simp only [upd]
      rw [if_neg (by omega)]
      exact ⟨rfl, rfl, rfl⟩
    · unfold pos
      simp only
      exact (xy_upd _ _ (vAddEdge t.nxt) (fun _ => rfl) v).trans ((xy_upd _ _ (vAddEdge t.nxt) (fun _ => rfl) v).trans
        ((xy_upd _ _ _ (by intro _; rfl) v).trans (xy_upd _ _ _ (by intro _; rfl) v)))
  · unfold removeIntr
    split_ifs with hl
    · exact ⟨rfl, le_refl _, fun _ _ => ⟨rfl, rfl, rfl⟩, fun _ => rfl⟩
    · unfold removeEdge
      rw [not_not] at hl
      refine ⟨by simp [upd, hl], le_refl _, fun _ _ => ⟨rfl, rfl, rfl⟩, fun v => ?_⟩
      unfold pos
      simp only
      exact (xy_upd _ _ (vRemEdge e) (fun _ => rfl) v).trans (xy_upd _ _ (vRemEdge e) (fun _ => rfl) v)

theorem same_coarsened {s t : St K} (h : Coarsened s t) (ht : t.tw = s.tw) : RimSame s t :=
  ⟨h.lists _ (by decide), fun e _ => ⟨(h.edata e).1, (h.edata e).2.1, congrFun ht e, (h.vdata _).1, (h.vdata _).1⟩⟩

theorem same_frame {s t : St K} (h : WF s) (f : Frame s t) : RimSame s t := by
  refine ⟨f.bdry, fun e he => ?_⟩
  have := (h.ends _).2 e he
  rw [f.E e he]
  exact ⟨rfl, rfl, rfl, f.pos _ this.2.1, f.pos _ this.2.2.1⟩

/-- A successful triangulation keeps the boundary edges. -/
theorem same_triangulate {L : LEnv K} (he : 0 < L.env.eps) (hq : QueryExact L.env) (hso : SortOK L.env)
    (hn : ∀ p, 0 ≤ L.env.norm p ∧ Pt.normSq p ≤ L.env.norm p * L.env.norm p) {s0 a : St K} (h0 : Bare s0) (hb : BdryFlagged s0)
    (h : Staged L s0 a) (hw : WF a) {par : TG.Par K} {fuel : Nat} {ix0 : FRef → Nat} (hm : MeshedWell L.env par 0 fuel a) {t : St K}
    (ht : triangulate L.env par 0 fuel ix0 a = .ret true t) : RimSame a t := by
  unfold triangulate at ht
  split_ifs at ht
  · simp at ht
  · split at ht
    · simp at ht
    · simp at ht
    · rename_i ok u c hg
      split at ht
      · simp at ht
      · rename_i t' hi
        simp only [Out.ret.injEq] at ht
        obtain ⟨rfl, rfl⟩ := ht
        obtain ⟨hwk, hres, hf⟩ := generate_work he hq hso hn h0 h hm hg
        have hf := (hf rfl).resolve_right (fun x => absurd x.1 (lt_irrefl 0))
        rw [finish_complete hf] at hi
        obtain ⟨v, h1, -, h3⟩ := C155_improved he hq hso hn h0 hb hwk hf hres ix0
        rw [hi] at h1
        obtain rfl := Option.some.inj h1
        have hws := (work_inv he hq hso hn h0 (staged_start h)).mesh.wf
        obtain ⟨⟨log, hr, -⟩, -⟩ := C41_limit he (queryExact_live hq) hso par hws (generate_front hg) hg
        obtain ⟨-, fr⟩ := run_frame he (queryExact_live hq) hso hws hr
        exact same_trans (same_trans (same_start _ hw) (same_frame hws fr)) (same_coarsened h3 (tw_improve hi))

/-! ### After the meshing the meshes are side by side -/

theorem beside_done {w : World K} {ni oi : Nat} (B : Beside w ni oi) {s : St K} (k : RimKept (w ni) s)
    (hreg : ∀ p, winding s.pos (pairs s .bdry) p = winding (w ni).pos (pairs (w ni) .bdry) p) (hR : Complete s)
    (hD : Complete (w oi)) : SideBySide (upd w ni fun _ => s) ni oi ∧ ∃ e ∈ ((upd w ni fun _ => s) ni).es .bdry, Iface (upd w ni fun _ => s) ni oi e := by
  have e1 : (upd w ni fun _ => s) ni = s := by simp [upd]
  have e2 : (upd w ni fun _ => s) oi = w oi := by simp [upd, Ne.symm B.ne]
  have hon : ∀ v, OnIface (upd w ni fun _ => s) ni oi v → OnIface w ni oi v ∧ s.pos v = (w ni).pos v := by
    rintro v ⟨e, he, ⟨e', h1⟩, h2⟩
    rw [e1] at he h1 h2
    obtain ⟨o1, o2⟩ := k.only e he (by rw [h1]; simp)
    obtain ⟨-, k1, k2, k3, k4, k5⟩ := k.linked e o1 (by rw [o2, h1]; simp)
    rw [k1, k2] at h2
    refine ⟨⟨e, o1, ⟨e', o2.trans h1⟩, h2⟩, ?_⟩
    rcases h2 with rfl | rfl
    · exact k4
    · exact k5
  have hon' : ∀ v, OnIface (upd w ni fun _ => s) oi ni v → OnIface w oi ni v := by
    rintro v ⟨e, he, h1, h2⟩
    unfold Iface at h1
    rw [e2] at he h1 h2
    exact ⟨e, he, h1, h2⟩
  refine ⟨{ adj := ?_, disjoint := ?_, rims := ?_ }, ?_⟩
  · refine { ne := B.ne, receiver := ?_, donor := ?_, link := ?_, back := ?_, meshedR := ?_, meshedD := ?_, apartR := ?_, apartD := ?_, self := ?_, different := ?_ }
    · rw [e1]; exact hR.toProper
    · rw [e2]; exact hD.toProper
    · rw [e1, e2]
      intro e he e' ht
      obtain ⟨o1, o2⟩ := k.only e he (by rw [ht]; simp)
      obtain ⟨-, k1, k2, k3, k4, k5⟩ := k.linked e o1 (by rw [o2, ht]; simp)
      rw [k3] at ht
      obtain ⟨l1, l2, l3, l4⟩ := B.link e o1 e' ht
      exact ⟨l1, l2, by rw [k1, k4, l3], by rw [k2, k5, l4]⟩
    · rw [e1, e2]
      intro e' he' e ht
      obtain ⟨l1, l2⟩ := B.back e' he' e ht
      obtain ⟨k0, -, -, k3, -⟩ := k.linked e l1 (by rw [l2]; simp)
      exact ⟨k0, k3.trans l2⟩
    · rw [e1]; exact fun e he _ => hR.bdryFull e he
    · rw [e2]; exact fun e he _ => hD.bdryFull e he
    · rw [e1]
      intro u v hu hv hp
      obtain ⟨u1, u2⟩ := hon u hu
      obtain ⟨v1, v2⟩ := hon v hv
      exact B.apartN u v u1 v1 (by rw [← u2, ← v2, hp])
    · rw [e2]
      exact fun u v hu hv hp => B.apartO u v (hon' u hu) (hon' v hv) hp
    · rw [e2]
      intro e he x hx
      rw [B.self e he x hx]; exact B.ne
    · rw [e2]
      intro e he e' he' x hx hx'
      obtain ⟨m, y⟩ := x
      obtain rfl : m = ni := B.self e he _ hx
      obtain ⟨-, l2⟩ := B.back e he y hx
      obtain ⟨-, l4⟩ := B.back e' he' y hx'
      rw [l2] at l4
      simpa using l4
  · intro p
    rw [e1, e2, hreg p]
    exact B.disjoint p
  · rw [e1, e2]
    intro e he hi e' he' hi' x hx hx'
    have hi2 : ¬ Iface w oi ni e' := by
      intro hh; apply hi'; unfold Iface; rw [e2]; exact hh
    by_cases ht : (s.E e).twin = none
    · obtain ⟨e0, m0, t0, p0, q0⟩ := k.parts e he ht
      have hn0 : ¬ Iface w ni oi e0 := by
        rintro ⟨y, hy⟩
        rw [t0] at hy
        simp at hy
      obtain ⟨r1, r2⟩ := B.rims e0 m0 hn0 e' he' hi2 x (closed_trans p0 q0 hx) hx'
      exact ⟨closed_end p0 q0 hx r1, r2⟩
    · obtain ⟨o1, o2⟩ := k.only e he ht
      obtain ⟨-, k1, k2, k3, k4, k5⟩ := k.linked e o1 (by rw [o2]; exact ht)
      rw [k1, k2, k4, k5] at hx ⊢
      refine B.rims e o1 (fun hh => hi ?_) e' he' hi2 x hx hx'
      obtain ⟨y, hy⟩ := hh
      refine ⟨y, ?_⟩
      rw [e1]
      exact k3.trans hy
  · obtain ⟨e, he, y, hy⟩ := B.shared
    obtain ⟨k0, -, -, k3, -⟩ := k.linked e he (by rw [hy]; simp)
    refine ⟨e, by rw [e1]; exact k0, y, ?_⟩
    rw [e1]
    exact k3.trans hy

end TQ.Whole

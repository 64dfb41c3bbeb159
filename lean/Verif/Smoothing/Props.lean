import Verif.Smoothing.Area
import Verif.Boundary.Model

/-! # Properties of the smoothing of meshes (C58-C62, C107-C111) -/

set_option linter.unusedSectionVars false
set_option linter.unusedSimpArgs false

namespace TQ
open TQ.MS TQ.MS.St TQ.MeshSpec TQ.MCSpec TQ.SmSpec TQ.RefSpec TQ.MC TQ.Sm
variable {K : Type*} [Field K] [LinearOrder K] [IsStrictOrderedRing K]

/-! ### Concrete meshes -/

namespace SMEx
open TQ.MCEx

/-- A mesh with flags. -/
def flagged (l : List (Nat × BitVec 8)) (s : St ℚ) : St ℚ := l.foldl (fun t p => t.setProps p.1 fun _ => p.2) s

theorem wf_flagged : ∀ (l : List (Nat × BitVec 8)) (s : St ℚ), WF s → WF (flagged l s) := by
  intro l
  induction l with
  | nil => intro s h; exact h
  | cons p l ih => intro s h; exact ih _ (wf_setProps h _ _)

/-- `is_inside` for the domain bounded by the boundary edges of a mesh. -/
def inside (s : St ℚ) (p : Pt ℚ) : Bool :=
  isInside 0 0 (1 / 2 ^ 52) (1 / 2 ^ 52) s.pos ((s.es .bdry).map fun e => ⟨(s.E e).v1, (s.E e).v2, 1, 1⟩) p

/-- The surroundings of the smoothing for a mesh; the neighbours keep their order. -/
def cfg (layers : Bool) (s : St ℚ) : SmoothCfg ℚ := ⟨1 / 2 ^ 52, inside s, fun _ _ l => l, layers⟩

/-- The nearest boundary edge and the norm do not matter. -/
def noEdge : St ℚ → Pt ℚ → Option Nat := fun _ _ => none
def sup : Pt ℚ → ℚ := fun p => max |p.x| |p.y|

/-- A square of four triangles around a vertex out of the middle. -/
def fan : St ℚ := flagged [(0, Flags.vOnBoundary), (1, Flags.vOnBoundary), (2, Flags.vOnBoundary), (3, Flags.vOnBoundary)]
  (build [.v 0 0, .v 4 0, .v 4 4, .v 0 4, .v 1 1, .bdry 0 1 1, .bdry 1 2 1, .bdry 2 3 1, .bdry 3 0 1,
    .intr 0 4, .intr 1 4, .intr 2 4, .intr 3 4, .tri 0 1 4 1, .tri 1 2 4 1, .tri 2 3 4 1, .tri 3 0 4 1] (St.empty 1))

theorem wf_fan : WF fan := wf_flagged _ _ (built_wf (built_of _ _ Built.empty (by decide +kernel)))

theorem conforming_fan : Conforming fan :=
  conforming_of (proper_of wf_fan (by decide +kernel) (by decide +kernel) (by decide +kernel)) (by decide +kernel) (by decide +kernel)
    (by decide +kernel)

/-- Four quads around a vertex, one of them long. -/
def cross : St ℚ := flagged [(0, Flags.vOnBoundary), (1, Flags.vOnBoundary), (2, Flags.vOnBoundary), (3, Flags.vOnBoundary),
    (4, Flags.vOnBoundary), (5, Flags.vOnBoundary), (6, Flags.vOnBoundary), (7, Flags.vOnBoundary)]
  (build [.v 1 0, .v 12 12, .v 0 1, .v (-1) 1, .v (-1) 0, .v (-1) (-1), .v 0 (-1), .v 1 (-1), .v 0 0,
    .bdry 0 1 1, .bdry 1 2 1, .bdry 2 3 1, .bdry 3 4 1, .bdry 4 5 1, .bdry 5 6 1, .bdry 6 7 1, .bdry 7 0 1,
    .intr 8 0, .intr 8 2, .intr 8 4, .intr 8 6,
    .quad 0 1 2 8 1, .quad 2 3 4 8 1, .quad 4 5 6 8 1, .quad 6 7 0 8 1] (St.empty 1))

theorem wf_cross : WF cross := wf_flagged _ _ (built_wf (built_of _ _ Built.empty (by decide +kernel)))

theorem conforming_cross : Conforming cross :=
  conforming_of (proper_of wf_cross (by decide +kernel) (by decide +kernel) (by decide +kernel)) (by decide +kernel) (by decide +kernel)
    (by decide +kernel)

theorem convex_of {s : St ℚ} (h : (facets s).all (shapeOK 0 s) = true) : ConvexElements s := by
  have hs := shapes_of h
  refine ⟨fun t ht a b c hc => (hs.1 t ht a b c hc).1, fun q hq a b c d hc => ?_⟩
  have := hs.2 q hq a b c d hc
  exact ⟨(this (a, b, c) (by simp)).1, (this (b, c, d) (by simp)).1, (this (c, d, a) (by simp)).1, (this (d, a, b) (by simp)).1⟩

/-- The places after smoothing. -/
def places (r : Option (St ℚ × ℚ)) : List (ℚ × ℚ) :=
  match r with
  | none => []
  | some t => t.1.verts.map fun v => ((t.1.pos v).x, (t.1.pos v).y)

end SMEx

/-! ## C58: fixed and boundary vertices stay -/

/-- Invariant of C58. -/
theorem stable_C58 (c : SmoothCfg K) (s : St K) :
    Stable c fun t => SameButPlaces s t ∧ (∀ v, Pinned c.layers s v → t.pos v = s.pos v) ∧
      ∀ v, t.pos v ≠ s.pos v → c.inside (t.pos v) = true := by
  rintro t v p ⟨h1, h2, h3⟩ hp hv
  refine ⟨sp_trans h1 (sp_setPos t v p), fun w hw => ?_, fun w hw => ?_⟩
  · rw [pos_setPos, if_neg]
    · exact h2 w hw
    · rintro rfl; exact hp ((sp_pinned h1 c.layers w).mpr hw)
  · by_cases hwv : w = v
    · subst hwv
      unfold placeValid at hv
      rw [Bool.and_eq_true] at hv
      exact hv.1
    · rw [pos_setPos, if_neg hwv] at hw ⊢
      exact h3 w hw

/-- Laplace and torsion smoothing, any number of iterations, any displacement rule: smoothing ends without
undefined behaviour, changes nothing but places, keeps the place of every pinned vertex, and vertices that
moved are inside the domain. -/
theorem C58_smooth (nearest : St K → Pt K → Option Nat) (norm : Pt K → K) (c : SmoothCfg K) (rule : Rule K) (decay : K)
    (n : Nat) {s : St K} (h : WF s) (step : K) : ∃ r, smooth nearest norm c rule decay n (s, step) = some r ∧ SameButPlaces s r.1 ∧
      (∀ v, Pinned c.layers s v → r.1.pos v = s.pos v) ∧ ∀ v, r.1.pos v ≠ s.pos v → c.inside (r.1.pos v) = true := by
  have hb := setup_sbp c.eps h
  obtain ⟨r, hr⟩ := smoothLoop_total (c := c) (rule := rule) (decay := decay) (conn_dirs nearest norm c (setupConnectivity c.eps s)) n
    (setupConnectivity c.eps s, step)
  refine ⟨r, hr, smoothLoop_inv (stable_C58 c s) n _ _ ?_ hr⟩
  exact ⟨sp_of_sbp hb, fun v _ => sbp_pos hb v, fun v hv => absurd (sbp_pos hb v) hv⟩

/-- The same for mixed smoothing. -/
theorem C58_mixed (nearest : St K → Pt K → Option Nat) (norm : Pt K → K) (c : SmoothCfg K) (r1 r2 : Rule K) (decay : K)
    (n : Nat) {s : St K} (h : WF s) (step : K) : ∃ r, smoothMixed nearest norm c r1 r2 decay n (s, step) = some r ∧ SameButPlaces s r.1 ∧
      (∀ v, Pinned c.layers s v → r.1.pos v = s.pos v) ∧ ∀ v, r.1.pos v ≠ s.pos v → c.inside (r.1.pos v) = true := by
  have hb := setup_sbp c.eps h
  obtain ⟨r, hr⟩ := mixedLoop_total (c := c) (r1 := r1) (r2 := r2) (decay := decay) (conn_dirs nearest norm c (setupConnectivity c.eps s)) n
    (setupConnectivity c.eps s, step)
  refine ⟨r, hr, mixedLoop_inv (stable_C58 c s) n _ _ ?_ hr⟩
  exact ⟨sp_of_sbp hb, fun v _ => sbp_pos hb v, fun v hv => absurd (sbp_pos hb v) hv⟩

/-- one vertex moves, the four corners stay -/
example : WF SMEx.fan ∧ Pinned false SMEx.fan 0 ∧ ¬ Pinned false SMEx.fan 4 ∧
    SMEx.places (smooth SMEx.noEdge SMEx.sup (SMEx.cfg false SMEx.fan) laplaceRule 1 1 (SMEx.fan, 3 / 4)) =
      [(0, 0), (4, 0), (4, 4), (0, 4), (7 / 4, 7 / 4)] :=
  ⟨SMEx.wf_fan, Or.inr (Or.inl (by decide +kernel)), by unfold Pinned; decide +kernel, by decide +kernel⟩

/-! ## C59: triangles stay counter-clockwise -/

theorem ccw_of_orientation {eps : K} {p q r : Pt K} (h : (orientation eps p q r == .CCW) = true) : 0 < area2 p q r := by
  unfold orientation at h
  dsimp only at h
  split_ifs at h with h1 h2
  · exact absurd h (by decide)
  · exact h2
  · exact absurd h (by decide)

theorem facet_same {s : St K} (w : WF s) {v : Nat} {f : FRef} (hf : Live s f) (p : Pt K) (hv : v ∉ (s.F f).corners) :
    ∀ a ∈ (s.F f).corners, (s.setPos v p).pos a = s.pos a := by
  intro a ha
  rw [pos_setPos, if_neg]
  rintro rfl; exact hv ha

theorem facet_checked {c : SmoothCfg K} {s : St K} (w : WF s) {v : Nat} {f : FRef} (hf : Live s f) {p : Pt K}
    (hv : v ∈ (s.F f).corners) (hc : (s.setPos v p).placeValid c v = true) : (s.setPos v p).facetOriented c.eps f = true := by
  unfold placeValid at hc
  rw [Bool.and_eq_true, Bool.and_eq_true, List.all_eq_true] at hc
  refine hc.2.1 f ?_
  rw [((sp_setPos s v p).V v).2.2]
  exact ((w.facets v ((w.cor f hf).2 v hv)).2 f).mpr ⟨hf, hv⟩

theorem stable_tris (c : SmoothCfg K) : Stable c fun s => WF s ∧
    ∀ t ∈ s.tris, ∀ a b c, (s.F (.tri t)).corners = [a, b, c] → 0 < area2 (s.pos a) (s.pos b) (s.pos c) := by
  rintro s v p ⟨w, h⟩ hp hv
  refine ⟨sp_wf (sp_setPos s v p) w, fun t ht x y z hc => ?_⟩
  change t ∈ s.tris at ht
  change (s.F (.tri t)).corners = [x, y, z] at hc
  by_cases hm : v ∈ (s.F (.tri t)).corners
  · have := facet_checked w (f := .tri t) ht hm hv
    unfold facetOriented at this
    rw [show ((s.setPos v p).F (.tri t)).corners = [x, y, z] from hc] at this
    exact ccw_of_orientation this
  · have e := facet_same w (f := .tri t) ht p hm
    rw [hc] at e
    rw [e x (by simp), e y (by simp), e z (by simp)]
    exact h t ht x y z hc

theorem stable_quads (c : SmoothCfg K) : Stable c fun s => WF s ∧ QuadsHalfConvex s := by
  rintro s v p ⟨w, h⟩ hp hv
  refine ⟨sp_wf (sp_setPos s v p) w, fun t ht x y z u hc => ?_⟩
  change t ∈ s.quads at ht
  change (s.F (.quad t)).corners = [x, y, z, u] at hc
  by_cases hm : v ∈ (s.F (.quad t)).corners
  · have := facet_checked w (f := .quad t) ht hm hv
    unfold facetOriented at this
    rw [show ((s.setPos v p).F (.quad t)).corners = [x, y, z, u] from hc] at this
    dsimp only at this
    rw [Bool.and_eq_true] at this
    exact ⟨ccw_of_orientation this.1, ccw_of_orientation this.2⟩
  · have e := facet_same w (f := .quad t) ht p hm
    rw [hc] at e
    rw [e x (by simp), e y (by simp), e z (by simp), e u (by simp)]
    exact h t ht x y z u hc

theorem sbp_tris {s t : St K} (hb : SameButPointers s t)
    (h : ∀ t ∈ s.tris, ∀ a b c, (s.F (.tri t)).corners = [a, b, c] → 0 < area2 (s.pos a) (s.pos b) (s.pos c)) :
    ∀ x ∈ t.tris, ∀ a b c, (t.F (.tri x)).corners = [a, b, c] → 0 < area2 (t.pos a) (t.pos b) (t.pos c) := by
  intro x hx a b c hc
  rw [hb.tris] at hx
  rw [(hb.corners _).1] at hc
  rw [sbp_pos hb, sbp_pos hb, sbp_pos hb]
  exact h x hx a b c hc

theorem sbp_half {s t : St K} (hb : SameButPointers s t) (h : QuadsHalfConvex s) : QuadsHalfConvex t := by
  intro x hx a b c d hc
  rw [hb.quads] at hx
  rw [(hb.corners _).1] at hc
  rw [sbp_pos hb, sbp_pos hb, sbp_pos hb, sbp_pos hb]
  exact h x hx a b c d hc

/-- If all triangles are counter-clockwise before smoothing they are afterwards. -/
theorem C59_smooth {nearest : St K → Pt K → Option Nat} {norm : Pt K → K} {c : SmoothCfg K} {rule : Rule K} {decay step : K}
    {n : Nat} {s : St K} {r : St K × K} (h : WF s)
    (hc : ∀ t ∈ s.tris, ∀ a b c, (s.F (.tri t)).corners = [a, b, c] → 0 < area2 (s.pos a) (s.pos b) (s.pos c))
    (hr : smooth nearest norm c rule decay n (s, step) = some r) :
    ∀ t ∈ r.1.tris, ∀ a b c, (r.1.F (.tri t)).corners = [a, b, c] → 0 < area2 (r.1.pos a) (r.1.pos b) (r.1.pos c) := by
  have hb := setup_sbp c.eps h
  refine (smoothLoop_inv (stable_tris c) n _ _ ?_ hr).2
  exact ⟨sbp_wf hb h, sbp_tris hb hc⟩

theorem C59_mixed {nearest : St K → Pt K → Option Nat} {norm : Pt K → K} {c : SmoothCfg K} {r1 r2 : Rule K} {decay step : K}
    {n : Nat} {s : St K} {r : St K × K} (h : WF s)
    (hc : ∀ t ∈ s.tris, ∀ a b c, (s.F (.tri t)).corners = [a, b, c] → 0 < area2 (s.pos a) (s.pos b) (s.pos c))
    (hr : smoothMixed nearest norm c r1 r2 decay n (s, step) = some r) :
    ∀ t ∈ r.1.tris, ∀ a b c, (r.1.F (.tri t)).corners = [a, b, c] → 0 < area2 (r.1.pos a) (r.1.pos b) (r.1.pos c) := by
  have hb := setup_sbp c.eps h
  refine (mixedLoop_inv (stable_tris c) n _ _ ?_ hr).2
  exact ⟨sbp_wf hb h, sbp_tris hb hc⟩

/-- the hypotheses hold for the fan; a rule that throws the middle vertex over an edge is refused -/
example : WF SMEx.fan ∧ ConvexElements SMEx.fan ∧
    SMEx.places (smooth SMEx.noEdge SMEx.sup ⟨1 / 2 ^ 52, fun _ => true, fun _ _ l => l, false⟩ (fun _ _ _ => some ⟨9, 0⟩) 1 1 (SMEx.fan, 1)) =
      SMEx.places (some (SMEx.fan, 1)) :=
  ⟨SMEx.wf_fan, SMEx.convex_of (by decide +kernel), by decide +kernel⟩

/-! ## C60: quads stay convex -/

/-- Partial: the two corners that are checked stay convex.  Missing: the other two corners. -/
theorem C60_half_partial {nearest : St K → Pt K → Option Nat} {norm : Pt K → K} {c : SmoothCfg K} {rule : Rule K} {decay step : K}
    {n : Nat} {s : St K} {r : St K × K} (h : WF s) (hc : QuadsHalfConvex s)
    (hr : smooth nearest norm c rule decay n (s, step) = some r) : QuadsHalfConvex r.1 := by
  have hb := setup_sbp c.eps h
  refine (smoothLoop_inv (stable_quads c) n _ _ ?_ hr).2
  exact ⟨sbp_wf hb h, sbp_half hb hc⟩

theorem C60_mixed_partial {nearest : St K → Pt K → Option Nat} {norm : Pt K → K} {c : SmoothCfg K} {r1 r2 : Rule K} {decay step : K}
    {n : Nat} {s : St K} {r : St K × K} (h : WF s) (hc : QuadsHalfConvex s)
    (hr : smoothMixed nearest norm c r1 r2 decay n (s, step) = some r) : QuadsHalfConvex r.1 := by
  have hb := setup_sbp c.eps h
  refine (mixedLoop_inv (stable_quads c) n _ _ ?_ hr).2
  exact ⟨sbp_wf hb h, sbp_half hb hc⟩

/-- Four convex quads; one Laplace iteration with the default factor makes one of them re-entrant. -/
theorem C60_violated : ∃ s : St ℚ, Conforming s ∧ ConvexElements s ∧
    ∃ r, smooth SMEx.noEdge SMEx.sup (SMEx.cfg false s) laplaceRule 1 1 (s, 3 / 4) = some r ∧ ¬ ConvexElements r.1 := by
  obtain ⟨r, hr, _⟩ := C58_smooth SMEx.noEdge SMEx.sup (SMEx.cfg false SMEx.cross) laplaceRule 1 1 SMEx.wf_cross (3 / 4)
  refine ⟨SMEx.cross, SMEx.conforming_cross, SMEx.convex_of (by decide +kernel), r, hr, fun hce => ?_⟩
  have key : (match smooth SMEx.noEdge SMEx.sup (SMEx.cfg false SMEx.cross) laplaceRule 1 1 (SMEx.cross, 3 / 4) with
    | none => false
    | some r => decide (21 ∈ r.1.quads) && decide ((r.1.F (.quad 21)).corners = [0, 1, 2, 8]) &&
        decide (area2 (r.1.pos 2) (r.1.pos 8) (r.1.pos 0) < 0)) = true := by decide +kernel
  rw [hr] at key
  simp only [Bool.and_eq_true, decide_eq_true_eq] at key
  exact absurd (hce.2 21 key.1.1 0 1 2 8 key.1.2).2.2.1 (not_lt.mpr key.2.le)

/-! ## C107: the area of a mesh is the shoelace sum of its boundary -/

/-- Twice the area of a conforming mesh is the sum of the cross products along its boundary edges. -/
theorem C107_area {s : St K} (h : Conforming s) : 2 * meshArea s = ((s.es .bdry).map fun e =>
    (s.pos (s.E e).v1).x * (s.pos (s.E e).v2).y - (s.pos (s.E e).v1).y * (s.pos (s.E e).v2).x).sum := meshArea_boundary h

/-- Meshes with the same boundary have the same area. -/
theorem C107_same {s t : St K} (hs : Conforming s) (ht : Conforming t)
    (h : ((s.es .bdry).map fun e => (s.pos (s.E e).v1, s.pos (s.E e).v2)).Perm
      ((t.es .bdry).map fun e => (t.pos (t.E e).v1, t.pos (t.E e).v2))) : meshArea s = meshArea t := by
  have h1 := meshArea_boundary hs
  have h2 := meshArea_boundary ht
  have h3 := (h.map fun p => Pt.cross p.1 p.2).sum_eq
  rw [List.map_map, List.map_map] at h3
  have h4 : 2 * meshArea s = 2 * meshArea t := by rw [h1, h2]; exact h3
  linarith

example : Conforming SMEx.cross ∧ meshArea SMEx.cross = 15 := ⟨SMEx.conforming_cross, by decide +kernel⟩

/-! ## C108: smoothing conserves the area -/

theorem sp_conforming {s t : St K} (h : SameButPlaces s t) (p : Conforming s) : Conforming t where
  wf := sp_wf h p.wf
  dir := sp_dir h p.dir
  sides := by
    intro a b hc
    obtain ⟨e, he, hcon⟩ := p.sides a b ((sp_covered h a b).mp hc)
    exact ⟨e, by rw [h.es]; exact he, (sp_connects h e a b).mpr hcon⟩
  right := by
    intro e he hc
    rw [h.es] at he
    rw [(h.ends e).1, (h.ends e).2.1] at hc
    exact p.right e he ((sp_covered h _ _).mp hc)
  unique := by
    intro e he e' he' hs
    rw [h.es] at he he'
    unfold SameEnds at hs
    rw [(h.ends e).1, (h.ends e).2.1, (h.ends e').1, (h.ends e').2.1] at hs
    exact p.unique e he e' he' hs
  intrFull := by
    intro e he
    rw [h.es] at he
    rw [(h.ends e).1, (h.ends e).2.1]
    exact ⟨(sp_covered h _ _).mpr (p.intrFull e he).1, (sp_covered h _ _).mpr (p.intrFull e he).2⟩
  bdryFull := by
    intro e he
    rw [h.es] at he
    rw [(h.ends e).1, (h.ends e).2.1]
    exact (sp_covered h _ _).mpr (p.bdryFull e he)

theorem area_of_places {s t : St K} (h : Conforming s) (hf : BdryFlagged s) (l : Bool) (hp : SameButPlaces s t)
    (hq : ∀ v, Pinned l s v → t.pos v = s.pos v) : Conforming t ∧ meshArea t = meshArea s := by
  have ht := sp_conforming hp h
  refine ⟨ht, ?_⟩
  have h1 := meshArea_boundary h
  have h2 := meshArea_boundary ht
  have : ((t.es .bdry).map fun e => Pt.cross (t.pos (t.E e).v1) (t.pos (t.E e).v2)) =
      ((s.es .bdry).map fun e => Pt.cross (s.pos (s.E e).v1) (s.pos (s.E e).v2)) := by
    rw [hp.es]
    refine List.map_congr_left fun e he => ?_
    rw [(hp.ends e).1, (hp.ends e).2.1, hq _ (Or.inr (Or.inl (hf e he).1)), hq _ (Or.inr (Or.inl (hf e he).2))]
  rw [this, ← h1] at h2
  linarith

/-- Smoothing of a conforming mesh whose boundary vertices are flagged gives a conforming mesh of the same
area, for all displacement rules and iteration counts. -/
theorem C108_smooth {nearest : St K → Pt K → Option Nat} {norm : Pt K → K} {c : SmoothCfg K} {rule : Rule K} {decay step : K}
    {n : Nat} {s : St K} {r : St K × K} (h : Conforming s) (hf : BdryFlagged s)
    (hr : smooth nearest norm c rule decay n (s, step) = some r) : Conforming r.1 ∧ meshArea r.1 = meshArea s := by
  obtain ⟨r', hr', h1, h2, _⟩ := C58_smooth nearest norm c rule decay n h.wf step
  rw [hr] at hr'
  cases hr'
  exact area_of_places h hf c.layers h1 h2

theorem C108_mixed {nearest : St K → Pt K → Option Nat} {norm : Pt K → K} {c : SmoothCfg K} {r1 r2 : Rule K} {decay step : K}
    {n : Nat} {s : St K} {r : St K × K} (h : Conforming s) (hf : BdryFlagged s)
    (hr : smoothMixed nearest norm c r1 r2 decay n (s, step) = some r) : Conforming r.1 ∧ meshArea r.1 = meshArea s := by
  obtain ⟨r', hr', h1, h2, _⟩ := C58_mixed nearest norm c r1 r2 decay n h.wf step
  rw [hr] at hr'
  cases hr'
  exact area_of_places h hf c.layers h1 h2

example : Conforming SMEx.fan ∧ BdryFlagged SMEx.fan ∧ meshArea SMEx.fan = 16 :=
  ⟨SMEx.conforming_fan, by unfold BdryFlagged; decide +kernel, by decide +kernel⟩

end TQ

#print axioms TQ.C58_smooth
#print axioms TQ.C58_mixed
#print axioms TQ.C59_smooth
#print axioms TQ.C59_mixed
#print axioms TQ.C60_half_partial
#print axioms TQ.C60_mixed_partial
#print axioms TQ.C60_violated
#print axioms TQ.C107_area
#print axioms TQ.C107_same
#print axioms TQ.C108_smooth
#print axioms TQ.C108_mixed

import Verif.Whole.Refine
import Verif.Whole.Fold
import Verif.Whole.WorkProps
import Verif.Generator.PrepareProps

/-! # Properties C155-C159: finished meshes of a domain and what is done with them -/

set_option linter.unusedSectionVars false
set_option linter.unusedSimpArgs false

namespace TQ
open QL MS MeshSpec MCSpec MC MS.St FUSpec WholeSpec RefSpec CleanSpec Whole QLSpec SmSpec Sm GN MM CK FU
variable {K : Type*} [Field K] [LinearOrder K] [IsStrictOrderedRing K]

/-! ### C155: the end of a session -/

/-- **C155.** A domain is meshed with quad layers and triangulation steps in any order until the front is empty: the
result is a complete mesh of the domain, also in what the following algorithms need (neighbour pointers, flags of the
boundary vertices). -/
theorem C155_session {L : LEnv K} (he : 0 < L.env.eps) (hq : QueryExact L.env) (hso : SortOK L.env)
    (hn : ∀ p, 0 ≤ L.env.norm p ∧ Pt.normSq p ≤ L.env.norm p * L.env.norm p) {s0 s : St K} (h0 : Bare s0) (hb : BdryFlagged s0)
    (h : Work L s0 s) (hf : s.es .front = []) : MeshOf s0 s := by
  obtain ⟨h1, h2, h3⟩ := work_complete he hq hso hn h0 h hf
  exact ⟨h1, complete_tiled h1, by rw [complete_area h1, work_enclosed he hq hso hn h0 h], (work_inv he hq hso hn h0 h).region,
    work_flagged he hq hso hn h0 hb h, h2, h3⟩

theorem coarsened_meshOf {s0 s t : St K} (h : MeshOf s0 s) (hc : Complete t) (hco : Coarsened s t) (hl : NbrLen t) (hf : FreshPointers t) :
    MeshOf s0 t where
  complete := hc
  tiled := complete_tiled hc
  area := by rw [hco.area, h.area]
  region := fun p => by
    rw [coarsened_bdry hco, ← h.region p]
    exact winding_congr (fun e _ => ⟨(hco.vdata _).1, (hco.vdata _).1⟩) p
  flagged := coarsened_flagged hco h.flagged
  len := hl
  fresh := hf

/-- **C155.** The improvement at the end of `generate_elements` then runs through and leaves a complete mesh of the
domain. -/
theorem C155_improved {L : LEnv K} (he : 0 < L.env.eps) (hq : QueryExact L.env) (hso : SortOK L.env)
    (hn : ∀ p, 0 ≤ L.env.norm p ∧ Pt.normSq p ≤ L.env.norm p * L.env.norm p) {s0 s : St K} (h0 : Bare s0) (hb : BdryFlagged s0)
    (h : Work L s0 s) (hf : s.es .front = []) (hr : Resolved L.env.eps s) (ix0 : FRef → Nat) :
    ∃ t, improve L.env.eps ix0 s = some t ∧ MeshOf s0 t ∧ Coarsened s t := by
  have hm := C155_session he hq hso hn h0 hb h hf
  obtain ⟨t, h1, h2, -, h4, h5, h6, -⟩ := C153_improve ix0 hm.complete hm.len hm.fresh (resolved_big hm.complete hr)
  exact ⟨t, h1, coarsened_meshOf hm h2 h4 h5 h6, h4⟩

/-- **C155, from the domain.** The mesh was prepared for a domain: what the session and the improvement leave is a
complete mesh, and the areas of its elements add up to the area of the domain boundaries. -/
theorem C155_domain {nbr : Fr.SrcEdge K → List (Fr.SrcEdge K)} {bd : List (List (Fr.SrcEdge K))} {fx : List (Fr.SrcEdge K)}
    (D : DomainData nbr bd fx) {P : Prep K} (hP : P.front = Fr.collect nbr bd fx) (hS : LineSub P.sub) {w w' : World K} {a : Nat} {c : Int}
    (hw : w a = St.empty c) (hr : ∀ x ∈ P.refs, x.1 ≠ a) (h : prepareMesh P w a = .ret true w')
    (hsim : SimpleFront (w' a).pos (pairs (w' a) .bdry))
    {L : LEnv K} (he : 0 < L.env.eps) (hq : QueryExact L.env) (hso : SortOK L.env)
    (hn : ∀ p, 0 ≤ L.env.norm p ∧ Pt.normSq p ≤ L.env.norm p * L.env.norm p) {s : St K} (hss : Work L (w' a) s)
    (hf : s.es .front = []) (hres : Resolved L.env.eps s) (ix0 : FRef → Nat) :
    ∃ t, improve L.env.eps ix0 s = some t ∧ MeshOf (w' a) t ∧ meshArea t = sourceArea nbr bd := by
  have hb := prepared_bare D hP hS hw hr h hsim
  obtain ⟨-, -, -, -, -, -, c7, c8, -⟩ := C115_prepared D hP hS (by rw [hw]; exact wf_empty c) hr h
  obtain ⟨t, t1, t2, -⟩ := C155_improved he hq hso hn hb c8 hss hf hres ix0
  exact ⟨t, t1, t2, by rw [t2.area, c7]⟩

theorem meshOf_self {s : St K} (h : Complete s) (hb : BdryFlagged s) (hl : NbrLen s) (hf : FreshPointers s) : MeshOf s s :=
  ⟨h, complete_tiled h, complete_area h, fun _ => rfl, hb, hl, hf⟩

/-! ### C156: smoothing of complete meshes -/

theorem smooth_facts {nearest : St K → Pt K → Option Nat} {norm : Pt K → K} {c : SmoothCfg K} {rule : Rule K} {decay step : K}
    {n : Nat} {s : St K} {r : St K × K} (h : Complete s) (hl : NbrLen s) (hf : FreshPointers s)
    (hr : smooth nearest norm c rule decay n (s, step) = some r) :
    SameButPlaces s r.1 ∧ (∀ v, Pinned c.layers s v → r.1.pos v = s.pos v) ∧ NbrLen r.1 ∧ FreshPointers r.1 ∧
    ∀ t ∈ r.1.tris, ∀ a b c, (r.1.F (.tri t)).corners = [a, b, c] → 0 < area2 (r.1.pos a) (r.1.pos b) (r.1.pos c) := by
  obtain ⟨r', hr', h1, h2, _⟩ := C58_smooth nearest norm c rule decay n h.wf step
  rw [hr] at hr'
  cases hr'
  have b := setup_sbp c.eps h.wf
  have hF := smoothLoop_inv (stable_F c (setupConnectivity c.eps s)) n _ _ rfl hr
  have st := settle (eps := c.eps) h hl hf
  have hsp : SameButPlaces (setupConnectivity c.eps s) r.1 := by
    refine (smoothLoop_inv (stable_C58 c (setupConnectivity c.eps s)) n _ _ ?_ hr).1
    exact ⟨sp_refl _, fun _ _ => rfl, fun v hv => absurd rfl hv⟩
  refine ⟨h1, h2, fun f hfl => ?_, fresh_places hsp hF st.fresh, C59_smooth h.wf (complete_tris h) hr⟩
  rw [(h1.corners f).2.2.2, (h1.corners f).1]
  exact hl f ((sp_live h1 f).mp hfl)

theorem mixed_facts {nearest : St K → Pt K → Option Nat} {norm : Pt K → K} {c : SmoothCfg K} {r1 r2 : Rule K} {decay step : K}
    {n : Nat} {s : St K} {r : St K × K} (h : Complete s) (hl : NbrLen s) (hf : FreshPointers s)
    (hr : smoothMixed nearest norm c r1 r2 decay n (s, step) = some r) :
    SameButPlaces s r.1 ∧ (∀ v, Pinned c.layers s v → r.1.pos v = s.pos v) ∧ NbrLen r.1 ∧ FreshPointers r.1 ∧
    ∀ t ∈ r.1.tris, ∀ a b c, (r.1.F (.tri t)).corners = [a, b, c] → 0 < area2 (r.1.pos a) (r.1.pos b) (r.1.pos c) := by
  obtain ⟨r', hr', h1, h2, _⟩ := C58_mixed nearest norm c r1 r2 decay n h.wf step
  rw [hr] at hr'
  cases hr'
  have b := setup_sbp c.eps h.wf
  have hF := mixedLoop_inv (stable_F c (setupConnectivity c.eps s)) n _ _ rfl hr
  have st := settle (eps := c.eps) h hl hf
  have hsp : SameButPlaces (setupConnectivity c.eps s) r.1 := by
    refine (mixedLoop_inv (stable_C58 c (setupConnectivity c.eps s)) n _ _ ?_ hr).1
    exact ⟨sp_refl _, fun _ _ => rfl, fun v hv => absurd rfl hv⟩
  refine ⟨h1, h2, fun f hfl => ?_, fresh_places hsp hF st.fresh, C59_mixed h.wf (complete_tris h) hr⟩
  rw [(h1.corners f).2.2.2, (h1.corners f).1]
  exact hl f ((sp_live h1 f).mp hfl)

theorem places_meshOf {s0 s t : St K} (h : MeshOf s0 s) {l : Bool} (hp : SameButPlaces s t) (hq : ∀ v, Pinned l s v → t.pos v = s.pos v)
    (hl : NbrLen t) (hf : FreshPointers t)
    (ht : ∀ x ∈ t.tris, ∀ a b c, (t.F (.tri x)).corners = [a, b, c] → 0 < area2 (t.pos a) (t.pos b) (t.pos c)) (hu : Unfolded t) : MeshOf s0 t := by
  obtain ⟨k1, k2⟩ := places_bdry h.flagged hp hq
  have hc := places_complete h.complete h.flagged hp hq ht hu
  refine ⟨hc, complete_tiled hc, by rw [(area_of_places h.complete.toConforming h.flagged l hp hq).2, h.area], fun p => ?_,
    places_flagged h.flagged hp, hl, hf⟩
  rw [k1, ← h.region p]
  exact winding_congr k2 p

/-- **C156.** Laplace and torsion smoothing of a complete mesh of triangles, for all displacement rules, factors and
iteration counts: the result is a complete mesh of the same domain, nothing but places has changed. -/
theorem C156_triangles (nearest : St K → Pt K → Option Nat) (norm : Pt K → K) (c : SmoothCfg K) (rule : Rule K) (decay step : K)
    (n : Nat) {s0 s : St K} (h : MeshOf s0 s) (hq : s.quads = []) :
    ∃ r, smooth nearest norm c rule decay n (s, step) = some r ∧ SameButPlaces s r.1 ∧ MeshOf s0 r.1 := by
  obtain ⟨r, hr, -⟩ := C58_smooth nearest norm c rule decay n h.complete.wf step
  obtain ⟨h1, h2, h3, h4, h5⟩ := smooth_facts h.complete h.len h.fresh hr
  refine ⟨r, hr, h1, places_meshOf h h1 h2 h3 h4 h5 fun q hq' => ?_⟩
  rw [h1.quads, hq] at hq'
  simp at hq'

/-- **C156.** The same for mixed smoothing. -/
theorem C156_triangles_mixed (nearest : St K → Pt K → Option Nat) (norm : Pt K → K) (c : SmoothCfg K) (r1 r2 : Rule K) (decay step : K)
    (n : Nat) {s0 s : St K} (h : MeshOf s0 s) (hq : s.quads = []) :
    ∃ r, smoothMixed nearest norm c r1 r2 decay n (s, step) = some r ∧ SameButPlaces s r.1 ∧ MeshOf s0 r.1 := by
  obtain ⟨r, hr, -⟩ := C58_mixed nearest norm c r1 r2 decay n h.complete.wf step
  obtain ⟨h1, h2, h3, h4, h5⟩ := mixed_facts h.complete h.len h.fresh hr
  refine ⟨r, hr, h1, places_meshOf h h1 h2 h3 h4 h5 fun q hq' => ?_⟩
  rw [h1.quads, hq] at hq'
  simp at hq'

/-- **C159** (partial: with quads the result is known to tile the domain only if no quad is folded; the code checks two
corners of each quad, see C60).  In any case the winding numbers of the elements around every point add up to the one
of the boundary. -/
theorem C159_smooth_partial {nearest : St K → Pt K → Option Nat} {norm : Pt K → K} {c : SmoothCfg K} {rule : Rule K} {decay step : K}
    {n : Nat} {s0 s : St K} {r : St K × K} (h : MeshOf s0 s) (hr : smooth nearest norm c rule decay n (s, step) = some r) :
    (∀ p, winding r.1.pos (elemSides r.1) p = winding s0.pos (pairs s0 .bdry) p) ∧ (Unfolded r.1 → MeshOf s0 r.1) := by
  obtain ⟨h1, h2, h3, h4, h5⟩ := smooth_facts h.complete h.len h.fresh hr
  exact ⟨fun p => (places_winding h.complete h.flagged h1 h2 p).trans (h.region p), places_meshOf h h1 h2 h3 h4 h5⟩

/-- **C159** (partial, as above), mixed smoothing. -/
theorem C159_mixed_partial {nearest : St K → Pt K → Option Nat} {norm : Pt K → K} {c : SmoothCfg K} {r1 r2 : Rule K} {decay step : K}
    {n : Nat} {s0 s : St K} {r : St K × K} (h : MeshOf s0 s) (hr : smoothMixed nearest norm c r1 r2 decay n (s, step) = some r) :
    (∀ p, winding r.1.pos (elemSides r.1) p = winding s0.pos (pairs s0 .bdry) p) ∧ (Unfolded r.1 → MeshOf s0 r.1) := by
  obtain ⟨h1, h2, h3, h4, h5⟩ := mixed_facts h.complete h.len h.fresh hr
  exact ⟨fun p => (places_winding h.complete h.flagged h1 h2 p).trans (h.region p), places_meshOf h h1 h2 h3 h4 h5⟩

/-- **C159, violated.** A complete mesh of a domain with convex elements: one iteration of Laplace smoothing with
the default factor folds a quad; the results overlap, a point is strictly inside two elements. -/
theorem C159_violated : ∃ s : St ℚ, MeshOf s s ∧ ConvexElements s ∧
    ∃ r, smooth SMEx.noEdge SMEx.sup (SMEx.cfg false s) laplaceRule 1 1 (s, 3 / 4) = some r ∧ ¬ Tiled r.1 ∧ ¬ Unfolded r.1 := by
  have hm := meshOf_self FoldEx.complete_ring FoldEx.flagged_ring FoldEx.pointers_ring.1 FoldEx.pointers_ring.2
  obtain ⟨r, hr, _⟩ := C58_smooth SMEx.noEdge SMEx.sup (SMEx.cfg false FoldEx.ring) laplaceRule 1 1 FoldEx.wf_ring (3 / 4)
  have key : (match smooth SMEx.noEdge SMEx.sup (SMEx.cfg false FoldEx.ring) laplaceRule 1 1 (FoldEx.ring, 3 / 4) with
    | none => false
    | some r => (pieces r.1).any fun x => (pieces r.1).any fun y => decide (InPiece r.1 ⟨85, 1⟩ x) && decide (InPiece r.1 ⟨85, 1⟩ y) &&
        decide (x ≠ y)) = true := by decide +kernel
  rw [hr] at key
  simp only [List.any_eq_true, Bool.and_eq_true, decide_eq_true_eq] at key
  obtain ⟨x, hx, y, hy, ⟨h1, h2⟩, h3⟩ := key
  have ht : ¬ Tiled r.1 := fun h => h3 (h.apart _ y hy h2 x hx h1)
  exact ⟨FoldEx.ring, hm, FoldEx.convex_ring, r, hr, ht, fun h => ht ((C159_smooth_partial hm hr).2 h).tiled⟩

/-! ### C157: refinement of complete meshes -/

/-- **C157.** Refinement of a complete mesh with convex elements and without interfaces to other meshes: the result is a
complete mesh of the same domain, with convex elements again. -/
theorem C157_refine {s0 s : St K} (h : MeshOf s0 s) (ht : NoTwins s) (hc : ConvexElements s) :
    ∃ t N, s.refine = some (t, true) ∧ Refined s t N ∧ MeshOf s0 t ∧ NoTwins t ∧ ConvexElements t := by
  obtain ⟨t, h1, h2, h3, h4, h5, h6, h7, h8, h9⟩ := refine_complete h.complete ht hc h.flagged
  obtain ⟨t', N, k1, k2, -⟩ := C56_refine h.complete.toProper ht
  rw [h1] at k1
  obtain rfl : t = t' := by simpa using k1
  exact ⟨t, N, h1, k2, ⟨h2, complete_tiled h2, h9.trans h.area, fun p => (h8 p).trans (h.region p), h5, h3, h4⟩, h6, h7⟩

/-- **C157.** Any number of refinements. -/
theorem C157_iterate {s0 s : St K} (h : MeshOf s0 s) (ht : NoTwins s) (hc : ConvexElements s) (n : Nat) :
    ∃ t, RefinedBy n s t ∧ MeshOf s0 t ∧ NoTwins t ∧ ConvexElements t := by
  induction n with
  | zero => exact ⟨s, .zero s, h, ht, hc⟩
  | succ n ih =>
    obtain ⟨t, h1, h2, h3, h4⟩ := ih
    obtain ⟨u, N, k1, -, k3, k4, k5⟩ := C157_refine h2 h3 h4
    exact ⟨u, .succ h1 k1, k3, k4, k5⟩

/-! ### C158: everything together -/

/-- **C158.** A complete mesh of a domain that is processed in any way stays a complete mesh of the domain. -/
theorem C158_processed {eps : K} {s0 s t : St K} (h : MeshOf s0 s) (hp : Processed eps s t) : MeshOf s0 t := by
  induction hp with
  | none => exact h
  | @improve t u ix0 _ hb hi ih =>
    
    obtain ⟨v, h1, h2, -, h4, h5, h6, -⟩ := C153_improve ix0 ih.complete ih.len ih.fresh hb
    rw [hi] at h1
    cases h1
    exact coarsened_meshOf ih h2 h4 h5 h6
  | @merge t u ix0 l _ hl hp hi ih =>
    
    obtain ⟨v, h1, h2, -, h4, h5, h6⟩ := C154_modify ix0 ih.complete ih.len ih.fresh hl hp
    rw [hi] at h1
    cases h1
    exact coarsened_meshOf ih h2 h4 h5 h6
  | smooth _ hr hu ih => exact (C159_smooth_partial ih hr).2 hu
  | mixed _ hr hu ih => exact (C159_mixed_partial ih hr).2 hu
  | @refine t u b _ hc hr ih =>
    
    by_cases ht : NoTwins t
    · obtain ⟨v, N, h1, -, h3, -⟩ := C157_refine ih ht hc
      rw [hr] at h1
      simp only [Option.some.injEq, Prod.mk.injEq] at h1
      rw [h1.1]; exact h3
    · have := C56_refused ht
      rw [hr] at this
      simp only [Option.some.injEq, Prod.mk.injEq] at this
      rw [this.1]; exact ih

/-- **C158, from the domain.** The mesh is prepared for a domain, meshed with quad layers and triangulation steps in any
order until the front is empty, and processed in any way: the result is conforming, its elements tile the domain, and
their areas add up to the area of the domain boundaries. -/
theorem C158_domain {nbr : Fr.SrcEdge K → List (Fr.SrcEdge K)} {bd : List (List (Fr.SrcEdge K))} {fx : List (Fr.SrcEdge K)}
    (D : DomainData nbr bd fx) {P : Prep K} (hP : P.front = Fr.collect nbr bd fx) (hS : LineSub P.sub) {w w' : World K} {a : Nat} {c : Int}
    (hw : w a = St.empty c) (hr : ∀ x ∈ P.refs, x.1 ≠ a) (h : prepareMesh P w a = .ret true w')
    (hsim : SimpleFront (w' a).pos (pairs (w' a) .bdry))
    {L : LEnv K} (he : 0 < L.env.eps) (hq : QueryExact L.env) (hso : SortOK L.env)
    (hn : ∀ p, 0 ≤ L.env.norm p ∧ Pt.normSq p ≤ L.env.norm p * L.env.norm p) {s t : St K} (hss : Work L (w' a) s)
    (hf : s.es .front = []) {eps : K} (hp : Processed eps s t) :
    Conforming t ∧ Tiled t ∧ meshArea t = sourceArea nbr bd ∧
      ∀ p, winding t.pos (pairs t .bdry) p = winding (w' a).pos (pairs (w' a) .bdry) p := by
  have hb := prepared_bare D hP hS hw hr h hsim
  obtain ⟨-, -, -, -, -, -, c7, c8, -⟩ := C115_prepared D hP hS (by rw [hw]; exact wf_empty c) hr h
  have hm := C158_processed (C155_session he hq hso hn hb c8 hss hf) hp
  exact ⟨hm.complete.toConforming, hm.tiled, by rw [hm.area, c7], hm.region⟩

/-! ### A concrete case: the unit square from its domain to a refined, smoothed mesh -/

namespace FNEx
open GNEx
def Lf : LEnv ℚ := { QLEx.L with env := FUEx.env }

theorem sq_simple : SimpleFront sqMesh.pos (pairs sqMesh .bdry) := by
  rw [show pairs sqMesh .bdry = [(0, 1), (1, 2), (2, 3), (3, 0)] by decide +kernel]
  exact FUEx.unit_simple (by decide +kernel)

theorem sq_bare : Bare sqMesh := prepared_bare (sq_data [] (by simp) (by simp)) (P := prep [] []) rfl noSub_line (w := w0) (a := 0) (c := 1)
  rfl (by simp [prep]) (prepared_eq ret0) sq_simple
theorem sq_flagged : BdryFlagged sqMesh := by unfold BdryFlagged; decide +kernel

theorem sq_work : Work Lf sqMesh f2 := by
  refine Work.run (L := Lf) Work.start frun (by unfold Resolved; decide +kernel) ?_
  intro e he
  simp only [flog, List.mem_cons, List.not_mem_nil, or_false] at he
  rcases he with rfl | rfl
  · intro f hf hx; clear hx; revert f; unfold Near; decide +kernel
  · intro f hf hx; clear hx; revert f; unfold Near; decide +kernel

/-- The square with its two triangles. -/
theorem sq_mesh : MeshOf sqMesh f2 :=
  C155_session (L := Lf) FUEx.epsPos FUEx.exact FUEx.sortOK FUEx.norm_ok sq_bare sq_flagged sq_work (by decide +kernel)
end FNEx

/-- The session and the improvement: two triangles of total area 1. -/
example : ∃ t, improve FNEx.Lf.env.eps (fun _ => 0) GNEx.f2 = some t ∧ MeshOf GNEx.sqMesh t ∧ meshArea t = 1 := by
  obtain ⟨t, h1, h2, h3⟩ := C155_domain (GNEx.sq_data [] (by simp) (by simp)) (P := GNEx.prep [] []) rfl GNEx.noSub_line (w := GNEx.w0) (a := 0)
    (c := 1) rfl (by simp [GNEx.prep]) (GNEx.prepared_eq GNEx.ret0) FNEx.sq_simple (L := FNEx.Lf) FUEx.epsPos FUEx.exact FUEx.sortOK FUEx.norm_ok
    FNEx.sq_work (by decide +kernel) (by unfold Resolved; decide +kernel) (fun _ => 0)
  exact ⟨t, h1, h2, h3.trans (by decide +kernel)⟩

namespace FNEx
/-- The square with four triangles around a vertex out of its middle. -/
def off : St ℚ := SMEx.flagged ((List.range 4).map fun i => (i, Flags.vOnBoundary)) (WEx.four.setPos 4 ⟨1 / 4, 1 / 4⟩)
theorem off_wf : WF off := SMEx.wf_flagged _ _ (wf_setPos WEx.four_conforming.wf 4 _)
theorem off_conforming : Conforming off :=
  conforming_of (proper_of off_wf (by decide +kernel) (by decide +kernel) (by decide +kernel)) (by decide +kernel)
    (by decide +kernel) (by decide +kernel)
theorem off_complete : Complete off := complete_of off_conforming (by decide +kernel) (by decide +kernel) (by decide +kernel)
  (by decide +kernel) (by decide +kernel)
theorem off_mesh : MeshOf off off :=
  meshOf_self off_complete (by unfold BdryFlagged; decide +kernel) (pointers_of (by decide +kernel)).1 (pointers_of (by decide +kernel)).2

/-- The merging of the two triangles of the square, its refinement and a smoothing step. -/
def q1 : St ℚ := (tri2quad (1 / 1000000) (fun _ => 0) (triEdges (setupConnectivity (1 / 1000000) GNEx.f2)) GNEx.f2).getD GNEx.f2
def q2 : St ℚ := (q1.refine.getD (q1, false)).1
def q3 : Option (St ℚ × ℚ) := smooth SMEx.noEdge SMEx.sup (SMEx.cfg false q2) (fun _ _ _ => some ⟨1 / 8, 1 / 16⟩) 1 1 (q2, 1)

theorem q_merge : tri2quad (1 / 1000000) (fun _ => 0) (triEdges (setupConnectivity (1 / 1000000) GNEx.f2)) GNEx.f2 = some q1 := by
  unfold q1
  have : (tri2quad (1 / 1000000) (fun _ => 0) (triEdges (setupConnectivity (1 / 1000000) GNEx.f2)) GNEx.f2).isSome = true := by decide +kernel
  obtain ⟨x, hx⟩ := Option.isSome_iff_exists.mp this
  rw [hx]; rfl
theorem q_refine : q1.refine = some (q2, true) := by
  unfold q2
  have : q1.refine.any (fun x => x.2) = true := by decide +kernel
  rcases h : q1.refine with _ | ⟨x, b⟩
  · rw [h] at this; simp at this
  · rw [h] at this
    obtain rfl : b = true := by simpa using this
    rfl
end FNEx

/-- Triangles: the inner vertex moves. -/
example : MeshOf FNEx.off FNEx.off ∧ FNEx.off.quads = [] ∧
    SMEx.places (smooth SMEx.noEdge SMEx.sup (SMEx.cfg false FNEx.off) laplaceRule 1 1 (FNEx.off, 3 / 4)) =
      [(0, 0), (1, 0), (1, 1), (0, 1), (7 / 16, 7 / 16)] := ⟨FNEx.off_mesh, by decide +kernel, by decide +kernel⟩

/-- The square is merged to one quad, refined to four quads, and the vertex in the middle is moved: every step is one of
those in `C158_processed`. -/
example : MeshOf GNEx.sqMesh GNEx.f2 ∧ ∃ r, FNEx.q3 = some r ∧ Processed (1 / 1000000) GNEx.f2 r.1 ∧
    SMEx.places FNEx.q3 = [(0, 0), (1, 0), (1, 1), (0, 1), (1 / 2, 0), (1, 1 / 2), (1 / 2, 1), (0, 1 / 2), (5 / 8, 9 / 16)] := by
  have h3 : FNEx.q3.any (fun r => r.1.quads.all fun q => match (r.1.F (.quad q)).corners with
      | [a, b, c, d] => decide (0 < side (r.1.pos a) (r.1.pos b) (r.1.pos c)) && decide (0 < side (r.1.pos c) (r.1.pos d) (r.1.pos a))
      | _ => false) = true := by decide +kernel
  rcases h : FNEx.q3 with _ | r
  · rw [h] at h3; simp at h3
  rw [h] at h3
  refine ⟨FNEx.sq_mesh, r, rfl, ?_, ?_⟩
  · refine .smooth (.refine (.merge (.none _) ?_ (List.Perm.refl _) FNEx.q_merge) ?_ FNEx.q_refine) h ?_
    · exact C48_left_geometry FNEx.sq_mesh.complete.wf (shapes_of (by decide +kernel))
    · exact SMEx.convex_of (by decide +kernel)
    · intro q hq a b c d hc
      simp only [Option.any_some, List.all_eq_true] at h3
      have := h3 q hq
      rw [hc] at this
      simp only [Bool.and_eq_true, decide_eq_true_eq] at this
      exact Or.inl this
  · rw [← h]; decide +kernel

/-- The quad of the square can be refined. -/
example : MeshOf GNEx.sqMesh FNEx.q1 ∧ NoTwins FNEx.q1 ∧ ConvexElements FNEx.q1 ∧ FNEx.q2.quads.length = 4 := by
  refine ⟨C158_processed FNEx.sq_mesh (.merge (eps := 1 / 1000000) (.none _) ?_ (List.Perm.refl _) FNEx.q_merge), ?_, SMEx.convex_of (by decide +kernel), by decide +kernel⟩
  · exact C48_left_geometry FNEx.sq_mesh.complete.wf (shapes_of (by decide +kernel))
  · unfold NoTwins; decide +kernel

end TQ

#print axioms TQ.C155_session
#print axioms TQ.C155_improved
#print axioms TQ.C155_domain
#print axioms TQ.C156_triangles
#print axioms TQ.C156_triangles_mixed
#print axioms TQ.C159_smooth_partial
#print axioms TQ.C159_mixed_partial
#print axioms TQ.C159_violated
#print axioms TQ.C157_refine
#print axioms TQ.C157_iterate
#print axioms TQ.C158_processed
#print axioms TQ.C158_domain

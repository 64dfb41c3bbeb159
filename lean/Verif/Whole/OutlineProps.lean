import Verif.Whole.Shapes
import Verif.Whole.FinalProps

/-!
# Properties of outlines: C170 (refining the boundary), C171 (convex domains with holes)
-/

set_option linter.unusedSectionVars false
set_option linter.unusedSimpArgs false

namespace TQ
open MS MS.St MeshSpec FUSpec MCSpec RefSpec WholeSpec Whole GN MM CK FU OutlSpec Outl FrSpec CleanSpec QL QLSpec Sh
variable {K : Type*} [Field K] [LinearOrder K] [IsStrictOrderedRing K]

/-! ### C170 -/

/-- **C170.** The boundary edges of a prepared mesh are the outline of the domain, each segment cut into pieces at
points between its ends, in order. -/
theorem C170_pieces {nbr : Fr.SrcEdge K → List (Fr.SrcEdge K)} {bd : List (List (Fr.SrcEdge K))} {fx : List (Fr.SrcEdge K)}
    (D : DomainData nbr bd fx) {P : Prep K} (hP : P.front = Fr.collect nbr bd fx) (hS : PartSub P.sub) {w w' : World K} {a : Nat} (hw : WF (w a))
    (hr : ∀ x ∈ P.refs, x.1 ≠ a) (h : prepareMesh P w a = .ret true w') :
    ∃ ls, ((w' a).es .bdry).map (fun e => ((w' a).pos ((w' a).E e).v1, (w' a).pos ((w' a).E e).v2)) = ls.flatten ∧
      List.Forall₂ IsCut (outline nbr bd) ls := by
  obtain ⟨ls, h1, h2⟩ := prepared_cuts D hP hS hw hr h
  refine ⟨ls, ?_, h2⟩
  rw [← h1]
  unfold segs pairs
  rw [List.map_map]
  rfl

theorem partSub_line {sub : List (Fr.MVert K) → Fr.FEdge → Option (List (Pt K))} (h : PartSub sub) : LineSub sub := by
  intro s e coords hne hc
  obtain ⟨us, rfl, -⟩ := h s e coords hne hc
  exact ⟨(us.drop 1).dropLast, by rw [List.map_dropLast, List.map_drop]⟩

/-- **C170.** If the outline is simple, the boundary of the prepared mesh is simple; in any case it winds around the
same points as the outline. -/
theorem C170_simple {nbr : Fr.SrcEdge K → List (Fr.SrcEdge K)} {bd : List (List (Fr.SrcEdge K))} {fx : List (Fr.SrcEdge K)}
    (D : DomainData nbr bd fx) {P : Prep K} (hP : P.front = Fr.collect nbr bd fx) (hS : PartSub P.sub) {w w' : World K} {a : Nat} (hw : WF (w a))
    (hr : ∀ x ∈ P.refs, x.1 ≠ a) (h : prepareMesh P w a = .ret true w') :
    (SimpleOutline (outline nbr bd) → SimpleFront (w' a).pos (pairs (w' a) .bdry)) ∧
    ∀ p, winding (w' a).pos (pairs (w' a) .bdry) p = segWinding (outline nbr bd) p := by
  obtain ⟨ls, h1, h2⟩ := prepared_cuts D hP hS hw hr h
  have hwd : ∀ p, winding (w' a).pos (pairs (w' a) .bdry) p = segWinding (outline nbr bd) p := fun p => by
    rw [winding_wind, h1, segWinding_wind, cuts_wind h2]
  refine ⟨fun hs => ?_, hwd⟩
  have hc := cuts_simple h2 hs
  rw [← h1] at hc
  obtain ⟨-, -, -, -, -, hb, -⟩ := C115_prepared D hP (partSub_line hS) hw hr h
  refine ⟨hb, fun e he => hc.proper _ (List.mem_map_of_mem (f := fun e => ((w' a).pos e.1, (w' a).pos e.2)) he), ?_, fun p => by rw [hwd]; exact hs.once p⟩
  unfold segs at hc
  exact (List.pairwise_map (f := fun e : Nat × Nat => ((w' a).pos e.1, (w' a).pos e.2))).1 hc.apart

/-- **C170.** The subdivision of the code has the property needed if the sizes vary by less than the factor 3/2.  (For
other size functions see `C31_partition_violated` and `C170_simple_violated`.) -/
theorem C170_code_partial (norm : Pt K → K) (hn : IsNorm norm) (rho : Pt K → K) (r R : K) (h0 : 0 < r) (hR : 2 * R < 3 * r)
    (hr : ∀ p, r ≤ rho p ∧ rho p ≤ R) (fuel : Nat) : PartSub (subOf norm rho fuel) :=
  fun _ _ _ hne h => C31_partition_partial norm hn rho _ _ hne r R h0 hR (fun _ => hr _) fuel _ h

/-- **C170.** A mesh prepared for a domain with simple outline, meshed completely with quad layers and triangles and
improved: its elements cover the region of the outline exactly, and their areas add up to its area. -/
theorem C170_mesh {nbr : Fr.SrcEdge K → List (Fr.SrcEdge K)} {bd : List (List (Fr.SrcEdge K))} {fx : List (Fr.SrcEdge K)}
    (D : DomainData nbr bd fx) (hsim : SimpleOutline (outline nbr bd)) {P : Prep K} (hP : P.front = Fr.collect nbr bd fx) (hS : PartSub P.sub) {w w' : World K} {a : Nat} {c : Int}
    (hw : w a = St.empty c) (hr : ∀ x ∈ P.refs, x.1 ≠ a) (h : prepareMesh P w a = .ret true w')
    {L : LEnv K} (he : 0 < L.env.eps) (hq : QueryExact L.env) (hso : SortOK L.env)
    (hn : ∀ p, 0 ≤ L.env.norm p ∧ Pt.normSq p ≤ L.env.norm p * L.env.norm p) {s : St K} (hss : Work L (w' a) s)
    (hf : s.es .front = []) (hres : Resolved L.env.eps s) (ix0 : FRef → Nat) :
    ∃ t, MC.improve L.env.eps ix0 s = some t ∧ Conforming t ∧ CoversOutline (outline nbr bd) t ∧ meshArea t = sourceArea nbr bd := by
  obtain ⟨h1, h2⟩ := C170_simple D hP hS (by rw [hw]; exact wf_empty c) hr h
  obtain ⟨t, t1, t2, t3⟩ := C155_domain D hP (partSub_line hS) hw hr h (h1 hsim) he hq hso hn hss hf hres ix0
  have hb : ∀ p, winding t.pos (pairs t .bdry) p = segWinding (outline nbr bd) p := fun p => by rw [t2.region, h2]
  exact ⟨t, t1, t2.complete.toConforming, ⟨t2.tiled.apart, fun p x hx hp => by rw [← hb]; exact t2.tiled.within p x hx hp,
    fun p hp hg => t2.tiled.full p (by rw [hb]; exact hp) hg, hb⟩, t3⟩

/-! ### C171 -/

/-- **C171.** A convex polygon with convex holes has a simple outline; it winds around the points that are inside of
the polygon and outside of all holes, and around no point outside of the polygon or inside of a hole. -/
theorem C171_convex {ps : List (Pt K)} {hs : List (List (Pt K))} (h : ConvexHoles ps hs) :
    SimpleOutline (withHoles ps hs) ∧ ∀ p,
    (LeftOfAll (ring ps) p → (∀ q ∈ hs, ∃ s ∈ ring q, side s.1 s.2 p < 0) → segWinding (withHoles ps hs) p = 1) ∧
    ((∃ s ∈ ring ps, side s.1 s.2 p < 0) → segWinding (withHoles ps hs) p = 0) ∧
    ((∃ q ∈ hs, LeftOfAll (ring q) p) → segWinding (withHoles ps hs) p = 0) :=
  ⟨holes_simple h, holes_region h⟩

/-- **C171.** A domain is built from shapes, a convex polygon and convex holes in it, with the corners of each given
in one order or the other: the preparation of a mesh finds closed boundaries, its outline is simple and consists of the
sides of the polygon and the sides of the holes backwards, and the area is that of the polygon without the holes. -/
theorem C171_domain {nearest : List (BVert K) → Pt K → Out (Option Nat)} {s : Shape K} {ss : List (Shape K)} {ps : List (Pt K)} {hs : List (List (Pt K))}
    (H : PolygonWithHoles s ss ps hs) {st st' : List (BVert K)} {bs : List (BdryType × EList K)} (h : build nearest (s :: ss) st = .ok (st', bs))
    (fixv : Nat → Bool) {fx : List (Fr.SrcEdge K)} (hfx : ∀ e ∈ fx, e.fixed = true ∧ e.p1 ≠ e.p2) :
    DomainData (fun _ => []) (sources fixv st' bs) fx ∧ SimpleOutline (outline (fun _ => []) (sources fixv st' bs)) ∧
    (outline (fun _ => []) (sources fixv st' bs)).Perm (withHoles ps hs) ∧
    sourceArea (fun _ => []) (sources fixv st' bs) = polygonArea ps - (hs.map polygonArea).sum :=
  ⟨build_data H h fixv hfx, simple_of_perm (build_outline H h fixv).symm (holes_simple H.convex), build_outline H h fixv, build_area H h fixv⟩

/-- **C171.** Shapes of convex polygons can be built if there are enough properties and valid colors. -/
theorem C171_progress {nearest : List (BVert K) → Pt K → Out (Option Nat)} (hn : ∀ st p, ∃ r, nearest st p = .ok r) {ss : List (Shape K)}
    (h : ∀ s ∈ ss, (∃ ps, Order s.coords ps ∧ ConvexCorners ps) ∧ s.coords.length ≤ s.props.length ∧ s.coords.length ≤ s.colors.length ∧ ∀ c ∈ s.colors, 0 ≤ c)
    (st : List (BVert K)) : ∃ r, build nearest ss st = .ok r :=
  build_progress hn h st

/-- **C171.** The predefined shapes are convex polygons: rectangles (and squares). -/
theorem C171_rectangle (xy : Pt K) {w h : K} (hw : w ≠ 0) (hh : h ≠ 0) : ∃ ps, Order (rectangleCoords xy w h) ps ∧ ConvexCorners ps :=
  rectangle_convex xy hw hh

/-- **C171.** The predefined shapes are convex polygons: circles (and triangles, which are circles with three corners). -/
theorem C171_circle (xy : Pt ℝ) {r : ℝ} (hr : r ≠ 0) {n : Nat} (hn : 3 ≤ n) : ConvexCorners (circleCoords (circleDir n) xy r n) :=
  circle_convex xy hr hn

/-- **C171, the mesh.** Such a domain is meshed completely with quad layers and triangles, and the mesh is improved: its
elements cover the polygon without the holes exactly. -/
theorem C171_mesh {nearest : List (BVert K) → Pt K → Out (Option Nat)} {sh : Shape K} {ss : List (Shape K)} {ps : List (Pt K)} {hs : List (List (Pt K))}
    (H : PolygonWithHoles sh ss ps hs) {st st' : List (BVert K)} {bs : List (BdryType × EList K)} (hb : build nearest (sh :: ss) st = .ok (st', bs))
    (fixv : Nat → Bool) {fx : List (Fr.SrcEdge K)} (hfx : ∀ e ∈ fx, e.fixed = true ∧ e.p1 ≠ e.p2)
    {P : Prep K} (hP : P.front = Fr.collect (fun _ => []) (sources fixv st' bs) fx) (hS : PartSub P.sub) {w w' : World K} {a : Nat} {c : Int}
    (hw : w a = St.empty c) (hr : ∀ x ∈ P.refs, x.1 ≠ a) (h : prepareMesh P w a = .ret true w')
    {L : LEnv K} (he : 0 < L.env.eps) (hq : QueryExact L.env) (hso : SortOK L.env)
    (hn : ∀ p, 0 ≤ L.env.norm p ∧ Pt.normSq p ≤ L.env.norm p * L.env.norm p) {s : St K} (hss : Work L (w' a) s)
    (hf : s.es .front = []) (hres : Resolved L.env.eps s) (ix0 : FRef → Nat) :
    ∃ t, MC.improve L.env.eps ix0 s = some t ∧ Conforming t ∧ CoversOutline (withHoles ps hs) t ∧
      meshArea t = polygonArea ps - (hs.map polygonArea).sum := by
  obtain ⟨h1, h2, h3, h4⟩ := C171_domain H hb fixv hfx
  obtain ⟨t, t1, t2, t3, t4⟩ := C170_mesh h1 h2 hP hS hw hr h he hq hso hn hss hf hres ix0
  have hwd : ∀ p, segWinding (outline (fun _ => []) (sources fixv st' bs)) p = segWinding (withHoles ps hs) p := fun p => by
    rw [segWinding_wind, segWinding_wind, wind_perm h3]
  exact ⟨t, t1, t2, ⟨t3.apart, fun p x hx hp => by rw [← hwd]; exact t3.within p x hx hp,
    fun p hp hg => t3.full p (by rw [hwd]; exact hp) hg, fun p => by rw [t3.bdry, hwd]⟩, by rw [t4, h4]⟩

/-! ### Examples and the violation -/

namespace OutlEx
open Fr

/-- Edges are halved. -/
def half (st : List (MVert ℚ)) (e : FEdge) : Option (List (Pt ℚ)) :=
  some [vpos st e.v1, onLine (vpos st e.v1) (vpos st e.v2) (1 / 2), vpos st e.v2]

theorem half_part : PartSub half := by
  intro s e coords _ h
  unfold half at h
  simp only [Option.some.injEq] at h
  subst h
  refine ⟨[0, 1 / 2, 1], ?_, by simp; norm_num, rfl, rfl⟩
  simp only [List.map_cons, List.map_nil, List.cons.injEq, and_true, true_and]
  constructor <;> (apply Pt.ext' <;> simp [onLine])

/-- The unit square, its edges halved. -/
def halved : Prep ℚ := { GNEx.prep [] [] with sub := half }

theorem sq_outline : outline GNEx.noNbr [GNEx.sq] = ring [⟨0, 0⟩, ⟨1, 0⟩, ⟨1, 1⟩, ⟨0, 1⟩] := by decide +kernel

theorem sq_simple : SimpleOutline (outline GNEx.noNbr [GNEx.sq]) := by
  rw [sq_outline]; exact convex_simple (convex_rect (by norm_num))

/-- The square of side 10 as boundary of a domain. -/
def big : List (SrcEdge ℚ) :=
  [⟨⟨0, 0⟩, ⟨10, 0⟩, 1, false, false, false⟩, ⟨⟨10, 0⟩, ⟨10, 10⟩, 1, false, false, false⟩,
   ⟨⟨10, 10⟩, ⟨0, 10⟩, 1, false, false, false⟩, ⟨⟨0, 10⟩, ⟨0, 0⟩, 1, false, false, false⟩]
/-- Its corners. -/
def bigPos : Nat → Pt ℚ
  | 0 => ⟨0, 0⟩ | 1 => ⟨10, 0⟩ | 2 => ⟨10, 10⟩ | _ => ⟨0, 10⟩
/-- The length of horizontal and vertical vectors. -/
def taxi (p : Pt ℚ) : ℚ := |p.x| + |p.y|
/-- A rational function with the properties of `exp` used: values in [0, 1] at negative arguments, 1 at 0, not below the tangent at 0. -/
def lin (x : ℚ) : ℚ := max 0 (1 + x)
/-- The domain with the size function of `C31_partition_violated`, refined as in the code. -/
def jump : Prep ℚ :=
  ⟨1 / 1000, bigPos, [(true, GNEx.sqEdges)], collect GNEx.noNbr [big] [], subOf taxi (jumpRho lin) 30, [], []⟩

theorem big_simple : SimpleOutline (outline GNEx.noNbr [big]) := by
  rw [show outline GNEx.noNbr [big] = ring [⟨0, 0⟩, ⟨10, 0⟩, ⟨10, 10⟩, ⟨0, 10⟩] by decide +kernel]
  exact convex_simple (convex_rect (by norm_num))

theorem big_ne : ∀ c ∈ [big].flatMap (fun b => b.flatMap fun e =>
    if (GNEx.noNbr e).length > 0 then (GNEx.noNbr e).map fun n => (n, true) else [(e, false)]), c.1.p1 ≠ c.1.p2 := by decide +kernel

theorem big_data : DomainData GNEx.noNbr [big] [] where
  closed := by unfold ClosedSrc; decide +kernel
  leads := fun _ _ e _ h => absurd rfl h
  free := by unfold GNEx.noNbr; decide +kernel
  fixed := by simp
  ne := by
    intro c hc
    unfold collectCalls at hc
    rcases List.mem_append.mp hc with hc | hc
    · exact big_ne c hc
    · simp at hc

/-- Boundary edges of the prepared mesh. -/
def jumpEdges : List (Nat × Nat) := pairs (GNEx.prepared jump 0) .bdry

theorem jump_bad : ∃ e ∈ jumpEdges, (GNEx.prepared jump 0).pos e.2 = ⟨10, 0⟩ ∧ ((GNEx.prepared jump 0).pos e.1).x < 0 ∧
    ((GNEx.prepared jump 0).pos e.1).y = 0 ∧ ∃ f ∈ jumpEdges, f ≠ e ∧ (GNEx.prepared jump 0).pos f.2 = ⟨0, 0⟩ ∧ (GNEx.prepared jump 0).pos f.1 = ⟨0, 1⟩ := by decide +kernel

end OutlEx

/-- **C170 (refuted in general).** A square with side 10 whose user size jumps from 1 to 100 near a corner (the size
function of `C31_partition_violated`): its outline is simple, but the boundary of the prepared mesh is not: the lower
side is divided at a point left of the square, so that the boundary edge from there to the right corner runs through
the left corner. -/
theorem C170_simple_violated :
    DomainData GNEx.noNbr [OutlEx.big] [] ∧ SimpleOutline (outline GNEx.noNbr [OutlEx.big]) ∧
    (∀ p : Pt ℚ, p.x = 0 ∨ p.y = 0 → 0 ≤ OutlEx.taxi p ∧ OutlEx.taxi p * OutlEx.taxi p = Pt.normSq p) ∧
    ExpLike OutlEx.lin ∧ prepareMesh OutlEx.jump GNEx.w0 0 = .ret true (GNEx.prepared OutlEx.jump) ∧
    ¬ SimpleFront (GNEx.prepared OutlEx.jump 0).pos (pairs (GNEx.prepared OutlEx.jump 0) .bdry) := by
  refine ⟨OutlEx.big_data, OutlEx.big_simple, fun p hp => ⟨by unfold OutlEx.taxi; positivity, ?_⟩, ⟨fun x hx => ⟨le_max_left _ _, max_le zero_le_one (by linarith)⟩, by decide +kernel⟩,
    GNEx.prepared_eq (by decide +kernel), fun h => ?_⟩
  · unfold OutlEx.taxi Pt.normSq
    rcases hp with hp | hp <;> rw [hp] <;> simp
  · obtain ⟨e, he, e2, e1, e0, f, hf, hne, f2, f1⟩ := OutlEx.jump_bad
    haveI : Std.Symm (Apart (GNEx.prepared OutlEx.jump 0).pos) := ⟨fun _ _ k x h1 h2 => (k x h2 h1).symm⟩
    have hsym := h.apart.forall he hf hne.symm
    have on1 : OnClosed ((GNEx.prepared OutlEx.jump 0).pos e.1) ((GNEx.prepared OutlEx.jump 0).pos e.2) ⟨0, 0⟩ := by
      rw [e2]
      generalize (GNEx.prepared OutlEx.jump 0).pos e.1 = q at e1 e0
      have h0 : 0 < 10 - q.x := by linarith
      refine ⟨-q.x / (10 - q.x), by apply div_nonneg <;> linarith, by rw [div_le_one h0]; linarith, ?_⟩
      apply Pt.ext' <;> simp only [GeoSpec.onSeg, e0]
      · field_simp; ring
      · ring
    have on2 : OnClosed ((GNEx.prepared OutlEx.jump 0).pos f.1) ((GNEx.prepared OutlEx.jump 0).pos f.2) ⟨0, 0⟩ := by
      rw [f2, f1]
      refine ⟨1, zero_le_one, le_refl _, ?_⟩
      apply Pt.ext' <;> simp [GeoSpec.onSeg]
    have key : (⟨0, 0⟩ : Pt ℚ) = (GNEx.prepared OutlEx.jump 0).pos e.1 ∨ (⟨0, 0⟩ : Pt ℚ) = (GNEx.prepared OutlEx.jump 0).pos e.2 := by
      exact (hsym _ on1 on2).1
    rcases key with k | k
    · rw [← k] at e1; simp at e1
    · rw [e2] at k; simp at k

/-- `TQ.C170_pieces`, `TQ.C170_simple`: the unit square with halved edges. -/
example : SimpleFront (GNEx.prepared OutlEx.halved 0).pos (pairs (GNEx.prepared OutlEx.halved 0) .bdry) ∧
    (pairs (GNEx.prepared OutlEx.halved 0) .bdry).length = 8 ∧
    ∃ ls, ((GNEx.prepared OutlEx.halved 0).es .bdry).map (fun e => ((GNEx.prepared OutlEx.halved 0).pos ((GNEx.prepared OutlEx.halved 0).E e).v1,
      (GNEx.prepared OutlEx.halved 0).pos ((GNEx.prepared OutlEx.halved 0).E e).v2)) = ls.flatten ∧ List.Forall₂ IsCut (outline GNEx.noNbr [GNEx.sq]) ls :=
  ⟨(C170_simple (GNEx.sq_data [] (by simp) (by simp)) (P := OutlEx.halved) rfl OutlEx.half_part (w := GNEx.w0) (a := 0) (wf_empty 1) (by simp [OutlEx.halved, GNEx.prep])
    (GNEx.prepared_eq (by decide +kernel))).1 OutlEx.sq_simple, by decide +kernel,
   C170_pieces (GNEx.sq_data [] (by simp) (by simp)) (P := OutlEx.halved) rfl OutlEx.half_part (w := GNEx.w0) (a := 0) (wf_empty 1) (by simp [OutlEx.halved, GNEx.prep])
    (GNEx.prepared_eq (by decide +kernel))⟩

/-- `TQ.C170_mesh`: the square with two triangles. -/
example : ∃ t, MC.improve FNEx.Lf.env.eps (fun _ => 0) GNEx.f2 = some t ∧ CoversOutline (ring [⟨0, 0⟩, ⟨1, 0⟩, ⟨1, 1⟩, ⟨0, 1⟩]) t ∧ meshArea t = 1 := by
  have hsub : PartSub GNEx.noSub := by
    intro s e coords _ h
    unfold GNEx.noSub at h
    simp only [Option.some.injEq] at h
    subst h
    refine ⟨[0, 1], ?_, by simp, rfl, rfl⟩
    simp only [List.map_cons, List.map_nil, List.cons.injEq, and_true]
    constructor <;> (apply Pt.ext' <;> simp [onLine])
  obtain ⟨t, h1, -, h2, h3⟩ := C170_mesh (GNEx.sq_data [] (by simp) (by simp)) OutlEx.sq_simple (P := GNEx.prep [] []) rfl hsub (w := GNEx.w0) (a := 0)
    (c := 1) rfl (by simp [GNEx.prep]) (GNEx.prepared_eq GNEx.ret0) (L := FNEx.Lf) FUEx.epsPos FUEx.exact FUEx.sortOK FUEx.norm_ok
    FNEx.sq_work (by decide +kernel) (by unfold Resolved; decide +kernel) (fun _ => 0)
  exact ⟨t, h1, OutlEx.sq_outline ▸ h2, h3.trans (by decide +kernel)⟩

/-- `TQ.C170_code_partial`: sizes between 4/5 and 1 on the reals. -/
example : PartSub (subOf euclid (fun p => if p.x < 0 then 4 / 5 else 1) 100) :=
  C170_code_partial euclid euclid_isNorm _ (4 / 5) 1 (by norm_num) (by norm_num) (fun p => by split_ifs <;> norm_num) 100

/-- `TQ.C171_convex`: a square with two square holes; a point between the holes is in the region, a point in a hole is not. -/
example : SimpleOutline (withHoles [⟨0, 0⟩, ⟨7, 0⟩, ⟨7, 7⟩, ⟨0, 7⟩]
      [[⟨1, 1⟩, ⟨2, 1⟩, ⟨2, 2⟩, ⟨1, 2⟩], [⟨4, 4⟩, ⟨6, 4⟩, ⟨6, 6⟩, ⟨4, 6⟩]] : List (Pt ℚ × Pt ℚ)) ∧
    segWinding (withHoles [⟨0, 0⟩, ⟨7, 0⟩, ⟨7, 7⟩, ⟨0, 7⟩]
      [[⟨1, 1⟩, ⟨2, 1⟩, ⟨2, 2⟩, ⟨1, 2⟩], [⟨4, 4⟩, ⟨6, 4⟩, ⟨6, 6⟩, ⟨4, 6⟩]] : List (Pt ℚ × Pt ℚ)) ⟨3, 3⟩ = 1 ∧
    segWinding (withHoles [⟨0, 0⟩, ⟨7, 0⟩, ⟨7, 7⟩, ⟨0, 7⟩]
      [[⟨1, 1⟩, ⟨2, 1⟩, ⟨2, 2⟩, ⟨1, 2⟩], [⟨4, 4⟩, ⟨6, 4⟩, ⟨6, 6⟩, ⟨4, 6⟩]] : List (Pt ℚ × Pt ℚ)) ⟨5, 5⟩ = 0 := by
  have h : ConvexHoles [⟨0, 0⟩, ⟨7, 0⟩, ⟨7, 7⟩, ⟨0, 7⟩]
      [[⟨1, 1⟩, ⟨2, 1⟩, ⟨2, 2⟩, ⟨1, 2⟩], [(⟨4, 4⟩ : Pt ℚ), ⟨6, 4⟩, ⟨6, 6⟩, ⟨4, 6⟩]] := by
    refine ⟨convex_rect (by norm_num), ?_, ?_, ?_⟩
    · intro q hq
      simp only [List.mem_cons, List.not_mem_nil, or_false] at hq
      rcases hq with rfl | rfl <;> exact convex_rect (by norm_num)
    · unfold LeftOfAll; decide +kernel
    · simp only [List.pairwise_cons, List.mem_singleton, forall_eq, List.not_mem_nil, IsEmpty.forall_iff, implies_true, List.Pairwise.nil, and_true]
      exact ⟨⟨3, 0⟩, ⟨3, 1⟩, by decide +kernel, by decide +kernel⟩
  have k := C171_convex h
  exact ⟨k.1, (k.2 _).1 (by unfold LeftOfAll; decide +kernel) (by decide +kernel),
    (k.2 _).2.2 ⟨_, List.mem_cons_of_mem _ (List.mem_singleton_self _), by unfold LeftOfAll; decide +kernel⟩⟩

namespace OutlEx
/-- A square given clockwise. -/
def frameOuter : Shape ℚ := ⟨.exterior, [⟨0, 7⟩, ⟨7, 7⟩, ⟨7, 0⟩, ⟨0, 0⟩], [0, 0, 0, 0], [1, 1, 1, 1]⟩
/-- A square hole. -/
def frameHole : Shape ℚ := ⟨.interior, [⟨1, 1⟩, ⟨2, 1⟩, ⟨2, 2⟩, ⟨1, 2⟩], [0, 0, 0, 0], [2, 2, 2, 2]⟩

theorem frame_holes : PolygonWithHoles frameOuter [frameHole] [⟨0, 0⟩, ⟨7, 0⟩, ⟨7, 7⟩, ⟨0, 7⟩] [[⟨1, 1⟩, ⟨2, 1⟩, ⟨2, 2⟩, ⟨1, 2⟩]] where
  ext := rfl
  int := by intro r hr; rw [List.mem_singleton] at hr; subst hr; rfl
  outer := Or.inr rfl
  holes := .cons (Or.inl rfl) .nil
  convex := by
    refine ⟨convex_rect (by norm_num), ?_, ?_, List.pairwise_singleton _ _⟩
    · intro q hq
      rw [List.mem_singleton] at hq
      subst hq
      exact convex_rect (by norm_num)
    · unfold LeftOfAll; decide +kernel

/-- The unit square as shape. -/
def unitShape : Shape ℚ := ⟨.exterior, [⟨0, 0⟩, ⟨1, 0⟩, ⟨1, 1⟩, ⟨0, 1⟩], [0, 0, 0, 0], [1, 1, 1, 1]⟩

theorem unit_holes : PolygonWithHoles unitShape [] [⟨0, 0⟩, ⟨1, 0⟩, ⟨1, 1⟩, ⟨0, 1⟩] [] where
  ext := rfl
  int := by simp
  outer := Or.inl rfl
  holes := .nil
  convex := ⟨convex_rect (by norm_num), by simp, by simp, List.Pairwise.nil⟩

/-- The boundary built. -/
def unitBuilt : List (BVert ℚ) × List (BdryType × EList ℚ) :=
  match build exactNearest [unitShape] [] with
  | .ok r => r
  | _ => ([], [])

theorem unit_built : build exactNearest [unitShape] [] = .ok (unitBuilt.1, unitBuilt.2) := by decide +kernel
theorem unit_sources : sources (fun _ => false) unitBuilt.1 unitBuilt.2 = [GNEx.sq] := by decide +kernel
theorem noSub_part : PartSub GNEx.noSub := by
  intro s e coords _ h
  unfold GNEx.noSub at h
  simp only [Option.some.injEq] at h
  subst h
  refine ⟨[0, 1], ?_, by simp, rfl, rfl⟩
  simp only [List.map_cons, List.map_nil, List.cons.injEq, and_true]
  constructor <;> (apply Pt.ext' <;> simp [onLine])
end OutlEx

/-- `TQ.C171_domain`, `TQ.C171_progress`: a square given clockwise, with a hole; its area is 48. -/
example : ∃ st bs, build exactNearest [OutlEx.frameOuter, OutlEx.frameHole] [] = .ok (st, bs) ∧ SimpleOutline (outline (fun _ => []) (sources (fun _ => false) st bs)) ∧
    sourceArea (fun _ => []) (sources (fun _ => false) st bs) = 48 := by
  obtain ⟨⟨st, bs⟩, h⟩ := C171_progress (nearest := exactNearest) (fun _ _ => ⟨_, rfl⟩) (ss := [OutlEx.frameOuter, OutlEx.frameHole]) (by
    intro s hs
    simp only [List.mem_cons, List.not_mem_nil, or_false] at hs
    rcases hs with rfl | rfl
    · exact ⟨⟨_, Or.inr (List.reverse_reverse _).symm, convex_rect (by norm_num)⟩, by decide, by decide, by decide⟩
    · exact ⟨⟨_, Or.inl rfl, convex_rect (by norm_num)⟩, by decide, by decide, by decide⟩) []
  obtain ⟨-, h2, -, h4⟩ := C171_domain OutlEx.frame_holes h (fun _ => false) (fx := []) (by simp)
  exact ⟨st, bs, h, h2, h4.trans (by decide +kernel)⟩

/-- `TQ.C171_mesh`: the unit square as shape, with two triangles. -/
example : ∃ t, MC.improve FNEx.Lf.env.eps (fun _ => 0) GNEx.f2 = some t ∧ CoversOutline (withHoles [⟨0, 0⟩, ⟨1, 0⟩, ⟨1, 1⟩, ⟨0, 1⟩] []) t ∧ meshArea t = 1 := by
  obtain ⟨t, h1, -, h2, h3⟩ := C171_mesh OutlEx.unit_holes OutlEx.unit_built (fun _ => false) (fx := []) (by simp) (P := GNEx.prep [] [])
    (by rw [OutlEx.unit_sources]; rfl) OutlEx.noSub_part (w := GNEx.w0) (a := 0)
    (c := 1) rfl (by simp [GNEx.prep]) (GNEx.prepared_eq GNEx.ret0) (L := FNEx.Lf) FUEx.epsPos FUEx.exact FUEx.sortOK FUEx.norm_ok
    FNEx.sq_work (by decide +kernel) (by unfold Resolved; decide +kernel) (fun _ => 0)
  exact ⟨t, h1, h2, h3.trans (by decide +kernel)⟩

/-- `TQ.C171_rectangle`, `TQ.C171_circle`: a rectangle with a negative height, a hexagon. -/
example : (∃ ps : List (Pt ℚ), Order (rectangleCoords ⟨0, 0⟩ 2 (-1)) ps ∧ ConvexCorners ps) ∧ ConvexCorners (circleCoords (circleDir 6) ⟨1, 1⟩ 2 6) :=
  ⟨C171_rectangle _ (by norm_num) (by norm_num), C171_circle _ (by norm_num) (by norm_num)⟩

end TQ

#print axioms TQ.C170_pieces
#print axioms TQ.C170_simple
#print axioms TQ.C170_code_partial
#print axioms TQ.C170_mesh
#print axioms TQ.C171_convex
#print axioms TQ.C171_domain
#print axioms TQ.C171_progress
#print axioms TQ.C171_rectangle
#print axioms TQ.C171_circle
#print axioms TQ.C171_mesh
#print axioms TQ.C170_simple_violated

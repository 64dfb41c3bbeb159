import Verif.Whole.Holes
import Verif.Boundary.Shapes
import Verif.Domain.Props
import Mathlib.Analysis.SpecialFunctions.Trigonometric.Basic

/-! # Domains built from shapes -/

set_option linter.unusedSectionVars false
set_option linter.unusedSimpArgs false

namespace TQ.Sh
open TQ.BdSpec TQ.GeoSpec
variable {K : Type*} [Field K] [LinearOrder K]

/-- A boundary to create: type, coordinates, vertex properties and edge colors
(arguments of `set_shape_from_coordinates`, src/algorithm/Boundary.h:201-211). -/
structure Shape (K : Type*) where
  bt : BdryType
  coords : List (Pt K)
  props : List (Pt K)
  colors : List Int

/-- Boundaries added to a domain one after the other (`add_exterior_boundary`, `add_interior_boundary`,
src/algorithm/Domain.h:306-319), each filled by `create_boundary_shape` (src/algorithm/Boundary.h:315-369); they share
the vertices of the domain. -/
def build (nearest : List (BVert K) → Pt K → Out (Option Nat)) :
    List (Shape K) → List (BVert K) → Out (List (BVert K) × List (BdryType × EList K))
  | [], st => .ok (st, [])
  | s :: ss, st =>
    match createShape nearest s.bt st emptyBoundary s.coords s.props s.colors with
    | .ub => .ub
    | .abort => .abort
    | .ok (st1, L) =>
      match build nearest ss st1 with
      | .ub => .ub
      | .abort => .abort
      | .ok (st', Ls) => .ok (st', (s.bt, L) :: Ls)

/-- A boundary edge as `collect_front_edges` reads it (src/algorithm/FrontInitData.h:116-144, 213-245): end points, color,
the flag `is_fixed` of the edge; `fixv` tells which vertices of the domain are fixed. -/
def srcEdge (fixv : Nat → Bool) (st : List (BVert K)) (e : BEdge) : Fr.SrcEdge K :=
  ⟨storePos st e.v1, storePos st e.v2, e.color, Flags.has e.props Flags.eIsFixed, fixv e.v1, fixv e.v2⟩

/-- The boundaries of a domain in the order of the loop of `collect_front_edges`. -/
def sources (fixv : Nat → Bool) (st : List (BVert K)) (bs : List (BdryType × EList K)) : List (List (Fr.SrcEdge K)) :=
  bs.map fun b => b.2.edges.map (srcEdge fixv st)

/-- The corners are given in one order or the other. -/
def Order (coords ps : List (Pt K)) : Prop := coords = ps ∨ coords = ps.reverse

/-- The shapes describe a convex polygon with convex holes: the first one is the polygon, the others are the holes;
corners in one order or the other. -/
structure PolygonWithHoles (s : Shape K) (ss : List (Shape K)) (ps : List (Pt K)) (hs : List (List (Pt K))) : Prop where
  ext : s.bt = .exterior
  int : ∀ r ∈ ss, r.bt = .interior
  outer : Order s.coords ps
  holes : List.Forall₂ (fun r q => Order r.coords q) ss hs
  convex : OutlSpec.ConvexHoles ps hs

section
variable [IsStrictOrderedRing K]
open TQ.OutlSpec TQ.Outl TQ.FUSpec TQ.FU TQ.FrSpec TQ.GN

/-! ### The vertex store -/

theorem gatherVerts_range (nearest : List (BVert K) → Pt K → Out (Option Nat)) (cs : List (Pt K)) :
    ∀ (ps : List (Pt K)) (st st' : List (BVert K)) (vs : List Nat),
    gatherVerts nearest cs ps st = .ok (vs, st') → ∀ v ∈ vs, v < st'.length := by
  induction cs with
  | nil =>
    intro ps st st' vs h
    simp [gatherVerts] at h
    obtain ⟨rfl, rfl⟩ := h
    simp
  | cons c cs ih =>
    intro ps st st' vs h
    cases ps with
    | nil => simp [gatherVerts] at h
    | cons p ps =>
      rw [gatherVerts] at h
      cases hn : nearest st c with
      | ub => rw [hn] at h; simp at h
      | abort => rw [hn] at h; simp at h
      | ok r =>
        rw [hn] at h; dsimp only at h
        obtain ⟨v, hpre, hi, hv⟩ := pickVert_ok st r c p
        generalize pickVert st r c p = q at h hpre hi
        obtain ⟨i, st1⟩ := q
        dsimp only at h hpre hi
        cases hg : gatherVerts nearest cs ps st1 with
        | ub => rw [hg] at h; simp at h
        | abort => rw [hg] at h; simp at h
        | ok q =>
          obtain ⟨is, st2⟩ := q
          rw [hg] at h; dsimp only at h
          simp only [Out.ok.injEq, Prod.mk.injEq] at h
          obtain ⟨rfl, rfl⟩ := h
          have h1 := (gatherVerts_ok _ _ _ _ _ _ hg).1
          intro u hu
          rcases List.mem_cons.mp hu with rfl | hu
          · exact lt_of_lt_of_le (List.getElem?_eq_some_iff.mp hi).1 h1.length_le
          · exact ih ps st1 st2 is hg u hu

theorem storePos_mono {st st' : List (BVert K)} (h : st <+: st') {i : Nat} (hi : i < st.length) : storePos st' i = storePos st i := by
  rw [storePos_prefix h (List.getElem?_eq_getElem hi)]
  unfold storePos; rw [List.getElem?_eq_getElem hi]; rfl

/-- Vertices are kept, the edges refer to vertices, the area is that of the corners. -/
theorem createShape_data {nearest : List (BVert K) → Pt K → Out (Option Nat)} {bt : BdryType}
    {st st' : List (BVert K)} {coords props : List (Pt K)} {colors : List Int} {L : EList K}
    (h : createShape nearest bt st emptyBoundary coords props colors = .ok (st', L)) :
    st <+: st' ∧ (∀ e ∈ L.edges, e.v1 < st'.length ∧ e.v2 < st'.length) ∧ L.area = polygonArea (corners (storePos st') L.edges) := by
  have hloop := (C18_shape nearest bt st st' coords props colors L h).2.1
  unfold createShape at h
  rw [if_neg (by simp [emptyBoundary])] at h
  dsimp only at h
  cases hg : gatherVerts nearest coords props st with
  | ub => rw [hg] at h; simp at h
  | abort => rw [hg] at h; simp at h
  | ok q =>
    obtain ⟨vs, st1⟩ := q
    rw [hg] at h; dsimp only at h
    cases hr : runCalls (storePos st1) (shapeCalls bt (decide (polygonArea coords > 0)) vs colors) emptyBoundary with
    | ub => rw [hr] at h; simp at h
    | abort => rw [hr] at h; simp at h
    | ok L1 =>
      rw [hr] at h; dsimp only at h
      simp only [Out.ok.injEq, Prod.mk.injEq] at h
      obtain ⟨rfl, rfl⟩ := h
      have hv := gatherVerts_range _ _ _ _ _ _ hg
      obtain ⟨ts, e1, e2, _, e4, _⟩ := runCalls_ok _ _ _ L1 rfl (by unfold AreaInv; simp [emptyBoundary, computeArea]) hr
      have e2 : L1.edges = ts.map mkB := by simpa [emptyBoundary] using e2
      refine ⟨(gatherVerts_ok _ _ _ _ _ _ hg).1, ?_, by rw [e4, computeArea_loop _ _ hloop]⟩
      have key : ∀ t ∈ ts, t.1 ∈ vs ∧ t.2.1 ∈ vs := by
        by_cases hd : (bt = .exterior ∧ decide (polygonArea coords > 0) = true) ∨ (bt = .interior ∧ decide (polygonArea coords > 0) = false)
        · rw [shapeCalls_fwd hd] at e1
          obtain ⟨-, l2, l3, _⟩ := fwd_lists e1
          intro t ht
          refine ⟨l2 ▸ List.mem_map_of_mem ht, ?_⟩
          have := List.mem_map_of_mem (f := fun t : Nat × Nat × Int => t.2.1) ht
          rw [l3] at this; simpa using this
        · rw [shapeCalls_bwd hd] at e1
          obtain ⟨-, l2, l3, _⟩ := bwd_lists e1
          intro t ht
          have h1 := List.mem_map_of_mem (f := fun t : Nat × Nat × Int => t.1) ht
          have h2 := List.mem_map_of_mem (f := fun t : Nat × Nat × Int => t.2.1) ht
          rw [l2] at h1; rw [l3] at h2
          exact ⟨by simpa using h1, by simpa using h2⟩
      intro e he
      rw [e2] at he
      obtain ⟨t, ht, rfl⟩ := List.mem_map.mp he
      exact ⟨hv _ (key t ht).1, hv _ (key t ht).2⟩

/-! ### Rings -/

theorem path_zip (p z : Pt K) (qs : List (Pt K)) : path p qs z = (p :: qs).zip (qs ++ [z]) := by
  induction qs generalizing p with
  | nil => rfl
  | cons q qs ih => rw [path, ih]; rfl

theorem ring_cyclic (ps : List (Pt K)) : ring ps = cyclicPairs ps := by
  cases ps with
  | nil => rfl
  | cons p ps => rw [ring, path_zip]; unfold cyclicPairs; rw [List.rotate_cons_succ, List.rotate_zero]

theorem cyclic_rotate (ps : List (Pt K)) (n : Nat) : cyclicPairs (ps.rotate n) = (cyclicPairs ps).rotate n := by
  unfold cyclicPairs
  change List.zipWith Prod.mk _ _ = (List.zipWith Prod.mk _ _).rotate n
  rw [List.zipWith_rotate_distrib _ _ _ _ (by simp), List.rotate_rotate, List.rotate_rotate, Nat.add_comm]

theorem zip_swap {α : Type*} (a b : List α) : (a.zip b).map Prod.swap = b.zip a := by
  rw [List.zip_swap]

theorem cyclic_back (ps : List (Pt K)) : cyclicPairs (ps.rotate 1).reverse = ((cyclicPairs ps).map Prod.swap).reverse := by
  unfold cyclicPairs
  rw [rotate_reverse_loop, zip_swap]
  change List.zipWith Prod.mk _ _ = (List.zipWith Prod.mk _ _).reverse
  rw [List.reverse_zipWith (by simp)]

theorem ring_back (ps : List (Pt K)) : (ring (ps.rotate 1).reverse).Perm ((ring ps).map Prod.swap) := by
  rw [ring_cyclic, ring_cyclic, cyclic_back]; exact List.reverse_perm _

theorem ring_reverse (ps : List (Pt K)) : (ring ps.reverse).Perm ((ring ps).map Prod.swap) := by
  have h := ring_back ps
  refine List.Perm.trans ?_ h
  rw [ring_cyclic, ring_cyclic, List.reverse_rotate, cyclic_rotate]
  exact (List.rotate_perm _ _).symm

/-- Convex corners have a positive area. -/
theorem convex_area {ps : List (Pt K)} (h : ConvexCorners ps) : 0 < polygonArea ps := by
  obtain ⟨hl, ht⟩ := h
  match ps, hl, ht with
  | o :: q :: r :: rs, _, ht =>
    rw [C15_fan _ o]
    unfold cyclicSum
    rw [← ring_cyclic]
    have key : ∀ (qs : List (Pt K)) (q : Pt K), (∀ b c, [b, c].Sublist (q :: qs) → 0 < side o b c) →
        0 ≤ ((path q qs o).map fun e => triArea o e.1 e.2).sum := by
      intro qs
      induction qs with
      | nil => intro q _; simp [path, triArea]
      | cons r rs ih =>
        intro q hq
        rw [path, List.map_cons, List.sum_cons]
        have h1 := hq q r (by simp)
        have h2 := ih r fun b c hbc => hq b c (hbc.trans (List.sublist_cons_self _ _))
        have : 0 < triArea o q r := by unfold triArea; unfold side at h1; linarith
        linarith
    rw [ring, path, path, List.map_cons, List.map_cons, List.sum_cons, List.sum_cons]
    have h1 := ht o q r (by simp)
    have h2 := key rs r fun b c hbc => ht o b c ((hbc.trans (List.sublist_cons_self _ _)).cons_cons o)
    have h3 : 0 < triArea o q r := by unfold triArea; unfold side at h1; linarith
    have h4 : triArea o o q = 0 := triArea_self o q
    dsimp only
    linarith

/-- The segments of the boundary built for a polygon with positive area. -/
theorem createShape_ring_pos {nearest : List (BVert K) → Pt K → Out (Option Nat)} {bt : BdryType}
    {st st' : List (BVert K)} {coords props ps : List (Pt K)} {colors : List Int} {L : EList K}
    (h : createShape nearest bt st emptyBoundary coords props colors = .ok (st', L)) (ho : Order coords ps) (hp : 0 < polygonArea ps) :
    (L.edges.map fun e => (storePos st' e.v1, storePos st' e.v2)).Perm (if bt = .exterior then ring ps else (ring ps).map Prod.swap) := by
  obtain ⟨-, hloop, hcor, -, hE, hI⟩ := C18_shape nearest bt st st' coords props colors L h
  obtain ⟨-, -, hA⟩ := createShape_data h
  rw [← loop_pairs _ _ hloop, ← ring_cyclic]
  -- the corners in counter-clockwise or clockwise order, and their area
  have key : ((ring (corners (storePos st') L.edges)).Perm (ring ps) ∧ L.area = polygonArea ps) ∨
      ((ring (corners (storePos st') L.edges)).Perm ((ring ps).map Prod.swap) ∧ L.area = - polygonArea ps) := by
    have ss : ((ring ps).map Prod.swap).map Prod.swap = ring ps := by simp
    rcases hcor with e | e <;> rcases ho with rfl | rfl <;> rw [hA, e]
    · exact Or.inl ⟨List.Perm.refl _, rfl⟩
    · exact Or.inr ⟨ring_reverse _, (C15_laws _ 0 0).1⟩
    · exact Or.inr ⟨ring_back _, by rw [(C15_laws _ 0 0).1, (C15_laws _ 1 0).2.1]⟩
    · refine Or.inl ⟨(ring_back _).trans ?_, by rw [(C15_laws _ 0 0).1, (C15_laws _ 1 0).2.1, (C15_laws _ 0 0).1]; ring⟩
      have := (ring_reverse ps).map Prod.swap
      rwa [ss] at this
  cases bt with
  | exterior =>
    rw [if_pos rfl]
    rcases key with ⟨k, -⟩ | ⟨-, k⟩
    · exact k
    · have := hE rfl; rw [k] at this; have := abs_nonneg (polygonArea coords); linarith
  | interior =>
    rw [if_neg (by simp)]
    rcases key with ⟨-, k⟩ | ⟨k, -⟩
    · have := hI rfl; rw [k] at this; have := abs_nonneg (polygonArea coords); linarith
    · exact k

/-- The segments of the boundary built for a convex polygon. -/
theorem createShape_ring {nearest : List (BVert K) → Pt K → Out (Option Nat)} {bt : BdryType}
    {st st' : List (BVert K)} {coords props ps : List (Pt K)} {colors : List Int} {L : EList K}
    (h : createShape nearest bt st emptyBoundary coords props colors = .ok (st', L)) (ho : Order coords ps) (hc : ConvexCorners ps) :
    (L.edges.map fun e => (storePos st' e.v1, storePos st' e.v2)).Perm (if bt = .exterior then ring ps else (ring ps).map Prod.swap) :=
  createShape_ring_pos h ho (convex_area hc)

/-! ### The domain -/

theorem build_prefix {nearest : List (BVert K) → Pt K → Out (Option Nat)} {ss : List (Shape K)} {st st' : List (BVert K)} {bs : List (BdryType × EList K)}
    (h : build nearest ss st = .ok (st', bs)) : st <+: st' := by
  induction ss generalizing st bs with
  | nil => simp [build] at h; rw [h.1]
  | cons s ss ih =>
    rw [build] at h
    split at h
    · simp at h
    · simp at h
    · next st1 L hc =>
      split at h
      · simp at h
      · simp at h
      · next st2 Ls hb =>
        simp only [Out.ok.injEq, Prod.mk.injEq] at h
        obtain ⟨rfl, rfl⟩ := h
        exact (createShape_data hc).1.trans (ih hb)

/-- Every boundary is what its shape says. -/
theorem build_each {nearest : List (BVert K) → Pt K → Out (Option Nat)} {ss : List (Shape K)} {st st' : List (BVert K)} {bs : List (BdryType × EList K)}
    (h : build nearest ss st = .ok (st', bs)) : List.Forall₂ (fun s b => b.1 = s.bt ∧ Loop b.2.edges ∧ (∀ e ∈ b.2.edges, e.props = Flags.eOnBoundary) ∧
      (s.bt = .exterior → b.2.area = |polygonArea s.coords|) ∧ (s.bt = .interior → b.2.area = -|polygonArea s.coords|) ∧
      ∀ ps, Order s.coords ps → ConvexCorners ps →
        (b.2.edges.map fun e => (storePos st' e.v1, storePos st' e.v2)).Perm (if s.bt = .exterior then ring ps else (ring ps).map Prod.swap)) ss bs := by
  induction ss generalizing st bs with
  | nil => simp [build] at h; rw [h.2]; exact .nil
  | cons s ss ih =>
    rw [build] at h
    split at h
    · simp at h
    · simp at h
    · next st1 L hc =>
      split at h
      · simp at h
      · simp at h
      · next st2 Ls hb =>
        simp only [Out.ok.injEq, Prod.mk.injEq] at h
        obtain ⟨rfl, rfl⟩ := h
        obtain ⟨-, hl, -, hp, hE, hI⟩ := C18_shape _ _ _ _ _ _ _ _ hc
        refine .cons ⟨rfl, hl, hp, hE, hI, fun ps ho hcv => ?_⟩ (ih hb)
        have hpre := build_prefix hb
        rw [show (L.edges.map fun e => (storePos st2 e.v1, storePos st2 e.v2)) = L.edges.map fun e => (storePos st1 e.v1, storePos st1 e.v2) from
          List.map_congr_left fun e he => by
            obtain ⟨h1, h2⟩ := (createShape_data hc).2.1 e he
            rw [storePos_mono hpre h1, storePos_mono hpre h2]]
        exact createShape_ring hc ho hcv

theorem source_segs (fixv : Nat → Bool) (st : List (BVert K)) (bs : List (BdryType × EList K)) :
    outline (fun _ => []) (sources fixv st bs) = bs.flatMap fun b => b.2.edges.map fun e => (storePos st e.v1, storePos st e.v2) := by
  unfold outline sources
  rw [List.flatMap_map]
  apply List.flatMap_congr
  intro b _
  rw [List.flatMap_map]
  simp only [if_true, srcEdge]
  rw [← List.map_eq_flatMap]

theorem holes_perm {bs : List (BdryType × EList K)} {ss : List (Shape K)} {hs : List (List (Pt K))} {f : BEdge → Pt K × Pt K}
    (h1 : List.Forall₂ (fun (s : Shape K) (b : BdryType × EList K) => ∀ ps, Order s.coords ps → ConvexCorners ps →
      (b.2.edges.map f).Perm (if s.bt = .exterior then ring ps else (ring ps).map Prod.swap)) ss bs)
    (hi : ∀ r ∈ ss, r.bt = .interior) (h2 : List.Forall₂ (fun r q => Order r.coords q) ss hs) (hc : ∀ q ∈ hs, ConvexCorners q) :
    (bs.flatMap fun b => b.2.edges.map f).Perm (hs.flatMap fun q => (ring q).map Prod.swap) := by
  induction h1 generalizing hs with
  | nil => cases h2; exact List.Perm.refl _
  | cons k ks ih =>
    cases h2 with
    | cons o os =>
      rw [List.flatMap_cons, List.flatMap_cons]
      refine List.Perm.append ?_ (ih (fun r hr => hi r (List.mem_cons_of_mem _ hr)) os fun q hq => hc q (List.mem_cons_of_mem _ hq))
      have := k _ o (hc _ (List.mem_cons_self ..))
      rwa [if_neg (by rw [hi _ (List.mem_cons_self ..)]; simp)] at this

/-- The outline of the domain. -/
theorem build_outline {nearest : List (BVert K) → Pt K → Out (Option Nat)} {s : Shape K} {ss : List (Shape K)} {ps : List (Pt K)} {hs : List (List (Pt K))}
    (H : PolygonWithHoles s ss ps hs) {st st' : List (BVert K)} {bs : List (BdryType × EList K)} (h : build nearest (s :: ss) st = .ok (st', bs))
    (fixv : Nat → Bool) : (outline (fun _ => []) (sources fixv st' bs)).Perm (withHoles ps hs) := by
  rw [source_segs]
  have hf := build_each h
  cases hf with
  | cons k ks =>
    rw [List.flatMap_cons]
    unfold withHoles
    refine List.Perm.append ?_ (holes_perm (ks.imp fun _ _ h => h.2.2.2.2.2) H.int H.holes H.convex.holes)
    have := k.2.2.2.2.2 ps H.outer H.convex.outer
    rwa [if_pos H.ext] at this

/-- The data of the domain. -/
theorem build_data {nearest : List (BVert K) → Pt K → Out (Option Nat)} {s : Shape K} {ss : List (Shape K)} {ps : List (Pt K)} {hs : List (List (Pt K))}
    (H : PolygonWithHoles s ss ps hs) {st st' : List (BVert K)} {bs : List (BdryType × EList K)} (h : build nearest (s :: ss) st = .ok (st', bs))
    (fixv : Nat → Bool) {fx : List (Fr.SrcEdge K)} (hfx : ∀ e ∈ fx, e.fixed = true ∧ e.p1 ≠ e.p2) : DomainData (fun _ => []) (sources fixv st' bs) fx := by
  have hf := build_each h
  have hout := build_outline H h fixv
  have key : ∀ b ∈ bs, Loop b.2.edges ∧ ∀ e ∈ b.2.edges, e.props = Flags.eOnBoundary := by
    intro b hb
    obtain ⟨r, -, hr⟩ := forall₂_mem hf.flip b hb
    exact ⟨hr.2.1, hr.2.2.1⟩
  refine ⟨?_, fun _ _ _ _ hn => absurd rfl hn, ?_, fun e he => (hfx e he).1, ?_⟩
  · intro b hb
    unfold sources at hb
    obtain ⟨c, hc, rfl⟩ := List.mem_map.mp hb
    unfold ClosedSrc
    rw [List.map_map, List.map_map]
    have hl := congrArg (List.map (storePos st')) (key c hc).1
    rw [List.map_map, List.map_rotate, List.map_map] at hl
    change (c.2.edges.map fun e => storePos st' e.v2).Perm (c.2.edges.map fun e => storePos st' e.v1)
    change (c.2.edges.map fun e => storePos st' e.v2) = (c.2.edges.map fun e => storePos st' e.v1).rotate 1 at hl
    rw [hl]
    exact List.rotate_perm _ _
  · intro b hb e he
    unfold sources at hb
    obtain ⟨c, hc, rfl⟩ := List.mem_map.mp hb
    obtain ⟨d, hd, rfl⟩ := List.mem_map.mp he
    refine ⟨?_, by simp⟩
    unfold srcEdge
    rw [(key c hc).2 d hd]
    rfl
  · intro c hc
    unfold Fr.collectCalls at hc
    rcases List.mem_append.mp hc with hc | hc
    · obtain ⟨b, hb, hc⟩ := List.mem_flatMap.mp hc
      obtain ⟨e, he, hc⟩ := List.mem_flatMap.mp hc
      simp only [List.length_nil, gt_iff_lt, lt_self_iff_false, if_false, List.mem_singleton] at hc
      subst hc
      have : (e.p1, e.p2) ∈ withHoles ps hs := by
        rw [← hout.mem_iff]
        unfold outline
        exact List.mem_flatMap.mpr ⟨b, hb, List.mem_flatMap.mpr ⟨e, he, by simp⟩⟩
      exact (holes_simple H.convex).proper _ this
    · obtain ⟨e, he, rfl⟩ := List.mem_map.mp hc
      exact (hfx e he).2

theorem outline_area (bd : List (List (Fr.SrcEdge K))) :
    sourceArea (fun _ => []) bd = 1 / 2 * ((outline (fun _ => []) bd).map fun s => Pt.cross s.1 s.2).sum := by
  unfold sourceArea outline
  congr 1
  induction bd with
  | nil => rfl
  | cons b bd ih =>
    rw [List.map_cons, List.sum_cons, ih, List.flatMap_cons, List.map_append, List.sum_append]
    congr 1
    simp only [if_true]
    rw [← List.map_eq_flatMap, List.map_map]
    rfl

theorem ring_area (ps : List (Pt K)) : 1 / 2 * ((ring ps).map fun s => Pt.cross s.1 s.2).sum = polygonArea ps := by
  rw [C15_fan _ 0, ring_cyclic]
  unfold cyclicSum
  rw [← List.sum_map_mul_left]
  congr 1
  apply List.map_congr_left
  intro s _
  unfold Pt.cross triArea
  simp
  ring

theorem swap_area (l : List (Pt K × Pt K)) : ((l.map Prod.swap).map fun s => Pt.cross s.1 s.2).sum = - (l.map fun s => Pt.cross s.1 s.2).sum := by
  induction l with
  | nil => simp
  | cons a l ih =>
    rw [List.map_cons, List.map_cons, List.sum_cons, ih, List.map_cons, List.sum_cons]
    unfold Pt.cross
    simp
    ring

/-- The area of the polygon without the holes. -/
theorem withHoles_area (ps : List (Pt K)) (hs : List (List (Pt K))) :
    1 / 2 * ((withHoles ps hs).map fun s => Pt.cross s.1 s.2).sum = polygonArea ps - (hs.map polygonArea).sum := by
  unfold withHoles
  rw [List.map_append, List.sum_append, mul_add, ring_area, sub_eq_add_neg]
  congr 1
  induction hs with
  | nil => simp
  | cons q hs ih =>
    rw [List.flatMap_cons, List.map_append, List.sum_append, mul_add, ih, swap_area, List.map_cons, List.sum_cons, mul_neg, ring_area]
    ring

theorem build_area {nearest : List (BVert K) → Pt K → Out (Option Nat)} {s : Shape K} {ss : List (Shape K)} {ps : List (Pt K)} {hs : List (List (Pt K))}
    (H : PolygonWithHoles s ss ps hs) {st st' : List (BVert K)} {bs : List (BdryType × EList K)} (h : build nearest (s :: ss) st = .ok (st', bs))
    (fixv : Nat → Bool) : sourceArea (fun _ => []) (sources fixv st' bs) = polygonArea ps - (hs.map polygonArea).sum := by
  rw [outline_area, ← withHoles_area, ((build_outline H h fixv).map _).sum_eq]

/-- The shapes can be built. -/
theorem build_progress {nearest : List (BVert K) → Pt K → Out (Option Nat)} (hn : ∀ st p, ∃ r, nearest st p = .ok r) {ss : List (Shape K)}
    (h : ∀ s ∈ ss, (∃ ps, Order s.coords ps ∧ ConvexCorners ps) ∧ s.coords.length ≤ s.props.length ∧ s.coords.length ≤ s.colors.length ∧ ∀ c ∈ s.colors, 0 ≤ c)
    (st : List (BVert K)) : ∃ r, build nearest ss st = .ok r := by
  induction ss generalizing st with
  | nil => exact ⟨_, rfl⟩
  | cons s ss ih =>
    obtain ⟨⟨ps, ho, hc⟩, h1, h2, h3⟩ := h s (List.mem_cons_self ..)
    have hnd : ps.Nodup := turns_nodup hc
    have hl : s.coords.Nodup ∧ 2 ≤ s.coords.length := by
      rcases ho with e | e <;> rw [e]
      · exact ⟨hnd, by have := hc.1; omega⟩
      · exact ⟨List.nodup_reverse.2 hnd, by rw [List.length_reverse]; have := hc.1; omega⟩
    obtain ⟨⟨st1, L⟩, hr⟩ := C18_progress nearest hn s.bt st s.coords s.props s.colors hl.1 hl.2 h1 h2 h3
    obtain ⟨⟨st2, Ls⟩, hb⟩ := ih (fun r hr => h r (List.mem_cons_of_mem _ hr)) st1
    rw [build, hr]; dsimp only; rw [hb]
    exact ⟨_, rfl⟩

theorem turns_cons {a : Pt K} {l : List (Pt K)} (h : l.Pairwise fun b c => 0 < side a b c) (hl : Turns l) : Turns (a :: l) := by
  intro x y z hs
  rcases List.sublist_cons_iff.mp hs with hs | ⟨r, hr, hs⟩
  · exact hl x y z hs
  · simp only [List.cons.injEq] at hr
    obtain ⟨rfl, rfl⟩ := hr
    exact List.pairwise_iff_forall_sublist.mp h hs

theorem turns_nil : Turns ([] : List (Pt K)) := fun x y z hs => by simp at hs

theorem convex_rect {x0 x1 y0 y1 : K} (h : 0 < (x1 - x0) * (y1 - y0)) : ConvexCorners [⟨x0, y0⟩, ⟨x1, y0⟩, ⟨x1, y1⟩, ⟨x0, y1⟩] := by
  refine ⟨by simp, turns_cons ?_ (turns_cons ?_ (turns_cons (by simp) (turns_cons (by simp) turns_nil)))⟩ <;>
    simp only [List.pairwise_cons, List.mem_cons, List.not_mem_nil, or_false, forall_eq_or_imp, forall_eq, List.Pairwise.nil, side,
      and_true, IsEmpty.forall_iff, implies_true] <;> (repeat' constructor) <;> nlinarith

/-- Rectangles are convex. -/
theorem rectangle_convex (xy : Pt K) {w h : K} (hw : w ≠ 0) (hh : h ≠ 0) : ∃ ps, Order (rectangleCoords xy w h) ps ∧ ConvexCorners ps := by
  rcases lt_or_gt_of_ne (mul_ne_zero hw hh) with hs | hs
  · refine ⟨_, Or.inr (List.reverse_reverse _).symm, by simp [rectangleCoords], ?_⟩
    unfold rectangleCoords
    simp only [List.reverse_cons, List.reverse_nil, List.nil_append, List.singleton_append, List.cons_append]
    refine turns_cons ?_ (turns_cons ?_ (turns_cons (by simp) (turns_cons (by simp) turns_nil))) <;>
      simp only [List.pairwise_cons, List.mem_cons, List.not_mem_nil, or_false, forall_eq_or_imp, forall_eq, List.Pairwise.nil, side,
        and_true, IsEmpty.forall_iff, implies_true] <;> (repeat' constructor) <;> nlinarith
  · exact ⟨_, Or.inl rfl, by unfold rectangleCoords; exact convex_rect (by nlinarith)⟩

end

/-- Regular polygons are convex. -/
theorem circle_convex (xy : Pt ℝ) {r : ℝ} (hr : r ≠ 0) {n : Nat} (hn : 3 ≤ n) : OutlSpec.ConvexCorners (circleCoords (circleDir n) xy r n) := by
  refine ⟨by simp [circleCoords]; omega, ?_⟩
  intro a b c hs
  unfold circleCoords at hs
  obtain ⟨l, hl, he⟩ := List.sublist_map_iff.mp hs
  match l, he with
  | [i, j, k], he =>
    simp only [List.map_cons, List.map_nil, List.cons.injEq, and_true] at he
    obtain ⟨rfl, rfl, rfl⟩ := he
    have hp := List.pairwise_lt_range.sublist hl
    have hk : k < n := List.mem_range.mp (hl.subset (by simp))
    simp only [List.pairwise_cons, List.mem_cons, List.not_mem_nil, or_false, forall_eq_or_imp, forall_eq] at hp
    have hij : i < j := hp.1.1
    have hjk : j < k := hp.2.1
    have hn0 : (0 : ℝ) < n := by exact_mod_cast (by omega : 0 < n)
    have hpi := Real.pi_pos
    -- half of the angles between the directions
    set d : ℝ := Real.pi / n with hd
    have hdp : 0 < d := by positivity
    have sp : ∀ m : Nat, 0 < m → m < n → 0 < Real.sin (m * d) := by
      intro m h1 h2
      apply Real.sin_pos_of_pos_of_lt_pi
      · have : (0 : ℝ) < m := by exact_mod_cast h1
        positivity
      · rw [hd, ← mul_div_assoc, div_lt_iff₀ hn0]
        have : (m : ℝ) < n := by exact_mod_cast h2
        nlinarith
    have s1 := sp (j - i) (by omega) (by omega)
    have s2 := sp (k - j) (by omega) (by omega)
    have s3 := sp (k - i) (by omega) (by omega)
    rw [Nat.cast_sub hij.le] at s1
    rw [Nat.cast_sub hjk.le] at s2
    rw [Nat.cast_sub (by omega)] at s3
    have ang : ∀ m : Nat, (m : ℝ) * (2 * Real.pi / n) = 2 * (m * d) := by intro m; rw [hd]; ring
    have key : FUSpec.side ⟨xy.x + r * (circleDir n i).x, xy.y + r * (circleDir n i).y⟩ ⟨xy.x + r * (circleDir n j).x, xy.y + r * (circleDir n j).y⟩
        ⟨xy.x + r * (circleDir n k).x, xy.y + r * (circleDir n k).y⟩ =
        r ^ 2 * (4 * (Real.sin (((j : ℝ) - i) * d) * Real.sin (((k : ℝ) - j) * d) * Real.sin (((k : ℝ) - i) * d))) := by
      unfold FUSpec.side circleDir
      simp only [ang, Real.cos_two_mul', Real.sin_two_mul, sub_mul, Real.sin_sub]
      have hi := Real.sin_sq_add_cos_sq (i * d)
      have hj := Real.sin_sq_add_cos_sq (j * d)
      have hk := Real.sin_sq_add_cos_sq (k * d)
      generalize Real.sin (i * d) = si at hi ⊢
      generalize Real.cos (i * d) = ci at hi ⊢
      generalize Real.sin (j * d) = sj at hj ⊢
      generalize Real.cos (j * d) = cj at hj ⊢
      generalize Real.sin (k * d) = sk at hk ⊢
      generalize Real.cos (k * d) = ck at hk ⊢
      linear_combination (-(r ^ 2) * ((ci ^ 2 - si ^ 2) * (2 * sj * cj) - 2 * si * ci * (cj ^ 2 - sj ^ 2))) * hk -
        (r ^ 2 * ((cj ^ 2 - sj ^ 2) * (2 * sk * ck) - 2 * sj * cj * (ck ^ 2 - sk ^ 2))) * hi -
        (r ^ 2 * ((ck ^ 2 - sk ^ 2) * (2 * si * ci) - 2 * sk * ck * (ci ^ 2 - si ^ 2))) * hj
    change 0 < FUSpec.side _ _ _
    rw [key]
    have : 0 < r ^ 2 := by positivity
    positivity

end TQ.Sh

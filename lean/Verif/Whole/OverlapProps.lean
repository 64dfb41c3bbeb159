import Verif.Whole.OverlapModel
import Verif.Whole.Overlap
import Verif.FrontUpdate.Props

/-! # Elements that overlap are reported -/

set_option linter.unusedSectionVars false

namespace TQ
open TQ.FUSpec TQ.OutlSpec TQ.FU TQ.GeoSpec TQ.OvlSpec TQ.Outl TQ.MS TQ.Ovl
variable {K : Type*} [Field K] [LinearOrder K] [IsStrictOrderedRing K]

namespace Ovl

theorem left3 {eps : K} (he : 0 < eps) {p q r c : Pt K} {pts : List (Pt K)} (h : Clear eps pts) (hp : p ∈ pts) (hq : q ∈ pts) (hr : r ∈ pts) (hc : c ∈ pts) :
    inTriangle eps c p q r = true ↔ LeftOfAll (ring [p, q, r]) c := by
  unfold inTriangle isLeft LeftOfAll
  simp only [Bool.and_eq_true, beq_iff_eq, ring, path, List.mem_cons, List.not_mem_nil, or_false, forall_eq_or_imp, forall_eq, or_ccw he (h _ hp _ hq _ hc), or_ccw he (h _ hq _ hr _ hc),
    or_ccw he (h _ hr _ hp _ hc), and_assoc]
theorem left4 {eps : K} (he : 0 < eps) {p q r s c : Pt K} {pts : List (Pt K)} (h : Clear eps pts) (hp : p ∈ pts) (hq : q ∈ pts) (hr : r ∈ pts) (hs : s ∈ pts) (hc : c ∈ pts) :
    inQuad eps c p q r s = true ↔ LeftOfAll (ring [p, q, r, s]) c := by
  unfold inQuad isLeft LeftOfAll
  simp only [Bool.and_eq_true, beq_iff_eq, ring, path, List.mem_cons, List.not_mem_nil, or_false, forall_eq_or_imp, forall_eq, or_ccw he (h _ hp _ hq _ hc), or_ccw he (h _ hq _ hr _ hc),
    or_ccw he (h _ hr _ hs _ hc), or_ccw he (h _ hs _ hp _ hc), and_assoc]

theorem tt_iff (eps : K) (p q r a b c : Pt K) :
    triTriIntersection eps p q r a b c = true ↔ ∃ e ∈ ring [p, q, r], ∃ f ∈ ring [a, b, c], lineLineIntersection eps e.1 e.2 f.1 f.2 = true := by
  simp only [triTriIntersection, lineTriIntersection, ring, path, List.mem_cons, List.not_mem_nil, or_false, exists_eq_or_imp, exists_eq_left, Bool.or_eq_true, or_assoc]
theorem tq_iff (eps : K) (p q r a b c d : Pt K) :
    triQuadIntersection eps p q r a b c d = true ↔ ∃ e ∈ ring [p, q, r], ∃ f ∈ ring [a, b, c, d], lineLineIntersection eps e.1 e.2 f.1 f.2 = true := by
  simp only [triQuadIntersection, lineQuadIntersection, ring, path, List.mem_cons, List.not_mem_nil, or_false, exists_eq_or_imp, exists_eq_left, Bool.or_eq_true, or_assoc]
theorem qq_iff (eps : K) (p q r s a b c d : Pt K) :
    quadQuadIntersection eps p q r s a b c d = true ↔ ∃ e ∈ ring [p, q, r, s], ∃ f ∈ ring [a, b, c, d], lineLineIntersection eps e.1 e.2 f.1 f.2 = true := by
  simp only [quadQuadIntersection, lineQuadIntersection, ring, path, List.mem_cons, List.not_mem_nil, or_false, exists_eq_or_imp, exists_eq_left, Bool.or_eq_true, or_assoc]

theorem overlap_comm {A B : List (Pt K)} : Overlap A B ↔ Overlap B A := by unfold Overlap; simp only [and_comm]
theorem hanging_comm {A B : List (Pt K)} : Hanging A B ↔ Hanging B A := by unfold Hanging; rw [or_comm]
theorem adjoin_comm {A B : List (Pt K)} (h : Adjoin A B) : Adjoin B A := fun u hu hu' v hv hv' hn => (h u hu' hu v hv' hv hn).symm

/-- The corners of an element. -/
def pts (s : St K) (f : FRef) : List (Pt K) := (s.F f).corners.map s.pos

end Ovl

/-- The test of a new triangle against a triangle of the mesh reports exactly those that overlap it or have a corner
on a side. -/
theorem C179_triangles {eps : K} (he : 0 < eps) (s : St K) (tri t : Nat) (p q r : Pt K) (hne : t ≠ tri) (ha : (s.F (.tri t)).active = true) {a b c : Nat}
    (hc : (s.F (.tri t)).corners = [a, b, c]) (hT : ConvexCorners (pts s (.tri t))) (hN : ConvexCorners [p, q, r])
    (hcl : Clear eps (St.triCentroid p q r :: s.fCentroid (.tri t) :: ([p, q, r] ++ pts s (.tri t)))) :
    FU.hitsTri eps s tri p q r t = true ↔ Overlap (pts s (.tri t)) [p, q, r] ∨ Hanging (pts s (.tri t)) [p, q, r] := by
  have hp : pts s (.tri t) = [s.pos a, s.pos b, s.pos c] := by unfold pts; rw [hc]; rfl
  have hce : s.fCentroid (.tri t) = St.triCentroid (s.pos a) (s.pos b) (s.pos c) := by unfold St.fCentroid; rw [hc]
  unfold FU.hitsTri
  rw [if_neg hne, ha, hc, hce]
  rw [hp, hce] at hcl
  rw [hp] at hT ⊢
  simp only [Bool.not_true, Bool.false_eq_true, if_false, Bool.or_eq_true]
  rw [← reported_iff he hT hN (by simp) hcl (by simp) (by simp) (mean_tri _ _ _) (mean_tri _ _ _) (adjoin_tri rfl rfl), tt_iff,
    left3 he hcl (by simp) (by simp) (by simp) (by simp), left3 he hcl (by simp) (by simp) (by simp) (by simp), or_comm (a := LeftOfAll (ring [p, q, r]) _), or_comm (a := LeftOfAll (ring [s.pos a, _, _]) _)]

/-- An element of the mesh takes part in the tests unless it is inactive or the same. -/
theorem C179_skipped (eps : K) (s : St K) (tri t : Nat) (p q r : Pt K) (h : t = tri ∨ (s.F (.tri t)).active = false) : FU.hitsTri eps s tri p q r t = false := by
  unfold FU.hitsTri
  rcases h with h | h
  · rw [if_pos h]
  · rw [h]; simp

/-- A triangle that is accepted overlaps no triangle in the range of the tests, and has no hanging nodes with one. -/
theorem C179_accepted (env : FU.Env K) (he : 0 < env.eps) (s : St K) (t a b c : Nat) (hv : FU.triangleIsValid env s t a b c = true) (hN : ConvexCorners [s.pos a, s.pos b, s.pos c]) (t' : Nat)
    (hq : t' ∈ env.qTris s (St.triCentroid (s.pos a) (s.pos b) (s.pos c)) (cppMAX (2 * env.rho (St.triCentroid (s.pos a) (s.pos b) (s.pos c))) (FU.maxEdgeLength env (s.pos a) (s.pos b) (s.pos c))))
    (hne : t' ≠ t) (ha : (s.F (.tri t')).active = true) (h3 : (s.F (.tri t')).corners.length = 3) (hT : ConvexCorners (pts s (.tri t')))
    (hcl : Clear env.eps (St.triCentroid (s.pos a) (s.pos b) (s.pos c) :: s.fCentroid (.tri t') :: ([s.pos a, s.pos b, s.pos c] ++ pts s (.tri t')))) :
    ¬ Overlap (pts s (.tri t')) [s.pos a, s.pos b, s.pos c] ∧ ¬ Hanging (pts s (.tri t')) [s.pos a, s.pos b, s.pos c] := by
  rw [← not_or]
  obtain ⟨x, y, z, hc⟩ := List.length_eq_three.mp h3
  rw [← C179_triangles he s t t' _ _ _ hne ha hc hT hN hcl]
  intro hh
  unfold FU.triangleIsValid at hv
  simp only at hv
  split_ifs at hv with h1 h2 h3' h4 h5 h6 <;> first | exact absurd hv Bool.false_ne_true | exact h5 (List.any_eq_true.mpr ⟨t', hq, hh⟩)

/-- The test of a triangle against a quad of the mesh: exact if common corners are ends of common sides. -/
theorem C181_triangle_quad_partial {eps : K} (he : 0 < eps) (s : St K) (t : Nat) (p q r : Pt K) (ha : (s.F (.quad t)).active = true) {a b c d : Nat}
    (hc : (s.F (.quad t)).corners = [a, b, c, d]) (hT : ConvexCorners (pts s (.quad t))) (hN : ConvexCorners [p, q, r]) (hj : Adjoin [p, q, r] (pts s (.quad t)))
    (hcl : Clear eps (St.triCentroid p q r :: s.fCentroid (.quad t) :: ([p, q, r] ++ pts s (.quad t)))) :
    FU.hitsQuad eps s p q r t = true ↔ Overlap [p, q, r] (pts s (.quad t)) ∨ Hanging [p, q, r] (pts s (.quad t)) := by
  have hp : pts s (.quad t) = [s.pos a, s.pos b, s.pos c, s.pos d] := by unfold pts; rw [hc]; rfl
  have hce : s.fCentroid (.quad t) = St.quadCentroid (s.pos a) (s.pos b) (s.pos c) (s.pos d) := by unfold St.fCentroid; rw [hc]
  unfold FU.hitsQuad
  rw [ha, hc, hce]
  rw [hp, hce] at hcl
  rw [hp] at hT hj ⊢
  simp only [Bool.not_true, Bool.false_eq_true, if_false, Bool.or_eq_true]
  rw [← reported_iff he hN hT (by simp) hcl (by simp) (by simp) (mean_tri _ _ _) (mean_quad _ _ _ _) hj, tq_iff, left3 he hcl (by simp) (by simp) (by simp) (by simp),
    left4 he hcl (by simp) (by simp) (by simp) (by simp) (by simp), or_comm (a := LeftOfAll (ring [p, q, r]) _)]

/-- A triangle that is accepted overlaps no convex quad in the range of the tests, and has no hanging nodes with one,
if the corners of the quad are in the range too: the diagonals that the test against the quad misses are found by the
test against its corners. -/
theorem C180_accepted (env : FU.Env K) (he : 0 < env.eps) (s : St K) (t a b c : Nat) (hv : FU.triangleIsValid env s t a b c = true) (hN : ConvexCorners [s.pos a, s.pos b, s.pos c]) (t' : Nat)
    (hq : t' ∈ env.qQuads s (St.triCentroid (s.pos a) (s.pos b) (s.pos c)) (cppMAX (2 * env.rho (St.triCentroid (s.pos a) (s.pos b) (s.pos c))) (FU.maxEdgeLength env (s.pos a) (s.pos b) (s.pos c))))
    (hw : ∀ v ∈ (s.F (.quad t')).corners,
      v ∈ env.qVerts s (St.triCentroid (s.pos a) (s.pos b) (s.pos c)) (cppMAX (2 * env.rho (St.triCentroid (s.pos a) (s.pos b) (s.pos c))) (FU.maxEdgeLength env (s.pos a) (s.pos b) (s.pos c))))
    (ha : (s.F (.quad t')).active = true) (h4 : (s.F (.quad t')).corners.length = 4) (hT : ConvexCorners (pts s (.quad t')))
    (hcl : Clear env.eps (St.triCentroid (s.pos a) (s.pos b) (s.pos c) :: s.fCentroid (.quad t') :: ([s.pos a, s.pos b, s.pos c] ++ pts s (.quad t')))) :
    ¬ Overlap [s.pos a, s.pos b, s.pos c] (pts s (.quad t')) ∧ ¬ Hanging [s.pos a, s.pos b, s.pos c] (pts s (.quad t')) := by
  have hchk : (∀ v ∈ (s.F (.quad t')).corners, FU.hitsVertex env.eps s a b c v = false) ∧ FU.hitsQuad env.eps s (s.pos a) (s.pos b) (s.pos c) t' = false := by
    unfold FU.triangleIsValid at hv
    simp only at hv
    split_ifs at hv with h1 h2 h3' h4 h5 h6 h7 h8
    · refine ⟨fun v hv => ?_, ?_⟩
      · by_contra hh; rw [Bool.not_eq_false] at hh; exact h4 (List.any_eq_true.mpr ⟨v, hw v hv, hh⟩)
      · by_contra hh; rw [Bool.not_eq_false] at hh; exact h6 (List.any_eq_true.mpr ⟨t', hq, hh⟩)
  obtain ⟨hvt, hqt⟩ := hchk
  obtain ⟨x, y, z, w, hc⟩ : ∃ x y z w, (s.F (.quad t')).corners = [x, y, z, w] := by
    match h : (s.F (.quad t')).corners, h4 with
    | [x, y, z, w], _ => exact ⟨x, y, z, w, rfl⟩
  have hp : pts s (.quad t') = [s.pos x, s.pos y, s.pos z, s.pos w] := by unfold pts; rw [hc]; rfl
  have hce : s.fCentroid (.quad t') = St.quadCentroid (s.pos x) (s.pos y) (s.pos z) (s.pos w) := by unfold St.fCentroid; rw [hc]
  unfold FU.hitsQuad at hqt
  rw [ha, hc, hce] at hqt
  rw [hp, hce] at hcl
  rw [hp] at hT ⊢
  simp only [Bool.not_true, Bool.false_eq_true, if_false, Bool.or_eq_false_iff] at hqt
  simp only [← Bool.not_eq_true] at hqt
  rw [tq_iff, meets_iff he hN hT hcl (by simp) (by simp), left4 he hcl (by simp) (by simp) (by simp) (by simp) (by simp)] at hqt
  obtain ⟨k1, -, k3⟩ := hqt
  rw [not_or] at k1
  refine ⟨fun ho => k3 (mean_in hT hN (mean_tri _ _ _) (contained_tri hN rfl hT ?_ ho ⟨fun e h f k hx => k1.1 ⟨e, h, f, k, hx⟩, k1.2⟩)), k1.2⟩
  intro u hu hu' hcl'
  have hu2 : u ∈ (s.F (.quad t')).corners.map s.pos := by rw [hc]; exact hu
  obtain ⟨v, hv', rfl⟩ := List.mem_map.mp hu2
  have := hvt v hv'
  unfold FU.hitsVertex at this
  rw [if_neg (by rintro (rfl | rfl | rfl) <;> simp at hu')] at this
  have lo : ∀ {x y z : Pt K}, (side x y z * side x y z < env.eps → side x y z = 0) → ((!(orientation env.eps x y z == Orientation.CW)) = true ↔ 0 ≤ side x y z) := by
    intro x y z h
    rw [Bool.not_eq_true', beq_eq_false_iff_ne, Ne, or_cw he h, not_lt]
  have hm : s.pos v ∈ St.triCentroid (s.pos a) (s.pos b) (s.pos c) :: St.quadCentroid (s.pos x) (s.pos y) (s.pos z) (s.pos w) :: ([s.pos a, s.pos b, s.pos c] ++ [s.pos x, s.pos y, s.pos z, s.pos w]) := by
    rw [List.mem_cons, List.mem_cons, List.mem_append]; exact Or.inr (Or.inr (Or.inr hu))
  have k := fun p hp q hq => hcl p hp q hq (s.pos v) hm
  have : inOnTriangle env.eps (s.pos v) (s.pos a) (s.pos b) (s.pos c) = true := by
    unfold inOnTriangle isLefton
    rw [Bool.and_eq_true, Bool.and_eq_true, lo (k _ (by simp) _ (by simp)), lo (k _ (by simp) _ (by simp)), lo (k _ (by simp) _ (by simp))]
    exact ⟨⟨hcl' (s.pos a, s.pos b) (by simp [ring, path]), hcl' (s.pos b, s.pos c) (by simp [ring, path])⟩, hcl' (s.pos c, s.pos a) (by simp [ring, path])⟩
  simp_all

/-- The test of a quad against a triangle of the mesh. -/
theorem C181_quad_triangle_partial {eps : K} (he : 0 < eps) (s : St K) (t : Nat) (p q r w : Pt K) (ha : (s.F (.tri t)).active = true) {a b c : Nat}
    (hc : (s.F (.tri t)).corners = [a, b, c]) (hT : ConvexCorners (pts s (.tri t))) (hN : ConvexCorners [p, q, r, w]) (hj : Adjoin (pts s (.tri t)) [p, q, r, w])
    (hcl : Clear eps (St.quadCentroid p q r w :: s.fCentroid (.tri t) :: ([p, q, r, w] ++ pts s (.tri t)))) :
    QG.hitsTri eps s p q r w t = true ↔ Overlap (pts s (.tri t)) [p, q, r, w] ∨ Hanging (pts s (.tri t)) [p, q, r, w] := by
  have hp : pts s (.tri t) = [s.pos a, s.pos b, s.pos c] := by unfold pts; rw [hc]; rfl
  have hce : s.fCentroid (.tri t) = St.triCentroid (s.pos a) (s.pos b) (s.pos c) := by unfold St.fCentroid; rw [hc]
  unfold QG.hitsTri
  rw [ha, hc, hce]
  rw [hp, hce] at hcl
  rw [hp] at hT hj ⊢
  simp only [Bool.not_true, Bool.false_eq_true, if_false, Bool.or_eq_true]
  rw [← reported_iff he hT hN (by simp) hcl (by simp) (by simp) (mean_tri _ _ _) (mean_quad _ _ _ _) hj, tq_iff, left3 he hcl (by simp) (by simp) (by simp) (by simp),
    left4 he hcl (by simp) (by simp) (by simp) (by simp) (by simp), or_comm (a := LeftOfAll (ring [s.pos a, _, _]) _)]

/-- The test of a quad against another quad of the mesh. -/
theorem C181_quads_partial {eps : K} (he : 0 < eps) (s : St K) (quad t : Nat) (p q r w : Pt K) (hne : t ≠ quad) (ha : (s.F (.quad t)).active = true) {a b c d : Nat}
    (hc : (s.F (.quad t)).corners = [a, b, c, d]) (hT : ConvexCorners (pts s (.quad t))) (hN : ConvexCorners [p, q, r, w]) (hj : Adjoin [p, q, r, w] (pts s (.quad t)))
    (hcl : Clear eps (St.quadCentroid p q r w :: s.fCentroid (.quad t) :: ([p, q, r, w] ++ pts s (.quad t)))) :
    QG.hitsQuad eps s quad p q r w t = true ↔ Overlap [p, q, r, w] (pts s (.quad t)) ∨ Hanging [p, q, r, w] (pts s (.quad t)) := by
  have hp : pts s (.quad t) = [s.pos a, s.pos b, s.pos c, s.pos d] := by unfold pts; rw [hc]; rfl
  have hce : s.fCentroid (.quad t) = St.quadCentroid (s.pos a) (s.pos b) (s.pos c) (s.pos d) := by unfold St.fCentroid; rw [hc]
  unfold QG.hitsQuad
  rw [if_neg hne, ha, hc, hce]
  rw [hp, hce] at hcl
  rw [hp] at hT hj ⊢
  simp only [Bool.not_true, Bool.false_eq_true, if_false, Bool.or_eq_true]
  rw [← reported_iff he hN hT (by simp) hcl (by simp) (by simp) (mean_quad _ _ _ _) (mean_quad _ _ _ _) hj, qq_iff, left4 he hcl (by simp) (by simp) (by simp) (by simp) (by simp),
    left4 he hcl (by simp) (by simp) (by simp) (by simp) (by simp), or_comm (a := LeftOfAll (ring [p, q, r, w]) _)]

/-- The test of a quad against a vertex is exact. -/
theorem C181_vertex {eps : K} (he : 0 < eps) (s : St K) (a b c d v : Nat) (hcl : Clear eps (s.pos v :: [a, b, c, d].map s.pos)) :
    QG.hasVertex eps s a b c d v = true ↔ v ∉ [a, b, c, d] ∧ ∀ e ∈ ring ([a, b, c, d].map s.pos), 0 ≤ side e.1 e.2 (s.pos v) := by
  have lo : ∀ {x y z : Pt K}, (side x y z * side x y z < eps → side x y z = 0) → ((!(orientation eps x y z == Orientation.CW)) = true ↔ 0 ≤ side x y z) := by
    intro x y z h
    rw [Bool.not_eq_true', beq_eq_false_iff_ne, Ne, or_cw he h, not_lt]
  simp only [List.map_cons, List.map_nil] at hcl
  have k := fun (x y : Pt K) (hx : x ∈ s.pos v :: [s.pos a, s.pos b, s.pos c, s.pos d]) (hy : y ∈ s.pos v :: [s.pos a, s.pos b, s.pos c, s.pos d]) => hcl x hx y hy (s.pos v) (by simp)
  unfold QG.hasVertex
  by_cases h : v = a ∨ v = b ∨ v = c ∨ v = d
  · rw [if_pos h]
    constructor
    · intro h; cases h
    · intro h'; exact absurd (by simpa using h) h'.1
  · rw [if_neg h]
    unfold inOnQuad isLefton
    simp only [List.map_cons, List.map_nil, ring, path, List.mem_cons, List.not_mem_nil, or_false, forall_eq_or_imp, forall_eq, Bool.and_eq_true]
    rw [lo (k _ _ (by simp) (by simp)), lo (k _ _ (by simp) (by simp)), lo (k _ _ (by simp) (by simp)), lo (k _ _ (by simp) (by simp)), and_assoc, and_assoc]
    exact ⟨fun hh => ⟨h, hh⟩, fun hh => hh.2⟩

/-- A front edge that passes through the inside of a quad is reported by the test against the edge or by the test
against one of its ends, unless both ends are corners of the quad. -/
theorem C181_edge {eps : K} (he : 0 < eps) (s : St K) (a b c d e : Nat) (hQ : ConvexCorners ([a, b, c, d].map s.pos))
    (hcl : Clear eps (s.pos (s.E e).v1 :: s.pos (s.E e).v2 :: [a, b, c, d].map s.pos)) (t : K) (h0 : 0 ≤ t) (h1 : t ≤ 1)
    (hin : LeftOfAll (ring ([a, b, c, d].map s.pos)) (onSeg (s.pos (s.E e).v1) (s.pos (s.E e).v2) t)) (hno : (s.E e).v1 ∉ [a, b, c, d] ∨ (s.E e).v2 ∉ [a, b, c, d]) :
    QG.hitsEdge eps s (s.pos a) (s.pos b) (s.pos c) (s.pos d) e = true ∨ QG.hitsVertices eps s a b c d [(s.E e).v1, (s.E e).v2] = true := by
  set A := [a, b, c, d].map s.pos with hA
  set u := s.pos (s.E e).v1 with hu
  set v := s.pos (s.E e).v2 with hv
  have c1 : Clear eps (u :: A) := fun x hx y hy z hz => hcl x (by simp at hx ⊢; tauto) y (by simp at hy ⊢; tauto) z (by simp at hz ⊢; tauto)
  have c2 : Clear eps (v :: A) := fun x hx y hy z hz => hcl x (by simp at hx ⊢; tauto) y (by simp at hy ⊢; tauto) z (by simp at hz ⊢; tauto)
  have hedge : (∃ g ∈ ring A, lineLineIntersection eps u v g.1 g.2 = true) → QG.hitsEdge eps s (s.pos a) (s.pos b) (s.pos c) (s.pos d) e = true := by
    intro h
    simp only [hA, List.map_cons, List.map_nil, ring, path, List.mem_cons, List.not_mem_nil, or_false, exists_eq_or_imp, exists_eq_left] at h
    unfold QG.hitsEdge lineQuadIntersection
    simp only [Bool.or_eq_true, or_assoc]
    exact h
  have out : ∀ x y : Pt K, ((x, y) = (u, v) ∨ (x, y) = (v, u)) → x ≠ y → ∀ t, 0 ≤ t → t ≤ 1 → LeftOfAll (ring A) (onSeg x y t) → ¬ Cl A y → QG.hitsEdge eps s (s.pos a) (s.pos b) (s.pos c) (s.pos d) e = true := by
    intro x y hxy hne t h0 h1 hin hy
    apply hedge
    have h1 : t < 1 := lt_of_le_of_ne h1 fun h => by rw [h, onSeg_one'] at hin; exact hy hin.cl
    have huv : u ≠ v := by
      rcases hxy with h | h <;> (rw [Prod.mk.injEq] at h; obtain ⟨rfl, rfl⟩ := h)
      · exact hne
      · exact hne.symm
    have key : ∀ g ∈ ring A, _ := fun g hg => ll_iff (e := (u, v)) (f := g) he huv (convex_proper hQ g hg) hcl (by simp) (by simp) (by simp [(ring_mem hg).1]) (by simp [(ring_mem hg).2])
    rcases crosses hQ h0 h1 hin hy with ⟨g, hg, hc⟩ | ⟨w, hw, hb⟩
    · refine ⟨g, hg, (key g hg).mpr (Or.inl ?_)⟩
      have hc' : Cross g (u, v) := by
        rcases hxy with h | h <;> (rw [Prod.mk.injEq] at h; obtain ⟨rfl, rfl⟩ := h)
        · exact hc
        · exact Cross.swap hc
      exact ⟨hc'.2, hc'.1⟩
    · obtain ⟨z, hz⟩ := side_after hw
      refine ⟨_, hz, (key _ hz).mpr (Or.inr (Or.inl (Or.inl ?_)))⟩
      rcases hxy with h | h <;> (rw [Prod.mk.injEq] at h; obtain ⟨rfl, rfl⟩ := h)
      · exact hb
      · exact hb.swap
  have hverts : (((s.E e).v1 ∉ [a, b, c, d] ∧ Cl A u) ∨ ((s.E e).v2 ∉ [a, b, c, d] ∧ Cl A v)) → QG.hitsVertices eps s a b c d [(s.E e).v1, (s.E e).v2] = true := by
    intro h
    unfold QG.hitsVertices
    simp only [List.any_cons, List.any_nil, Bool.or_eq_true, Bool.false_eq_true, or_false]
    rcases h with h | h
    · exact Or.inl ((C181_vertex he s a b c d _ c1).mpr h)
    · exact Or.inr ((C181_vertex he s a b c d _ c2).mpr h)
  by_cases huv : u = v
  · right
    have : onSeg u v t = u := by rw [huv]; unfold onSeg; apply Pt.ext' <;> ring
    rw [this] at hin
    rcases hno with h | h
    · exact hverts (Or.inl ⟨h, hin.cl⟩)
    · exact hverts (Or.inr ⟨h, by rw [← huv]; exact hin.cl⟩)
  rcases hno with h | h
  · by_cases hc : Cl A u
    · exact Or.inr (hverts (Or.inl ⟨h, hc⟩))
    · exact Or.inl (out v u (Or.inr rfl) (Ne.symm huv) (1 - t) (by linarith) (by linarith) (by rw [onSeg_swap, sub_sub_cancel]; exact hin) hc)
  · by_cases hc : Cl A v
    · exact Or.inr (hverts (Or.inr ⟨h, hc⟩))
    · exact Or.inl (out u v (Or.inl rfl) huv t h0 h1 hin hc)

namespace OvlEx

/-- Seven vertices, two triangles and two quads. -/
def sh : St ℚ :=
  let s : St ℚ := (((((St.empty 0).addVertex ⟨-1, 0⟩).addVertex ⟨0, -1/10⟩).addVertex ⟨1, 0⟩).addVertex ⟨0, 2⟩)
  let s := ((s.addVertex ⟨0, -2⟩).addVertex ⟨0, 1/10⟩).addVertex ⟨1/3, 1⟩
  let s := ((s.addQuad 0 1 2 3 0).addTri 0 4 2 0).addTri 0 2 6 0
  ((s.activate (.quad 7)).activate (.tri 8)).activate (.tri 9)

theorem cv {p q r : Pt ℚ} (h : 0 < side p q r) : ConvexCorners [p, q, r] := by
  refine ⟨by simp, fun a b c hs => ?_⟩
  have := hs.eq_of_length (by simp)
  simp at this
  obtain ⟨rfl, rfl, rfl⟩ := this
  exact h

theorem cv4 {p q r s : Pt ℚ} (h1 : 0 < side p q r) (h2 : 0 < side p q s) (h3 : 0 < side p r s) (h4 : 0 < side q r s) : ConvexCorners [p, q, r, s] := by
  refine ⟨by simp, fun a b c hs => ?_⟩
  have hx : [a, b, c] ∈ [p, q, r, s].sublists := List.mem_sublists.mpr hs
  simp [List.sublists] at hx
  rcases hx with ⟨rfl, rfl, rfl⟩ | ⟨rfl, rfl, rfl⟩ | ⟨rfl, rfl, rfl⟩ | ⟨rfl, rfl, rfl⟩ <;> assumption

instance (eps : ℚ) (l : List (Pt ℚ)) : Decidable (Clear eps l) := inferInstanceAs (Decidable (∀ a ∈ l, ∀ b ∈ l, ∀ c ∈ l, side a b c * side a b c < eps → side a b c = 0))

end OvlEx

open OvlEx in
/-- A quad and a triangle that have two opposite corners of the quad in common can overlap without being reported. -/
theorem C181_triangle_quad_violated : ∃ (s : St ℚ) (t : Nat) (p q r : Pt ℚ), (s.F (.quad t)).active = true ∧ ConvexCorners (pts s (.quad t)) ∧ ConvexCorners [p, q, r] ∧
    Clear (1 / 1000) (St.triCentroid p q r :: s.fCentroid (.quad t) :: ([p, q, r] ++ pts s (.quad t))) ∧
    Overlap [p, q, r] (pts s (.quad t)) ∧ FU.hitsQuad (1 / 1000) s p q r t = false ∧ (s.F (.tri 8)).active = true ∧ pts s (.tri 8) = [p, q, r] ∧
    QG.hitsTri (1 / 1000) s ⟨-1, 0⟩ ⟨0, -1/10⟩ ⟨1, 0⟩ ⟨0, 2⟩ 8 = false := by
  refine ⟨sh, 7, ⟨-1, 0⟩, ⟨0, -2⟩, ⟨1, 0⟩, by decide +kernel, ?_, cv (by decide +kernel), by decide +kernel, ⟨⟨0, -1/20⟩, ?_⟩, by decide +kernel, by decide +kernel, by decide +kernel, by decide +kernel⟩
  · have : pts sh (.quad 7) = [⟨-1, 0⟩, ⟨0, -1/10⟩, ⟨1, 0⟩, ⟨0, 2⟩] := by decide +kernel
    rw [this]
    exact cv4 (by decide +kernel) (by decide +kernel) (by decide +kernel) (by decide +kernel)
  · constructor <;> (unfold LeftOfAll; decide +kernel)

open OvlEx in
/-- Two quads that have two opposite corners in common can overlap without being reported. -/
theorem C181_quads_violated : ∃ (s : St ℚ) (t : Nat) (p q r w : Pt ℚ), (s.F (.quad t)).active = true ∧ ConvexCorners (pts s (.quad t)) ∧ ConvexCorners [p, q, r, w] ∧
    Clear (1 / 1000) (St.quadCentroid p q r w :: s.fCentroid (.quad t) :: ([p, q, r, w] ++ pts s (.quad t))) ∧
    Overlap [p, q, r, w] (pts s (.quad t)) ∧ QG.hitsQuad (1 / 1000) s 20 p q r w t = false := by
  refine ⟨sh, 7, ⟨-1, 0⟩, ⟨0, -2⟩, ⟨1, 0⟩, ⟨0, 1/10⟩, by decide +kernel, ?_, cv4 (by decide +kernel) (by decide +kernel) (by decide +kernel) (by decide +kernel), by decide +kernel, ⟨⟨0, -1/20⟩, ?_⟩,
    by decide +kernel⟩
  · have : pts sh (.quad 7) = [⟨-1, 0⟩, ⟨0, -1/10⟩, ⟨1, 0⟩, ⟨0, 2⟩] := by decide +kernel
    rw [this]
    exact cv4 (by decide +kernel) (by decide +kernel) (by decide +kernel) (by decide +kernel)
  · constructor <;> (unfold LeftOfAll; decide +kernel)

namespace OvlEx

/-- The premises of the theorems hold for a triangle with a corner in the first triangle of the mesh … -/
example : FU.hitsTri (1 / 1000) sh 20 ⟨0, -1⟩ ⟨3, -1⟩ ⟨3, 1⟩ 8 = true ↔ Overlap (pts sh (.tri 8)) [⟨0, -1⟩, ⟨3, -1⟩, ⟨3, 1⟩] ∨ Hanging (pts sh (.tri 8)) [⟨0, -1⟩, ⟨3, -1⟩, ⟨3, 1⟩] :=
  C179_triangles (by norm_num) sh 20 8 _ _ _ (by decide) (by decide +kernel) (a := 0) (b := 4) (c := 2) (by decide +kernel)
    (by rw [show pts sh (.tri 8) = [⟨-1, 0⟩, ⟨0, -2⟩, ⟨1, 0⟩] by decide +kernel]; exact cv (by decide +kernel)) (cv (by decide +kernel)) (by decide +kernel)
example : FU.hitsTri (1 / 1000) sh 20 ⟨0, -1⟩ ⟨3, -1⟩ ⟨3, 1⟩ 8 = true := by decide +kernel
/-- … and for a triangle that has a side in common with it and is on the other side, which is not reported. -/
example : FU.hitsTri (1 / 1000) sh 20 ⟨1, 0⟩ ⟨0, -2⟩ ⟨3, 1⟩ 8 = false := by decide +kernel
example : ¬ Overlap (pts sh (.tri 8)) [⟨0, -2⟩, ⟨3, 1⟩, ⟨1, 0⟩] := by
  have h := C179_triangles (eps := 1 / 1000) (by norm_num) sh 20 8 ⟨0, -2⟩ ⟨3, 1⟩ ⟨1, 0⟩ (by decide) (by decide +kernel) (a := 0) (b := 4) (c := 2) (by decide +kernel)
    (by rw [show pts sh (.tri 8) = [⟨-1, 0⟩, ⟨0, -2⟩, ⟨1, 0⟩] by decide +kernel]; exact cv (by decide +kernel)) (cv (by decide +kernel)) (by decide +kernel)
  rw [show FU.hitsTri (1 / 1000) sh 20 ⟨0, -2⟩ ⟨3, 1⟩ ⟨1, 0⟩ 8 = false by decide +kernel] at h
  exact fun ho => Bool.false_ne_true (h.mpr (Or.inl ho))

/-- A triangle beside the first triangle of the mesh that is accepted. -/
def sa : St ℚ := (sh.addVertex ⟨3, 1⟩).addTri 4 10 2 0
example : ¬ Overlap (pts sa (.tri 8)) [sa.pos 4, sa.pos 10, sa.pos 2] ∧ ¬ Hanging (pts sa (.tri 8)) [sa.pos 4, sa.pos 10, sa.pos 2] :=
  C179_accepted FUEx.env (by decide +kernel) sa 11 4 10 2 (by decide +kernel) (cv (by decide +kernel)) 8 (by decide +kernel) (by decide) (by decide +kernel) (by decide +kernel)
    (by rw [show pts sa (.tri 8) = [⟨-1, 0⟩, ⟨0, -2⟩, ⟨1, 0⟩] by decide +kernel]; exact cv (by decide +kernel)) (by decide +kernel)

/-- A triangle beside the quad of the mesh that is accepted. -/
def sb : St ℚ := (sh.addVertex ⟨3, 1⟩).addTri 2 10 3 0
example : ¬ Overlap [sb.pos 2, sb.pos 10, sb.pos 3] (pts sb (.quad 7)) ∧ ¬ Hanging [sb.pos 2, sb.pos 10, sb.pos 3] (pts sb (.quad 7)) :=
  C180_accepted FUEx.env (by decide +kernel) sb 11 2 10 3 (by decide +kernel) (cv (by decide +kernel)) 7 (by decide +kernel) (by decide +kernel) (by decide +kernel) (by decide +kernel)
    (by rw [show pts sb (.quad 7) = [⟨-1, 0⟩, ⟨0, -1/10⟩, ⟨1, 0⟩, ⟨0, 2⟩] by decide +kernel]; exact cv4 (by decide +kernel) (by decide +kernel) (by decide +kernel) (by decide +kernel))
    (by decide +kernel)

/-- Quads beside the quad of the mesh and across it. -/
example : Adjoin [⟨1, 0⟩, ⟨2, 0⟩, ⟨1, 3⟩, ⟨0, 2⟩] (pts sh (.quad 7)) ∧ QG.hitsQuad (1 / 1000) sh 20 ⟨1, 0⟩ ⟨2, 0⟩ ⟨1, 3⟩ ⟨0, 2⟩ 7 = false ∧
    Clear (1 / 1000) (St.quadCentroid ⟨1, 0⟩ ⟨2, 0⟩ ⟨1, 3⟩ ⟨0, 2⟩ :: sh.fCentroid (.quad 7) :: ([⟨1, 0⟩, ⟨2, 0⟩, ⟨1, 3⟩, ⟨0, 2⟩] ++ pts sh (.quad 7))) ∧
    QG.hitsQuad (1 / 1000) sh 20 ⟨0, 0⟩ ⟨2, 0⟩ ⟨1, 3⟩ ⟨0, 3⟩ 7 = true ∧ Adjoin [⟨0, 0⟩, ⟨2, 0⟩, ⟨1, 3⟩, ⟨0, 3⟩] (pts sh (.quad 7)) := by
  refine ⟨?_, ?_, ?_, ?_, ?_⟩ <;> first | decide +kernel | (unfold Adjoin; decide +kernel)
/-- A triangle with a side of the quad and the quad with the other triangle of the mesh, which has a diagonal of it. -/
example : Adjoin [⟨1, 0⟩, ⟨2, 1⟩, ⟨0, 2⟩] (pts sh (.quad 7)) ∧ FU.hitsQuad (1 / 1000) sh ⟨1, 0⟩ ⟨2, 1⟩ ⟨0, 2⟩ 7 = false ∧ FU.hitsQuad (1 / 1000) sh ⟨1, 0⟩ ⟨2, 1⟩ ⟨0, 1⟩ 7 = true ∧
    QG.hitsTri (1 / 1000) sh ⟨1, 0⟩ ⟨2, 1⟩ ⟨1, 2⟩ ⟨1/3, 1⟩ 9 = false ∧ Adjoin (pts sh (.tri 9)) [⟨1, 0⟩, ⟨2, 1⟩, ⟨1, 2⟩, ⟨1/3, 1⟩] := by
  refine ⟨?_, ?_, ?_, ?_, ?_⟩ <;> first | decide +kernel | (unfold Adjoin; decide +kernel)
/-- A vertex in the quad, and an edge that comes from outside. -/
example : QG.hasVertex (1 / 1000) sh 0 1 2 3 6 = true ∧ QG.hasVertex (1 / 1000) sh 0 1 2 3 4 = false ∧ Clear (1 / 1000) (sh.pos 6 :: [0, 1, 2, 3].map sh.pos) := by
  refine ⟨?_, ?_, ?_⟩ <;> decide +kernel
example : ∃ s : St ℚ, (s.E 0).v1 = 4 ∧ (s.E 0).v2 = 6 ∧ QG.hitsEdge (1 / 1000) s (s.pos 0) (s.pos 1) (s.pos 2) (s.pos 3) 0 = true ∧
    LeftOfAll (ring ([0, 1, 2, 3].map s.pos)) (onSeg (s.pos 4) (s.pos 6) 1) ∧ Clear (1 / 1000) (s.pos 4 :: s.pos 6 :: [0, 1, 2, 3].map s.pos) :=
  ⟨{ sh with E := fun _ => ⟨4, 6, 0, 0, .intr, .null, .null, none⟩ }, rfl, rfl, by decide +kernel, by unfold LeftOfAll; decide +kernel, by decide +kernel⟩

end OvlEx

end TQ

#print axioms TQ.C179_triangles
#print axioms TQ.C179_skipped
#print axioms TQ.C179_accepted
#print axioms TQ.C181_triangle_quad_partial
#print axioms TQ.C180_accepted
#print axioms TQ.C181_quad_triangle_partial
#print axioms TQ.C181_quads_partial
#print axioms TQ.C181_vertex
#print axioms TQ.C181_edge
#print axioms TQ.C181_triangle_quad_violated
#print axioms TQ.C181_quads_violated

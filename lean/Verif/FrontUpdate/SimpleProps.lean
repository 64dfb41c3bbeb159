import Verif.FrontUpdate.SimpleRun
import Verif.FrontUpdate.Props

/-! # Properties C140-C142: meshing a simple front -/

set_option linter.unusedSectionVars false

namespace TQ
open MS MeshSpec FUSpec FU MS.St
variable {K : Type*} [Field K] [LinearOrder K] [IsStrictOrderedRing K]

/-! ### The unit square as example -/

theorem crossing_flat {p a b : Pt K} (h : a.y = b.y) : crossing p a b = 0 := by
  unfold crossing
  rw [if_neg (by unfold UpCross; rintro ⟨h1, h2, _⟩; rw [h] at h1; exact absurd h2 (not_lt.mpr h1)),
    if_neg (by unfold UpCross; rintro ⟨h1, h2, _⟩; rw [h] at h2; exact absurd h2 (not_lt.mpr h1))]
  rfl

theorem crossing_up {p a b : Pt K} (h : a.y < b.y) {P : Prop} [Decidable P] (hP : UpCross p a b ↔ P) :
    crossing p a b = if P then 1 else 0 := by
  unfold crossing
  rw [if_neg (c := UpCross p b a)
    (by unfold UpCross; rintro ⟨h1, h2, _⟩; exact absurd (lt_of_lt_of_le h h1) (not_lt.mpr h2.le)), sub_zero]
  by_cases hh : P
  · rw [if_pos hh, if_pos (hP.mpr hh)]
  · rw [if_neg hh, if_neg fun x => hh (hP.mp x)]

namespace FUEx

theorem norm_ok (p : Pt ℚ) : 0 ≤ env.norm p ∧ Pt.normSq p ≤ env.norm p * env.norm p := by
  constructor
  · exact add_nonneg (abs_nonneg _) (abs_nonneg _)
  · change p.x * p.x + p.y * p.y ≤ (|p.x| + |p.y|) * (|p.x| + |p.y|)
    have h1 := abs_mul_abs_self p.x
    have h2 := abs_mul_abs_self p.y
    have h3 := mul_nonneg (abs_nonneg p.x) (abs_nonneg p.y)
    linarith

theorem square_pairs : pairs square .front = [(0, 1), (1, 2), (2, 3), (3, 0)] := by decide +kernel
theorem square_pos : square.pos 0 = ⟨0, 0⟩ ∧ square.pos 1 = ⟨1, 0⟩ ∧ square.pos 2 = ⟨1, 1⟩ ∧ square.pos 3 = ⟨0, 1⟩ := by
  decide +kernel

theorem unit_simple {pos : Nat → Pt ℚ} (h : pos 0 = ⟨0, 0⟩ ∧ pos 1 = ⟨1, 0⟩ ∧ pos 2 = ⟨1, 1⟩ ∧ pos 3 = ⟨0, 1⟩) :
    SimpleFront pos [(0, 1), (1, 2), (2, 3), (3, 0)] := by
  obtain ⟨p0, p1, p2, p3⟩ := h
  refine ⟨?_, ?_, ?_, ?_⟩
  · intro v
    simp only [List.countP_cons, List.countP_nil]
    omega
  · intro e he
    simp only [List.mem_cons, List.not_mem_nil, or_false] at he
    rcases he with rfl | rfl | rfl | rfl <;> simp [p0, p1, p2, p3]
  · simp only [List.pairwise_cons, List.mem_cons, List.not_mem_nil, or_false, List.Pairwise.nil, and_true,
      forall_eq_or_imp, forall_eq, false_imp_iff, implies_true]
    simp only [Apart, OnClosed, p0, p1, p2, p3, GeoSpec.onSeg]
    refine ⟨⟨?_, ?_, ?_⟩, ⟨?_, ?_⟩, ?_⟩ <;>
    · rintro ⟨x, y⟩ ⟨t, t0, t1, ht⟩ ⟨u, u0, u1, hu⟩
      simp only [Pt.mk.injEq] at ht hu
      obtain ⟨h1, h2⟩ := ht
      obtain ⟨h3, h4⟩ := hu
      simp only [Pt.mk.injEq]
      constructor <;>
      first
      | (left; constructor <;> linarith)
      | (right; constructor <;> linarith)
  · rintro ⟨x, y⟩
    rw [winding_eq]
    have c1 : crossing (⟨x, y⟩ : Pt ℚ) ⟨0, 0⟩ ⟨1, 0⟩ = 0 := crossing_flat rfl
    have c3 : crossing (⟨x, y⟩ : Pt ℚ) ⟨1, 1⟩ ⟨0, 1⟩ = 0 := crossing_flat rfl
    have c2 : crossing (⟨x, y⟩ : Pt ℚ) ⟨1, 0⟩ ⟨1, 1⟩ = if 0 ≤ y ∧ y < 1 ∧ x < 1 then 1 else 0 :=
      crossing_up (by norm_num) (by
        unfold UpCross side
        exact ⟨fun h => ⟨h.1, h.2.1, by linarith [h.2.2]⟩, fun h => ⟨h.1, h.2.1, by linarith [h.2.2]⟩⟩)
    have c4 : crossing (⟨x, y⟩ : Pt ℚ) ⟨0, 1⟩ ⟨0, 0⟩ = - if 0 ≤ y ∧ y < 1 ∧ x < 0 then 1 else 0 := by
      rw [crossing_anti, crossing_up (P := 0 ≤ y ∧ y < 1 ∧ x < 0) (by norm_num) (by
        unfold UpCross side
        exact ⟨fun h => ⟨h.1, h.2.1, by linarith [h.2.2]⟩, fun h => ⟨h.1, h.2.1, by linarith [h.2.2]⟩⟩)]
    simp only [List.map_cons, List.map_nil, p0, p1, p2, p3, List.sum_cons, List.sum_nil, c1, c2, c3, c4]
    split_ifs with h1 h2 h2
    · left; rfl
    · right; rfl
    · exact absurd ⟨h2.1, h2.2.1, by linarith [h2.2.2]⟩ h1
    · left; rfl

theorem square_simple : SimpleFront square.pos (pairs square .front) := by
  rw [square_pairs]; exact unit_simple square_pos

theorem resolved2 : Resolved env.eps square2 := by unfold Resolved; decide +kernel

theorem reach2 : AllReach env square2.pos log := by
  intro e he
  simp only [log, List.mem_cons, List.not_mem_nil, or_false] at he
  rcases he with rfl | rfl
  · intro f hf hx
    clear hx
    revert f
    unfold Near; decide +kernel
  · intro f hf hx
    clear hx
    revert f
    unfold Near; decide +kernel

/-- The same environment with the constant size 3/2. -/
def env32 : Env ℚ := { env with rho := fun _ => 3 / 2 }

/-- A rectangle with a thin hole: outer vertices 0-5, hole 6-9, front edges 10-19; base edge 11 from (0, 0)
to (1, 0), the hole runs across the triangle above it. -/
def holed : St ℚ :=
  let s := fv (fv (fv (fv (fv (fv (St.empty 1) (-30) 0) 0 0) 1 0) 60 0) 60 10) (-30) 10
  let s := fv (fv (fv (fv s (-20) (1/5)) (-20) (1/4)) 50 (1/4)) 50 (1/5)
  let s := fe (fe (fe (fe (fe (fe s 0 1) 1 2) 2 3) 3 4) 4 5) 5 0
  fe (fe (fe (fe s 6 7) 7 8) 8 9) 9 6

theorem wf_holed : WF holed := by
  unfold holed fe
  refine wf_addEdge (wf_addEdge (wf_addEdge (wf_addEdge (wf_addEdge (wf_addEdge (wf_addEdge (wf_addEdge (wf_addEdge (wf_addEdge
    (wf_fv (wf_fv (wf_fv (wf_fv (wf_fv (wf_fv (wf_fv (wf_fv (wf_fv (wf_fv (wf_empty 1) _ _) _ _) _ _) _ _) _ _) _ _) _ _) _ _) _ _) _ _)
    _ _ _ ?_ ?_ ?_) _ _ _ ?_ ?_ ?_) _ _ _ ?_ ?_ ?_) _ _ _ ?_ ?_ ?_) _ _ _ ?_ ?_ ?_) _ _ _ ?_ ?_ ?_) _ _ _ ?_ ?_ ?_)
    _ _ _ ?_ ?_ ?_) _ _ _ ?_ ?_ ?_) _ _ _ ?_ ?_ ?_ <;> decide +kernel

end FUEx

/-! ### C140: the front stays simple -/

/-- **C140.** From a simple front, in every history in which the tolerance is below the resolution of the mesh
and the ranges of the checks were large enough: the side edges of every new triangle ran along the front, and
the front is simple again. -/
theorem C140_stays_simple {env : Env K} (he : 0 < env.eps) (hq : QueryExact env) (hs : SortOK env)
    (hn : ∀ p, 0 ≤ env.norm p ∧ Pt.normSq p ≤ env.norm p * env.norm p) {s0 : St K} (h0 : WF s0)
    (hsim : SimpleFront s0.pos (pairs s0 .front)) {log : List Entry} {s : St K} (hr : Run env s0 log s)
    (hres : Resolved env.eps s) (hreach : AllReach env s.pos log) :
    AllOriented log ∧ SimpleFront s.pos (pairs s .front) :=
  (run_simple he (queryExact_live hq) hs h0 hsim hr).2 ((run_free he hq hs hn h0 hr).2.2 hres hreach)

/-- **C140.** Every new triangle meets the front of its time only in shared edges and in corners. -/
theorem C140_new_triangles_free {env : Env K} (he : 0 < env.eps) (hq : QueryExact env) (hs : SortOK env)
    (hn : ∀ p, 0 ≤ env.norm p ∧ Pt.normSq p ≤ env.norm p * env.norm p) {s0 : St K} (h0 : WF s0)
    {log : List Entry} {s : St K} (hr : Run env s0 log s)
    (hres : Resolved env.eps s) (hreach : AllReach env s.pos log) : AllFree s.pos log :=
  (run_free he hq hs hn h0 hr).2.2 hres hreach

example : AllOriented FUEx.log ∧ SimpleFront FUEx.square2.pos (pairs FUEx.square2 .front) :=
  C140_stays_simple FUEx.epsPos FUEx.exact FUEx.sortOK FUEx.norm_ok FUEx.wf_square FUEx.square_simple FUEx.run2
    FUEx.resolved2 FUEx.reach2

theorem normSq_add_le {p q : Pt K} {A B : K} (hA : 0 ≤ A) (hB : 0 ≤ B) (h1 : Pt.normSq p ≤ A * A) (h2 : Pt.normSq q ≤ B * B) :
    Pt.normSq (p + q) ≤ (A + B) * (A + B) := by
  unfold Pt.normSq at *
  have hc : p.x * q.x + p.y * q.y ≤ A * B := by
    by_contra hcon
    push Not at hcon
    have hAB := mul_nonneg hA hB
    have k1 : (A * B) * (A * B) < (p.x * q.x + p.y * q.y) * (p.x * q.x + p.y * q.y) := mul_self_lt_mul_self hAB hcon
    have k2 : (p.x * p.x + p.y * p.y) * (q.x * q.x + q.y * q.y) ≤ (A * A) * (B * B) :=
      mul_le_mul h1 h2 (add_nonneg (mul_self_nonneg _) (mul_self_nonneg _)) (mul_self_nonneg _)
    nlinarith [sq_nonneg (p.x * q.y - p.y * q.x)]
  have ex : (p + q).x = p.x + q.x := rfl
  have ey : (p + q).y = p.y + q.y := rfl
  rw [ex, ey]
  nlinarith

/-- **C140.** The range of the checks of a new triangle is large enough if its sides and the front edges that
meet it are at most 4/3 of the value of the size function at its centroid. -/
theorem C140_reach_of_size {env : Env K} (hn : ∀ p, 0 ≤ env.norm p ∧ Pt.normSq p ≤ env.norm p * env.norm p)
    {pos : Nat → Pt K} {es : List (Nat × Nat)} {b1 b2 v : Nat} (hA : 0 < side (pos b1) (pos b2) (pos v))
    (hpos : 0 < env.rho (triCentroid (pos b1) (pos b2) (pos v)))
    (h1 : env.norm (pos b2 - pos b1) ≤ 4 / 3 * env.rho (triCentroid (pos b1) (pos b2) (pos v)))
    (h2 : env.norm (pos v - pos b2) ≤ 4 / 3 * env.rho (triCentroid (pos b1) (pos b2) (pos v)))
    (h3 : env.norm (pos b1 - pos v) ≤ 4 / 3 * env.rho (triCentroid (pos b1) (pos b2) (pos v)))
    (he : ∀ e ∈ es, (∃ x, OnClosed (pos e.1) (pos e.2) x ∧ InClosed x (pos b1) (pos b2) (pos v)) →
      env.norm (pos e.2 - pos e.1) ≤ 4 / 3 * env.rho (triCentroid (pos b1) (pos b2) (pos v))) :
    Reach env pos es b1 b2 v := by
  intro e hem hmeet
  have hE := he e hem hmeet
  obtain ⟨x, ⟨t, t0, t1, rfl⟩, i1, i2, i3⟩ := hmeet
  unfold Near
  generalize hr : env.rho (triCentroid (pos b1) (pos b2) (pos v)) = r at *
  have hle : ∀ p, env.norm p ≤ 4 / 3 * r → Pt.normSq p ≤ (4 / 3 * r) * (4 / 3 * r) := by
    intro p hp
    exact le_trans (hn p).2 (mul_self_le_mul_self (hn p).1 hp)
  have hM : 0 < 4 / 3 * r := by linarith
  have hin := inside_near hA i1 i2 i3 hM (hle _ h1) (hle _ h2) (hle _ h3)
  have hlen := hle _ hE
  have hR : 2 * r ≤ checkRange env (pos b1) (pos b2) (pos v) := by
    unfold checkRange; rw [hr]; exact le_max_left _ _
  refine lt_of_lt_of_le ?_ (mul_self_le_mul_self (by linarith) hR)
  generalize pos e.1 = p at *
  generalize pos e.2 = q at *
  generalize triCentroid (pos b1) (pos b2) (pos v) = c at *
  -- the midpoint is within 2/3 r of the common point, the common point within 4/3 r of the centroid
  have hm : Pt.normSq (Pt.smul (1 / 2) (p + q) - GeoSpec.onSeg p q t) ≤ (2 / 3 * r) * (2 / 3 * r) := by
    have : Pt.normSq (Pt.smul (1 / 2) (p + q) - GeoSpec.onSeg p q t) = (1 / 2 - t) * (1 / 2 - t) * Pt.normSq (q - p) := by
      simp only [Pt.normSq, Pt.sub_x, Pt.sub_y, Pt.smul, GeoSpec.onSeg, Pt.add_x, Pt.add_y]; ring
    rw [this]
    have k : (1 / 2 - t) * (1 / 2 - t) ≤ 1 / 4 := by nlinarith
    have k2 : (0 : K) ≤ Pt.normSq (q - p) := add_nonneg (mul_self_nonneg _) (mul_self_nonneg _)
    nlinarith [mul_le_mul_of_nonneg_right k k2]
  by_contra hcon
  push Not at hcon
  -- strictness
  generalize GeoSpec.onSeg p q t = x at *
  generalize Pt.smul (1 / 2) (p + q) = m at *
  have e1 : m - c = (m - x) + (x - c) := by
    apply Pt.ext' <;> simp
  rw [e1] at hcon
  have key : Pt.normSq ((m - x) + (x - c)) < (2 * r) * (2 * r) := by
    have c1 := hm
    have c2 := hin
    generalize m - x = u at *
    generalize x - c = w at *
    unfold Pt.normSq at *
    have ex : (u + w).x = u.x + w.x := rfl
    have ey : (u + w).y = u.y + w.y := rfl
    rw [ex, ey]
    -- (u + w)² ≤ 3 u² + 3/2 w²
    nlinarith [sq_nonneg (2 * u.x - w.x), sq_nonneg (2 * u.y - w.y)]
  exact absurd key (not_lt.mpr hcon)

/-- The second triangle of the square: all sides and the front edges are at most 4/3 of the size `3/2`. -/
example : Reach FUEx.env32 FUEx.square2.pos [(2, 3), (3, 0), (0, 2)] 0 2 3 :=
  C140_reach_of_size (env := FUEx.env32) (fun p => FUEx.norm_ok p) (by decide +kernel) (by decide +kernel) (by decide +kernel)
    (by decide +kernel) (by decide +kernel) (fun e he hx => by clear hx; revert e; decide +kernel)

/-- **C140.** The hypothesis on the ranges cannot be dropped: the checks look at front edges whose midpoint is
near, so a triangle is accepted although long front edges (of a thin hole) run across it. -/
theorem C140_long_edges_violated : WF FUEx.holed ∧ (11 : Nat) ∈ FUEx.holed.es .front ∧ (7, 8) ∈ pairs FUEx.holed .front ∧
    ∃ s' t, updateFront FUEx.env FUEx.holed 11 ⟨1/2, 3/4⟩ ⟨1/2, 3/4⟩ 2 = (s', some t) ∧
      ∃ v, (s'.F (.tri t)).corners = [1, 2, v] ∧ ∃ x, OnClosed (s'.pos 7) (s'.pos 8) x ∧
        StrictlyIn x (s'.pos 1) (s'.pos 2) (s'.pos v) := by
  refine ⟨FUEx.wf_holed, by decide +kernel, by decide +kernel, (updateFront FUEx.env FUEx.holed 11 ⟨1/2, 3/4⟩ ⟨1/2, 3/4⟩ 2).1,
    21, FUEx.pair_eq (by decide +kernel), 20, by decide +kernel, ⟨1/2, 1/4⟩, ⟨41/140, by norm_num, by norm_num, ?_⟩, by decide +kernel⟩
  decide +kernel

/-! ### C141: new triangles stay in the region and do not overlap -/

/-- **C141.** In every reachable state every point (on no line through a side of a triangle) lies in at most
one triangle; if it lies in one then it lies in the initial region and no longer in the region bounded by the
remaining front. -/
theorem C141_no_overlap {env : Env K} (he : 0 < env.eps) (hq : QueryExact env) (hs : SortOK env)
    (hn : ∀ p, 0 ≤ env.norm p ∧ Pt.normSq p ≤ env.norm p * env.norm p) {s0 : St K} (h0 : WF s0) (ht : s0.tris = [])
    (hsim : SimpleFront s0.pos (pairs s0 .front)) {log : List Entry} {s : St K} (hr : Run env s0 log s)
    (hres : Resolved env.eps s) (hreach : AllReach env s.pos log) {p : Pt K} (hg : Generic s p) :
    s.tris.countP (Covers s p) ≤ 1 ∧
    (s.tris.countP (Covers s p) = 1 → winding s0.pos (pairs s0 .front) p = 1 ∧ winding s.pos (pairs s .front) p = 0) ∧
    (winding s0.pos (pairs s0 .front) p = 1 → s.tris.countP (Covers s p) = 1 ∨ winding s.pos (pairs s .front) p = 1) := by
  obtain ⟨ho, hsi⟩ := C140_stays_simple he hq hs hn h0 hsim hr hres hreach
  have hc := C90_cover he (queryExact_live hq) hs h0 ht hr ho hg
  have w0 := hsim.once p
  have w1 := hsi.once p
  omega

example : FUEx.square1.tris.countP (Covers FUEx.square1 ⟨1/2, 1/4⟩) = 1 ∧
    winding FUEx.square1.pos (pairs FUEx.square1 .front) ⟨1/2, 1/4⟩ = 0 ∧
    FUEx.square1.tris.countP (Covers FUEx.square1 ⟨1/4, 1/2⟩) = 0 ∧
    winding FUEx.square1.pos (pairs FUEx.square1 .front) ⟨1/4, 1/2⟩ = 1 := by decide +kernel

example : FUEx.square2.tris.countP (Covers FUEx.square2 ⟨1/4, 1/2⟩) ≤ 1 :=
  (C141_no_overlap FUEx.epsPos FUEx.exact FUEx.sortOK FUEx.norm_ok FUEx.wf_square (by decide +kernel) FUEx.square_simple
    FUEx.run2 FUEx.resolved2 FUEx.reach2 (by unfold Generic; decide +kernel)).1

/-! ### C142: a complete run tiles the region -/

/-- **C142.** When a simple front has been used up: the mesh area has grown by the area the front enclosed,
the boundary of the triangles is the initial front, every point of the region (on no line through a side)
lies in exactly one triangle and no other point lies in one. -/
theorem C142_complete {env : Env K} (he : 0 < env.eps) (hq : QueryExact env) (hs : SortOK env)
    (hn : ∀ p, 0 ≤ env.norm p ∧ Pt.normSq p ≤ env.norm p * env.norm p) {s0 : St K} (h0 : WF s0) (ht : s0.tris = [])
    (hsim : SimpleFront s0.pos (pairs s0 .front)) {log : List Entry} {s : St K} (hr : Run env s0 log s)
    (hres : Resolved env.eps s) (hreach : AllReach env s.pos log) (hf : s.es .front = []) :
    s.area = s0.area + enclosed s0.pos (pairs s0 .front) ∧
    (∀ a b, chain (sides s) a b = chain (pairs s0 .front) a b) ∧
    ∀ p, Generic s p → s.tris.countP (Covers s p) = if winding s0.pos (pairs s0 .front) p = 1 then 1 else 0 := by
  have ho := (C140_stays_simple he hq hs hn h0 hsim hr hres hreach).1
  obtain ⟨e1, e2⟩ := C35_complete he (queryExact_live hq) hs h0 ht hr ho hf
  refine ⟨e1, e2, fun p hg => ?_⟩
  have := C90_tiling he (queryExact_live hq) hs h0 ht hr ho hf hg
  rcases hsim.once p with h | h
  · rw [if_neg (by rw [h]; decide)]; omega
  · rw [if_pos h]; omega

/-- **C142.** In every reachable state area is conserved: mesh area plus enclosed area of the front. -/
theorem C142_area_conserved {env : Env K} (he : 0 < env.eps) (hq : QueryExact env) (hs : SortOK env)
    (hn : ∀ p, 0 ≤ env.norm p ∧ Pt.normSq p ≤ env.norm p * env.norm p) {s0 : St K} (h0 : WF s0)
    (hsim : SimpleFront s0.pos (pairs s0 .front)) {log : List Entry} {s : St K} (hr : Run env s0 log s)
    (hres : Resolved env.eps s) (hreach : AllReach env s.pos log) :
    s.area + enclosed s.pos (pairs s .front) = s0.area + enclosed s0.pos (pairs s0 .front) :=
  C34_area_conserved he (queryExact_live hq) hs h0 hr (C140_stays_simple he hq hs hn h0 hsim hr hres hreach).1

example : FUEx.square2.area = FUEx.square.area + enclosed FUEx.square.pos (pairs FUEx.square .front) :=
  (C142_complete FUEx.epsPos FUEx.exact FUEx.sortOK FUEx.norm_ok FUEx.wf_square (by decide +kernel) FUEx.square_simple
    FUEx.run2 FUEx.resolved2 FUEx.reach2 (by decide +kernel)).1

/-- The square is tiled. -/
example : FUEx.square2.tris.countP (Covers FUEx.square2 ⟨1/4, 1/2⟩) = 1 := by
  have := (C142_complete FUEx.epsPos FUEx.exact FUEx.sortOK FUEx.norm_ok FUEx.wf_square (by decide +kernel) FUEx.square_simple
    FUEx.run2 FUEx.resolved2 FUEx.reach2 (by decide +kernel)).2.2 ⟨1/4, 1/2⟩ (by unfold Generic; decide +kernel)
  rw [this]
  decide +kernel

end TQ

#print axioms TQ.C140_stays_simple
#print axioms TQ.C140_new_triangles_free
#print axioms TQ.C140_reach_of_size
#print axioms TQ.C140_long_edges_violated
#print axioms TQ.C141_no_overlap
#print axioms TQ.C142_complete
#print axioms TQ.C142_area_conserved

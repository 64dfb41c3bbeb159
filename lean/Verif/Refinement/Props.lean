import Verif.Refinement.Geom
import Verif.Cleanup.DegreeProps

/-!
# Properties C56, C57: refinement

C56: counts, Euler characteristic, colours and markers, conformity of the refined mesh, any number of times.
C57: areas and shapes of the sub quads.
-/

set_option linter.unusedSectionVars false
set_option linter.unusedSimpArgs false

namespace TQ
open TQ.MS TQ.MeshSpec TQ.MCSpec TQ.RefSpec MS.St
variable {K : Type*} [Field K] [LinearOrder K] [IsStrictOrderedRing K]

/-- A proper mesh without interfaces is refined (no undefined behaviour): edges are halved, every element is
replaced by one quad per corner, which inherits its colour; halves of boundary edges inherit the marker. The
result is again consistent and proper, and conforming if the mesh was. -/
theorem C56_refine {s : St K} (h : Proper s) (ht : NoTwins s) :
    ∃ t N, s.refine = some (t, true) ∧ Refined s t N ∧ Proper t ∧ NoTwins t ∧ (Conforming s → Conforming t) := by
  obtain ⟨t, N, h1, h2, h3, h4, h5, h6⟩ := refine_spec h.wf h.sides ht
  have R : Ref s t N := ⟨h, h2, h3, h4, h5, h6⟩
  refine ⟨t, N, h1, h2, R.proper, ?_, fun hc => R.conforming hc.unique hc.intrFull hc.bdryFull⟩
  intro x hx
  rw [h2.bdry] at hx
  obtain ⟨e, he, hxe⟩ := List.mem_flatMap.mp hx
  exact (h2.markers e he x hxe).2.2

theorem sum_nc {s : St K} (h : WF s) :
    ((facets s).map fun f => (s.F f).corners.length).sum = 3 * s.tris.length + 4 * s.quads.length := by
  have h1 : ∀ l : List Nat, (∀ x ∈ l, x ∈ s.tris) → ((l.map FRef.tri).map fun f => (s.F f).corners.length).sum = 3 * l.length := by
    intro l
    induction l with
    | nil => intro _; rfl
    | cons x l ih =>
      intro hl
      simp only [List.map_cons, List.sum_cons, List.length_cons]
      rw [ih fun y hy => hl y (List.mem_cons_of_mem _ hy), h.tcor x (hl x (List.mem_cons_self ..))]; ring
  have h2 : ∀ l : List Nat, (∀ x ∈ l, x ∈ s.quads) → ((l.map FRef.quad).map fun f => (s.F f).corners.length).sum = 4 * l.length := by
    intro l
    induction l with
    | nil => intro _; rfl
    | cons x l ih =>
      intro hl
      simp only [List.map_cons, List.sum_cons, List.length_cons]
      rw [ih fun y hy => hl y (List.mem_cons_of_mem _ hy), h.qcor x (hl x (List.mem_cons_self ..))]; ring
  unfold facets
  rw [List.map_append, List.sum_append, h1 _ fun _ hx => hx, h2 _ fun _ hx => hx]

/-- The numbers of vertices, edges and elements after a refinement; vertices - edges + elements is unchanged. -/
theorem C56_counts {s t : St K} (h : Proper s) (ht : NoTwins s) (hr : s.refine = some (t, true)) :
    t.tris.length = 0 ∧ t.quads.length = 3 * s.tris.length + 4 * s.quads.length ∧
    t.verts.length = s.verts.length + (s.es .intr).length + (s.es .bdry).length + s.tris.length + s.quads.length ∧
    (t.es .intr).length = 2 * (s.es .intr).length + 3 * s.tris.length + 4 * s.quads.length ∧
    (t.es .bdry).length = 2 * (s.es .bdry).length ∧ euler t = euler s := by
  obtain ⟨t', N, h1, h2, _⟩ := C56_refine h ht
  rw [hr] at h1
  obtain rfl : t = t' := by simpa using h1
  have hs := sum_nc h.wf
  have n1 : t.tris.length = 0 := by rw [h2.tris]; rfl
  have n2 : t.quads.length = 3 * s.tris.length + 4 * s.quads.length := by
    rw [h2.quads, List.length_flatMap]; simpa using hs
  have n3 : t.verts.length = s.verts.length + (s.es .intr).length + (s.es .bdry).length + s.tris.length + s.quads.length := by
    rw [h2.verts]; simp [facets]; omega
  have n4 : (t.es .intr).length = 2 * (s.es .intr).length + 3 * s.tris.length + 4 * s.quads.length := by
    rw [h2.intr, List.length_append, List.length_flatMap, List.length_flatMap]
    have : ((s.es .intr).map fun e => [(N.half e).1, (N.half e).2].length).sum = 2 * (s.es .intr).length := by
      simp [Nat.mul_comm]
    rw [this]
    have h3 : ((facets s).map fun f => ((List.range (s.F f).corners.length).map (N.spoke f)).length).sum =
        3 * s.tris.length + 4 * s.quads.length := by simpa using hs
    rw [h3]; omega
  have n5 : (t.es .bdry).length = 2 * (s.es .bdry).length := by
    rw [h2.bdry, List.length_flatMap]; simp [Nat.mul_comm]
  refine ⟨n1, n2, n3, n4, n5, ?_⟩
  unfold euler
  rw [n1, n2, n3, n4, n5]
  push_cast
  ring

/-- A mesh with an interface edge is refused and not changed. -/
theorem C56_refused {s : St K} (h : ¬ NoTwins s) : s.refine = some (s, false) := by
  unfold refine
  rw [if_pos]
  unfold NoTwins at h
  push Not at h
  obtain ⟨e, he, hh⟩ := h
  rw [List.any_eq_true]
  exact ⟨e, he, Option.isSome_iff_ne_none.mpr hh⟩

/-- Any number of refinements: all succeed, the mesh stays conforming. -/
theorem C56_iterate {s : St K} (h : Conforming s) (ht : NoTwins s) (n : Nat) :
    ∃ t, RefinedBy n s t ∧ Conforming t ∧ NoTwins t := by
  induction n with
  | zero => exact ⟨s, .zero s, h, ht⟩
  | succ n ih =>
    obtain ⟨t, h1, h2, h3⟩ := ih
    obtain ⟨u, N, g1, _, _, g4, g5⟩ := C56_refine h2.toProper h3
    exact ⟨u, h1.succ g1, g5 h2, g4⟩

theorem refinedBy_proper {n : Nat} {s t : St K} (hr : RefinedBy n s t) : Proper s → NoTwins s → Proper t ∧ NoTwins t := by
  induction hr with
  | zero => intro h ht; exact ⟨h, ht⟩
  | succ hr hs ih =>
    intro h ht
    obtain ⟨k1, k2⟩ := ih h ht
    obtain ⟨u, N, g1, _, g3, g4, _⟩ := C56_refine k1 k2
    rw [hs] at g1
    obtain rfl := (by simpa using g1 : _ = u)
    exact ⟨g3, g4⟩

/-- The numbers after `n + 1` refinements: `4^n (3T + 4Q)` quads, `2^(n+1)` times as many boundary edges, the same
Euler characteristic. -/
theorem C56_iterate_counts {s t : St K} {n : Nat} (h : Proper s) (ht : NoTwins s) (hr : RefinedBy (n + 1) s t) :
    t.tris = [] ∧ t.quads.length = 4 ^ n * (3 * s.tris.length + 4 * s.quads.length) ∧
    (t.es .bdry).length = 2 ^ (n + 1) * (s.es .bdry).length ∧ euler t = euler s := by
  induction n generalizing t with
  | zero =>
    cases hr with
    | succ h0 h1 =>
      cases h0
      obtain ⟨c1, c2, _, _, c5, c6⟩ := C56_counts h ht h1
      exact ⟨List.length_eq_zero_iff.mp c1, by rw [c2]; ring, by rw [c5]; ring, c6⟩
  | succ n ih =>
    cases hr with
    | succ h0 h1 =>
      obtain ⟨i1, i2, i3, i4⟩ := ih h0
      obtain ⟨k1, k2⟩ := refinedBy_proper h0 h ht
      obtain ⟨c1, c2, _, _, c5, c6⟩ := C56_counts k1 k2 h1
      refine ⟨List.length_eq_zero_iff.mp c1, ?_, ?_, c6.trans i4⟩
      · rw [c2, i1, i2]; simp; ring
      · rw [c5, i3]; ring

/-! ### C57 -/

/-- Positions of the corners of a sub quad. -/
theorem sub_quad_area {s t : St K} {N : Names} (h2 : Refined s t N) {f : FRef} (hf : Live s f)
    {i : Nat} {p : Nat × Nat × Nat} (hp : (around (s.F f).corners)[i]? = some p) (hb : p.2.1 ∈ s.verts) :
    t.fArea (.quad (N.sub f i)) = quadArea (s.pos p.2.1) (t.pos (N.mid (N.edge p.2.1 p.2.2))) (t.pos (N.ctr f)) (t.pos (N.mid (N.edge p.1 p.2.1))) := by
  unfold fArea
  rw [(h2.subs f hf i p hp).1]
  simp only []
  rw [(h2.old _ hb).1]

/-- The sub quads of an element have its area; those of a triangle have equal areas. -/
theorem sub_areas {s t : St K} {N : Names} (R : Ref s t N) {f : FRef} (hf : Live s f) :
    (((List.range (s.F f).corners.length).map (N.sub f)).map fun q => t.fArea (.quad q)).sum = s.fArea f ∧
    ((s.F f).corners.length = 3 → ∀ i < 3, 3 * t.fArea (.quad (N.sub f i)) = s.fArea f) := by
  have hz := R.ref.ctrPos f hf
  rcases live_corners R.src.wf hf with ⟨a, b, c, hc⟩ | ⟨a, b, c, d, hc⟩
  · have hv := (R.src.wf.cor f hf).2
    rw [hc] at hv hz
    have p0 : (around (s.F f).corners)[0]? = some (c, a, b) := by rw [hc]; rfl
    have p1 : (around (s.F f).corners)[1]? = some (a, b, c) := by rw [hc]; rfl
    have p2 : (around (s.F f).corners)[2]? = some (b, c, a) := by rw [hc]; rfl
    have A : Covered s a b := ⟨f, hf, (R.corner hf p1).1⟩
    have B : Covered s b c := ⟨f, hf, (R.corner hf p1).2.1⟩
    have C : Covered s c a := ⟨f, hf, (R.corner hf p2).2.1⟩
    have mA := R.mid_side A
    have mB := R.mid_side B
    have mC := R.mid_side C
    simp only [List.length_cons, List.length_nil, List.map_cons, List.map_nil, List.sum_cons, List.sum_nil, Nat.cast_ofNat] at hz
    norm_num at hz
    have q0 := (sub_of_tri (a := s.pos c) (b := s.pos a) (c := s.pos b) mA mC ⟨hz.1.trans (by ring), hz.2.trans (by ring)⟩).1
    have q1 := (sub_of_tri (a := s.pos a) (b := s.pos b) (c := s.pos c) mB mA ⟨hz.1.trans (by ring), hz.2.trans (by ring)⟩).1
    have q2 := (sub_of_tri (a := s.pos b) (b := s.pos c) (c := s.pos a) mC mB ⟨hz.1.trans (by ring), hz.2.trans (by ring)⟩).1
    have f0 := sub_quad_area R.ref hf p0 (hv a (by simp))
    have f1 := sub_quad_area R.ref hf p1 (hv b (by simp))
    have f2 := sub_quad_area R.ref hf p2 (hv c (by simp))
    have hfa : s.fArea f = triArea (s.pos a) (s.pos b) (s.pos c) := by unfold fArea; rw [hc]
    have r1 : triArea (s.pos c) (s.pos a) (s.pos b) = triArea (s.pos a) (s.pos b) (s.pos c) := by simp only [triArea_expand]; ring
    have r2 : triArea (s.pos b) (s.pos c) (s.pos a) = triArea (s.pos a) (s.pos b) (s.pos c) := by simp only [triArea_expand]; ring
    rw [r1] at q0
    rw [r2] at q2
    simp only [] at f0 f1 f2
    rw [q0] at f0
    rw [q1] at f1
    rw [q2] at f2
    constructor
    · rw [hc]
      simp only [List.length_cons, List.length_nil, List.range_succ, List.range_zero, List.nil_append, List.cons_append, List.map_cons,
        List.map_nil, List.sum_cons, List.sum_nil]
      rw [f0, f1, f2, hfa]; ring
    · intro _ i hi
      have : i = 0 ∨ i = 1 ∨ i = 2 := by omega
      rcases this with rfl | rfl | rfl
      · rw [f0, hfa]; ring
      · rw [f1, hfa]; ring
      · rw [f2, hfa]; ring
  · have hv := (R.src.wf.cor f hf).2
    rw [hc] at hv hz
    have p0 : (around (s.F f).corners)[0]? = some (d, a, b) := by rw [hc]; rfl
    have p1 : (around (s.F f).corners)[1]? = some (a, b, c) := by rw [hc]; rfl
    have p2 : (around (s.F f).corners)[2]? = some (b, c, d) := by rw [hc]; rfl
    have p3 : (around (s.F f).corners)[3]? = some (c, d, a) := by rw [hc]; rfl
    have mA := R.mid_side ⟨f, hf, (R.corner hf p1).1⟩
    have mB := R.mid_side ⟨f, hf, (R.corner hf p1).2.1⟩
    have mC := R.mid_side ⟨f, hf, (R.corner hf p2).2.1⟩
    have mD := R.mid_side ⟨f, hf, (R.corner hf p3).2.1⟩
    simp only [List.length_cons, List.length_nil, List.map_cons, List.map_nil, List.sum_cons, List.sum_nil, Nat.cast_ofNat] at hz mA mB mC mD
    norm_num at hz
    have q0 := (sub_of_quad (a := s.pos d) (b := s.pos a) (c := s.pos b) (d := s.pos c) mA mD ⟨hz.1.trans (by ring), hz.2.trans (by ring)⟩).1
    have q1 := (sub_of_quad (a := s.pos a) (b := s.pos b) (c := s.pos c) (d := s.pos d) mB mA ⟨hz.1.trans (by ring), hz.2.trans (by ring)⟩).1
    have q2 := (sub_of_quad (a := s.pos b) (b := s.pos c) (c := s.pos d) (d := s.pos a) mC mB ⟨hz.1.trans (by ring), hz.2.trans (by ring)⟩).1
    have q3 := (sub_of_quad (a := s.pos c) (b := s.pos d) (c := s.pos a) (d := s.pos b) mD mC ⟨hz.1.trans (by ring), hz.2.trans (by ring)⟩).1
    have f0 := sub_quad_area R.ref hf p0 (hv a (by simp))
    have f1 := sub_quad_area R.ref hf p1 (hv b (by simp))
    have f2 := sub_quad_area R.ref hf p2 (hv c (by simp))
    have f3 := sub_quad_area R.ref hf p3 (hv d (by simp))
    have hfa : s.fArea f = quadArea (s.pos a) (s.pos b) (s.pos c) (s.pos d) := by unfold fArea; rw [hc]
    simp only [] at f0 f1 f2 f3
    rw [q0] at f0
    rw [q1] at f1
    rw [q2] at f2
    rw [q3] at f3
    constructor
    · rw [hc]
      simp only [List.length_cons, List.length_nil, List.range_succ, List.range_zero, List.nil_append, List.cons_append, List.map_cons,
        List.map_nil, List.sum_cons, List.sum_nil]
      rw [f0, f1, f2, f3, hfa, quadArea_expand]; unfold area2; ring
    · intro hh; rw [hc] at hh; simp at hh

theorem meshArea_facets (s : St K) : meshArea s = ((facets s).map s.fArea).sum := by
  unfold meshArea facets
  rw [List.map_append, List.sum_append, List.map_map, List.map_map]; rfl

theorem sum_flatMap {α β : Type*} (l : List α) (g : α → List β) (w : β → K) (v : α → K) (h : ∀ x ∈ l, ((g x).map w).sum = v x) :
    ((l.flatMap g).map w).sum = (l.map v).sum := by
  induction l with
  | nil => rfl
  | cons x l ih =>
    simp only [List.flatMap_cons, List.map_append, List.sum_append, List.map_cons, List.sum_cons]
    rw [h x (List.mem_cons_self ..), ih fun y hy => h y (List.mem_cons_of_mem _ hy)]

/-- The sub quads of every element have its total signed area, those of a triangle a third of it each; the total
area of the mesh is unchanged. -/
theorem C57_areas {s t : St K} (h : Proper s) (ht : NoTwins s) (hr : s.refine = some (t, true)) :
    (∃ N, Refined s t N ∧ ∀ f, Live s f →
      (((List.range (s.F f).corners.length).map (N.sub f)).map fun q => t.fArea (.quad q)).sum = s.fArea f ∧
      ((s.F f).corners.length = 3 → ∀ i < 3, 3 * t.fArea (.quad (N.sub f i)) = s.fArea f)) ∧
    meshArea t = meshArea s := by
  obtain ⟨t', N, h1, h2, h3, h4, h5, h6⟩ := refine_spec h.wf h.sides ht
  rw [hr] at h1
  obtain rfl : t = t' := by simpa using h1
  have R : Ref s t N := ⟨h, h2, h3, h4, h5, h6⟩
  refine ⟨⟨N, h2, fun f hf => sub_areas R hf⟩, ?_⟩
  rw [meshArea_facets s]
  unfold meshArea
  rw [h2.tris, h2.quads]
  simp only [List.map_nil, List.sum_nil, zero_add]
  exact sum_flatMap _ _ _ _ fun f hf => (sub_areas R (mem_facets.mp hf)).1

/-- Refining counter-clockwise triangles and strictly convex quads gives strictly convex counter-clockwise quads. -/
theorem C57_convex {s t : St K} (h : Proper s) (ht : NoTwins s) (hr : s.refine = some (t, true)) (hc : ConvexElements s) :
    ConvexElements t := by
  obtain ⟨t', N, h1, h2, h3, h4, h5, h6⟩ := refine_spec h.wf h.sides ht
  rw [hr] at h1
  obtain rfl : t = t' := by simpa using h1
  have R : Ref s t N := ⟨h, h2, h3, h4, h5, h6⟩
  refine ⟨by rw [h2.tris]; simp, ?_⟩
  intro q hq w0 w1 w2 w3 hw
  obtain ⟨f, i, p, hf, hp, hqf⟩ := R.live (x := .quad q) hq
  obtain rfl : q = N.sub f i := by simpa using hqf
  rw [(h2.subs f hf i p hp).1] at hw
  simp only [List.cons.injEq, and_true] at hw
  obtain ⟨rfl, rfl, rfl, rfl⟩ := hw
  obtain ⟨c1, c2, c3, _, _⟩ := R.corner hf hp
  have m1 := R.mid_side ⟨f, hf, c1⟩
  have m2 := R.mid_side ⟨f, hf, c2⟩
  have hz := h2.ctrPos f hf
  rw [(h2.old _ c3).1]
  have rot : ∀ a b c : Pt K, area2 b c a = area2 a b c := fun a b c => by unfold area2; ring
  have hmem := List.mem_of_getElem? hp
  cases f with
  | null => exact absurd hf (by simp [Live])
  | tri x =>
    obtain ⟨a, b, c, hcs⟩ := List.length_eq_three.mp (h.wf.tcor x hf)
    have pos := hc.1 x hf a b c hcs
    rw [hcs] at hmem hz
    simp only [List.length_cons, List.length_nil, List.map_cons, List.map_nil, List.sum_cons, List.sum_nil] at hz
    norm_num at hz
    have hpos : 0 < area2 (s.pos p.1) (s.pos p.2.1) (s.pos p.2.2) ∧
        3 * (t.pos (N.ctr (.tri x))).x = (s.pos p.1).x + (s.pos p.2.1).x + (s.pos p.2.2).x ∧
        3 * (t.pos (N.ctr (.tri x))).y = (s.pos p.1).y + (s.pos p.2.1).y + (s.pos p.2.2).y := by
      simp only [around, List.mem_cons, List.not_mem_nil, or_false] at hmem
      rcases hmem with rfl | rfl | rfl
      · exact ⟨by rw [← rot]; exact pos, hz.1.trans (by ring), hz.2.trans (by ring)⟩
      · exact ⟨pos, hz.1.trans (by ring), hz.2.trans (by ring)⟩
      · exact ⟨by rw [rot]; exact pos, hz.1.trans (by ring), hz.2.trans (by ring)⟩
    obtain ⟨_, a1, a2, a3, a4⟩ := sub_of_tri m2 m1 hpos.2
    rw [a1, a2, a3, a4]
    have := hpos.1
    refine ⟨?_, ?_, ?_, ?_⟩ <;> positivity
  | quad x =>
    obtain ⟨a, b, c, d, hcs⟩ : ∃ a b c d, (s.F (.quad x)).corners = [a, b, c, d] := by
      have hq := h.wf.qcor x hf
      rcases live_corners h.wf hf with ⟨a, b, c, hc⟩ | hh
      · rw [hc] at hq; simp at hq
      · exact hh
    obtain ⟨k1, k2, k3, k4⟩ := hc.2 x hf a b c d hcs
    rw [hcs] at hmem hz
    simp only [List.length_cons, List.length_nil, List.map_cons, List.map_nil, List.sum_cons, List.sum_nil] at hz
    norm_num at hz
    have hpos : ∃ o, (0 < area2 (s.pos p.1) (s.pos p.2.1) (s.pos p.2.2) ∧ 0 < area2 (s.pos p.2.1) (s.pos p.2.2) (s.pos o) ∧
        0 < area2 (s.pos p.2.2) (s.pos o) (s.pos p.1) ∧ 0 < area2 (s.pos o) (s.pos p.1) (s.pos p.2.1)) ∧
        4 * (t.pos (N.ctr (.quad x))).x = (s.pos p.1).x + (s.pos p.2.1).x + (s.pos p.2.2).x + (s.pos o).x ∧
        4 * (t.pos (N.ctr (.quad x))).y = (s.pos p.1).y + (s.pos p.2.1).y + (s.pos p.2.2).y + (s.pos o).y := by
      simp only [around, List.mem_cons, List.not_mem_nil, or_false] at hmem
      rcases hmem with rfl | rfl | rfl | rfl
      · exact ⟨c, ⟨k4, k1, k2, k3⟩, hz.1.trans (by ring), hz.2.trans (by ring)⟩
      · exact ⟨d, ⟨k1, k2, k3, k4⟩, hz.1.trans (by ring), hz.2.trans (by ring)⟩
      · exact ⟨a, ⟨k2, k3, k4, k1⟩, hz.1.trans (by ring), hz.2.trans (by ring)⟩
      · exact ⟨b, ⟨k3, k4, k1, k2⟩, hz.1.trans (by ring), hz.2.trans (by ring)⟩
    obtain ⟨o, ⟨o1, o2, o3, o4⟩, hz'⟩ := hpos
    obtain ⟨_, a1, a2, a3, a4⟩ := sub_of_quad m2 m1 hz'
    rw [a1, a2, a3, a4]
    refine ⟨?_, ?_, ?_, ?_⟩ <;> positivity

/-- Any number of refinements keeps area and convexity. -/
theorem C57_iterate {s t : St K} {n : Nat} (h : Proper s) (ht : NoTwins s) (hr : RefinedBy n s t) :
    meshArea t = meshArea s ∧ (ConvexElements s → ConvexElements t) := by
  induction n generalizing t with
  | zero => cases hr; exact ⟨rfl, id⟩
  | succ n ih =>
    cases hr with
    | succ h0 h1 =>
      obtain ⟨i1, i2⟩ := ih h0
      obtain ⟨k1, k2⟩ := refinedBy_proper h0 h ht
      exact ⟨(C57_areas k1 k2 h1).2.trans i1, fun hc => C57_convex k1 k2 h1 (i2 hc)⟩

/-- Decidable form of `Conforming`. -/
theorem conforming_of {s : St K} (hp : Proper s)
    (h1 : ∀ e ∈ s.es .intr ++ s.es .bdry, ∀ e' ∈ s.es .intr ++ s.es .bdry, SameEnds s e e' → e = e')
    (h2 : ∀ e ∈ s.es .intr, (∃ f ∈ facets s, HasSide s f (s.E e).v1 (s.E e).v2) ∧ ∃ f ∈ facets s, HasSide s f (s.E e).v2 (s.E e).v1)
    (h3 : ∀ e ∈ s.es .bdry, ∃ f ∈ facets s, HasSide s f (s.E e).v1 (s.E e).v2) : Conforming s := by
  have key : ∀ a b, (∃ f ∈ facets s, HasSide s f a b) → Covered s a b := fun a b ⟨f, hf, h⟩ => ⟨f, mem_facets.mp hf, h⟩
  exact { toProper := hp
          unique := fun e he e' he' hs => h1 e (List.mem_append.mpr he) e' (List.mem_append.mpr he') hs
          intrFull := fun e he => ⟨key _ _ (h2 e he).1, key _ _ (h2 e he).2⟩
          bdryFull := fun e he => key _ _ (h3 e he) }

namespace MCEx
/-- A square and a triangle next to it, colours 5 and 8, boundary markers 1, 2, 3. -/
def house : St ℚ := build [.v 0 0, .v 4 0, .v 4 4, .v 0 4, .v 7 2,
  .bdry 0 1 1, .bdry 1 4 2, .bdry 4 2 2, .bdry 2 3 3, .bdry 3 0 1, .intr 1 2, .quad 0 1 2 3 5, .tri 1 4 2 8] (St.empty 1)
theorem house_built : Built 1 house := built_of _ _ Built.empty (by decide +kernel)
theorem house_conforming : Conforming house :=
  conforming_of (proper_of (built_wf house_built) (by decide +kernel) (by decide +kernel) (by decide +kernel))
    (by decide +kernel) (by decide +kernel) (by decide +kernel)
theorem house_noTwins : NoTwins house := by unfold NoTwins; decide +kernel
theorem house_convex : ConvexElements house := by
  have h := shapes_of (eps := (0 : ℚ)) (s := house) (by decide +kernel)
  refine ⟨fun t ht a b c hc => (h.1 t ht a b c hc).1, fun q hq a b c d hc => ?_⟩
  have k := h.2 q hq a b c d hc
  exact ⟨(k (a, b, c) (by simp)).1, (k (b, c, d) (by simp)).1, (k (c, d, a) (by simp)).1, (k (d, a, b) (by simp)).1⟩
end MCEx

/-- The square gives four, the triangle three quads; 13 = 5 + 1 + 5 + 1 + 1 vertices. -/
example : Conforming MCEx.house ∧ NoTwins MCEx.house ∧ ConvexElements MCEx.house ∧
    MCEx.house.refine.any (fun u => u.2 && decide (u.1.tris = []) && decide (u.1.quads.length = 7) && decide (u.1.verts.length = 13) &&
      decide ((u.1.es .bdry).map (fun e => (u.1.E e).color) = [1, 1, 2, 2, 2, 2, 3, 3, 1, 1]) &&
      decide (u.1.quads.map (fun q => (u.1.F (.quad q)).color) = [8, 8, 8, 5, 5, 5, 5]) &&
      decide (u.1.quads.map (fun q => u.1.fArea (.quad q)) = [2, 2, 2, 4, 4, 4, 4])) = true :=
  ⟨MCEx.house_conforming, MCEx.house_noTwins, MCEx.house_convex, by decide +kernel⟩

/-- A mesh with an interface edge. -/
example : ¬ NoTwins { MCEx.house with E := upd MCEx.house.E 5 fun d => { d with twin := some (1, 3) } } := by
  unfold NoTwins; decide +kernel

/-- Two refinements: 28 quads. -/
example : ∃ t, RefinedBy 2 MCEx.house t ∧ t.quads.length = 28 ∧ meshArea t = meshArea MCEx.house ∧ ConvexElements t := by
  obtain ⟨t, h1, _⟩ := C56_iterate MCEx.house_conforming MCEx.house_noTwins 2
  refine ⟨t, h1, ?_, (C57_iterate MCEx.house_conforming.toProper MCEx.house_noTwins h1).1,
    (C57_iterate MCEx.house_conforming.toProper MCEx.house_noTwins h1).2 MCEx.house_convex⟩
  rw [(C56_iterate_counts MCEx.house_conforming.toProper MCEx.house_noTwins h1).2.1]
  decide +kernel

/-! ### C102: flags of the new vertices -/

/-- **C102 (partial).** A new vertex on an interior edge is fixed iff one of the ends is, a new vertex in an element
iff one of the corners is; neither is on the boundary. Missing: a free vertex stays surrounded by free ones. -/
theorem C102_flags_partial {s t : St K} (h : Proper s) (ht : NoTwins s) (hr : s.refine = some (t, true)) :
    ∃ N, Refined s t N ∧
      (∀ e ∈ s.es .intr, Flags.has (t.V (N.mid e)).props Flags.vOnBoundary = false ∧
        (Flags.has (t.V (N.mid e)).props Flags.vIsFixed = true ↔ ∃ v ∈ [(s.E e).v1, (s.E e).v2], Flags.has (s.V v).props Flags.vIsFixed = true)) ∧
      (∀ f, Live s f → Flags.has (t.V (N.ctr f)).props Flags.vOnBoundary = false ∧
        (Flags.has (t.V (N.ctr f)).props Flags.vIsFixed = true ↔ ∃ v ∈ (s.F f).corners, Flags.has (s.V v).props Flags.vIsFixed = true)) := by
  obtain ⟨t', N, h1, h2, _⟩ := C56_refine h ht
  rw [hr] at h1
  obtain rfl : t = t' := by simpa using h1
  have hall : ∀ (ws : List Nat) (p : BitVec 8),
      (Flags.has (ws.foldl (fun p w => p ||| (s.V w).props) p) Flags.vIsFixed = true ↔
        Flags.has p Flags.vIsFixed = true ∨ ∃ v ∈ ws, Flags.has (s.V v).props Flags.vIsFixed = true) := by
    intro ws
    induction ws with
    | nil => intro p; simp
    | cons w ws ih =>
      intro p
      have hor : ∀ a b : BitVec 8, Flags.has (a ||| b) Flags.vIsFixed = true ↔ Flags.has a Flags.vIsFixed = true ∨ Flags.has b Flags.vIsFixed = true := by
        intro a b
        have e : ∀ x : BitVec 8, Flags.has x Flags.vIsFixed = x.getLsbD 2 := by unfold Flags.has Flags.vIsFixed; decide
        rw [e, e, e, BitVec.getLsbD_or, Bool.or_eq_true]
      simp only [List.foldl_cons, List.mem_cons]
      rw [ih, hor]
      constructor
      · rintro ((h | h) | ⟨v, hv, h⟩)
        · exact Or.inl h
        · exact Or.inr ⟨w, Or.inl rfl, h⟩
        · exact Or.inr ⟨v, Or.inr hv, h⟩
      · rintro (h | ⟨v, rfl | hv, h⟩)
        · exact Or.inl (Or.inl h)
        · exact Or.inl (Or.inr h)
        · exact Or.inr ⟨v, hv, h⟩
  have b1 : ∀ p : BitVec 8, Flags.has (p &&& ~~~ Flags.vOnBoundary) Flags.vOnBoundary = false := by
    unfold Flags.has Flags.vOnBoundary; decide
  have b2 : ∀ p : BitVec 8, Flags.has (p &&& ~~~ Flags.vOnBoundary) Flags.vIsFixed = Flags.has p Flags.vIsFixed := by
    unfold Flags.has Flags.vOnBoundary Flags.vIsFixed; decide
  have hz : Flags.has 0 Flags.vIsFixed = false := by decide
  refine ⟨N, h2, fun e he => ?_, fun f hf => ?_⟩
  · rw [h2.midIntr e he]
    refine ⟨b1 _, ?_⟩
    rw [b2]; unfold allProps; rw [hall, hz]; simp
  · rw [h2.ctrProps f hf]
    refine ⟨b1 _, ?_⟩
    rw [b2]; unfold allProps; rw [hall, hz]; simp

namespace MCEx
/-- Four triangles around a fixed vertex. -/
def pin : St ℚ := (build [.v 0 0, .v 2 0, .v 2 2, .v 0 2, .v 1 1, .bdry 0 1 1, .bdry 1 2 1, .bdry 2 3 1, .bdry 3 0 1,
  .intr 0 4, .intr 1 4, .intr 2 4, .intr 3 4, .tri 0 1 4 1, .tri 1 2 4 1, .tri 2 3 4 1, .tri 3 0 4 1] (St.empty 1)).setProps 4
    (fun p => Flags.add p Flags.vIsFixed)
end MCEx

/-- **C102 is violated.** Only one vertex of the mesh is fixed; after the refinement it and all eight new interior
vertices are fixed, so that smoothing cannot move any interior vertex any more. -/
theorem C102_fixed_violated : (MCEx.pin.verts.filter fun v => Flags.has (MCEx.pin.V v).props Flags.vIsFixed) = [4] ∧
    MCEx.pin.refine.any (fun u => u.2 && decide ((u.1.verts.filter fun v => Flags.has (u.1.V v).props Flags.vIsFixed).length = 9)) = true := by
  constructor <;> decide +kernel

end TQ

#print axioms TQ.C56_refine
#print axioms TQ.C56_counts
#print axioms TQ.C56_refused
#print axioms TQ.C56_iterate
#print axioms TQ.C56_iterate_counts
#print axioms TQ.C57_areas
#print axioms TQ.C57_convex
#print axioms TQ.C57_iterate
#print axioms TQ.C102_flags_partial
#print axioms TQ.C102_fixed_violated

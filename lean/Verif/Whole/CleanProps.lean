import Verif.Whole.Coarse
import Verif.Whole.WorkProps
import Verif.Refinement.Props

/-! # Properties C152-C154: clean-up and merging on completely meshed domains -/

set_option linter.unusedSectionVars false
set_option linter.unusedSimpArgs false

namespace TQ
open MS MeshSpec MCSpec MC MS.St FUSpec WholeSpec RefSpec CleanSpec Whole
variable {K : Type*} [Field K] [LinearOrder K] [IsStrictOrderedRing K]

/-! ### C152: elements with two common edges -/

/-- **C152.** `clear_double_quad_edges` on a completely meshed domain: it runs through, and what it does is to take
out vertices between two quads (never one on the boundary), together with the two edges there, and to replace the
two quads by their union (`DoublesMerged`).  The result is a completely meshed domain again, its elements tile
it. -/
theorem C152_double_quads {eps : K} (ix0 : FRef → Nat) {s : St K} (h : Complete s) (hl : NbrLen s) (hf : FreshPointers s) :
    ∃ t gone, clearDoubleQuads eps ix0 s = some t ∧ DoublesMerged true s t gone ∧ Complete t ∧ Tiled t ∧ NbrLen t ∧ FreshPointers t := by
  obtain ⟨t, gone, h1, h2, h3⟩ := clearDoubleQuads_spec (eps := eps) ix0 h hl hf
  exact ⟨t, gone, h1, h2, h3.comp, complete_tiled h3.comp, h3.ready.len, h3.fresh⟩

/-- **C152.** The same for `clear_double_triangle_edges`: a quad and a triangle with two common edges are replaced
by a triangle. -/
theorem C152_double_tris {eps : K} (ix0 : FRef → Nat) {s : St K} (h : Complete s) (hl : NbrLen s) (hf : FreshPointers s) :
    ∃ t gone, clearDoubleTris eps ix0 s = some t ∧ DoublesMerged false s t gone ∧ Complete t ∧ Tiled t ∧ NbrLen t ∧ FreshPointers t := by
  obtain ⟨t, gone, h1, h2, h3⟩ := clearDoubleTris_spec (eps := eps) ix0 h hl hf
  exact ⟨t, gone, h1, h2, h3.comp, complete_tiled h3.comp, h3.ready.len, h3.fresh⟩

/-- Decidable form of `Complete` for the unit square. -/
theorem complete_of {s : St ℚ} (hc : Conforming s) (hp : s.pos 0 = ⟨0, 0⟩ ∧ s.pos 1 = ⟨1, 0⟩ ∧ s.pos 2 = ⟨1, 1⟩ ∧ s.pos 3 = ⟨0, 1⟩)
    (hb : pairs s .bdry = [(0, 1), (1, 2), (2, 3), (3, 0)]) (hf : s.es .front = [])
    (hw : ∀ x ∈ pieces s, 0 < side (s.pos x.2.1) (s.pos x.2.2.1) (s.pos x.2.2.2))
    (hq : ∀ b ∈ s.es .bdry, s.isInterior b = false ∧ s.isGhost b = false) : Complete s :=
  { toConforming := hc, front := hf, bdry := by rw [hb]; exact FUEx.unit_simple hp, ccw := hw, plain := hq }

/-- Decidable form of the conditions on pointers: all are null. -/
theorem pointers_of {s : St K} (h : ∀ f ∈ facets s, (s.F f).nbrs.length = (s.F f).corners.length ∧ ∀ g ∈ (s.F f).nbrs, g = .null) :
    NbrLen s ∧ FreshPointers s :=
  ⟨fun f hf => (h f (mem_facets.mpr hf)).1, fun f _ _ _ hf _ hx => (h f (mem_facets.mpr hf)).2 _ (by
    obtain ⟨i, -, -, hi⟩ := hx; exact List.mem_of_getElem? hi)⟩

namespace WEx
open MCEx
/-- The unit square with two quads (9, 10) that share two edges at the vertex 4. -/
def duo : St ℚ := build [.v 0 0, .v 1 0, .v 1 1, .v 0 1, .v (1 / 2) (1 / 2), .bdry 0 1 1, .bdry 1 2 1, .bdry 2 3 1, .bdry 3 0 1,
  .quad 0 1 2 4 5, .quad 2 3 0 4 5, .intr 0 4, .intr 4 2] (St.empty 1)
theorem duo_conforming : Conforming duo :=
  conforming_of (proper_of (built_wf (built_of _ _ Built.empty (by decide +kernel) : Built 1 duo)) (by decide +kernel) (by decide +kernel)
    (by decide +kernel)) (by decide +kernel) (by decide +kernel) (by decide +kernel)
theorem duo_complete : Complete duo := complete_of duo_conforming (by decide +kernel) (by decide +kernel) (by decide +kernel)
  (by decide +kernel) (by decide +kernel)
theorem duo_pointers : NbrLen duo ∧ FreshPointers duo := pointers_of (by decide +kernel)

/-- The unit square: below the diagonal a quad (10) and a triangle (11) that share two edges at the vertex 4, above
it three triangles around the vertex 5. -/
def mix : St ℚ := build [.v 0 0, .v 1 0, .v 1 1, .v 0 1, .v (3 / 5) (2 / 5), .v (1 / 3) (2 / 3), .bdry 0 1 1, .bdry 1 2 1, .bdry 2 3 1, .bdry 3 0 1,
  .quad 2 4 0 1 5, .tri 0 4 2 5, .tri 5 0 2 5, .tri 5 2 3 5, .tri 5 3 0 5, .intr 0 4, .intr 4 2, .intr 0 2, .intr 5 0, .intr 5 2, .intr 5 3]
  (St.empty 1)
theorem mix_conforming : Conforming mix :=
  conforming_of (proper_of (built_wf (built_of _ _ Built.empty (by decide +kernel) : Built 1 mix)) (by decide +kernel) (by decide +kernel)
    (by decide +kernel)) (by decide +kernel) (by decide +kernel) (by decide +kernel)
theorem mix_complete : Complete mix := complete_of mix_conforming (by decide +kernel) (by decide +kernel) (by decide +kernel)
  (by decide +kernel) (by decide +kernel)
theorem mix_pointers : NbrLen mix ∧ FreshPointers mix := pointers_of (by decide +kernel)
theorem mix_big : BigTris (1 / 1000000) mix := big_of (by decide +kernel)

/-- The unit square with four triangles around its centre. -/
def four : St ℚ := build [.v 0 0, .v 1 0, .v 1 1, .v 0 1, .v (1 / 2) (1 / 2), .bdry 0 1 1, .bdry 1 2 1, .bdry 2 3 1, .bdry 3 0 1,
  .tri 0 1 4 5, .tri 1 2 4 5, .tri 2 3 4 5, .tri 3 0 4 5, .intr 0 4, .intr 1 4, .intr 2 4, .intr 3 4] (St.empty 1)
theorem four_conforming : Conforming four :=
  conforming_of (proper_of (built_wf (built_of _ _ Built.empty (by decide +kernel) : Built 1 four)) (by decide +kernel) (by decide +kernel)
    (by decide +kernel)) (by decide +kernel) (by decide +kernel) (by decide +kernel)
theorem four_complete : Complete four := complete_of four_conforming (by decide +kernel) (by decide +kernel) (by decide +kernel)
  (by decide +kernel) (by decide +kernel)
theorem four_pointers : NbrLen four ∧ FreshPointers four := pointers_of (by decide +kernel)
theorem four_left : LeftFacets (1 / 1000000) four := C48_left_geometry four_conforming.wf (shapes_of (by decide +kernel))

/-- Vertices, corners of the quads and of the triangles. -/
def looks (o : Option (St ℚ)) (vs : List Nat) (qs ts : List (List Nat)) : Bool :=
  o.any fun u => decide (u.verts = vs) && decide ((u.quads.map fun q => (u.F (.quad q)).corners) = qs) &&
    decide ((u.tris.map fun t => (u.F (.tri t)).corners) = ts)
end WEx

example : Complete WEx.duo ∧ NbrLen WEx.duo ∧ FreshPointers WEx.duo ∧
    WEx.looks (clearDoubleQuads (1 / 1000000) (fun _ => 0) WEx.duo) [0, 1, 2, 3] [[1, 2, 3, 0]] [] = true :=
  ⟨WEx.duo_complete, WEx.duo_pointers.1, WEx.duo_pointers.2, by decide +kernel⟩

example : Complete WEx.mix ∧ NbrLen WEx.mix ∧ FreshPointers WEx.mix ∧
    WEx.looks (clearDoubleTris (1 / 1000000) (fun _ => 0) WEx.mix) [0, 1, 2, 3, 5] [] [[5, 0, 2], [5, 2, 3], [5, 3, 0], [0, 1, 2]] = true :=
  ⟨WEx.mix_complete, WEx.mix_pointers.1, WEx.mix_pointers.2, by decide +kernel⟩

/-! ### C153: the improvement at the end of a triangulation -/

/-- **C153.** The improvement of a completely meshed domain at the end of `generate_elements` (double edges of quads,
double edges of triangles, vertices of degree three): it runs through, and the result is a coarser mesh of the same
domain, completely meshed again, its elements tile the domain; boundary, areas and places are the same, and no
triangle gets smaller than the tolerance. -/
theorem C153_improve {eps : K} (ix0 : FRef → Nat) {s : St K} (h : Complete s) (hl : NbrLen s) (hf : FreshPointers s) (hb : BigTris eps s) :
    ∃ t, improve eps ix0 s = some t ∧ Complete t ∧ Tiled t ∧ Coarsened s t ∧ NbrLen t ∧ FreshPointers t ∧ BigTris eps t := by
  obtain ⟨t, h1, h2, h3, h4, h5, h6⟩ := improve_spec ix0 h hl hf hb
  exact ⟨t, h1, h2, complete_tiled h2, h6, h3, h4, h5⟩

/-- **C153.** The vertices that the last pass removes: afterwards the mesh has, at each of their places, one triangle
made of three. -/
theorem C153_degenerate {eps : K} {s : St K} (h : Complete s) (hl : NbrLen s) (hf : FreshPointers s) (hb : BigTris eps s) :
    ∃ t, mergeDegenerate eps (setupConnectivity eps s) = some (setupConnectivity eps t) ∧
      StarsMerged (setupConnectivity eps s) t (s.verts.filter (isBad (setupConnectivity eps s))) ∧ Complete t ∧ Tiled t := by
  have sb := setup_sbp eps h.wf
  have hb' : BigTris eps (setupConnectivity eps s) := by
    intro x hx p q r hc
    rw [sb.tris] at hx
    rw [(sb.corners _).1] at hc
    simp only [sbp_pos sb]
    exact hb x hx p q r hc
  obtain ⟨t, t1, t2, t3, -⟩ := degenerate_spec (settle (eps := eps) h hl hf) hb'
  rw [sb.verts] at t2
  exact ⟨t, t1, t2, t3, complete_tiled t3⟩

example : Complete WEx.mix ∧ NbrLen WEx.mix ∧ FreshPointers WEx.mix ∧ BigTris (1 / 1000000) WEx.mix ∧
    WEx.looks (improve (1 / 1000000) (fun _ => 0) WEx.mix) [0, 1, 2, 3] [] [[0, 1, 2], [0, 2, 3]] = true :=
  ⟨WEx.mix_complete, WEx.mix_pointers.1, WEx.mix_pointers.2, WEx.mix_big, by decide +kernel⟩

/-! ### C154: `Tri2QuadModification::modify` -/

/-- **C154.** `Tri2QuadModification::modify` on a completely meshed domain, for every order of the collected edges: it
runs through, and the result is a coarser mesh of the same domain, completely meshed again, its elements tile the
domain; boundary, areas and places are the same. -/
theorem C154_modify {eps : K} (ix0 : FRef → Nat) {s : St K} (h : Complete s) (hl : NbrLen s) (hf : FreshPointers s)
    (hlf : LeftFacets eps s) {l : List Nat} (hp : l.Perm (triEdges (setupConnectivity eps s))) :
    ∃ t, tri2quad eps ix0 l s = some t ∧ Complete t ∧ Tiled t ∧ Coarsened s t ∧ NbrLen t ∧ FreshPointers t := by
  obtain ⟨u, v, t, g1, g2, t1, p1, c1, d1, c2, d2, c3, t2, t3⟩ := tri2quad_spec ix0 h hl hf hlf hp
  exact ⟨t, t1, c3, complete_tiled c3, coarsened_trans (sbp_coarsened (setup_sbp eps h.wf)) (coarsened_trans (pairs_coarsened p1)
    (coarsened_trans (doubles_coarsened c1.wf d1) (doubles_coarsened c2.wf d2))), t2, t3⟩

/-- **C154.** Its three steps: pairs of triangles become quads, pairs of quads with two common edges become quads,
pairs of a quad and a triangle with two common edges become triangles; the mesh is complete after each of them. -/
theorem C154_steps {eps : K} (ix0 : FRef → Nat) {s : St K} (h : Complete s) (hl : NbrLen s) (hf : FreshPointers s)
    (hlf : LeftFacets eps s) {l : List Nat} (hp : l.Perm (triEdges (setupConnectivity eps s))) :
    ∃ u v t g1 g2, tri2quad eps ix0 l s = some t ∧ PairsMerged FData.color (setupConnectivity eps s) u ∧ Complete u ∧
      DoublesMerged true u v g1 ∧ Complete v ∧ DoublesMerged false v t g2 ∧ Complete t := by
  obtain ⟨u, v, t, g1, g2, t1, p1, c1, d1, c2, d2, c3, -⟩ := tri2quad_spec ix0 h hl hf hlf hp
  exact ⟨u, v, t, g1, g2, t1, p1, c1, d1, c2, d2, c3⟩

/-- Four triangles around a vertex: with the edges in the order 14, 16, 13, 15 they become two quads with two common
edges, and then a single quad. -/
example : Complete WEx.four ∧ NbrLen WEx.four ∧ FreshPointers WEx.four ∧ LeftFacets (1 / 1000000) WEx.four ∧
    [14, 16, 13, 15].Perm (triEdges (setupConnectivity (1 / 1000000) WEx.four)) ∧
    WEx.looks (mergeTriangles FData.color [14, 16, 13, 15] (setupConnectivity (1 / 1000000) WEx.four)) [0, 1, 2, 3, 4]
      [[0, 1, 2, 4], [2, 3, 0, 4]] [] = true ∧
    WEx.looks (tri2quad (1 / 1000000) (fun _ => 0) [14, 16, 13, 15] WEx.four) [0, 1, 2, 3] [[1, 2, 3, 0]] [] = true :=
  ⟨WEx.four_complete, WEx.four_pointers.1, WEx.four_pointers.2, WEx.four_left, by decide +kernel, by decide +kernel, by decide +kernel⟩

end TQ

#print axioms TQ.C152_double_quads
#print axioms TQ.C152_double_tris
#print axioms TQ.C153_improve
#print axioms TQ.C153_degenerate
#print axioms TQ.C154_modify
#print axioms TQ.C154_steps

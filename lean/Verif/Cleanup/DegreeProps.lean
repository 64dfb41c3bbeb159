import Verif.Cleanup.Degree3Loop
import Verif.Cleanup.Scan
import Verif.Cleanup.MergeProps

/-! # Properties C50, C52, C96-C100: clean-up of the mesh -/

set_option linter.unusedSectionVars false
set_option linter.unusedSimpArgs false

namespace TQ
open MS MeshSpec MCSpec MC MS.St
variable {K : Type*} [Field K] [LinearOrder K] [IsStrictOrderedRing K]

/-! ### C52: vertices of degree three -/

namespace MCEx
/-- A triangle 0, 1, 2 (scaled by `l`) with its boundary edges (4-6), divided at the inner vertex 3 into three
triangles (7-9) with the interior edges 10-12. -/
def star (l : ℚ) (col : Int) : St ℚ :=
  build [.v 0 0, .v (3 * l) 0, .v 0 (3 * l), .v l l, .bdry 0 1 1, .bdry 1 2 1, .bdry 2 0 1, .tri 3 0 1 col, .tri 1 2 3 col, .tri 2 0 3 col,
    .intr 0 3, .intr 3 1, .intr 2 3] (St.empty 1)
theorem built_star (l : ℚ) (col : Int) : Built 1 (star l col) := built_of _ _ Built.empty (by
  simp [buildOK, opOK, op, addTri, addBdry, addIntr, addEdge, addVertex, St.empty])
end MCEx

/-- Decidable form of `Proper`. -/
theorem proper_of {s : St K} (w : WF s)
    (h1 : ∀ f ∈ facets s, ∀ g ∈ facets s, ∀ i < (s.F f).corners.length, ∀ j < (s.F g).corners.length,
      sideAt (s.F f).corners i = sideAt (s.F g).corners j → f = g)
    (h2 : ∀ f ∈ facets s, ∀ i < (s.F f).corners.length, ∃ e ∈ s.es .intr ++ s.es .bdry,
      sideAt (s.F f).corners i = some ((s.E e).v1, (s.E e).v2) ∨ sideAt (s.F f).corners i = some ((s.E e).v2, (s.E e).v1))
    (h3 : ∀ e ∈ s.es .bdry, ∀ f ∈ facets s, ¬ HasSide s f (s.E e).v2 (s.E e).v1) : Proper s := by
  refine ⟨w, dirUnique_of h1, ?_, ?_⟩
  · rintro a b ⟨f, hf, i, hi, hs⟩
    obtain ⟨e, he, hh⟩ := h2 f (mem_facets.mpr hf) i hi
    refine ⟨e, List.mem_append.mp he, ?_⟩
    rw [hs] at hh
    unfold Connects
    rcases hh with hh | hh <;> simp at hh <;> obtain ⟨rfl, rfl⟩ := hh <;> simp
  · rintro e he ⟨f, hf, hs⟩
    exact h3 e he f (mem_facets.mpr hf) hs

/-- Decidable form of `BigTris`. -/
theorem big_of {eps : K} {s : St K} (h : s.tris.all (fun t => match (s.F (.tri t)).corners with
    | [a, b, c] => decide (0 < area2 (s.pos a) (s.pos b) (s.pos c)) && decide (eps ≤ area2 (s.pos a) (s.pos b) (s.pos c) ^ 2)
    | _ => true) = true) : BigTris eps s := by
  intro t ht a b c hc
  have := List.all_eq_true.mp h t ht
  rw [hc] at this
  simpa using this

/-- **C52 (partial).** In a proper mesh (consistent, no side twice, all sides on edges) whose triangles are
counter-clockwise with areas above the tolerance, `merge_degenerate_triangles` runs through without accessing a
missing entity, whatever the number and order of the vertices of degree three.  It removes exactly the vertices
found at the start, each with its three interior edges, replaces the three triangles around each of them by one
counter-clockwise triangle with their total area and colour (`StarsMerged`), leaves the rest as it is, and the
result is proper again; in particular two such vertices are never adjacent.  (Missing: triangles with areas below
the tolerance, where the property fails, see `C52_orientation_violated`.) -/
theorem C52_star_partial {eps : K} {s : St K} (h : Proper s) (hb : BigTris eps s) :
    ∃ t, mergeDegenerate eps s = some (setupConnectivity eps t) ∧ SameButPointers t (setupConnectivity eps t) ∧
      StarsMerged s t (s.verts.filter (isBad s)) ∧ Proper t ∧ BigTris eps t := by
  obtain ⟨t, h1, h2, h3, h4⟩ := mergeBads_loop (eps := eps) (s.verts.filter (isBad s)) s h hb (h.wf.vnd.filter _) (by
    intro z hz; exact List.mem_filter.mp hz)
  exact ⟨t, by unfold mergeDegenerate; rw [h1]; rfl, setup_sbp eps h3.wf, h2, h3, h4⟩

/-- What `isBad` selects: vertices that are not fixed, with exactly three edges and three facets, all triangles of
one colour. -/
theorem C52_selected {s : St K} (h : WF s) {v : Nat} (hv : v ∈ s.verts) :
    isBad s v = true ↔ Flags.has (s.V v).props Flags.vIsFixed = false ∧ (s.V v).edges.length = 3 ∧ (s.V v).facets.length = 3 ∧
      ∀ f ∈ (s.V v).facets, ∀ g ∈ (s.V v).facets, (∃ t, f = .tri t) ∧ (s.F f).color = (s.F g).color := by
  have isT : ∀ f ∈ (s.V v).facets, (nVerts s f = 3 ↔ ∃ t, f = .tri t) := by
    intro f hf
    have hl := (((h.facets v hv).2 f).mp hf).1
    cases f with
    | null => exact absurd hl (by simp [Live])
    | tri t => simp [nVerts, h.tcor t hl]
    | quad q => simp [nVerts, h.qcor q hl]
  unfold isBad
  match hf : (s.V v).facets, he : (s.V v).edges with
  | [f0, f1, f2], [x0, x1, x2] =>
    rw [hf] at isT
    simp only [Bool.and_eq_true, decide_eq_true_eq, Bool.not_eq_true', isT f0 (by simp), isT f1 (by simp), isT f2 (by simp)]
    constructor
    · rintro ⟨k, ⟨⟨⟨n0, n1⟩, n2⟩, c1⟩, c2⟩
      refine ⟨k, rfl, rfl, ?_⟩
      intro f hf g hg
      simp only [List.mem_cons, List.not_mem_nil, or_false] at hf hg
      rcases hf with rfl | rfl | rfl <;> rcases hg with rfl | rfl | rfl <;>
        refine ⟨by assumption, ?_⟩ <;> simp only [c1, c2]
    · rintro ⟨k, -, -, hh⟩
      exact ⟨k, ⟨⟨⟨(hh f0 (by simp) f0 (by simp)).1, (hh f1 (by simp) f0 (by simp)).1⟩, (hh f2 (by simp) f0 (by simp)).1⟩,
        (hh f1 (by simp) f0 (by simp)).2⟩, (hh f2 (by simp) f0 (by simp)).2⟩
  | [], _ => simp
  | [_], _ => simp
  | [_, _], _ => simp
  | _ :: _ :: _ :: _ :: _, _ => simp
  | [_, _, _], [] => simp
  | [_, _, _], [_] => simp
  | [_, _, _], [_, _] => simp
  | [_, _, _], _ :: _ :: _ :: _ :: _ => simp

namespace MCEx
theorem star_proper : Proper (star 1 7) :=
  proper_of (built_wf (built_star 1 7)) (by decide +kernel) (by decide +kernel) (by decide +kernel)
theorem star_big : BigTris (1 / 4503599627370496) (star 1 7) := big_of (by decide +kernel)
/-- Number of vertices and edges, corners and colours of the triangles. -/
def shownT (o : Option (St ℚ)) (nv ne : Nat) (tris : List (List Nat)) (cols : List Int) : Bool :=
  o.any fun u => decide (u.verts.length = nv) && decide ((u.es .intr).length = ne) &&
    decide ((u.tris.map fun q => (u.F (.tri q)).corners) = tris) && decide ((u.tris.map fun q => (u.F (.tri q)).color) = cols)
end MCEx

example : (MCEx.star 1 7).verts.filter (isBad (MCEx.star 1 7)) = [3] ∧
    MCEx.shownT (mergeDegenerate (1 / 4503599627370496) (MCEx.star 1 7)) 3 0 [[0, 1, 2]] [7] = true := by
  constructor <;> decide +kernel

/-- **C52 is violated for small elements.** With the tolerance of the code (2⁻⁵²) and edges of length 10⁻⁴ the
merged triangle is clockwise although the three triangles were counter-clockwise: `orientation` reports collinear
vertices, and the code takes everything but counter-clockwise for clockwise. -/
theorem C52_orientation_violated : Proper (MCEx.star (1 / 30000) 7) ∧ TrisCCW (MCEx.star (1 / 30000) 7) ∧
    MCEx.shownT (mergeDegenerate (1 / 4503599627370496) (MCEx.star (1 / 30000) 7)) 3 0 [[0, 2, 1]] [7] = true ∧
    area2 ((MCEx.star (1 / 30000) 7).pos 0) ((MCEx.star (1 / 30000) 7).pos 2) ((MCEx.star (1 / 30000) 7).pos 1) < 0 := by
  refine ⟨proper_of (built_wf (MCEx.built_star _ 7)) (by decide +kernel) (by decide +kernel) (by decide +kernel), ?_, by decide +kernel,
    by decide +kernel⟩
  intro t ht a b c hc
  have h1 := big_of (eps := 0) (s := MCEx.star (1 / 30000) 7) (by decide +kernel) t ht a b c hc
  rw [area2_tri] at h1
  linarith [h1.1]


/-! ### C50: the scan for double edges -/

/-- `assign_mesh_indices` gives the indices the scans rely on. -/
theorem indexed_assign {s : St K} (h : WF s) (ixV : Nat → Nat) (ixF : FRef → Nat) : Indexed s (assignIndices s ixV ixF).2 := by
  obtain ⟨-, a, b⟩ := C47_indices h ixV ixF
  refine ⟨a, fun t ht => ?_⟩
  obtain ⟨i, hi, e⟩ := List.getElem_of_mem ht
  rw [b i t (by rw [List.getElem?_eq_getElem hi, e])]
  omega

/-- **C50 (triangles).** The scan of `clear_double_triangle_edges` examines every quad, and afterwards every quad
is scheduled for a merge or shares no two consecutive sides with a triangle that is not scheduled. -/
theorem C50_triangles {s : St K} (w : WF s) (hn : NbrLive s) (hl : ∀ q ∈ s.quads, (s.F (.quad q)).nbrs.length = 4) {ix : FRef → Nat}
    (hix : Indexed s ix) {c : Scan} (h : scan s false ix = some c) :
    c.seen = s.quads ∧ ∀ q ∈ s.quads, (∃ m ∈ c.out, m.q = q) ∨
      ∀ t ∈ s.tris, SharesTwo s q (.tri t) → ∃ m ∈ c.out, ix m.nbr = ix (.tri t) := by
  have hi := scan_inv h
  have hmark : ∀ m ∈ c.out, s.quads.length ≤ ix m.nbr := by
    intro m hm
    obtain ⟨k1, k2, k3, -, k4⟩ := hi.out m hm
    have hq : m.q ∈ s.quads := by rw [hi.seen] at k1; exact List.mem_of_mem_take k1
    have hlive := (hn (.quad m.q) hq m.nbr k2).resolve_left k3
    cases hb : m.nbr with
    | null => exact absurd hb k3
    | tri t => rw [hb] at hlive; exact hix.2 t hlive
    | quad q =>
      rw [hb] at hlive k4
      have := w.qcor q hlive
      unfold nVerts at k4
      have := k4 rfl
      omega
  have hfull : c.iq = s.quads.length := by
    refine hi.pos.resolve_right ?_
    rintro ⟨k1, k2⟩
    obtain ⟨m, m1, m2⟩ := (hi.marks _).mp k2
    rcases m2 with m2 | m2
    · have h1 := (hi.out m m1).1
      rw [hi.seen] at h1
      obtain ⟨i, hi1, hi2⟩ := List.getElem_of_mem h1
      simp only [List.length_take] at hi1
      simp only [List.getElem_take] at hi2
      have := hix.1 i m.q (by rw [List.getElem?_eq_getElem (by omega), hi2])
      omega
    · have := hmark m m1
      omega
  have hs : c.seen = s.quads := by rw [hi.seen, hfull, List.take_length]
  refine ⟨hs, fun q hq => ?_⟩
  rcases hi.done q (by rw [hs]; exact hq) with k | k
  · exact Or.inl k
  · refine Or.inr fun t ht hst => ?_
    by_contra hc
    have hun : c.marked (ix (.tri t)) = false := by
      by_contra hm
      rw [Bool.not_eq_false] at hm
      obtain ⟨m, m1, m2⟩ := (hi.marks _).mp hm
      rcases m2 with m2 | m2
      · have h1 := (hi.out m m1).1
        rw [hs] at h1
        obtain ⟨i, hi1, hi2⟩ := List.getElem_of_mem h1
        have := hix.1 i m.q (by rw [List.getElem?_eq_getElem hi1, hi2])
        have := hix.2 t ht
        omega
      · exact hc ⟨m, m1, m2⟩
    obtain ⟨i, i1, i2⟩ := sharesTwo_doubleNbr w hl (isQ := false) (m := fun f => c.marked (ix f)) hq (by simp) hun (by simp)
      (by simp [nVerts, w.tcor t ht]) hst
    rw [k i i1] at i2
    cases i2

/-- **C50 (quads, partial).** The scan of `clear_double_quad_edges` examines the quads up to the first position
with a mark, and all of them if nothing is scheduled; an examined quad is scheduled or shares no two consecutive
sides with a quad that is not scheduled.  (Missing: the quads behind the first mark, which are not examined, see
`C50_quads_violated`.) -/
theorem C50_quads_partial {s : St K} (w : WF s) (hl : ∀ q ∈ s.quads, (s.F (.quad q)).nbrs.length = 4) {ix : FRef → Nat}
    {c : Scan} (h : scan s true ix = some c) :
    (∃ n ≤ s.quads.length, c.seen = s.quads.take n ∧
      (n = s.quads.length ∨ ∃ m ∈ c.out, ix (.quad m.q) = n ∨ ix m.nbr = n)) ∧
    (c.out = [] → c.seen = s.quads) ∧
    ∀ q ∈ c.seen, (∃ m ∈ c.out, m.q = q) ∨
      ∀ q' ∈ s.quads, SharesTwo s q (.quad q') → ∃ m ∈ c.out, ix (.quad m.q) = ix (.quad q') ∨ ix m.nbr = ix (.quad q') := by
  have hi := scan_inv h
  refine ⟨⟨c.iq, ?_, hi.seen, ?_⟩, ?_, ?_⟩
  · rcases hi.pos with k | k <;> omega
  · rcases hi.pos with k | k
    · exact Or.inl k
    · exact Or.inr ((hi.marks _).mp k.2)
  · intro ho
    rcases hi.pos with k | k
    · rw [hi.seen, k, List.take_length]
    · obtain ⟨m, m1, -⟩ := (hi.marks _).mp k.2
      rw [ho] at m1; cases m1
  · intro q hq
    rcases hi.done q hq with k | k
    · exact Or.inl k
    · refine Or.inr fun q' hq' hst => ?_
      by_contra hc
      have hun : c.marked (ix (.quad q')) = false := by
        by_contra hm
        rw [Bool.not_eq_false] at hm
        exact hc ((hi.marks _).mp hm)
      have hqs : q ∈ s.quads := by rw [hi.seen] at hq; exact List.mem_of_mem_take hq
      obtain ⟨i, i1, i2⟩ := sharesTwo_doubleNbr w hl (isQ := true) (m := fun f => c.marked (ix f)) hqs (by simp) hun
        (by simp [nVerts, w.qcor q' hq']) (by simp) hst
      rw [k i i1] at i2
      cases i2

namespace MCEx
/-- A square with two quads (9, 10, colour 5) that share the edges 11 and 12 at the vertex 4 inside. -/
def square : St ℚ :=
  build [.v 0 0, .v 2 0, .v 2 2, .v 0 2, .v 1 1, .bdry 0 1 1, .bdry 1 2 1, .bdry 2 3 1, .bdry 3 0 1,
    .quad 0 1 2 4 5, .quad 2 3 0 4 5, .intr 0 4, .intr 4 2] (St.empty 1)
theorem built_square : Built 1 square := built_of _ _ Built.empty (by decide +kernel)

/-- Two such squares (quads 9, 10 and 22, 23). -/
def squares : St ℚ :=
  build [.v 10 0, .v 12 0, .v 12 2, .v 10 2, .v 11 1, .bdry 13 14 1, .bdry 14 15 1, .bdry 15 16 1, .bdry 16 13 1,
    .quad 13 14 15 17 5, .quad 15 16 13 17 5, .intr 13 17, .intr 17 15] square
theorem built_squares : Built 1 squares := built_of _ _ built_square (by decide +kernel)

/-- A triangle with a quad (7) and a triangle (8) that share the edges 9 and 10 at the vertex 3. -/
def dent : St ℚ :=
  build [.v 4 0, .v 0 4, .v 0 0, .v (3 / 2) (3 / 2), .bdry 0 1 1, .bdry 1 2 1, .bdry 2 0 1, .quad 0 3 1 2 5, .tri 1 3 0 5,
    .intr 0 3, .intr 3 1] (St.empty 1)
theorem built_dent : Built 1 dent := built_of _ _ Built.empty (by decide +kernel)

/-- Numbers of vertices and interior edges, corners and colours of the quads. -/
def shownQ (o : Option (St ℚ)) (nv ne : Nat) (quads : List (List Nat)) (cols : List Int) : Bool :=
  o.any fun u => decide (u.verts.length = nv) && decide ((u.es .intr).length = ne) &&
    decide ((u.quads.map fun q => (u.F (.quad q)).corners) = quads) && decide ((u.quads.map fun q => (u.F (.quad q)).color) = cols)
end MCEx


theorem nbrLive_of {s : St K} (h : ∀ f ∈ facets s, ∀ g ∈ (s.F f).nbrs, g = .null ∨ g ∈ facets s) : NbrLive s := by
  intro f hf g hg
  exact (h f (mem_facets.mpr hf) g hg).imp id mem_facets.mp

example : ∃ c, scan (setupConnectivity (1 / 1000000) MCEx.dent) false (assignIndices MCEx.dent (fun _ => 0) (fun _ => 0)).2 = some c ∧
    c.seen = [7] ∧ c.out = [⟨7, .tri 8, 9, 10, 3, 2, 2⟩] ∧ NbrLive (setupConnectivity (1 / 1000000) MCEx.dent) ∧
    SharesTwo (setupConnectivity (1 / 1000000) MCEx.dent) 7 (.tri 8) := by
  have h : (scan (setupConnectivity (1 / 1000000) MCEx.dent) false (assignIndices MCEx.dent (fun _ => 0) (fun _ => 0)).2).any (fun c =>
      decide (c.seen = [7]) && decide (c.out = [⟨7, .tri 8, 9, 10, 3, 2, 2⟩])) = true := by decide +kernel
  obtain ⟨c, h1, h2⟩ := (Option.any_eq_true _ _).mp h
  simp only [Bool.and_eq_true, decide_eq_true_eq] at h2
  refine ⟨c, h1, h2.1, h2.2, nbrLive_of (by decide +kernel), 0, 3, 1, ?_⟩
  unfold NbrAcross
  decide +kernel

/-- **C50 is violated.** Two pairs of quads in one mesh: only the first quad is examined, the second pair still
shares two edges after `clear_double_quad_edges`, although nothing of it was scheduled. -/
theorem C50_quads_violated : WF MCEx.squares ∧ DirUnique MCEx.squares ∧
    (scan (setupConnectivity (1 / 1000000) MCEx.squares) true (assignIndices MCEx.squares (fun _ => 0) (fun _ => 0)).2).any (fun c =>
      decide (c.seen = [9]) && decide (c.out.map Merge.q = [9]) && decide (c.out.map Merge.nbr = [.quad 10])) = true ∧
    ∃ u, clearDoubleQuads (1 / 1000000) (fun _ => 0) MCEx.squares = some u ∧ u.quads = [22, 23, 26] ∧ SharesTwo u 22 (.quad 23) := by
  refine ⟨built_wf MCEx.built_squares, dirUnique_of (by decide +kernel), by decide +kernel, ?_⟩
  have h : (clearDoubleQuads (1 / 1000000) (fun _ => 0) MCEx.squares).any (fun u => decide (u.quads = [22, 23, 26]) &&
      decide (HasSide u (.quad 22) 15 17 ∧ HasSide u (.quad 22) 17 13 ∧
        (∃ i < (u.F (.quad 22)).corners.length, (sideAt (u.F (.quad 22)).corners i = some (15, 17) ∨
          sideAt (u.F (.quad 22)).corners i = some (17, 15)) ∧ (u.F (.quad 22)).nbrs[i]? = some (.quad 23)) ∧
        (∃ i < (u.F (.quad 22)).corners.length, (sideAt (u.F (.quad 22)).corners i = some (17, 13) ∨
          sideAt (u.F (.quad 22)).corners i = some (13, 17)) ∧ (u.F (.quad 22)).nbrs[i]? = some (.quad 23)))) = true := by
    decide +kernel
  obtain ⟨u, h1, h2⟩ := (Option.any_eq_true _ _).mp h
  simp only [Bool.and_eq_true, decide_eq_true_eq] at h2
  exact ⟨u, h1, h2.1, 15, 17, 13, h2.2⟩

/-! ### C96: `check_mesh_validity` -/

/-- **C96 (partial).** `check_mesh_validity` is true exactly if every interior and every boundary edge is the
side of some element, in either direction.  (Missing: the check does not ask for elements on both sides of
interior edges, see `C96_open_violated`.) -/
theorem C96_check_partial {s : St K} (h : WF s) :
    checkMeshValidity s = true ↔ ∀ e, e ∈ s.es .intr ∨ e ∈ s.es .bdry → ∃ f, Live s f ∧ Touches s f (s.E e).v1 (s.E e).v2 := by
  have key : ∀ l e, e ∈ s.es l → (((s.V (s.E e).v1).facets.any (fun f => (edgeIndex (s.F f) (s.E e).v1 (s.E e).v2).isSome) &&
      (s.V (s.E e).v2).facets.any (fun f => (edgeIndex (s.F f) (s.E e).v1 (s.E e).v2).isSome)) = true ↔
      ∃ f, Live s f ∧ Touches s f (s.E e).v1 (s.E e).v2) := by
    intro l e he
    obtain ⟨-, m1, m2, -, -⟩ := (h.ends l).2 e he
    have idx : ∀ f, Live s f → ((edgeIndex (s.F f) (s.E e).v1 (s.E e).v2).isSome = true ↔ Touches s f (s.E e).v1 (s.E e).v2) := by
      intro f hf
      have hlen : (s.F f).corners.length = 3 ∨ (s.F f).corners.length = 4 := by
        cases f with
        | null => exact absurd hf (by simp [Live])
        | tri t => exact Or.inl (h.tcor t hf)
        | quad q => exact Or.inr (h.qcor q hf)
      have hc := fun i => C49_edge_index hlen (h.cor f hf).1 (s.E e).v1 (s.E e).v2 i
      rw [Option.isSome_iff_exists]
      constructor
      · rintro ⟨i, hi⟩
        obtain ⟨k1, k2⟩ := (hc i).mp hi
        exact k2.imp (fun k => ⟨i, k1, k⟩) fun k => ⟨i, k1, k⟩
      · rintro (⟨i, k1, k2⟩ | ⟨i, k1, k2⟩)
        · exact ⟨i, (hc i).mpr ⟨k1, Or.inl k2⟩⟩
        · exact ⟨i, (hc i).mpr ⟨k1, Or.inr k2⟩⟩
    simp only [Bool.and_eq_true, List.any_eq_true]
    constructor
    · rintro ⟨⟨f, f1, f2⟩, -⟩
      have hl := (((h.facets _ m1).2 f).mp f1).1
      exact ⟨f, hl, (idx f hl).mp f2⟩
    · rintro ⟨f, f1, f2⟩
      have hcor : (s.E e).v1 ∈ (s.F f).corners ∧ (s.E e).v2 ∈ (s.F f).corners := by
        rcases f2 with k | k
        · exact hasSide_corner k
        · exact (hasSide_corner k).symm
      exact ⟨⟨f, ((h.facets _ m1).2 f).mpr ⟨f1, hcor.1⟩, (idx f f1).mpr f2⟩, ⟨f, ((h.facets _ m2).2 f).mpr ⟨f1, hcor.2⟩, (idx f f1).mpr f2⟩⟩
  unfold checkMeshValidity
  simp only [Bool.and_eq_true, List.all_eq_true]
  constructor
  · rintro ⟨k1, k2⟩ e (he | he)
    · exact (key _ e he).mp (by simpa only [Bool.and_eq_true] using k1 e he)
    · exact (key _ e he).mp (by simpa only [Bool.and_eq_true] using k2 e he)
  · intro k
    exact ⟨fun e he => by simpa only [Bool.and_eq_true] using (key _ e he).mpr (k e (Or.inl he)),
      fun e he => by simpa only [Bool.and_eq_true] using (key _ e he).mpr (k e (Or.inr he))⟩

namespace MCEx
/-- A triangle with six elements along its boundary and a hole in the middle that is not meshed (front edges). -/
def ring : St ℚ :=
  build [.v 0 0, .v 12 0, .v 0 12, .v 2 2, .v 6 2, .v 2 6, .bdry 0 1 1, .bdry 1 2 1, .bdry 2 0 1,
    .tri 0 1 3 1, .tri 1 4 3 1, .tri 1 2 4 1, .tri 2 5 4 1, .tri 2 0 5 1, .tri 0 3 5 1,
    .intr 0 3, .intr 1 3, .intr 1 4, .intr 2 4, .intr 2 5, .intr 0 5, .intr 3 4, .intr 4 5, .intr 5 3,
    .front 3 4 1, .front 4 5 1, .front 5 3 1] (St.empty 1)
theorem built_ring : Built 1 ring := built_of _ _ Built.empty (by decide +kernel)
end MCEx

example : checkMeshValidity MCEx.fan = true ∧ checkMeshValidity MCEx.half = false := by decide +kernel

/-- **C96 is violated.** A mesh with a hole that is not yet meshed, interior edges with only one element and a
front that is not empty, passes the check. -/
theorem C96_open_violated : WF MCEx.ring ∧ DirUnique MCEx.ring ∧ SoundShapes (1 / 1000000) MCEx.ring ∧ MCEx.ring.es .front ≠ [] ∧
    checkMeshValidity MCEx.ring = true ∧ ∃ e ∈ MCEx.ring.es .intr, ¬ Covered MCEx.ring (MCEx.ring.E e).v1 (MCEx.ring.E e).v2 := by
  refine ⟨built_wf MCEx.built_ring, dirUnique_of (by decide +kernel), shapes_of (by decide +kernel), by decide +kernel,
    by decide +kernel, 21, by decide +kernel, ?_⟩
  unfold Covered
  rw [ex_live]
  decide +kernel

/-! ### C97: fixed vertices -/

/-- **C97 is violated.** `clear_double_quad_edges` removes a vertex although it is fixed. -/
theorem C97_fixed_violated : ∃ s : St ℚ, WF s ∧ DirUnique s ∧ 4 ∈ s.verts ∧ Flags.has (s.V 4).props Flags.vIsFixed = true ∧
    ∃ u, clearDoubleQuads (1 / 1000000) (fun _ => 0) s = some u ∧ 4 ∉ u.verts := by
  refine ⟨MCEx.square.setProps 4 (fun p => Flags.add p Flags.vIsFixed), wf_setProps (built_wf MCEx.built_square) _ _,
    dirUnique_of (by decide +kernel), by decide +kernel, by decide +kernel, ?_⟩
  have h : (clearDoubleQuads (1 / 1000000) (fun _ => 0) (MCEx.square.setProps 4 (fun p => Flags.add p Flags.vIsFixed))).any (fun u =>
      decide (4 ∉ u.verts)) = true := by decide +kernel
  obtain ⟨u, h1, h2⟩ := (Option.any_eq_true _ _).mp h
  exact ⟨u, h1, by simpa using h2⟩

/-- **C97 (partial).** `merge_degenerate_triangles` keeps every fixed vertex with its position and flags, and every
vertex with another number of edges or facets than three.  (The double-edge clean-up does not, see
`C97_fixed_violated`; the merge of triangles removes no vertex at all, see `C51_merge`.) -/
theorem C97_degree_partial {eps : K} {s u : St K} (h : Proper s) (hb : BigTris eps s) (hu : mergeDegenerate eps s = some u) {v : Nat}
    (hv : v ∈ s.verts) (hk : Flags.has (s.V v).props Flags.vIsFixed = true ∨ (s.V v).edges.length ≠ 3 ∨ (s.V v).facets.length ≠ 3) :
    v ∈ u.verts ∧ u.pos v = s.pos v ∧ (u.V v).props = (s.V v).props := by
  obtain ⟨t, h1, h2, h3, -, -⟩ := C52_star_partial h hb
  rw [hu] at h1
  cases h1
  refine ⟨?_, ?_, ?_⟩
  · rw [h2.verts, h3.verts, List.mem_filter]
    refine ⟨hv, ?_⟩
    simp only [List.mem_filter, decide_eq_true_eq, not_and]
    intro _ hbad
    have hsel := (C52_selected h.wf hv).mp hbad
    rcases hk with k | k | k
    · rw [k] at hsel; simp at hsel
    · exact k hsel.2.1
    · exact k hsel.2.2.1
  · unfold pos; rw [h2.V]; exact (h3.vdata v).1
  · rw [h2.V]; exact (h3.vdata v).2

example : (MCEx.shownT (mergeDegenerate (1 / 4503599627370496) ((MCEx.star 1 7).setProps 3 (fun p => Flags.add p Flags.vIsFixed))) 4 3
    [[3, 0, 1], [1, 2, 3], [2, 0, 3]] [7, 7, 7]) = true := by decide +kernel

/-! ### C98: colours -/

/-- **C98 is violated.** `clear_double_quad_edges` replaces two quads of colour 5 by a quad with the colour of the
mesh; the merge of triangles replaces a pair with the colours 5 and 6 by a quad of colour 6, the variant in
`MeshCleanup` by one with the colour of the mesh. -/
theorem C98_colour_violated :
    (MCEx.square.quads.map fun q => (MCEx.square.F (.quad q)).color) = [5, 5] ∧
    MCEx.shownQ (clearDoubleQuads (1 / 1000000) (fun _ => 0) MCEx.square) 4 0 [[1, 2, 3, 0]] [1] = true ∧
    (MCEx.fan.tris.map fun t => (MCEx.fan.F (.tri t)).color) = [5, 6, 7] ∧
    MCEx.shown (mergeTriangles FData.color [13] (setupConnectivity (1 / 1000000) MCEx.fan)) [12] [[3, 0, 1, 2]] [6] [14] = true ∧
    MCEx.shown (mergeTriangles (fun _ => -1) [13] (setupConnectivity (1 / 1000000) MCEx.fan)) [12] [[3, 0, 1, 2]] [1] [14] = true := by
  refine ⟨?_, ?_, ?_, ?_, ?_⟩ <;> decide +kernel

/-- **C98 (partial).** Triangles made by `merge_degenerate_triangles` have the common colour (not negative) of the
triangles they replace, and all other triangles and quads keep theirs.  (The double-edge clean-up and the merge of
triangles do not keep colours, see `C98_colour_violated`.) -/
theorem C98_degree_partial {eps : K} {s u : St K} (h : Proper s) (hb : BigTris eps s) (hu : mergeDegenerate eps s = some u) {x : Nat}
    (hx : x ∈ u.tris) (hc : ∀ y ∈ s.tris, 0 ≤ (s.F (.tri y)).color) :
    (x ∈ s.tris ∧ (u.F (.tri x)).color = (s.F (.tri x)).color) ∨
    ∃ v ∈ s.verts, v ∉ u.verts ∧ ∀ f, Live s f → v ∈ (s.F f).corners → (s.F f).color = (u.F (.tri x)).color := by
  obtain ⟨t, h1, h2, h3, -, -⟩ := C52_star_partial h hb
  rw [hu] at h1
  cases h1
  rw [h2.tris] at hx
  rw [(h2.corners _).2.1]
  rcases h3.fresh x hx with ⟨k1, k2⟩ | ⟨v, hv, a, b, c, -, y1, m1, y2, -, y3, -, i1, -, -, c1, -, -⟩
  · exact Or.inl ⟨k1, by rw [k2]⟩
  · obtain ⟨v1, v2⟩ := List.mem_filter.mp hv
    refine Or.inr ⟨v, v1, ?_, ?_⟩
    · rw [h2.verts, h3.verts, List.mem_filter]
      simp only [not_and]
      intro _
      simpa using ⟨v1, v2⟩
    · intro f hf hvf
      have hy : v ∈ (s.F (.tri y1)).corners := (rot3_mem (a := v) i1 v).mpr (by simp)
      have f1 := ((h.wf.facets v v1).2 f).mpr ⟨hf, hvf⟩
      have f2 := ((h.wf.facets v v1).2 (.tri y1)).mpr ⟨m1, hy⟩
      rw [(((C52_selected h.wf v1).mp v2).2.2.2 f f1 (.tri y1) f2).2, c1]
      unfold newColor
      rw [if_neg (not_lt.mpr (hc y1 m1))]

/-! ### C99: stale pointers -/

/-- **C99 is violated.** After a triangle was removed, `setup_facet_connectivity` leaves the pointers of interior edges
to it: they refer to an element that is no longer in the mesh. -/
theorem C99_stale_violated :
    let s := setupConnectivity (1 / 1000000) ((setupConnectivity (1 / 1000000) MCEx.half).removeTri 10)
    WF s ∧ DirUnique s ∧ 12 ∈ s.es .intr ∧ (s.E 12).fr = .tri 10 ∧ ¬ Live s (.tri 10) ∧
      ¬ Covered s (s.E 12).v2 (s.E 12).v1 := by
  dsimp only
  have w := sbp_wf (setup_sbp (1 / 1000000 : ℚ) (built_wf MCEx.built_half)) (built_wf MCEx.built_half)
  refine ⟨sbp_wf (setup_sbp _ (wf_removeTri w 10)) (wf_removeTri w 10), dirUnique_of (by decide +kernel), ?_⟩
  unfold Covered
  rw [ex_live]
  decide +kernel

/-- **C99 (partial).** If the facet pointers are null where an edge has no element (for example in a mesh whose
edges were never connected), they refer to elements of the mesh after `setup_facet_connectivity`.  (The function
does not establish this by itself, see `C99_stale_violated`.) -/
theorem C99_pointers_partial {eps : K} {s : St K} (h : WF s) (hd : DirUnique s) (hlf : LeftFacets eps s) (hn : NullWhereOpen s) {e : Nat}
    (he : e ∈ s.es .intr) :
    let t := setupConnectivity eps s
    ((t.E e).fl = .null ∨ Live t (t.E e).fl) ∧ ((t.E e).fr = .null ∨ Live t (t.E e).fr) := by
  dsimp only
  have hb := setup_sbp eps h
  obtain ⟨i1, i2, i3, i4⟩ := setup_intr (eps := eps) h hd hlf he
  obtain ⟨n1, n2⟩ := hn e he
  constructor
  · by_cases hc : ∃ f, Live s f ∧ HasSide s f (s.E e).v1 (s.E e).v2
    · obtain ⟨f, f1, f2⟩ := hc
      rw [i1 f f1 f2]
      exact Or.inr ((sbp_live hb f).mpr f1)
    · have hc' : ∀ f, Live s f → ¬ HasSide s f (s.E e).v1 (s.E e).v2 := fun f h1 h2 => hc ⟨f, h1, h2⟩
      exact Or.inl ((i3 hc').trans (n1 hc'))
  · by_cases hc : ∃ f, Live s f ∧ HasSide s f (s.E e).v2 (s.E e).v1
    · obtain ⟨f, f1, f2⟩ := hc
      rw [i2 f f1 f2]
      exact Or.inr ((sbp_live hb f).mpr f1)
    · have hc' : ∀ f, Live s f → ¬ HasSide s f (s.E e).v2 (s.E e).v1 := fun f h1 h2 => hc ⟨f, h1, h2⟩
      exact Or.inl ((i4 hc').trans (n2 hc'))

example : NullWhereOpen MCEx.half ∧ LeftFacets (1 / 1000000) MCEx.half ∧ 12 ∈ MCEx.half.es .intr :=
  ⟨by unfold NullWhereOpen; simp only [all_live]; decide +kernel, C48_left_geometry (built_wf MCEx.built_half) MCEx.half_shapes,
   by decide +kernel⟩

/-! ### C100: active elements -/

/-- **C100 is violated.** The triangle made by `merge_degenerate_triangles` is not active, so that later steps skip
it in their intersection tests, although the triangles it replaces were active. -/
theorem C100_active_violated :
    let s := ((((MCEx.star 1 7).activate (.tri 7)).activate (.tri 8)).activate (.tri 9))
    (s.tris.all fun t => (s.F (.tri t)).active) = true ∧
    (mergeDegenerate (1 / 4503599627370496) s).any (fun u => decide (u.tris = [13]) && !(u.F (.tri 13)).active) = true := by
  constructor <;> decide +kernel

/-- **C100 (partial).** The merge of triangles to quads yields active quads and leaves the flags of all other
elements.  (The other clean-up function does not, see `C100_active_violated`.) -/
theorem C100_merge_partial (col : FData → Int) {eps : K} {s u : St K} (h : WF s) (hd : DirUnique s) (hu : UniqueIntr s) (hc : TrisCCW s)
    (hlf : LeftFacets eps s) (hn : NullWhereOpen s) {l : List Nat} (hl : l.Perm (triEdges (setupConnectivity eps s)))
    (hm : mergeTriangles col l (setupConnectivity eps s) = some u) (ha : ∀ f, Live s f → (s.F f).active = true) :
    ∀ f, Live u f → (u.F f).active = true := by
  have hb := setup_sbp eps h
  obtain ⟨u', h1, -, -, -, -, h2, -⟩ := C51_merge col h hd hu hc hlf hn hl
  rw [hm] at h1; cases h1
  have old : ∀ f, Live (setupConnectivity eps s) f → ((setupConnectivity eps s).F f).active = true := by
    intro f hf
    rw [(hb.corners f).2.2.1]
    exact ha f ((sbp_live hb f).mp hf)
  intro f hf
  cases f with
  | null => exact absurd hf (by simp [Live])
  | tri x =>
    rw [h2.tris.2 x hf]
    exact old _ (h2.tris.1.subset hf)
  | quad q =>
    obtain ⟨new, n1, n2⟩ := h2.newQuads
    have hq : q ∈ u.quads := hf
    rw [n1, List.mem_append] at hq
    rcases hq with hq | hq
    · rw [h2.oldQuads q hq]; exact old _ hq
    · obtain ⟨a, b, c, d, x, y, -, k, -⟩ := n2 q hq
      exact k

example : ∀ f, Live (((MCEx.fan.activate (.tri 10)).activate (.tri 11)).activate (.tri 12)) f →
    ((((MCEx.fan.activate (.tri 10)).activate (.tri 11)).activate (.tri 12)).F f).active = true := by
  simp only [all_live]; decide +kernel

end TQ

#print axioms TQ.C52_star_partial
#print axioms TQ.C52_selected
#print axioms TQ.C52_orientation_violated
#print axioms TQ.C50_triangles
#print axioms TQ.C50_quads_partial
#print axioms TQ.C50_quads_violated
#print axioms TQ.C96_check_partial
#print axioms TQ.C96_open_violated
#print axioms TQ.C97_fixed_violated
#print axioms TQ.C97_degree_partial
#print axioms TQ.C98_colour_violated
#print axioms TQ.C98_degree_partial
#print axioms TQ.C99_stale_violated
#print axioms TQ.C99_pointers_partial
#print axioms TQ.C100_active_violated
#print axioms TQ.C100_merge_partial

import Verif.Mesh.Lemmas
import Mathlib.Tactic.LinearCombination
import Mathlib.Algebra.Order.Field.Rat

/-! # Properties C49, C79, C80, C82: the mesh data structure -/

set_option linter.unusedSectionVars false
set_option linter.unusedSimpArgs false

namespace TQ
open MS MeshSpec MS.St
variable {K : Type*} [Field K] [LinearOrder K] [IsStrictOrderedRing K]

/-! ### C82: incidence -/

theorem built_wf {c : Int} {s : St K} (h : Built c s) : WF s := by
  induction h with
  | empty => exact wf_empty c
  | addVertex p _ ih => exact wf_addVertex ih p
  | addEdge l a b col pr _ ha hb hab ih => exact wf_addEdge ih l col pr ha hb hab
  | addTri x y z col _ hx hy hz hn ih => exact wf_addTri ih col hx hy hz hn
  | addQuad x y z w col _ hx hy hz hw hn ih => exact wf_addQuad ih col hx hy hz hw hn
  | removeEdge l e _ he ih => exact wf_removeEdge ih e ((liveE_iff ih.toSound e).mpr ⟨l, he⟩)
  | removeIntr l e _ he ih =>
    unfold St.removeIntr
    split_ifs
    · exact ih
    · exact wf_removeEdge ih e ((liveE_iff ih.toSound e).mpr ⟨l, he⟩)
  | removeBdry l e _ he ih =>
    unfold St.removeBdry
    split_ifs
    · exact ih
    · exact wf_removeEdge ih e ((liveE_iff ih.toSound e).mpr ⟨l, he⟩)
  | removeTri t _ ht ih => exact wf_removeTri ih t
  | removeQuad q _ hq ih => exact wf_removeQuad ih q
  | removeVertex v _ hv h1 h2 ih => exact wf_removeVertex ih v h1 h2 hv

/-- **C82.** After any history of additions and removals the edge list of every vertex contains exactly the
edges of the mesh that end in it, its facet list exactly the facets that have it as a corner, each once. -/
theorem C82_incidence {c : Int} {s : St K} (h : Built c s) : Incidence s := (built_wf h).toIncidence

/-- **C82.** After any history all references are to vertices of the mesh. -/
theorem C82_no_dangling {c : Int} {s : St K} (h : Built c s) :
    (∀ l, ∀ e ∈ s.es l, (s.E e).v1 ∈ s.verts ∧ (s.E e).v2 ∈ s.verts ∧ (s.E e).list = l) ∧
    ∀ f, Live s f → (s.F f).corners.Nodup ∧ ∀ x ∈ (s.F f).corners, x ∈ s.verts := by
  have hw := built_wf h
  refine ⟨fun l e he => ?_, hw.cor⟩
  obtain ⟨a, b, d, _⟩ := (hw.ends l).2 e he
  exact ⟨b, d, a⟩

namespace MeshEx
/-- Three vertices, a triangle and two of its edges, then the triangle is removed again. -/
def s0 : St ℚ := (((St.empty 1).addVertex ⟨0, 0⟩).addVertex ⟨1, 0⟩).addVertex ⟨0, 1⟩
def s1 : St ℚ := (((s0.addTri 0 1 2 (-1)).addIntr 0 1).addBdry 1 2 7)
theorem built0 : Built 1 s0 := (((Built.empty.addVertex _).addVertex _).addVertex _)
theorem built1 : Built 1 s1 := by
  refine Built.addEdge _ _ _ _ _ (Built.addEdge _ _ _ _ _ (Built.addTri _ _ _ _ built0 ?_ ?_ ?_ ?_) ?_ ?_ ?_) ?_ ?_ ?_ <;>
    decide
end MeshEx

example : (MeshEx.s1.V 1).edges = [4, 5] ∧ (MeshEx.s1.V 1).facets = [.tri 3] ∧ MeshEx.s1.es .intr = [4] ∧
    MeshEx.s1.es .bdry = [5] ∧ ((MeshEx.s1.removeTri 3).V 1).facets = [] ∧
    ((MeshEx.s1.removeEdge 4).V 1).edges = [5] := by decide +kernel

example : Incidence (MeshEx.s1.removeTri 3) := C82_incidence (MeshEx.built1.removeTri 3 (by decide +kernel))

/-! ### C79: adding and removing -/

/-- **C79.** Every `add` function appends one new entity to its own list, with the given data, and leaves all
other lists, and the data of all other entities of these lists, as they are. -/
theorem C79_add {s : St K} (h : WF s) :
    (∀ p, (s.addVertex p).verts = s.verts ++ [s.nxt] ∧ s.nxt ∉ s.verts ∧ (s.addVertex p).pos s.nxt = p ∧
      (s.addVertex p).es = s.es ∧ (s.addVertex p).E = s.E ∧ (s.addVertex p).tris = s.tris ∧
      (s.addVertex p).quads = s.quads ∧ (s.addVertex p).F = s.F ∧ ∀ v ∈ s.verts, (s.addVertex p).V v = s.V v) ∧
    (∀ l a b col pr, (s.addEdge l a b col pr).es l = s.es l ++ [s.nxt] ∧ s.nxt ∉ s.es l ∧
      (∀ m, m ≠ l → (s.addEdge l a b col pr).es m = s.es m) ∧
      ((s.addEdge l a b col pr).E s.nxt).v1 = a ∧ ((s.addEdge l a b col pr).E s.nxt).v2 = b ∧
      ((s.addEdge l a b col pr).E s.nxt).color = col ∧ ((s.addEdge l a b col pr).E s.nxt).list = l ∧
      (∀ m, ∀ e ∈ s.es m, (s.addEdge l a b col pr).E e = s.E e) ∧
      (s.addEdge l a b col pr).verts = s.verts ∧ (s.addEdge l a b col pr).tris = s.tris ∧
      (s.addEdge l a b col pr).quads = s.quads ∧ (s.addEdge l a b col pr).F = s.F ∧
      ∀ v, (s.addEdge l a b col pr).pos v = s.pos v) ∧
    (∀ x y z col, [x, y, z].Nodup → (s.addTri x y z col).tris = s.tris ++ [s.nxt] ∧ s.nxt ∉ s.tris ∧
      ((s.addTri x y z col).F (.tri s.nxt)).corners = [x, y, z] ∧
      ((s.addTri x y z col).F (.tri s.nxt)).color = (if col < 0 then s.color else col) ∧
      (∀ f, Live s f → (s.addTri x y z col).F f = s.F f) ∧ (s.addTri x y z col).quads = s.quads ∧
      (s.addTri x y z col).verts = s.verts ∧ (s.addTri x y z col).es = s.es ∧ (s.addTri x y z col).E = s.E ∧
      ∀ v, (s.addTri x y z col).pos v = s.pos v) ∧
    (∀ x y z w col, [x, y, z, w].Nodup → (s.addQuad x y z w col).quads = s.quads ++ [s.nxt] ∧ s.nxt ∉ s.quads ∧
      ((s.addQuad x y z w col).F (.quad s.nxt)).corners = [x, y, z, w] ∧
      ((s.addQuad x y z w col).F (.quad s.nxt)).color = (if col < 0 then s.color else col) ∧
      (∀ f, Live s f → (s.addQuad x y z w col).F f = s.F f) ∧ (s.addQuad x y z w col).tris = s.tris ∧
      (s.addQuad x y z w col).verts = s.verts ∧ (s.addQuad x y z w col).es = s.es ∧
      (s.addQuad x y z w col).E = s.E ∧ ∀ v, (s.addQuad x y z w col).pos v = s.pos v) := by
  refine ⟨?_, ?_, ?_, ?_⟩
  · intro p
    refine ⟨rfl, fun hm => lt_irrefl _ (h.vlt _ hm), by simp [pos, addVertex], rfl, rfl, rfl, rfl, rfl, ?_⟩
    intro v hv
    have : v ≠ s.nxt := ne_of_lt (h.vlt v hv)
    simp [addVertex, upd, this]
  · intro l a b col pr
    refine ⟨by simp [addEdge], fun hm => lt_irrefl _ ((h.ends l).2 _ hm).2.2.2.2, ?_, by simp [addEdge], by simp [addEdge],
      by simp [addEdge], by simp [addEdge], ?_, rfl, rfl, rfl, rfl, ?_⟩
    · intro m hm; simp [addEdge, upd, hm]
    · intro m e he
      have : e ≠ s.nxt := ne_of_lt ((h.ends m).2 e he).2.2.2.2
      simp [addEdge, upd, this]
    · intro v; simp only [pos, addEdge, upd]; split_ifs <;> rfl
  · intro x y z col hn
    refine ⟨rfl, fun hm => lt_irrefl _ (h.tlt _ hm), by simp [addTri], by simp [addTri, newColor], ?_, rfl, rfl, rfl, rfl, ?_⟩
    · intro f hf
      have : f ≠ .tri s.nxt := by rintro rfl; exact lt_irrefl _ (h.tlt _ hf)
      simp [addTri, upd, this]
    · intro v
      change (regFacet s.V _ _ v).xy = _
      rw [regFacet_apply _ _ _ _ hn]; split_ifs <;> rfl
  · intro x y z w col hn
    refine ⟨rfl, fun hm => lt_irrefl _ (h.qlt _ hm), by simp [addQuad], by simp [addQuad, newColor], ?_, rfl, rfl, rfl, rfl, ?_⟩
    · intro f hf
      have : f ≠ .quad s.nxt := by rintro rfl; exact lt_irrefl _ (h.qlt _ hf)
      simp [addQuad, upd, this]
    · intro v
      change (regFacet s.V _ _ v).xy = _
      rw [regFacet_apply _ _ _ _ hn]; split_ifs <;> rfl

/-- Removal of exactly one entry that was there. -/
def RemovedOne (old new : List Nat) (x : Nat) : Prop :=
  x ∈ old ∧ x ∉ new ∧ (∀ y, y ≠ x → (y ∈ new ↔ y ∈ old)) ∧ new.Sublist old ∧ new.length + 1 = old.length

theorem filter_removedOne {l : List Nat} (hn : l.Nodup) {x : Nat} (hx : x ∈ l) : RemovedOne l (l.filter (· ≠ x)) x := by
  refine ⟨hx, by simp, ?_, List.filter_sublist, ?_⟩
  · intro y hy; simp [hy]
  · have := List.Nodup.erase_eq_filter hn x
    have h2 : l.filter (· ≠ x) = l.erase x := by
      rw [this]
      refine List.filter_congr ?_
      intro y _
      simp [bne, beq_eq_decide]
    rw [h2, List.length_erase_of_mem hx]
    have := List.length_pos_of_mem hx
    omega

/-- **C79.** Every `remove` function takes exactly the addressed entity out of its list and leaves the other
lists as they are. -/
theorem C79_remove {s : St K} (h : WF s) :
    (∀ v ∈ s.verts, RemovedOne s.verts (s.removeVertex v).verts v ∧ (s.removeVertex v).es = s.es ∧
      (s.removeVertex v).tris = s.tris ∧ (s.removeVertex v).quads = s.quads) ∧
    (∀ t ∈ s.tris, RemovedOne s.tris (s.removeTri t).tris t ∧ (s.removeTri t).es = s.es ∧
      (s.removeTri t).verts = s.verts ∧ (s.removeTri t).quads = s.quads) ∧
    (∀ q ∈ s.quads, RemovedOne s.quads (s.removeQuad q).quads q ∧ (s.removeQuad q).es = s.es ∧
      (s.removeQuad q).verts = s.verts ∧ (s.removeQuad q).tris = s.tris) ∧
    (∀ e ∈ s.es .intr, RemovedOne (s.es .intr) ((s.removeIntr e).es .intr) e ∧
      (∀ l, l ≠ .intr → (s.removeIntr e).es l = s.es l) ∧ (s.removeIntr e).verts = s.verts ∧
      (s.removeIntr e).tris = s.tris ∧ (s.removeIntr e).quads = s.quads) ∧
    (∀ e ∈ s.es .bdry, RemovedOne (s.es .bdry) ((s.removeBdry e).es .bdry) e ∧
      (∀ l, l ≠ .bdry → (s.removeBdry e).es l = s.es l) ∧ (s.removeBdry e).verts = s.verts ∧
      (s.removeBdry e).tris = s.tris ∧ (s.removeBdry e).quads = s.quads) := by
  refine ⟨?_, ?_, ?_, ?_, ?_⟩
  · intro v hv; exact ⟨filter_removedOne h.vnd hv, rfl, rfl, rfl⟩
  · intro t ht; exact ⟨filter_removedOne h.tnd ht, rfl, rfl, rfl⟩
  · intro q hq; exact ⟨filter_removedOne h.qnd hq, rfl, rfl, rfl⟩
  · intro e he
    have hl := ((h.ends _).2 e he).1
    unfold St.removeIntr
    rw [if_neg (by simp [hl])]
    refine ⟨?_, ?_, rfl, rfl, rfl⟩
    · have : (s.removeEdge e).es .intr = (s.es .intr).filter (· ≠ e) := by simp [removeEdge, hl]
      rw [this]; exact filter_removedOne (h.ends _).1 he
    · intro l hne; simp [removeEdge, upd, hl, hne]
  · intro e he
    have hl := ((h.ends _).2 e he).1
    unfold St.removeBdry
    rw [if_neg (by simp [hl])]
    refine ⟨?_, ?_, rfl, rfl, rfl⟩
    · have : (s.removeEdge e).es .bdry = (s.es .bdry).filter (· ≠ e) := by simp [removeEdge, hl]
      rw [this]; exact filter_removedOne (h.ends _).1 he
    · intro l hne; simp [removeEdge, upd, hl, hne]

/-- **C79.** An edge that belongs to another list is refused. -/
theorem C79_refused {s : St K} (h : WF s) {l : EL} {e : Nat} (he : e ∈ s.es l) :
    (l ≠ .intr → s.removeIntr e = s) ∧ (l ≠ .bdry → s.removeBdry e = s) := by
  have hl := ((h.ends _).2 e he).1
  constructor
  · intro hne; unfold St.removeIntr; rw [if_pos (by rw [hl]; exact hne)]
  · intro hne; unfold St.removeBdry; rw [if_pos (by rw [hl]; exact hne)]

example : MeshEx.s1.removeIntr 5 = MeshEx.s1 ∧ (MeshEx.s1.removeBdry 5).es .bdry = [] :=
  ⟨(C79_refused (built_wf MeshEx.built1) (l := .bdry) (by decide +kernel)).1 (by decide), by decide +kernel⟩

/-! ### C80: circumcentre and quad area -/

/-- **C80.** The circumcentre of a triangle with non-zero area has the same distance from all corners, and
it is the only such point. -/
theorem C80_circumcenter {p q r : Pt K} (h : triArea p q r ≠ 0) :
    (Pt.normSq (circumcenter p q r - p) = Pt.normSq (circumcenter p q r - q) ∧
     Pt.normSq (circumcenter p q r - p) = Pt.normSq (circumcenter p q r - r)) ∧
    ∀ c : Pt K, Pt.normSq (c - p) = Pt.normSq (c - q) → Pt.normSq (c - p) = Pt.normSq (c - r) →
      c = circumcenter p q r := by
  have hD : (q.x - p.x) * (r.y - p.y) - (q.y - p.y) * (r.x - p.x) ≠ 0 := by
    intro h0
    apply h
    unfold triArea Pt.cross
    simp only [Pt.sub_x, Pt.sub_y]
    rw [h0]; ring
  have hx : (circumcenter p q r).x * (2 * ((q.x - p.x) * (r.y - p.y) - (q.y - p.y) * (r.x - p.x))) =
      (r.y - p.y) * ((q.x - p.x) * (q.x - p.x) + (q.y - p.y) * (q.y - p.y)) -
      (q.y - p.y) * ((r.x - p.x) * (r.x - p.x) + (r.y - p.y) * (r.y - p.y)) +
      p.x * (2 * ((q.x - p.x) * (r.y - p.y) - (q.y - p.y) * (r.x - p.x))) := by
    unfold circumcenter Pt.cross
    simp only [Pt.sub_x, Pt.sub_y]
    rw [add_mul, div_mul_cancel₀ _ (mul_ne_zero two_ne_zero hD)]
  have hy : (circumcenter p q r).y * (2 * ((q.x - p.x) * (r.y - p.y) - (q.y - p.y) * (r.x - p.x))) =
      (q.x - p.x) * ((r.x - p.x) * (r.x - p.x) + (r.y - p.y) * (r.y - p.y)) -
      (r.x - p.x) * ((q.x - p.x) * (q.x - p.x) + (q.y - p.y) * (q.y - p.y)) +
      p.y * (2 * ((q.x - p.x) * (r.y - p.y) - (q.y - p.y) * (r.x - p.x))) := by
    unfold circumcenter Pt.cross
    simp only [Pt.sub_x, Pt.sub_y]
    rw [add_mul, div_mul_cancel₀ _ (mul_ne_zero two_ne_zero hD)]
  have h2 : (2 : K) ≠ 0 := two_ne_zero
  generalize circumcenter p q r = u at *
  have hD2 : 2 * ((q.x - p.x) * (r.y - p.y) - (q.y - p.y) * (r.x - p.x)) ≠ 0 := mul_ne_zero h2 hD
  refine ⟨⟨?_, ?_⟩, ?_⟩
  · simp only [Pt.normSq, Pt.sub_x, Pt.sub_y]
    refine mul_right_cancel₀ hD2 ?_
    linear_combination (2 * (q.x - p.x)) * hx + (2 * (q.y - p.y)) * hy
  · simp only [Pt.normSq, Pt.sub_x, Pt.sub_y]
    refine mul_right_cancel₀ hD2 ?_
    linear_combination (2 * (r.x - p.x)) * hx + (2 * (r.y - p.y)) * hy
  · intro c h1 h3
    simp only [Pt.normSq, Pt.sub_x, Pt.sub_y] at h1 h3
    refine Pt.ext' ?_ ?_
    · refine mul_right_cancel₀ hD2 ?_
      rw [hx]
      linear_combination (r.y - p.y) * h1 - (q.y - p.y) * h3
    · refine mul_right_cancel₀ hD2 ?_
      rw [hy]
      linear_combination (q.x - p.x) * h3 - (r.x - p.x) * h1

example : circumcenter (⟨0, 0⟩ : Pt ℚ) ⟨4, 0⟩ ⟨0, 2⟩ = ⟨2, 1⟩ ∧ triArea (⟨0, 0⟩ : Pt ℚ) ⟨4, 0⟩ ⟨0, 2⟩ ≠ 0 := by
  decide +kernel

/-- **C80.** The area of a quad is the sum of the areas of its triangles, for both diagonals. -/
theorem C80_quad_area (p q r s : Pt K) : quadArea p q r s = triArea p q r + triArea p r s ∧
    quadArea p q r s = triArea q r s + triArea q s p := by
  refine ⟨rfl, ?_⟩
  unfold quadArea triArea Pt.cross
  simp only [Pt.sub_x, Pt.sub_y]
  ring

example : quadArea (⟨0, 0⟩ : Pt ℚ) ⟨2, 0⟩ ⟨3, 2⟩ ⟨0, 1⟩ = 7 / 2 := by decide +kernel

/-! ### C49: edge index -/

/-- **C49.** `get_edge_index` returns `i` iff the two vertices are, in either order, the ends of side `i`:
the side from corner `i + 1` to corner `i + 2` (for a triangle the side opposite to corner `i`). -/
theorem C49_edge_index {d : FData} (hl : d.corners.length = 3 ∨ d.corners.length = 4) (hn : d.corners.Nodup)
    (a b i : Nat) : edgeIndex d a b = some i ↔
      i < d.corners.length ∧ (sideAt d.corners i = some (a, b) ∨ sideAt d.corners i = some (b, a)) := by
  unfold edgeIndex
  match hc : d.corners with
  | [c0, c1, c2] =>
    rw [hc] at hn
    simp only [List.nodup_cons, List.mem_cons, List.not_mem_nil, or_false, not_or, not_false_eq_true,
      List.nodup_nil, and_true] at hn
    obtain ⟨⟨n1, n2⟩, n3⟩ := hn
    simp only [List.length_cons, List.length_nil]
    constructor
    · intro h
      unfold triEdgeIndex at h
      split_ifs at h with h1 h2 h3
      · simp only [Option.some.injEq] at h; subst h
        rcases h1 with ⟨rfl, rfl⟩ | ⟨rfl, rfl⟩ <;> simp [sideAt]
      · simp only [Option.some.injEq] at h; subst h
        rcases h2 with ⟨rfl, rfl⟩ | ⟨rfl, rfl⟩ <;> simp [sideAt]
      · simp only [Option.some.injEq] at h; subst h
        rcases h3 with ⟨rfl, rfl⟩ | ⟨rfl, rfl⟩ <;> simp [sideAt]
    · rintro ⟨hi, h⟩
      match i, hi with
      | 0, _ =>
        simp [sideAt] at h
        rcases h with ⟨rfl, rfl⟩ | ⟨rfl, rfl⟩ <;> simp [triEdgeIndex, n1, n2, n3, Ne.symm n1, Ne.symm n2, Ne.symm n3]
      | 1, _ =>
        simp [sideAt] at h
        rcases h with ⟨rfl, rfl⟩ | ⟨rfl, rfl⟩ <;> simp [triEdgeIndex, n1, n2, n3, Ne.symm n1, Ne.symm n2, Ne.symm n3]
      | 2, _ =>
        simp [sideAt] at h
        rcases h with ⟨rfl, rfl⟩ | ⟨rfl, rfl⟩ <;> simp [triEdgeIndex, n1, n2, n3, Ne.symm n1, Ne.symm n2, Ne.symm n3]
  | [c0, c1, c2, c3] =>
    rw [hc] at hn
    simp only [List.nodup_cons, List.mem_cons, List.not_mem_nil, or_false, not_or, not_false_eq_true,
      List.nodup_nil, and_true] at hn
    obtain ⟨⟨n1, n2, n4⟩, ⟨n3, n5⟩, n6⟩ := hn
    simp only [List.length_cons, List.length_nil]
    constructor
    · intro h
      unfold quadEdgeIndex at h
      split_ifs at h with h1 h2 h3 h4
      · simp only [Option.some.injEq] at h; subst h
        rcases h1 with ⟨rfl, rfl⟩ | ⟨rfl, rfl⟩ <;> simp [sideAt]
      · simp only [Option.some.injEq] at h; subst h
        rcases h2 with ⟨rfl, rfl⟩ | ⟨rfl, rfl⟩ <;> simp [sideAt]
      · simp only [Option.some.injEq] at h; subst h
        rcases h3 with ⟨rfl, rfl⟩ | ⟨rfl, rfl⟩ <;> simp [sideAt]
      · simp only [Option.some.injEq] at h; subst h
        rcases h4 with ⟨rfl, rfl⟩ | ⟨rfl, rfl⟩ <;> simp [sideAt]
    · rintro ⟨hi, h⟩
      match i, hi with
      | 0, _ =>
        simp [sideAt] at h
        rcases h with ⟨rfl, rfl⟩ | ⟨rfl, rfl⟩ <;>
          simp [quadEdgeIndex, n1, n2, n3, n4, n5, n6, Ne.symm n1, Ne.symm n2, Ne.symm n3, Ne.symm n4, Ne.symm n5, Ne.symm n6]
      | 1, _ =>
        simp [sideAt] at h
        rcases h with ⟨rfl, rfl⟩ | ⟨rfl, rfl⟩ <;>
          simp [quadEdgeIndex, n1, n2, n3, n4, n5, n6, Ne.symm n1, Ne.symm n2, Ne.symm n3, Ne.symm n4, Ne.symm n5, Ne.symm n6]
      | 2, _ =>
        simp [sideAt] at h
        rcases h with ⟨rfl, rfl⟩ | ⟨rfl, rfl⟩ <;>
          simp [quadEdgeIndex, n1, n2, n3, n4, n5, n6, Ne.symm n1, Ne.symm n2, Ne.symm n3, Ne.symm n4, Ne.symm n5, Ne.symm n6]
      | 3, _ =>
        simp [sideAt] at h
        rcases h with ⟨rfl, rfl⟩ | ⟨rfl, rfl⟩ <;>
          simp [quadEdgeIndex, n1, n2, n3, n4, n5, n6, Ne.symm n1, Ne.symm n2, Ne.symm n3, Ne.symm n4, Ne.symm n5, Ne.symm n6]
  | [] => rw [hc] at hl; simp at hl
  | [_] => rw [hc] at hl; simp at hl
  | [_, _] => rw [hc] at hl; simp at hl
  | _ :: _ :: _ :: _ :: _ :: _ => rw [hc] at hl; simp at hl

/-- **C49.** So every side has its own index, and -1 is returned exactly for vertices that are not the ends
of a side. -/
theorem C49_bijection {d : FData} (hl : d.corners.length = 3 ∨ d.corners.length = 4) (hn : d.corners.Nodup) :
    (∀ i < d.corners.length, ∃ a b, sideAt d.corners i = some (a, b) ∧ edgeIndex d a b = some i ∧ edgeIndex d b a = some i) ∧
    ∀ a b, edgeIndex d a b = none ↔
      ∀ i < d.corners.length, sideAt d.corners i ≠ some (a, b) ∧ sideAt d.corners i ≠ some (b, a) := by
  constructor
  · intro i hi
    have h1 : (i + 1) % d.corners.length < d.corners.length := Nat.mod_lt _ (by omega)
    have h2 : (i + 2) % d.corners.length < d.corners.length := Nat.mod_lt _ (by omega)
    have hs : sideAt d.corners i = some (d.corners[(i + 1) % d.corners.length], d.corners[(i + 2) % d.corners.length]) := by
      unfold sideAt
      rw [List.getElem?_eq_getElem h1, List.getElem?_eq_getElem h2]
    exact ⟨_, _, hs, (C49_edge_index hl hn _ _ _).mpr ⟨hi, Or.inl hs⟩, (C49_edge_index hl hn _ _ _).mpr ⟨hi, Or.inr hs⟩⟩
  · intro a b
    constructor
    · intro h i hi
      constructor
      · intro hs
        have := (C49_edge_index hl hn a b i).mpr ⟨hi, Or.inl hs⟩
        rw [h] at this; simp at this
      · intro hs
        have := (C49_edge_index hl hn a b i).mpr ⟨hi, Or.inr hs⟩
        rw [h] at this; simp at this
    · intro h
      cases hh : edgeIndex d a b with
      | none => rfl
      | some i =>
        obtain ⟨hi, hs⟩ := (C49_edge_index hl hn a b i).mp hh
        rcases hs with hs | hs
        · exact absurd hs (h i hi).1
        · exact absurd hs (h i hi).2

example : edgeIndex ⟨[5, 6, 7, 8], [], 0, true⟩ 6 5 = some 3 ∧ edgeIndex ⟨[5, 6, 7, 8], [], 0, true⟩ 5 7 = none ∧
    edgeIndex ⟨[5, 6, 7], [], 0, true⟩ 7 5 = some 1 ∧ edgeIndex ⟨[5, 6, 7], [], 0, true⟩ 6 7 = some 0 := by decide

end TQ

#print axioms TQ.C82_incidence
#print axioms TQ.C82_no_dangling
#print axioms TQ.C79_add
#print axioms TQ.C79_remove
#print axioms TQ.C79_refused
#print axioms TQ.C80_circumcenter
#print axioms TQ.C80_quad_area
#print axioms TQ.C49_edge_index
#print axioms TQ.C49_bijection

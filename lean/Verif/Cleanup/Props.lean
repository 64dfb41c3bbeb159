import Verif.Cleanup.Resume
import Verif.Cleanup.Check
import Mathlib.Tactic.LinearCombination

/-! # Properties C43, C47, C48: indices, connectivity, resuming -/

set_option linter.unusedSectionVars false
set_option linter.unusedSimpArgs false

namespace TQ
open MS MeshSpec MCSpec FUSpec MC MS.St
variable {K : Type*} [Field K] [LinearOrder K] [IsStrictOrderedRing K]

namespace MCEx
/-- A convex pentagon with its boundary edges (addresses 5-9). -/
def pent : St ℚ :=
  (((((((((((St.empty 1).addVertex ⟨0, 0⟩).addVertex ⟨2, 0⟩).addVertex ⟨3, 2⟩).addVertex ⟨1, 3⟩).addVertex ⟨-1, 2⟩).addBdry 0 1
    1).addBdry 1 2 1).addBdry 2 3 1).addBdry 3 4 1).addBdry 4 0 1)
/-- Two triangles (10, 11), the interior edge 12 between them, the remaining front 13, 14, 15. -/
def half : St ℚ :=
  ((((((pent.addTri 0 1 2 5).addTri 0 2 3 5).addIntr 0 2).addEdge .front 0 3 (-1) 0).addEdge .front 3 4 1 0).addEdge .front 4 0 1 0)
theorem built_pent : Built 1 pent := by
  refine Built.addEdge _ _ _ _ _ (Built.addEdge _ _ _ _ _ (Built.addEdge _ _ _ _ _ (Built.addEdge _ _ _ _ _ (Built.addEdge _ _ _ _ _
    (((((Built.empty.addVertex _).addVertex _).addVertex _).addVertex _).addVertex _) ?_ ?_ ?_) ?_ ?_ ?_) ?_ ?_ ?_) ?_ ?_ ?_) ?_ ?_ ?_ <;>
    decide
theorem built_half : Built 1 half := by
  refine Built.addEdge _ _ _ _ _ (Built.addEdge _ _ _ _ _ (Built.addEdge _ _ _ _ _ (Built.addEdge _ _ _ _ _ (Built.addTri _ _ _ _
    (Built.addTri _ _ _ _ built_pent ?_ ?_ ?_ ?_) ?_ ?_ ?_ ?_) ?_ ?_ ?_) ?_ ?_ ?_) ?_ ?_ ?_) ?_ ?_ ?_ <;> decide
end MCEx

/-! ### C47: indices -/

theorem number_spec {α : Type*} [DecidableEq α] : ∀ (l : List α) (n : Nat) (ix : α → Nat), l.Nodup →
    (number l n ix).2 = n + l.length ∧ (∀ i x, l[i]? = some x → (number l n ix).1 x = n + i) ∧
    ∀ x, x ∉ l → (number l n ix).1 x = ix x := by
  intro l
  induction l with
  | nil => intro n ix _; simp [number]
  | cons y l ih =>
    intro n ix hn
    rw [List.nodup_cons] at hn
    obtain ⟨i1, i2, i3⟩ := ih (n + 1) (upd ix y fun _ => n) hn.2
    refine ⟨by simp only [number, i1, List.length_cons]; omega, ?_, ?_⟩
    · intro i x hx
      simp only [number]
      cases i with
      | zero =>
        simp only [List.getElem?_cons_zero, Option.some.injEq] at hx
        subst hx
        rw [i3 _ hn.1]; simp [upd]
      | succ i =>
        rw [i2 i x (by simpa using hx)]; omega
    · intro x hx
      simp only [List.mem_cons, not_or] at hx
      simp only [number]
      rw [i3 x hx.2]; simp [upd, hx.1]

/-- **C47.** After `assign_mesh_indices` the i-th vertex has index i, the i-th quad has index i and the i-th
triangle the index (number of quads) + i, whatever the indices were before. -/
theorem C47_indices {s : St K} (h : WF s) (ixV : Nat → Nat) (ixF : FRef → Nat) :
    (∀ i v, s.verts[i]? = some v → (assignIndices s ixV ixF).1 v = i) ∧
    (∀ i q, s.quads[i]? = some q → (assignIndices s ixV ixF).2 (.quad q) = i) ∧
    (∀ i t, s.tris[i]? = some t → (assignIndices s ixV ixF).2 (.tri t) = s.quads.length + i) := by
  have nv := number_spec s.verts 0 ixV h.vnd
  have nq := number_spec (s.quads.map FRef.quad) 0 ixF (h.qnd.map (fun a b hab => by simpa using hab))
  have nt := number_spec (s.tris.map FRef.tri) (number (s.quads.map FRef.quad) 0 ixF).2 (number (s.quads.map FRef.quad) 0 ixF).1
    (h.tnd.map (fun a b hab => by simpa using hab))
  refine ⟨fun i v hv => ?_, fun i q hq => ?_, fun i t ht => ?_⟩
  · unfold assignIndices; dsimp only; rw [nv.2.1 i v hv]; omega
  · unfold assignIndices; dsimp only
    rw [nt.2.2 _ (by simp), nq.2.1 i _ (by simp [hq])]; omega
  · unfold assignIndices; dsimp only
    rw [nt.2.1 i _ (by simp [ht]), nq.1, List.length_map]; omega

/-- **C47.** The numbering of the vertices is a bijection onto 0..n-1, the numbering of the elements a
bijection onto 0..m-1. -/
theorem C47_bijection {s : St K} (h : WF s) (ixV : Nat → Nat) (ixF : FRef → Nat) :
    (∀ v ∈ s.verts, (assignIndices s ixV ixF).1 v < s.verts.length) ∧
    (∀ i < s.verts.length, ∃ v ∈ s.verts, (assignIndices s ixV ixF).1 v = i ∧
      ∀ w ∈ s.verts, (assignIndices s ixV ixF).1 w = i → w = v) ∧
    (∀ f, Live s f → (assignIndices s ixV ixF).2 f < s.quads.length + s.tris.length) ∧
    (∀ i < s.quads.length + s.tris.length, ∃ f, Live s f ∧ (assignIndices s ixV ixF).2 f = i ∧
      ∀ g, Live s g → (assignIndices s ixV ixF).2 g = i → g = f) := by
  obtain ⟨a, b, c⟩ := C47_indices h ixV ixF
  have hv : ∀ v ∈ s.verts, ∃ i, s.verts[i]? = some v ∧ i < s.verts.length := by
    intro v hv
    obtain ⟨i, hi, e⟩ := List.getElem_of_mem hv
    exact ⟨i, by rw [List.getElem?_eq_getElem hi, e], hi⟩
  have hf : ∀ f, Live s f → (∃ i, i < s.quads.length ∧ ∃ q, f = .quad q ∧ s.quads[i]? = some q) ∨
      ∃ i, i < s.tris.length ∧ ∃ t, f = .tri t ∧ s.tris[i]? = some t := by
    intro f hf
    cases f with
    | null => exact absurd hf (by simp [Live])
    | tri t =>
      obtain ⟨i, hi, e⟩ := List.getElem_of_mem (show t ∈ s.tris from hf)
      exact Or.inr ⟨i, hi, t, rfl, by rw [List.getElem?_eq_getElem hi, e]⟩
    | quad q =>
      obtain ⟨i, hi, e⟩ := List.getElem_of_mem (show q ∈ s.quads from hf)
      exact Or.inl ⟨i, hi, q, rfl, by rw [List.getElem?_eq_getElem hi, e]⟩
  refine ⟨?_, ?_, ?_, ?_⟩
  · intro v hvm
    obtain ⟨i, hi, hl⟩ := hv v hvm
    rw [a i v hi]; exact hl
  · intro i hi
    refine ⟨s.verts[i], List.getElem_mem hi, a i _ (List.getElem?_eq_getElem hi), ?_⟩
    intro w hw he
    obtain ⟨j, hj, -⟩ := hv w hw
    rw [a j w hj] at he
    subst he
    rw [List.getElem?_eq_getElem hi] at hj
    exact (Option.some.inj hj).symm
  · intro f hfl
    rcases hf f hfl with ⟨i, hi, q, rfl, hq⟩ | ⟨i, hi, t, rfl, ht⟩
    · rw [b i q hq]; omega
    · rw [c i t ht]; omega
  · intro i hi
    by_cases hq : i < s.quads.length
    · refine ⟨.quad s.quads[i], List.getElem_mem hq, b i _ (List.getElem?_eq_getElem hq), ?_⟩
      intro g hg he
      rcases hf g hg with ⟨j, hj, q, rfl, hq'⟩ | ⟨j, hj, t, rfl, ht⟩
      · rw [b j q hq'] at he
        subst he
        rw [List.getElem?_eq_getElem hq] at hq'
        rw [Option.some.inj hq']
      · rw [c j t ht] at he; omega
    · have hlt : i - s.quads.length < s.tris.length := by omega
      refine ⟨.tri s.tris[i - s.quads.length], List.getElem_mem hlt, ?_, ?_⟩
      · rw [c _ _ (List.getElem?_eq_getElem hlt)]; omega
      · intro g hg he
        rcases hf g hg with ⟨j, hj, q, rfl, hq'⟩ | ⟨j, hj, t, rfl, ht⟩
        · rw [b j q hq'] at he; omega
        · rw [c j t ht] at he
          have : j = i - s.quads.length := by omega
          subst this
          rw [List.getElem?_eq_getElem hlt] at ht
          rw [Option.some.inj ht]

/-- **C47.** The exported rows: row k is the list of corner indices of the k-th element (quads first), all
entries are in range, and reading the vertex list at these entries gives back the corners of the element. -/
theorem C47_export {s : St K} (h : WF s) (ixV : Nat → Nat) (ixF : FRef → Nat) :
    (exportRows s (assignIndices s ixV ixF).1).length = s.quads.length + s.tris.length ∧
    ∀ f, Live s f → ∃ row, (exportRows s (assignIndices s ixV ixF).1)[(assignIndices s ixV ixF).2 f]? = some row ∧
      (∀ n ∈ row, n < s.verts.length) ∧ row.map (fun n => s.verts[n]?) = (s.F f).corners.map some := by
  obtain ⟨a, b, c⟩ := C47_indices h ixV ixF
  have hb := C47_bijection h ixV ixF
  have dec : ∀ v ∈ s.verts, s.verts[(assignIndices s ixV ixF).1 v]? = some v := by
    intro v hv
    obtain ⟨i, hi, e⟩ := List.getElem_of_mem hv
    have e2 : s.verts[i]? = some v := by rw [List.getElem?_eq_getElem hi, e]
    rw [a i v e2]; exact e2
  have good : ∀ f, Live s f → (∀ n ∈ (s.F f).corners.map (assignIndices s ixV ixF).1, n < s.verts.length) ∧
      ((s.F f).corners.map (assignIndices s ixV ixF).1).map (fun n => s.verts[n]?) = (s.F f).corners.map some := by
    intro f hf
    have hc := (h.cor f hf).2
    constructor
    · intro n hn
      obtain ⟨x, hx, rfl⟩ := List.mem_map.mp hn
      exact hb.1 x (hc x hx)
    · rw [List.map_map]
      exact List.map_congr_left (fun x hx => dec x (hc x hx))
  refine ⟨by simp [exportRows], fun f hf => ⟨_, ?_, good f hf⟩⟩
  cases f with
  | null => exact absurd hf (by simp [Live])
  | quad q =>
    obtain ⟨i, hi, e⟩ := List.getElem_of_mem (show q ∈ s.quads from hf)
    have e2 : s.quads[i]? = some q := by rw [List.getElem?_eq_getElem hi, e]
    rw [b i q e2]
    unfold exportRows
    rw [List.getElem?_append_left (by simpa using hi), List.getElem?_map, e2]; rfl
  | tri t =>
    obtain ⟨i, hi, e⟩ := List.getElem_of_mem (show t ∈ s.tris from hf)
    have e2 : s.tris[i]? = some t := by rw [List.getElem?_eq_getElem hi, e]
    rw [c i t e2]
    unfold exportRows
    rw [List.getElem?_append_right (by simp)]
    simp [e2]

example : exportRows ((MCEx.half.removeTri 10).addQuad 0 1 2 3 1) (assignIndices ((MCEx.half.removeTri 10).addQuad 0 1 2 3 1) (fun _ => 77) (fun _ => 99)).1
      = [[0, 1, 2, 3], [0, 2, 3]] ∧
    (assignIndices ((MCEx.half.removeTri 10).addQuad 0 1 2 3 1) (fun _ => 77) (fun _ => 99)).2 (.tri 11) = 1 := by decide +kernel

example : WF MCEx.half := built_wf MCEx.built_half

/-! ### C48: connectivity -/

/-- **C48.** After `setup_facet_connectivity`: two different facets are stored as neighbours of each other
across an interior edge iff both have the edge as a side. -/
theorem C48_neighbours {eps : K} {s : St K} (h : WF s) (hd : DirUnique s) (hu : UniqueIntr s) (hl : NbrLen s)
    {a b : Nat} (he : IntrEdge s a b) {f g : FRef} (hf : Live s f) (hfg : f ≠ g) (hg : g ≠ .null) :
    NbrAcross (setupConnectivity eps s) f g a b ↔ Touches s f a b ∧ Touches s g a b ∧ Live s g := by
  have hc := fun f => (setup_sbp eps h).corners f
  have he' : IntrEdge s b a := by
    obtain ⟨e, e1, e2⟩ := he; exact ⟨e, e1, e2.symm⟩
  constructor
  · rintro ⟨i, hi, hs, hn⟩
    rw [(hc f).1] at hi hs
    rcases hs with hs | hs
    · obtain ⟨g', g1, g2, -⟩ := setup_nbr (eps := eps) h hd hu hl hf hi hs he
      rw [hn] at g1; cases g1
      obtain ⟨x1, x2, x3⟩ := g2 hg
      exact ⟨Or.inl ⟨i, hi, hs⟩, x3, x1⟩
    · obtain ⟨g', g1, g2, -⟩ := setup_nbr (eps := eps) h hd hu hl hf hi hs he'
      rw [hn] at g1; cases g1
      obtain ⟨x1, x2, x3⟩ := g2 hg
      exact ⟨Or.inr ⟨i, hi, hs⟩, x3.symm, x1⟩
  · rintro ⟨h1, h2, h3⟩
    rcases h1 with ⟨i, hi, hs⟩ | ⟨i, hi, hs⟩
    · obtain ⟨g', g1, -, g3⟩ := setup_nbr (eps := eps) h hd hu hl hf hi hs he
      refine ⟨i, by rw [(hc f).1]; exact hi, by rw [(hc f).1]; exact Or.inl hs, ?_⟩
      rw [g1, g3 g h3 hfg.symm h2]
    · obtain ⟨g', g1, -, g3⟩ := setup_nbr (eps := eps) h hd hu hl hf hi hs he'
      refine ⟨i, by rw [(hc f).1]; exact hi, by rw [(hc f).1]; exact Or.inr hs, ?_⟩
      rw [g1, g3 g h3 hfg.symm h2.symm]

/-- **C48.** After `setup_facet_connectivity` the neighbour relation is symmetric and irreflexive, also with
respect to the sides. -/
theorem C48_symmetric {eps : K} {s : St K} (h : WF s) (hd : DirUnique s) (hu : UniqueIntr s) (hl : NbrLen s)
    (hn : FreshPointers s) {a b : Nat} {f g : FRef} (hf : Live s f) (hg : g ≠ .null)
    (hx : NbrAcross (setupConnectivity eps s) f g a b) :
    Live s g ∧ f ≠ g ∧ NbrAcross (setupConnectivity eps s) g f a b := by
  have hc := fun f => (setup_sbp eps h).corners f
  have hie : IntrEdge s a b := by
    by_contra hni
    obtain ⟨i, hi, hs, hv⟩ := hx
    rw [(hc f).1] at hi hs
    have hni' : ¬ IntrEdge s b a := fun ⟨e, e1, e2⟩ => hni ⟨e, e1, e2.symm⟩
    rcases hs with hs | hs
    · rw [setup_nbr_keep h hd hs hni] at hv
      exact hg (hn f a b g hf hni ⟨i, hi, Or.inl hs, hv⟩)
    · rw [setup_nbr_keep h hd hs hni'] at hv
      exact hg (hn f b a g hf hni' ⟨i, hi, Or.inl hs, hv⟩)
  have hne : f ≠ g := by
    obtain ⟨i, hi, hs, hv⟩ := hx
    rw [(hc f).1] at hi hs
    have he' : IntrEdge s b a := by
      obtain ⟨e, e1, e2⟩ := hie; exact ⟨e, e1, e2.symm⟩
    rcases hs with hs | hs
    · obtain ⟨g', g1, g2, -⟩ := setup_nbr (eps := eps) h hd hu hl hf hi hs hie
      rw [hv] at g1; cases g1
      exact fun hh => (g2 hg).2.1 hh.symm
    · obtain ⟨g', g1, g2, -⟩ := setup_nbr (eps := eps) h hd hu hl hf hi hs he'
      rw [hv] at g1; cases g1
      exact fun hh => (g2 hg).2.1 hh.symm
  obtain ⟨h1, h2, h3⟩ := (C48_neighbours h hd hu hl hie hf hne hg).mp hx
  refine ⟨h3, hne, (C48_neighbours h hd hu hl hie h3 hne.symm ?_).mpr ⟨h2, h1, hf⟩⟩
  rintro rfl; exact hf

/-- **C48.** The left facet of an interior edge runs along it, the right facet against it; the facet of a
boundary edge runs along it (and the assertion of the code holds). -/
theorem C48_left_right {eps : K} {s : St K} (h : WF s) (hd : DirUnique s) (hlf : LeftFacets eps s) :
    (∀ e ∈ s.es .intr, ∀ f, Live s f →
      (HasSide s f (s.E e).v1 (s.E e).v2 → ((setupConnectivity eps s).E e).fl = f) ∧
      (HasSide s f (s.E e).v2 (s.E e).v1 → ((setupConnectivity eps s).E e).fr = f)) ∧
    (∀ e ∈ s.es .bdry, (∀ f, Live s f → ¬ HasSide s f (s.E e).v2 (s.E e).v1) →
      bdryAssert eps s e = true ∧
      ∀ f, Live s f → HasSide s f (s.E e).v1 (s.E e).v2 → ((setupConnectivity eps s).E e).fl = f) :=
  ⟨fun _ he f hf => ⟨(setup_intr h hd hlf he).1 f hf, (setup_intr h hd hlf he).2.1 f hf⟩,
   fun _ he hno => ⟨(setup_bdry h hlf he hno hd).1, (setup_bdry h hlf he hno hd).2.1⟩⟩

omit [LinearOrder K] [IsStrictOrderedRing K] in
theorem area2_triCentroid [CharZero K] (p q r : Pt K) : area2 p q (St.triCentroid p q r) = area2 p q r / 3 := by
  simp only [area2, St.triCentroid, Pt.smul, Pt.add_x, Pt.add_y]; field_simp; ring

omit [LinearOrder K] [IsStrictOrderedRing K] in
theorem area2_quadCentroid [CharZero K] (p q r s : Pt K) : area2 p q (St.quadCentroid p q r s) = (area2 p q r + area2 p q s) / 4 := by
  simp only [area2, St.quadCentroid, Pt.smul, Pt.add_x, Pt.add_y]; field_simp; ring

theorem isLeft_of {eps : K} {p q r : Pt K} (h1 : 0 < area2 p q r) (h2 : eps ≤ area2 p q r ^ 2) : isLeft eps p q r = true := by
  unfold isLeft orientation
  have : ¬ area2 p q r * area2 p q r < eps := by rw [not_lt]; nlinarith
  simp [this, h1]

/-- **C48.** The hypothesis on the facets of `C48_left_right` holds for counter-clockwise triangles and convex
counter-clockwise quads that are not too small for the tolerance of `is_left`. -/
theorem C48_left_geometry {eps : K} {s : St K} (h : WF s) (hg : SoundShapes eps s) : LeftFacets eps s := by
  intro f a b hf hs
  obtain ⟨i, hi, hs⟩ := hs
  cases f with
  | null => exact absurd hf (by simp [Live])
  | tri t =>
    have hlen := h.tcor t hf
    match hcs : (s.F (.tri t)).corners, hlen with
    | [x, y, z], _ =>
      obtain ⟨g1, g2⟩ := hg.1 t hf x y z hcs
      have r1 : ∀ p q r : Pt K, area2 q r p = area2 p q r := fun p q r => by unfold area2; ring
      have fin : ∀ p q r : Pt K, 0 < area2 p q r → 9 * eps ≤ area2 p q r ^ 2 → isLeft eps p q (St.triCentroid p q r) = true := by
        intro p q r h1 h2
        refine isLeft_of ?_ ?_
        · rw [area2_triCentroid]; positivity
        · rw [area2_triCentroid, div_pow]; rw [le_div_iff₀ (by norm_num)]; linarith
      have cr : ∀ p q r : Pt K, St.triCentroid q r p = St.triCentroid p q r := by
        intro p q r; unfold St.triCentroid; congr 1; apply Pt.ext' <;> simp <;> ring
      unfold fCentroid
      rw [hcs] at hs hi ⊢
      dsimp only
      have : i = 0 ∨ i = 1 ∨ i = 2 := by simp at hi; omega
      rcases this with rfl | rfl | rfl
      · simp [sideAt] at hs; obtain ⟨rfl, rfl⟩ := hs
        rw [← cr]; exact fin _ _ _ (by rw [r1]; exact g1) (by rw [r1]; exact g2)
      · simp [sideAt] at hs; obtain ⟨rfl, rfl⟩ := hs
        rw [← cr, ← cr]; exact fin _ _ _ (by rw [r1, r1]; exact g1) (by rw [r1, r1]; exact g2)
      · simp [sideAt] at hs; obtain ⟨rfl, rfl⟩ := hs
        exact fin _ _ _ g1 g2
  | quad t =>
    have hlen := h.qcor t hf
    match hcs : (s.F (.quad t)).corners, hlen with
    | [x, y, z, w], _ =>
      have g := hg.2 t hf x y z w hcs
      have g1 := g (x, y, z) (by simp)
      have g2 := g (y, z, w) (by simp)
      have g3 := g (z, w, x) (by simp)
      have g4 := g (w, x, y) (by simp)
      dsimp only at g1 g2 g3 g4
      have r1 : ∀ p q r : Pt K, area2 q r p = area2 p q r := fun p q r => by unfold area2; ring
      have fin : ∀ p q r u : Pt K, 0 < area2 p q r → 4 * eps ≤ area2 p q r ^ 2 → 0 < area2 u p q → 4 * eps ≤ area2 u p q ^ 2 →
          isLeft eps p q (St.quadCentroid p q r u) = true := by
        intro p q r u h1 h2 h3 h4
        rw [← r1] at h3 h4
        refine isLeft_of ?_ ?_
        · rw [area2_quadCentroid]; positivity
        · rw [area2_quadCentroid, div_pow, le_div_iff₀ (by norm_num)]
          have hp := mul_pos h1 h3
          by_cases he : 0 ≤ eps
          · have : 4 * eps ≤ area2 p q r * area2 p q u := by
              have hsq := mul_le_mul h2 h4 (by positivity) (by positivity)
              by_contra hc
              rw [not_le] at hc
              have := mul_lt_mul'' hc hc hp.le hp.le
              nlinarith
            nlinarith
          · nlinarith [sq_nonneg (area2 p q r + area2 p q u)]
      have cr : ∀ p q r u : Pt K, St.quadCentroid q r u p = St.quadCentroid p q r u := by
        intro p q r u; unfold St.quadCentroid; congr 1; apply Pt.ext' <;> simp <;> ring
      unfold fCentroid
      rw [hcs] at hs hi ⊢
      dsimp only
      have : i = 0 ∨ i = 1 ∨ i = 2 ∨ i = 3 := by simp at hi; omega
      rcases this with rfl | rfl | rfl | rfl
      · simp [sideAt] at hs; obtain ⟨rfl, rfl⟩ := hs
        rw [← cr]; exact fin _ _ _ _ g2.1 g2.2 g1.1 g1.2
      · simp [sideAt] at hs; obtain ⟨rfl, rfl⟩ := hs
        rw [← cr, ← cr]; exact fin _ _ _ _ g3.1 g3.2 g2.1 g2.2
      · simp [sideAt] at hs; obtain ⟨rfl, rfl⟩ := hs
        rw [← cr, ← cr, ← cr]; exact fin _ _ _ _ g4.1 g4.2 g3.1 g3.2
      · simp [sideAt] at hs; obtain ⟨rfl, rfl⟩ := hs
        exact fin _ _ _ _ g1.1 g1.2 g4.1 g4.2

namespace MCEx
theorem half_dir : DirUnique half := dirUnique_of (by decide +kernel)
theorem half_shapes : SoundShapes (1 / 1000000) half := shapes_of (by decide +kernel)
theorem half_intr : UniqueIntr half := by unfold UniqueIntr; decide +kernel
end MCEx

example : ((setupConnectivity (1 / 1000000) MCEx.half).F (.tri 10)).nbrs = [.null, .tri 11, .null] ∧
    ((setupConnectivity (1 / 1000000) MCEx.half).F (.tri 11)).nbrs = [.null, .null, .tri 10] ∧
    ((setupConnectivity (1 / 1000000) MCEx.half).E 12).fl = .tri 11 ∧ ((setupConnectivity (1 / 1000000) MCEx.half).E 12).fr = .tri 10 ∧
    ((setupConnectivity (1 / 1000000) MCEx.half).E 5).fl = .tri 10 ∧ ((setupConnectivity (1 / 1000000) MCEx.half).E 8).fl = .null := by
  decide +kernel

example : LeftFacets (1 / 1000000) MCEx.half := C48_left_geometry (built_wf MCEx.built_half) MCEx.half_shapes

/-! ### C43: resuming -/

/-- **C43.** Let a mesh with a remaining front be written back at the end of a meshing step
(`add_remaining_front_edges_to_mesh`, `clear_edges`) and picked up by a following step
(`setup_facet_connectivity`, `init_front`, `remove_invalid_mesh_edges`).  Then the new front consists of exactly
the same directed edges as the old one, the interior and boundary edges, vertices and elements of the mesh are
the same as before, the mesh is consistent, and the flag `on_front` is set exactly at the ends of the front. -/
theorem C43_resume {eps : K} {s : St K} (h : Remaining s) (hlf : LeftFacets eps s) (hflag : ∀ v, flagged s v → OnFront s v) :
    let t := startStep eps (finishStep s)
    WF t ∧ SameElements s t ∧ t.es .intr = s.es .intr ∧ t.es .bdry = s.es .bdry ∧
    (∀ e, e ∈ s.es .intr ∨ e ∈ s.es .bdry → ((t.E e).v1 = (s.E e).v1 ∧ (t.E e).v2 = (s.E e).v2) ∧
      (t.E e).color = (s.E e).color ∧ (t.E e).props = (s.E e).props) ∧
    (pairs t .front).Perm (pairs s .front) ∧ ∀ v, flagged t v ↔ OnFront s v := by
  obtain ⟨a, b, c, d, e, f, g, -, -⟩ := resume h hlf
  refine ⟨a, b, c, d, fun x hx => ?_, f, g hflag⟩
  obtain ⟨e1, e2, e3⟩ := e x hx
  exact ⟨by simpa [pairOf] using e1, e2, e3⟩

namespace MCEx
theorem half_remaining : Remaining half := by
  refine ⟨built_wf built_half, half_dir, ?_, ?_, ?_, ?_, ?_, ?_, ?_, ?_, ?_⟩ <;>
    (try simp only [all_live, ex_live]) <;> decide +kernel
end MCEx

example : Remaining MCEx.half ∧ LeftFacets (1 / 1000000) MCEx.half ∧
    pairs (finishStep MCEx.half) .front = [] ∧ pairs (finishStep MCEx.half) .intr = [(0, 2), (0, 3)] ∧
    pairs MCEx.half .front = [(0, 3), (3, 4), (4, 0)] ∧
    pairs (startStep (1 / 1000000) (finishStep MCEx.half)) .front = [(0, 3), (3, 4), (4, 0)] ∧
    pairs (startStep (1 / 1000000) (finishStep MCEx.half)) .intr = [(0, 2)] :=
  ⟨MCEx.half_remaining, C48_left_geometry (built_wf MCEx.built_half) MCEx.half_shapes, by decide +kernel, by decide +kernel,
    by decide +kernel, by decide +kernel, by decide +kernel⟩

end TQ

#print axioms TQ.C47_indices
#print axioms TQ.C47_bijection
#print axioms TQ.C47_export
#print axioms TQ.C48_neighbours
#print axioms TQ.C48_symmetric
#print axioms TQ.C48_left_right
#print axioms TQ.C48_left_geometry
#print axioms TQ.C43_resume

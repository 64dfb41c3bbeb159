import Verif.Merger.Conform
import Verif.Refinement.Props

/-! # Properties of the merging of meshes (C53-C55, C103-C106) -/

set_option linter.unusedSectionVars false
set_option linter.unusedSimpArgs false

namespace TQ.MergeSpec
open TQ.MS TQ.MeshSpec TQ.MCSpec TQ.RefSpec TQ.MM
variable {K : Type*} [Field K] [LinearOrder K]

/-- The points of an element. -/
def shape (s : St K) (f : FRef) : List (Pt K) := (s.F f).corners.map s.pos

/-- The points of an edge. -/
def ends (s : St K) (e : Nat) : Pt K × Pt K := (s.pos (s.E e).v1, s.pos (s.E e).v2)

/-- The flag of a vertex tells if a boundary edge ends there. -/
def BoundaryFlags (s : St K) : Prop := ∀ v ∈ s.verts, Flags.has (s.V v).props Flags.vOnBoundary = true ↔ BdryEnd s v

/-- Twin edges of all meshes are mutual. -/
def TwinsMutual (w : World K) : Prop :=
  ∀ m, ∀ e ∈ (w m).es .bdry, ∀ x, ((w m).E e).twin = some x → x.2 ∈ (w x.1).es .bdry ∧ ((w x.1).E x.2).twin = some (m, e)

end TQ.MergeSpec

namespace TQ
open TQ.MS TQ.MS.St TQ.MC TQ.MeshSpec TQ.MCSpec TQ.RefSpec TQ.MergeSpec TQ.MM
variable {K : Type*} [Field K] [LinearOrder K] [IsStrictOrderedRing K]

/-! ### C53: the merge and its counts -/

/-- **C53.** The merge of two meshes with a common interface succeeds without undefined behaviour; the result is the
receiver with the donor glued to it. -/
theorem C53_merge {eps : K} {w : World K} {ri di : Nat} (A : Adjacent w ri di) (lr : LeftFacets eps (w ri)) (ld : LeftFacets eps (w di))
    (hex : ∃ e ∈ (w ri).es .bdry, Iface w ri di e) :
    ∃ w' φ, merge eps w ri di false = some (w', true) ∧ WF (w' ri) ∧ Merged w w' ri di φ := by
  obtain ⟨w', φ, h1, h2, h3, _⟩ := merge_spec A lr ld hex
  exact ⟨w', φ, h1, h3, h2⟩

/-- What is known after a successful merge. -/
theorem merged_of {eps : K} {w w' : World K} {ri di : Nat} (A : Adjacent w ri di) (lr : LeftFacets eps (w ri)) (ld : LeftFacets eps (w di))
    (hm : merge eps w ri di false = some (w', true)) :
    ∃ φ κ ρ δ, Glued w w' ri di φ κ ρ δ ∧ (w' ri).area = (w ri).area ∧
      ∀ f, Live (w ri) f → (w' ri).F f = (setupConnectivity eps (w ri)).F f := by
  by_cases hex : ∃ e ∈ (w ri).es .bdry, Iface w ri di e
  · obtain ⟨u, φ, h1, h2, h3, h4, h5⟩ := merge_spec A lr ld hex
    rw [hm] at h1
    simp only [Option.some.injEq, Prod.mk.injEq, and_true] at h1
    subst h1
    obtain ⟨κ, ρ, δ, hg⟩ := glued A h2 h3
    exact ⟨φ, κ, ρ, δ, hg, h4, h5⟩
  · obtain ⟨u, h1, _⟩ := merge_none eps A.ne A.receiver.wf A.donor.wf (fun e he hi => hex ⟨e, he, hi⟩)
    rw [hm] at h1
    simp at h1

theorem length_le_of {l l' : List Nat} (g : Nat → Nat) (hn : l.Nodup) (hi : ∀ x ∈ l, ∀ y ∈ l, g x = g y → x = y) (hs : ∀ x ∈ l, g x ∈ l') :
    l.length ≤ l'.length := by
  have h1 : (l.map g).Nodup := List.Nodup.map_on hi hn
  have := (List.subperm_of_subset (l₂ := l') h1 (by
    intro x hx
    rw [List.mem_map] at hx
    obtain ⟨y, hy, rfl⟩ := hx
    exact hs y hy)).length_le
  simpa using this

/-- As many interface edges in the donor as in the receiver. -/
theorem iface_length {w : World K} {ri di : Nat} (A : Adjacent w ri di) :
    (((w di).es .bdry).filter fun e => Iface w di ri e).length = (((w ri).es .bdry).filter fun e => Iface w ri di e).length := by
  have tw : ∀ {m : Nat} {e : Nat}, (∃ e', ((w m).E e).twin = some e') → ((w m).E e).twin = some ((((w m).E e).twin.getD (0, 0)).1, (((w m).E e).twin.getD (0, 0)).2) := by
    rintro m e ⟨x, hx⟩; rw [hx]; rfl
  apply le_antisymm
  · apply length_le_of (fun e => (((w di).E e).twin.getD (0, 0)).2) ((A.donor.wf.ends _).1.filter _)
    · intro x hx y hy hxy
      rw [List.mem_filter] at hx hy
      obtain ⟨x', hx'⟩ := of_decide_eq_true hx.2
      obtain ⟨y', hy'⟩ := of_decide_eq_true hy.2
      simp only [hx', hy', Option.getD_some] at hxy
      subst hxy
      exact A.different x hx.1 y hy.1 _ hx' hy'
    · intro x hx
      rw [List.mem_filter] at hx
      obtain ⟨x', hx'⟩ := of_decide_eq_true hx.2
      obtain ⟨k1, k2⟩ := A.back x hx.1 x' hx'
      simp only [hx', Option.getD_some]
      exact List.mem_filter.mpr ⟨k1, decide_eq_true ⟨x, k2⟩⟩
  · apply length_le_of (fun e => (((w ri).E e).twin.getD (0, 0)).2) ((A.receiver.wf.ends _).1.filter _)
    · intro x hx y hy hxy
      rw [List.mem_filter] at hx hy
      obtain ⟨x', hx'⟩ := of_decide_eq_true hx.2
      obtain ⟨y', hy'⟩ := of_decide_eq_true hy.2
      simp only [hx', hy', Option.getD_some] at hxy
      subst hxy
      have k1 := (A.link x hx.1 _ hx').2.1
      have k2 := (A.link y hy.1 _ hy').2.1
      rw [k1] at k2
      simpa using k2
    · intro x hx
      rw [List.mem_filter] at hx
      obtain ⟨x', hx'⟩ := of_decide_eq_true hx.2
      obtain ⟨k1, k2, _⟩ := A.link x hx.1 x' hx'
      simp only [hx', Option.getD_some]
      exact List.mem_filter.mpr ⟨k1, decide_eq_true ⟨x, k2⟩⟩

theorem filter_not_length (l : List Nat) (p : Nat → Prop) [DecidablePred p] :
    (l.filter fun e => ¬ p e).length + (l.filter fun e => p e).length = l.length := by
  induction l with
  | nil => rfl
  | cons a l ih => by_cases h : p a <;> simp [List.filter_cons, h] at * <;> omega

/-- **C53.** The counts after a successful merge; with `k` interface edges and `n` vertices on them. -/
theorem C53_counts {eps : K} {w w' : World K} {ri di : Nat} (A : Adjacent w ri di) (lr : LeftFacets eps (w ri)) (ld : LeftFacets eps (w di))
    (hm : merge eps w ri di false = some (w', true)) {k n : Nat} (hk : (((w ri).es .bdry).filter fun e => Iface w ri di e).length = k)
    (hn : ((w di).verts.filter fun v => OnIface w di ri v).length = n) :
    (w' ri).tris.length = (w ri).tris.length + (w di).tris.length ∧
    (w' ri).quads.length = (w ri).quads.length + (w di).quads.length ∧
    (w' ri).verts.length + n = (w ri).verts.length + (w di).verts.length ∧
    ((w' ri).es .bdry).length + 2 * k = ((w ri).es .bdry).length + ((w di).es .bdry).length ∧
    ((w' ri).es .intr).length = ((w ri).es .intr).length + ((w di).es .intr).length + k := by
  obtain ⟨φ, κ, ρ, δ, G, _⟩ := merged_of A lr ld hm
  refine ⟨?_, ?_, ?_, ?_, ?_⟩
  · have := congrArg List.length G.tris; simpa using this
  · have := congrArg List.length G.quads; simpa using this
  · have := congrArg List.length G.mer.verts
    rw [List.length_append, List.length_map] at this
    have h2 := filter_not_length (w di).verts fun v => OnIface w di ri v
    omega
  · have := congrArg List.length G.bdry
    rw [List.length_append, List.length_map] at this
    have h2 := filter_not_length ((w di).es .bdry) fun v => Iface w di ri v
    have h3 := filter_not_length ((w ri).es .bdry) fun v => Iface w ri di v
    have h4 := iface_length A
    omega
  · have := congrArg List.length G.intr
    rw [List.length_append, List.length_append, List.length_map, List.length_map, hk] at this
    exact this

/-- **C53.** Colours: those of the receiver's elements are kept, copies of donor elements have the colour of the original
(colours are not negative; a negative one would be replaced by the colour of the receiver). -/
theorem C53_colours {eps : K} {w w' : World K} {ri di : Nat} (A : Adjacent w ri di) (lr : LeftFacets eps (w ri)) (ld : LeftFacets eps (w di))
    (hm : merge eps w ri di false = some (w', true)) (hc : ∀ f, Live (w di) f → 0 ≤ ((w di).F f).color) :
    ((w' ri).tris.map fun t => ((w' ri).F (.tri t)).color) =
      ((w ri).tris.map fun t => ((w ri).F (.tri t)).color) ++ ((w di).tris.map fun t => ((w di).F (.tri t)).color) ∧
    ((w' ri).quads.map fun t => ((w' ri).F (.quad t)).color) =
      ((w ri).quads.map fun t => ((w ri).F (.quad t)).color) ++ ((w di).quads.map fun t => ((w di).F (.quad t)).color) := by
  obtain ⟨φ, κ, ρ, δ, G, _⟩ := merged_of A lr ld hm
  have hcopy : ∀ f, Live (w di) f → ((w' ri).F (κ f)).color = ((w di).F f).color := fun f hf => by
    rw [(G.copies f hf).2.2.1, if_neg (by have := hc f hf; omega)]
  constructor
  · have := congrArg (List.map fun f => ((w' ri).F f).color) G.tris
    simp only [List.map_append, List.map_map, Function.comp_def] at this
    rw [this]
    congr 1
    · exact List.map_congr_left fun t ht => (G.mer.oldF (.tri t) ht).2.1
    · exact List.map_congr_left fun t ht => hcopy (.tri t) ht
  · have := congrArg (List.map fun f => ((w' ri).F f).color) G.quads
    simp only [List.map_append, List.map_map, Function.comp_def] at this
    rw [this]
    congr 1
    · exact List.map_congr_left fun t ht => (G.mer.oldF (.quad t) ht).2.1
    · exact List.map_congr_left fun t ht => hcopy (.quad t) ht

/-- **C53.** The merge of meshes without common interface and a second call on the same merger fail and copy nothing. -/
theorem C53_refused (eps : K) {w : World K} {ri di : Nat} (hne : ri ≠ di) (wr : WF (w ri)) (wd : WF (w di)) :
    ((∀ e ∈ (w ri).es .bdry, ¬ Iface w ri di e) →
      ∃ w', merge eps w ri di false = some (w', false) ∧ SameButPointers (w ri) (w' ri) ∧ SameButPointers (w di) (w' di) ∧
        ∀ m, m ≠ ri → m ≠ di → w' m = w m) ∧
    merge eps w ri di true = some (w, false) :=
  ⟨fun h => merge_none eps hne wr wd h, rfl⟩

/-! ### C54: the geometry of the merged mesh -/

theorem shape_old {w w' : World K} {ri di : Nat} {φ : Nat → Nat} {κ : FRef → FRef} {ρ δ : Nat → Nat} (G : Glued w w' ri di φ κ ρ δ) {f : FRef}
    (hf : Live (w ri) f) : shape (w' ri) f = shape (w ri) f := by
  unfold shape
  rw [(G.corners_old hf).1]
  exact List.map_congr_left (G.corners_old hf).2

theorem shape_new {w w' : World K} {ri di : Nat} {φ : Nat → Nat} {κ : FRef → FRef} {ρ δ : Nat → Nat} (G : Glued w w' ri di φ κ ρ δ) {f : FRef}
    (hf : Live (w di) f) : shape (w' ri) (κ f) = shape (w di) f := by
  unfold shape
  rw [(G.corners_new hf).1, List.map_map]
  exact List.map_congr_left (G.corners_new hf).2

/-- **C54.** The triangles, quads, edges and vertices of the merged mesh have the points of those of the receiver
followed by those of the donor; interface edges and vertices occur once. -/
theorem C54_geometry {eps : K} {w w' : World K} {ri di : Nat} (A : Adjacent w ri di) (lr : LeftFacets eps (w ri)) (ld : LeftFacets eps (w di))
    (hm : merge eps w ri di false = some (w', true)) :
    ((w' ri).tris.map fun t => shape (w' ri) (.tri t)) =
      ((w ri).tris.map fun t => shape (w ri) (.tri t)) ++ ((w di).tris.map fun t => shape (w di) (.tri t)) ∧
    ((w' ri).quads.map fun t => shape (w' ri) (.quad t)) =
      ((w ri).quads.map fun t => shape (w ri) (.quad t)) ++ ((w di).quads.map fun t => shape (w di) (.quad t)) ∧
    ((w' ri).es .intr).map (ends (w' ri)) = ((w ri).es .intr).map (ends (w ri)) ++ ((w di).es .intr).map (ends (w di)) ++
      (((w ri).es .bdry).filter fun e => Iface w ri di e).map (ends (w ri)) ∧
    ((w' ri).es .bdry).map (ends (w' ri)) = (((w ri).es .bdry).filter fun e => ¬ Iface w ri di e).map (ends (w ri)) ++
      (((w di).es .bdry).filter fun e => ¬ Iface w di ri e).map (ends (w di)) ∧
    (w' ri).verts.map (w' ri).pos = (w ri).verts.map (w ri).pos ++ ((w di).verts.filter fun v => ¬ OnIface w di ri v).map (w di).pos := by
  obtain ⟨φ, κ, ρ, δ, G, _⟩ := merged_of A lr ld hm
  have er : ∀ e, IsEdge (w ri) e → ends (w' ri) (ρ e) = ends (w ri) e := fun e he => by
    unfold ends
    rw [(G.rho e he).1, (G.rho e he).2]
    have : ((w ri).E e).v1 ∈ (w ri).verts ∧ ((w ri).E e).v2 ∈ (w ri).verts := by
      have h := A.receiver.wf
      rcases he with hx | hx
      · exact ⟨((h.ends _).2 _ hx).2.1, ((h.ends _).2 _ hx).2.2.1⟩
      · exact ⟨((h.ends _).2 _ hx).2.1, ((h.ends _).2 _ hx).2.2.1⟩
    rw [(G.mer.old _ this.1).1, (G.mer.old _ this.2).1]
  have ed : ∀ e, IsEdge (w di) e → ¬ (e ∈ (w di).es .bdry ∧ Iface w di ri e) → ends (w' ri) (δ e) = ends (w di) e := fun e he hi => by
    unfold ends
    rw [(G.delta e he hi).1, (G.delta e he hi).2, G.mer.pos _ (G.old_verts he).1, G.mer.pos _ (G.old_verts he).2]
  refine ⟨?_, ?_, ?_, ?_, ?_⟩
  · have := congrArg (List.map (shape (w' ri))) G.tris
    simp only [List.map_append, List.map_map, Function.comp_def] at this
    rw [this]
    congr 1
    · exact List.map_congr_left fun t ht => shape_old G (f := .tri t) ht
    · exact List.map_congr_left fun t ht => shape_new G (f := .tri t) ht
  · have := congrArg (List.map (shape (w' ri))) G.quads
    simp only [List.map_append, List.map_map, Function.comp_def] at this
    rw [this]
    congr 1
    · exact List.map_congr_left fun t ht => shape_old G (f := .quad t) ht
    · exact List.map_congr_left fun t ht => shape_new G (f := .quad t) ht
  · rw [G.intr]
    simp only [List.map_append, List.map_map, Function.comp_def]
    congr 1
    · congr 1
      · refine List.map_congr_left fun e he => ?_
        have := er e (Or.inl he)
        rwa [G.rhoId e (Or.inl he) fun h2 => list_disj A.receiver.wf he h2.1] at this
      · exact List.map_congr_left fun e he => ed e (Or.inl he) fun h2 => list_disj A.donor.wf he h2.1
    · exact List.map_congr_left fun e he => er e (Or.inr (List.mem_of_mem_filter he))
  · rw [G.bdry]
    simp only [List.map_append, List.map_map, Function.comp_def]
    congr 1
    · refine List.map_congr_left fun e he => ?_
      rw [List.mem_filter] at he
      have := er e (Or.inr he.1)
      rwa [G.rhoId e (Or.inr he.1) fun h2 => of_decide_eq_true he.2 h2.2] at this
    · refine List.map_congr_left fun e he => ?_
      rw [List.mem_filter] at he
      exact ed e (Or.inr he.1) fun h2 => of_decide_eq_true he.2 h2.2
  · rw [G.mer.verts, List.map_append, List.map_map]
    congr 1
    · exact List.map_congr_left fun v hv => (G.mer.old v hv).1
    · exact List.map_congr_left fun v hv => G.mer.pos v (List.mem_of_mem_filter hv)

/-! ### C55: areas -/

/-- The area of an element from its points. -/
theorem fArea_shape {s t : St K} {f g : FRef} (h : shape s f = shape t g) : s.fArea f = t.fArea g := by
  unfold shape at h
  unfold fArea
  rcases hs : (s.F f).corners with _ | ⟨a, _ | ⟨b, _ | ⟨c, _ | ⟨d, _ | ⟨e, l⟩⟩⟩⟩⟩ <;>
    rcases ht : (t.F g).corners with _ | ⟨a', _ | ⟨b', _ | ⟨c', _ | ⟨d', _ | ⟨e', l'⟩⟩⟩⟩⟩ <;> rw [hs, ht] at h <;> simp at h <;> simp [h]

/-- **C55 (partial).** The total area of the elements of the merged mesh is the sum of both. Missing: the stored
value `Mesh::area()` keeps the area of the receiver. -/
theorem C55_area_partial {eps : K} {w w' : World K} {ri di : Nat} (A : Adjacent w ri di) (lr : LeftFacets eps (w ri)) (ld : LeftFacets eps (w di))
    (hm : merge eps w ri di false = some (w', true)) :
    meshArea (w' ri) = meshArea (w ri) + meshArea (w di) ∧ (w' ri).area = (w ri).area := by
  obtain ⟨φ, κ, ρ, δ, G, ha, _⟩ := merged_of A lr ld hm
  refine ⟨?_, ha⟩
  have h1 := congrArg (List.map (w' ri).fArea) G.tris
  have h2 := congrArg (List.map (w' ri).fArea) G.quads
  simp only [List.map_append, List.map_map, Function.comp_def] at h1 h2
  unfold meshArea
  rw [h1, h2, List.sum_append, List.sum_append]
  have e1 : ((w ri).tris.map fun t => (w' ri).fArea (.tri t)) = (w ri).tris.map fun t => (w ri).fArea (.tri t) :=
    List.map_congr_left fun t ht => fArea_shape (shape_old G (f := .tri t) ht)
  have e2 : ((w ri).quads.map fun t => (w' ri).fArea (.quad t)) = (w ri).quads.map fun t => (w ri).fArea (.quad t) :=
    List.map_congr_left fun t ht => fArea_shape (shape_old G (f := .quad t) ht)
  have e3 : ((w di).tris.map fun t => (w' ri).fArea (κ (.tri t))) = (w di).tris.map fun t => (w di).fArea (.tri t) :=
    List.map_congr_left fun t ht => fArea_shape (shape_new G (f := .tri t) ht)
  have e4 : ((w di).quads.map fun t => (w' ri).fArea (κ (.quad t))) = (w di).quads.map fun t => (w di).fArea (.quad t) :=
    List.map_congr_left fun t ht => fArea_shape (shape_new G (f := .quad t) ht)
  rw [e1, e2, e3, e4]
  ring

/-! ### C103: the merged mesh is conforming -/

/-- **C103.** If edges of the two meshes between the same points are twins, the merged mesh of two conforming meshes is
conforming, with convex counter-clockwise elements if those of the two meshes are. -/
theorem C103_conforming {eps : K} {w w' : World K} {ri di : Nat} (A : Adjacent w ri di) (lr : LeftFacets eps (w ri)) (ld : LeftFacets eps (w di))
    (hm : merge eps w ri di false = some (w', true)) (m : Matching w ri di) (cr : Conforming (w ri)) (cd : Conforming (w di)) :
    Conforming (w' ri) ∧ (ConvexElements (w ri) → ConvexElements (w di) → ConvexElements (w' ri)) := by
  obtain ⟨φ, κ, ρ, δ, G, ha, _⟩ := merged_of A lr ld hm
  refine ⟨G.conforming m cr cd, fun h1 h2 => ?_⟩
  have tri : ∀ f, Live (w' ri) f → (∃ g, Live (w ri) g ∧ (f = g) ∧ shape (w' ri) f = shape (w ri) g) ∨
      ∃ g, Live (w di) g ∧ f = κ g ∧ shape (w' ri) f = shape (w di) g := by
    intro f hf
    rcases G.live.mp hf with h | ⟨g, h, rfl⟩
    · exact Or.inl ⟨f, h, rfl, shape_old G h⟩
    · exact Or.inr ⟨g, h, rfl, shape_new G h⟩
  have key : ∀ (s : St K), WF s → ConvexElements s → ∀ f g, Live s g → shape (w' ri) f = shape s g →
      (∀ a b c, ((w' ri).F f).corners = [a, b, c] → 0 < area2 ((w' ri).pos a) ((w' ri).pos b) ((w' ri).pos c)) ∧
      ∀ a b c d, ((w' ri).F f).corners = [a, b, c, d] → 0 < area2 ((w' ri).pos a) ((w' ri).pos b) ((w' ri).pos c) ∧
        0 < area2 ((w' ri).pos b) ((w' ri).pos c) ((w' ri).pos d) ∧ 0 < area2 ((w' ri).pos c) ((w' ri).pos d) ((w' ri).pos a) ∧
        0 < area2 ((w' ri).pos d) ((w' ri).pos a) ((w' ri).pos b) := by
    intro s hw hc f g hg hs
    unfold shape at hs
    constructor
    · intro a b c habc
      rw [habc] at hs
      match g, hg with
      | .tri x, hg =>
        obtain ⟨p, q, r, hpq⟩ := List.length_eq_three.mp (hw.tcor x hg)
        rw [hpq] at hs
        simp only [List.map_cons, List.map_nil, List.cons.injEq, and_true] at hs
        rw [hs.1, hs.2.1, hs.2.2]
        exact hc.1 x hg p q r hpq
      | .quad x, hg =>
        have := congrArg List.length hs
        rw [List.length_map, List.length_map, hw.qcor x hg] at this
        simp at this
    · intro a b c d habc
      rw [habc] at hs
      match g, hg with
      | .tri x, hg =>
        have := congrArg List.length hs
        rw [List.length_map, List.length_map, hw.tcor x hg] at this
        simp at this
      | .quad x, hg =>
        have h4 := hw.qcor x hg
        rcases hx : (s.F (.quad x)).corners with _ | ⟨p, _ | ⟨q, _ | ⟨r, _ | ⟨u, _ | ⟨e, l⟩⟩⟩⟩⟩ <;> rw [hx] at h4 hs <;> simp at h4
        simp only [List.map_cons, List.map_nil, List.cons.injEq, and_true] at hs
        rw [hs.1, hs.2.1, hs.2.2.1, hs.2.2.2]
        exact hc.2 x hg p q r u hx
  constructor
  · intro t ht
    rcases tri (.tri t) ht with ⟨g, hg, _, hs⟩ | ⟨g, hg, _, hs⟩
    · exact (key (w ri) A.receiver.wf h1 _ g hg hs).1
    · exact (key (w di) A.donor.wf h2 _ g hg hs).1
  · intro t ht
    rcases tri (.quad t) ht with ⟨g, hg, _, hs⟩ | ⟨g, hg, _, hs⟩
    · exact (key (w ri) A.receiver.wf h1 _ g hg hs).2
    · exact (key (w di) A.donor.wf h2 _ g hg hs).2

/-! ### C104: flags of vertices -/

theorem flag_facts (p : BitVec 8) : Flags.has (p ||| Flags.vOnBoundary) Flags.vOnBoundary = true ∧
    Flags.has ((p &&& ~~~ Flags.vOnBoundary) ||| Flags.vIsFixed) Flags.vOnBoundary = false ∧
    Flags.has ((p &&& ~~~ Flags.vOnBoundary) ||| Flags.vIsFixed) Flags.vIsFixed = true ∧
    Flags.has ((p &&& ~~~ Flags.vOnBoundary) ||| Flags.vIsFixed ||| Flags.vOnBoundary) Flags.vIsFixed = true := by
  revert p; decide +kernel

/-- **C104.** After a merge a vertex has the boundary flag iff a boundary edge ends there, if this was so in both meshes;
interface vertices are fixed. -/
theorem C104_flags {eps : K} {w w' : World K} {ri di : Nat} (A : Adjacent w ri di) (lr : LeftFacets eps (w ri)) (ld : LeftFacets eps (w di))
    (hm : merge eps w ri di false = some (w', true)) :
    (BoundaryFlags (w ri) → BoundaryFlags (w di) → BoundaryFlags (w' ri)) ∧
    ∀ v, OnIface w ri di v → Flags.has ((w' ri).V v).props Flags.vIsFixed = true := by
  obtain ⟨φ, κ, ρ, δ, G, _⟩ := merged_of A lr ld hm
  constructor
  · intro br bd v hv
    rw [G.mer.verts, List.mem_append, List.mem_map] at hv
    have main : ∀ (iface : Prop) [Decidable iface] (p : BitVec 8), ((w' ri).V v).props = mergedFlags (w' ri) iface v p →
        (¬ iface → Flags.has p Flags.vOnBoundary = true → BdryEnd (w' ri) v) →
        (Flags.has ((w' ri).V v).props Flags.vOnBoundary = true ↔ BdryEnd (w' ri) v) := by
      intro iface _ p hp hi
      rw [hp]
      unfold mergedFlags
      dsimp only
      by_cases hb : BdryEnd (w' ri) v
      · rw [if_pos hb]
        exact ⟨fun _ => hb, fun _ => (flag_facts _).1⟩
      · rw [if_neg hb]
        refine ⟨fun h => ?_, fun h => absurd h hb⟩
        by_cases hf : iface
        · rw [if_pos hf, (flag_facts p).2.1] at h; cases h
        · rw [if_neg hf] at h; exact hi hf h
    rcases hv with hv | ⟨u, hu, rfl⟩
    · refine main (OnIface w ri di v) _ (G.mer.old v hv).2 fun hi hp => ?_
      obtain ⟨e, he, hh⟩ := (br v hv).mp hp
      have hni : ¬ Iface w ri di e := fun h2 => hi ⟨e, he, h2, hh⟩
      refine ⟨e, ?_, ?_⟩
      · rw [G.bdry, List.mem_append]
        exact Or.inl (List.mem_filter.mpr ⟨he, decide_eq_true hni⟩)
      · rw [(G.mer.oldE _ e he).1, (G.mer.oldE _ e he).2.1]; exact hh
    · rw [List.mem_filter] at hu
      have hui := of_decide_eq_true hu.2
      refine main False _ (G.mer.props u hu.1 hui) fun _ hp => ?_
      obtain ⟨e, he, hh⟩ := (bd u hu.1).mp hp
      have hni : ¬ Iface w di ri e := fun h2 => hui ⟨e, he, h2, hh⟩
      refine ⟨δ e, ?_, ?_⟩
      · rw [G.bdry, List.mem_append, List.mem_map]
        exact Or.inr ⟨e, List.mem_filter.mpr ⟨he, decide_eq_true hni⟩, rfl⟩
      · have := G.delta e (Or.inr he) fun h2 => hni h2.2
        rw [this.1, this.2]
        exact hh.imp (congrArg φ) (congrArg φ)
  · intro v hv
    rw [(G.mer.old v (onIface_verts A.receiver.wf hv)).2]
    unfold mergedFlags
    dsimp only
    rw [if_pos hv]
    split_ifs
    · exact (flag_facts _).2.2.2
    · exact (flag_facts _).2.2.1

/-! ### C105: twins after a merge -/

/-- **C105.** If the twins of all meshes were mutual, no boundary edge of another mesh or of the receiver has its twin in the
donor after the merge, and the boundary edges copied from the donor and their twins in other meshes are mutual. -/
theorem C105_twins {eps : K} {w w' : World K} {ri di : Nat} (A : Adjacent w ri di) (lr : LeftFacets eps (w ri)) (ld : LeftFacets eps (w di))
    (hm : merge eps w ri di false = some (w', true)) (ht : TwinsMutual w) :
    ∀ m, m ≠ di → ∀ e ∈ (w' m).es .bdry, ∀ x, ((w' m).E e).twin = some x →
      x.1 ≠ di ∧ x.2 ∈ (w' x.1).es .bdry ∧ ((w' x.1).E x.2).twin = some (m, e) := by
  obtain ⟨φ, κ, ρ, δ, G, _⟩ := merged_of A lr ld hm
  have hne := A.ne
  -- an edge of a remaining mesh whose twin was not in the donor
  have keep : ∀ m, m ≠ di → ∀ e ∈ (w m).es .bdry, ∀ x, ((w m).E e).twin = some x → x.1 ≠ di →
      e ∈ (w' m).es .bdry ∧ ((w' m).E e).twin = some x := by
    intro m hmd e he x hx hxd
    by_cases hmr : m = ri
    · subst hmr
      refine ⟨?_, by rw [(G.mer.oldE _ e he).2.2.2.2]; exact hx⟩
      rw [G.bdry, List.mem_append]
      refine Or.inl (List.mem_filter.mpr ⟨he, decide_eq_true ?_⟩)
      rintro ⟨y, hy⟩
      rw [hx] at hy
      simp only [Option.some.injEq] at hy
      exact hxd (by rw [hy])
    · obtain ⟨g1, g2⟩ := G.mer.others m hmr hmd
      refine ⟨by rw [g1.1]; exact he, ?_⟩
      rw [g2 e ?_]
      · exact hx
      · intro y hy hh
        have := (ht di y hy _ hh).2
        rw [show ((w m).E e).twin = some (di, y) from this] at hx
        simp only [Option.some.injEq] at hx
        exact hxd (by rw [← hx])
  intro m hmd e he x hx
  by_cases hmr : m = ri
  · subst hmr
    rw [G.bdry, List.mem_append, List.mem_map] at he
    rcases he with he | ⟨y, hy, rfl⟩
    · rw [List.mem_filter] at he
      have hni := of_decide_eq_true he.2
      rw [(G.mer.oldE _ e he.1).2.2.2.2] at hx
      have hxd : x.1 ≠ di := fun hh => hni ⟨x.2, by rw [hx, ← hh]⟩
      obtain ⟨k1, k2⟩ := ht m e he.1 x hx
      exact ⟨hxd, keep x.1 hxd x.2 k1 _ k2 hmd⟩
    · rw [List.mem_filter] at hy
      have hni := of_decide_eq_true hy.2
      obtain ⟨_, _, d3, d4⟩ := G.deltaB y hy.1 hni
      rw [d3] at hx
      have hxd := A.self y hy.1 x hx
      have hxr : x.1 ≠ m := fun hh => hni ⟨x.2, by rw [hx, ← hh]⟩
      obtain ⟨k1, k2⟩ := ht di y hy.1 x hx
      refine ⟨hxd, ?_, d4 x hx⟩
      rw [(G.mer.others x.1 hxr hxd).1.1]; exact k1
  · obtain ⟨g1, g2⟩ := G.mer.others m hmr hmd
    rw [g1.1] at he
    by_cases hy : ∃ y ∈ (w di).es .bdry, ((w di).E y).twin = some (m, e)
    · obtain ⟨y, hy, hh⟩ := hy
      have hni : ¬ Iface w di ri y := by
        rintro ⟨z, hz⟩
        rw [hh] at hz
        simp only [Option.some.injEq, Prod.mk.injEq] at hz
        exact hmr hz.1
      obtain ⟨_, _, d3, d4⟩ := G.deltaB y hy hni
      rw [d4 _ hh] at hx
      simp only [Option.some.injEq] at hx
      subst hx
      refine ⟨hne, ?_, by rw [d3]; exact hh⟩
      show δ y ∈ (w' ri).es .bdry
      rw [G.bdry, List.mem_append, List.mem_map]
      exact Or.inr ⟨y, List.mem_filter.mpr ⟨hy, decide_eq_true hni⟩, rfl⟩
    · rw [g2 e fun y hyb hh => hy ⟨y, hyb, hh⟩] at hx
      obtain ⟨k1, k2⟩ := ht m e he x hx
      have hxd : x.1 ≠ di := fun hh => hy ⟨x.2, by rw [← hh]; exact k1, by rw [← hh]; exact k2⟩
      exact ⟨hxd, keep x.1 hxd x.2 k1 _ k2 hmd⟩

/-! ### Examples -/

/-- Decidable form of `Adjacent`. -/
theorem adjacent_of {w : World K} {ri di : Nat} (ne : ri ≠ di) (receiver : Conforming (w ri)) (donor : Conforming (w di))
    (link : ((w ri).es .bdry).all (fun e => ((w ri).E e).twin.all fun x => decide (x.1 = di →
      x.2 ∈ (w di).es .bdry ∧ ((w di).E x.2).twin = some (ri, e) ∧
      (w ri).pos ((w ri).E e).v1 = (w di).pos ((w di).E x.2).v2 ∧ (w ri).pos ((w ri).E e).v2 = (w di).pos ((w di).E x.2).v1)) = true)
    (back : ((w di).es .bdry).all (fun e => ((w di).E e).twin.all fun x => decide (x.1 = ri →
      x.2 ∈ (w ri).es .bdry ∧ ((w ri).E x.2).twin = some (di, e))) = true)
    (apartR : ∀ u ∈ (w ri).verts, ∀ v ∈ (w ri).verts, (w ri).pos u = (w ri).pos v → u = v)
    (apartD : ∀ u ∈ (w di).verts, ∀ v ∈ (w di).verts, (w di).pos u = (w di).pos v → u = v)
    (self : ((w di).es .bdry).all (fun e => ((w di).E e).twin.all fun x => decide (x.1 ≠ di)) = true)
    (different : ∀ e ∈ (w di).es .bdry, ∀ e' ∈ (w di).es .bdry, ((w di).E e).twin = ((w di).E e').twin → ((w di).E e).twin = none ∨ e = e') :
    Adjacent w ri di where
  ne := ne
  receiver := receiver.toProper
  donor := donor.toProper
  link := by
    intro e he e' hh
    have := List.all_eq_true.mp link e he
    rw [hh] at this
    simp only [Option.all_some, decide_eq_true_eq, forall_const] at this
    exact this
  back := by
    intro e he e' hh
    have := List.all_eq_true.mp back e he
    rw [hh] at this
    simp only [Option.all_some, decide_eq_true_eq, forall_const] at this
    exact this
  meshedR := fun e he _ => receiver.bdryFull e he
  meshedD := fun e he _ => donor.bdryFull e he
  apartR := fun u v hu hv hp => apartR u (onIface_verts receiver.wf hu) v (onIface_verts receiver.wf hv) hp
  apartD := fun u v hu hv hp => apartD u (onIface_verts donor.wf hu) v (onIface_verts donor.wf hv) hp
  self := by
    intro e he x hh
    have := List.all_eq_true.mp self e he
    rw [hh] at this
    simpa using this
  different := by
    intro e he e' he' x h1 h2
    rcases different e he e' he' (h1.trans h2.symm) with h | h
    · rw [h] at h1; cases h1
    · exact h

namespace MMEx
open MCEx

/-- Two triangles left of the house, colour 6. -/
def left : St ℚ := build [.v (-4) 0, .v 0 0, .v 0 4, .v (-4) 4,
  .bdry 0 1 1, .bdry 1 2 1, .bdry 2 3 3, .bdry 3 0 4, .intr 0 2, .tri 0 1 2 6, .tri 0 2 3 6] (St.empty 6)
/-- A square further left. -/
def far : St ℚ := build [.v (-8) 0, .v (-4) 0, .v (-4) 4, .v (-8) 4,
  .bdry 0 1 1, .bdry 1 2 1, .bdry 2 3 3, .bdry 3 0 4, .quad 0 1 2 3 9] (St.empty 9)

/-- Vertices on boundary edges get their flag (`MeshBuilder::prepare_mesh`). -/
def flagged (s : St ℚ) : St ℚ := remark s

/-- The three meshes with twins. -/
def three : World ℚ := fun m => match m with
  | 0 => setTwin (flagged house) 9 (1, 5)
  | 1 => setTwin (setTwin (flagged left) 5 (0, 9)) 7 (2, 5)
  | 2 => setTwin (flagged far) 5 (1, 7)
  | _ => St.empty 1

theorem wf0 : WF (three 0) := wf_setTwin (remark_spec _ (built_wf house_built)).1 _ _
theorem wf1 : WF (three 1) := wf_setTwin (wf_setTwin (remark_spec _ (built_wf (c := 6) (built_of _ _ Built.empty (by decide +kernel)))).1 _ _) _ _

theorem conf0 : Conforming (three 0) :=
  conforming_of (proper_of wf0 (by decide +kernel) (by decide +kernel) (by decide +kernel)) (by decide +kernel) (by decide +kernel) (by decide +kernel)
theorem conf1 : Conforming (three 1) :=
  conforming_of (proper_of wf1 (by decide +kernel) (by decide +kernel) (by decide +kernel)) (by decide +kernel) (by decide +kernel) (by decide +kernel)

theorem adj : Adjacent three 0 1 := adjacent_of (by decide) conf0 conf1 (by decide +kernel) (by decide +kernel) (by decide +kernel)
  (by decide +kernel) (by decide +kernel) (by decide +kernel)

theorem left0 : LeftFacets (1 / 1000000) (three 0) := C48_left_geometry wf0 (shapes_of (by decide +kernel))
theorem left1 : LeftFacets (1 / 1000000) (three 1) := C48_left_geometry wf1 (shapes_of (by decide +kernel))

theorem matching : Matching three 0 1 := by
  have h : ∀ e ∈ (three 0).es .intr ++ (three 0).es .bdry, ∀ e' ∈ (three 1).es .intr ++ (three 1).es .bdry,
    ((((three 0).pos ((three 0).E e).v1 = (three 1).pos ((three 1).E e').v1 ∧ (three 0).pos ((three 0).E e).v2 = (three 1).pos ((three 1).E e').v2) ∨
     ((three 0).pos ((three 0).E e).v1 = (three 1).pos ((three 1).E e').v2 ∧ (three 0).pos ((three 0).E e).v2 = (three 1).pos ((three 1).E e').v1)) →
    e ∈ (three 0).es .bdry ∧ ((three 0).E e).twin = some (1, e')) := by decide +kernel
  exact fun e he e' he' => h e (List.mem_append.mpr he) e' (List.mem_append.mpr he')

theorem flags0 : BoundaryFlags (three 0) := by unfold BoundaryFlags; decide +kernel
theorem flags1 : BoundaryFlags (three 1) := by unfold BoundaryFlags; decide +kernel

theorem twinsMutual : TwinsMutual three := by
  have key : ∀ m ∈ [0, 1, 2], ((three m).es .bdry).all (fun e => ((three m).E e).twin.all fun x => decide (
      x.2 ∈ (three x.1).es .bdry ∧ ((three x.1).E x.2).twin = some (m, e))) = true := by decide +kernel
  intro m e he x hx
  match m with
  | 0 | 1 | 2 =>
    have := List.all_eq_true.mp (key _ (by simp)) e he
    rw [hx] at this
    simpa using this
  | m + 3 => exact absurd he (by show e ∉ ([] : List Nat); simp)

theorem iface : ∃ e ∈ (three 0).es .bdry, Iface three 0 1 e := by decide +kernel
end MMEx

/-- The merge of the house and the triangles left of it: 7 = 5 + 4 - 2 vertices, 7 = 5 + 4 - 2 boundary edges,
3 = 1 + 1 + 1 interior edges. -/
example : ∃ w', merge (1 / 1000000) MMEx.three 0 1 false = some (w', true) ∧ (w' 0).tris.length = 3 ∧ (w' 0).quads.length = 1 ∧
    (w' 0).verts.length = 7 ∧ ((w' 0).es .bdry).length = 7 ∧ ((w' 0).es .intr).length = 3 ∧ Conforming (w' 0) ∧ BoundaryFlags (w' 0) := by
  obtain ⟨w', φ, h1, h2, h3⟩ := C53_merge MMEx.adj MMEx.left0 MMEx.left1 MMEx.iface
  obtain ⟨c1, c2, c3, c4, c5⟩ := C53_counts MMEx.adj MMEx.left0 MMEx.left1 h1 (k := 1) (n := 2) (by decide +kernel) (by decide +kernel)
  refine ⟨w', h1, ?_, ?_, ?_, ?_, ?_, (C103_conforming MMEx.adj MMEx.left0 MMEx.left1 h1 MMEx.matching MMEx.conf0 MMEx.conf1).1,
    (C104_flags MMEx.adj MMEx.left0 MMEx.left1 h1).1 MMEx.flags0 MMEx.flags1⟩
  · rw [c1]; decide +kernel
  · rw [c2]; decide +kernel
  · have : (MMEx.three 0).verts.length + (MMEx.three 1).verts.length = 9 := by decide +kernel
    omega
  · have : ((MMEx.three 0).es .bdry).length + ((MMEx.three 1).es .bdry).length = 9 := by decide +kernel
    omega
  · rw [c5]; decide +kernel

/-- The same by computation, with colours, areas, markers and the twin of the third mesh. -/
example : (merge (1 / 1000000) MMEx.three 0 1 false).any (fun r => r.2 &&
      decide ((r.1 0).tris.map (fun t => ((r.1 0).F (.tri t)).color) = [8, 6, 6]) &&
      decide (meshArea (r.1 0) = 16 + 6 + 16) &&
      decide (((r.1 0).es .bdry).map (fun e => ((r.1 0).E e).color) = [1, 2, 2, 3, 1, 3, 4]) &&
      decide (((r.1 2).E 5).twin.any (fun x => decide (x.1 = 0 ∧ x.2 ∈ (r.1 0).es .bdry))) &&
      decide ((r.1 0).verts.map (fun v => Flags.has ((r.1 0).V v).props Flags.vIsFixed) = [true, false, false, true, false, false, false])) = true := by
  decide +kernel

/-- Meshes without common interface. -/
example : (∀ e ∈ (MMEx.three 0).es .bdry, ¬ Iface MMEx.three 0 2 e) ∧ (MMEx.three 0).es .bdry ≠ [] := by decide +kernel

/-- **C55 (violated).** Two squares with correct stored areas 22 and 16: after the merge the stored area is still 22. -/
theorem C55_violated : ∃ w : World ℚ, Adjacent w 0 1 ∧ Conforming (w 0) ∧ Conforming (w 1) ∧ (w 0).area = meshArea (w 0) ∧ (w 1).area = meshArea (w 1) ∧
    (merge (1 / 1000000) w 0 1 false).any (fun r => r.2 && decide (meshArea (r.1 0) = 38) && decide ((r.1 0).area = 22)) = true := by
  have hE : ∀ (s : St ℚ) (a : ℚ), Conforming s → Conforming (s.addArea a) := fun s a h =>
    { wf := wf_addArea h.wf a
      dir := h.dir, sides := h.sides, right := h.right, unique := h.unique, intrFull := h.intrFull, bdryFull := h.bdryFull }
  refine ⟨fun m => if m = 0 then (MMEx.three 0).addArea 22 else if m = 1 then (MMEx.three 1).addArea 16 else MMEx.three m, ?_, ?_, ?_, ?_, ?_, ?_⟩
  · exact adjacent_of (by decide) (hE _ _ MMEx.conf0) (hE _ _ MMEx.conf1) (by decide +kernel) (by decide +kernel) (by decide +kernel)
      (by decide +kernel) (by decide +kernel) (by decide +kernel)
  · exact hE _ _ MMEx.conf0
  · exact hE _ _ MMEx.conf1
  · decide +kernel
  · decide +kernel
  · decide +kernel

/-- The merge does relink the third mesh. -/
example : ∃ w', merge (1 / 1000000) MMEx.three 0 1 false = some (w', true) ∧
    ∀ m, m ≠ 1 → ∀ e ∈ (w' m).es .bdry, ∀ x, ((w' m).E e).twin = some x →
      x.1 ≠ 1 ∧ x.2 ∈ (w' x.1).es .bdry ∧ ((w' x.1).E x.2).twin = some (m, e) := by
  obtain ⟨w', φ, h1, h2, h3⟩ := C53_merge MMEx.adj MMEx.left0 MMEx.left1 MMEx.iface
  exact ⟨w', h1, C105_twins MMEx.adj MMEx.left0 MMEx.left1 h1 MMEx.twinsMutual⟩

/-! ### C106: meshes that are not meshed yet -/

/-- **C106 (partial).** A donor without elements is refused, nothing is copied. Missing: a receiver without elements is
refused, too; see `C106_violated`. -/
theorem C106_donor_partial (eps : K) {w : World K} {ri di : Nat} (hne : ri ≠ di) (wr : WF (w ri)) (wd : WF (w di))
    (ht : (w di).tris = []) (hq : (w di).quads = []) (hb : ∀ e ∈ (w di).es .bdry, ((w di).E e).fl = .null)
    (hl : ∀ e ∈ (w ri).es .bdry, ∀ e', ((w ri).E e).twin = some (di, e') → e' ∈ (w di).es .bdry) :
    ∃ w', merge eps w ri di false = some (w', false) ∧ SameButPointers (w ri) (w' ri) ∧ SameButPointers (w di) (w' di) ∧
      ∀ m, m ≠ ri → m ≠ di → w' m = w m := by
  have hno : ∀ f, ¬ Live (w di) f := by
    intro f hf
    cases f with
    | null => exact hf
    | tri x => exact absurd (show x ∈ (w di).tris from hf) (by rw [ht]; simp)
    | quad x => exact absurd (show x ∈ (w di).quads from hf) (by rw [hq]; simp)
  refine merge_refused eps hne wr wd fun e he x hx => ?_
  by_cases hxd : x.1 = di
  · obtain ⟨a, e'⟩ := x
    simp only at hxd; subst hxd
    have hb' := hl e he e' hx
    have := (setup_bdry wd (fun f _ _ hf => absurd hf (hno f)) hb' (fun f hf => absurd hf (hno f))
      (fun f _ _ _ hf => absurd hf (hno f)) (eps := eps)).2.2 (fun f hf => absurd hf (hno f))
    exact Or.inr (by rw [this]; exact hb e' hb')
  · exact Or.inl hxd

namespace MMEx
open MCEx
/-- The boundary of `left`, not meshed, and the meshed house. -/
def bare : World ℚ := fun m => match m with
  | 0 => setTwin (build [.v (-4) 0, .v 0 0, .v 0 4, .v (-4) 4, .bdry 0 1 1, .bdry 1 2 1, .bdry 2 3 3, .bdry 3 0 4] (St.empty 6)) 5 (1, 9)
  | 1 => setTwin house 9 (0, 5)
  | _ => St.empty 1
end MMEx

/-- **C106 (violated).** With a receiver that is not meshed the merge reports success; the interface edge and a copy
of its twin both remain as boundary edges between the same vertices. -/
theorem C106_violated : WF (MMEx.bare 0) ∧ WF (MMEx.bare 1) ∧ (MMEx.bare 0).tris = [] ∧ (MMEx.bare 0).quads = [] ∧
    (merge (1 / 1000000) MMEx.bare 0 1 false).any (fun r => r.2 &&
      decide (∃ e ∈ (r.1 0).es .bdry, ∃ i ∈ (r.1 0).es .bdry, e ≠ i ∧ SameEnds (r.1 0) e i)) = true :=
  ⟨wf_setTwin (built_wf (c := 6) (MCEx.built_of _ _ Built.empty (by decide +kernel))) _ _, wf_setTwin (built_wf MCEx.house_built) _ _,
    by decide +kernel, by decide +kernel, by decide +kernel⟩

/-- A donor that is not meshed. -/
example : WF (MMEx.bare 1) ∧ WF (MMEx.bare 0) ∧ (MMEx.bare 0).tris = [] ∧ (∀ e ∈ (MMEx.bare 0).es .bdry, ((MMEx.bare 0).E e).fl = .null) ∧
    (∃ e ∈ (MMEx.bare 1).es .bdry, Iface MMEx.bare 1 0 e) ∧
    (merge (1 / 1000000) MMEx.bare 1 0 false).any (fun r => !r.2 && decide ((r.1 1).verts.length = 5)) = true :=
  ⟨C106_violated.2.1, C106_violated.1, by decide +kernel, by decide +kernel, by decide +kernel, by decide +kernel⟩

end TQ

#print axioms TQ.C53_merge
#print axioms TQ.C53_counts
#print axioms TQ.C53_colours
#print axioms TQ.C53_refused
#print axioms TQ.C54_geometry
#print axioms TQ.C55_area_partial
#print axioms TQ.C103_conforming
#print axioms TQ.C104_flags
#print axioms TQ.C105_twins
#print axioms TQ.C55_violated
#print axioms TQ.C106_donor_partial
#print axioms TQ.C106_violated

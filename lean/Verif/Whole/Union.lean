import Verif.Whole.UnionSpec
import Verif.Whole.Final
import Verif.Merger.Props

/-! # Lemmas: the merge of two finished meshes -/

set_option linter.unusedSectionVars false
set_option linter.unusedSimpArgs false
set_option linter.unusedVariables false

namespace TQ.Whole
open TQ TQ.MS TQ.MS.St TQ.MeshSpec TQ.FUSpec TQ.MCSpec TQ.WholeSpec TQ.FU TQ.Sm TQ.MC TQ.RefSpec TQ.CleanSpec TQ.MM TQ.MergeSpec TQ.SmSpec
variable {K : Type*} [Field K] [LinearOrder K] [IsStrictOrderedRing K]

/-! ### Closed chains -/

/-- Starts minus ends in a vertex. -/
def flow (v : Nat) (e : Nat × Nat) : Int := (if e.1 = v then 1 else 0) - (if e.2 = v then 1 else 0)

theorem balanced_iff (es : List (Nat × Nat)) : Balanced es ↔ ∀ v, (es.map (flow v)).sum = 0 := by
  have key : ∀ v, (es.map (flow v)).sum = (es.countP (fun e => decide (e.1 = v)) : Int) - es.countP (fun e => decide (e.2 = v)) := by
    intro v
    induction es with
    | nil => rfl
    | cons e es ih =>
      rw [List.map_cons, List.sum_cons, ih, List.countP_cons, List.countP_cons]
      unfold flow
      by_cases h1 : e.1 = v <;> by_cases h2 : e.2 = v <;> simp [h1, h2] <;> ring
  constructor
  · intro h v
    rw [key, h v]; ring
  · intro h v
    have := h v
    rw [key] at this
    omega

theorem flow_anti (v a b : Nat) : flow v (a, b) = - flow v (b, a) := by unfold flow; ring

/-- The sides of all elements form closed curves. -/
theorem sides_balanced {s : St K} (h : WF s) : Balanced (allSides s) := by
  rw [balanced_iff]
  intro v
  rw [sum_pieces h (flow_anti v)]
  have : (pieces s).map (fun x => ((pieceSides x).map (flow v)).sum) = (pieces s).map fun _ => (0 : Int) := by
    refine List.map_congr_left fun x _ => ?_
    simp only [pieceSides, List.map_cons, List.map_nil, List.sum_cons, List.sum_nil, flow]
    ring
  rw [this]
  simp

theorem balanced_chain {xs ys : List (Nat × Nat)} (h : ∀ a b, chain xs a b = chain ys a b) (hx : Balanced xs) : Balanced ys := by
  rw [balanced_iff] at hx ⊢
  intro v
  have := sum_of_chain (flow_anti v) (xs := xs) (ys := []) (zs := ys) fun a b => by rw [← h a b]; simp [chain]
  rw [← this, hx v]; rfl

/-- The winding number of the boundary of a conforming mesh is that of the sides of its elements. -/
theorem conforming_winding {s : St K} (h : Conforming s) (p : Pt K) : winding s.pos (pairs s .bdry) p = winding s.pos (allSides s) p := by
  have := winding_of_chain (pos := s.pos) (xs := allSides s) (ys := []) (zs := pairs s .bdry) (fun a b => by
    rw [conforming_chain h]; simp [chain]) p
  rw [← this]; simp [winding]

/-! ### Edges between the same points -/

theorem midp_on (a b : Pt K) : OnClosed a b (midp a b) := by
  refine ⟨1 / 2, by norm_num, by norm_num, ?_⟩
  unfold midp GeoSpec.onSeg
  apply Pt.ext' <;> simp <;> ring

theorem midp_ne {a b : Pt K} (h : a ≠ b) : midp a b ≠ a ∧ midp a b ≠ b := by
  constructor
  · intro hh
    apply h
    have h1 := congrArg Pt.x hh
    have h2 := congrArg Pt.y hh
    unfold midp at h1 h2
    simp only at h1 h2
    exact Pt.ext' (by linarith) (by linarith)
  · intro hh
    apply h
    have h1 := congrArg Pt.x hh
    have h2 := congrArg Pt.y hh
    unfold midp at h1 h2
    simp only at h1 h2
    exact Pt.ext' (by linarith) (by linarith)

theorem midp_comm (a b : Pt K) : midp a b = midp b a := by unfold midp; rw [add_comm a.x, add_comm a.y]

/-- Elements at the left of an edge cover points close to its middle. -/
theorem covered_left {s : St K} (h : Complete s) {a b : Nat} (hc : Covered s a b) :
    Small fun e => winding s.pos (pairs s .bdry) (mov (midp (s.pos a) (s.pos b)) (leftN (s.pos a) (s.pos b)) e) = 1 := by
  obtain ⟨f, hf, hs⟩ := hc
  obtain ⟨x, hx, rfl, hxs⟩ := side_piece h.wf hf hs
  exact (strictlyIn_side (h.ccw x hx) hxs).mono fun e _ he => (meshing_in (complete_meshing h) hx he).2.2

/-- Different boundary edges do not share the middle of one of them. -/
theorem bdry_differ {s : St K} (h : Complete s) {e e' : Nat} (he : e ∈ s.es .bdry) (he' : e' ∈ s.es .bdry)
    (hp : (s.pos (s.E e).v1 = s.pos (s.E e').v1 ∧ s.pos (s.E e).v2 = s.pos (s.E e').v2) ∨
      (s.pos (s.E e).v1 = s.pos (s.E e').v2 ∧ s.pos (s.E e).v2 = s.pos (s.E e').v1)) : e = e' := by
  by_contra hne
  have hpw : (s.es .bdry).Pairwise fun x y => Apart s.pos ((s.E x).v1, (s.E x).v2) ((s.E y).v1, (s.E y).v2) :=
    List.pairwise_map.mp h.bdry.apart
  have : Std.Symm fun x y => Apart s.pos ((s.E x).v1, (s.E x).v2) ((s.E y).v1, (s.E y).v2) :=
    ⟨fun x y hxy z h1 h2 => (hxy z h2 h1).symm⟩
  have ha := hpw.forall he he' hne
  have hpr := h.bdry.proper _ (mem_pairs_of he)
  have hm := midp_ne hpr
  have := (ha _ (midp_on _ _) (by
    rcases hp with ⟨h1, h2⟩ | ⟨h1, h2⟩
    · dsimp only; rw [h1, h2]; exact midp_on _ _
    · dsimp only; rw [h1, h2, midp_comm]; exact midp_on _ _)).1
  exact this.elim hm.1 hm.2

theorem edge_covered {s : St K} (h : Conforming s) {e : Nat} (he : IsEdge s e) : Covered s (s.E e).v1 (s.E e).v2 := by
  rcases he with he | he
  · exact (h.intrFull e he).1
  · exact h.bdryFull e he

/-- No element of the one mesh is on the same side of a segment as an element of the other mesh. -/
theorem disjoint_left {w : World K} {ri di : Nat} (hR : Complete (w ri)) (hD : Complete (w di)) (S : SideBySide w ri di)
    {a b a' b' : Nat} (h1 : Covered (w ri) a b) (h2 : Covered (w di) a' b') (ha : (w ri).pos a = (w di).pos a')
    (hb : (w ri).pos b = (w di).pos b') : False := by
  have k1 := covered_left hR h1
  rw [ha, hb] at k1
  obtain ⟨e, _, e1, e2⟩ := (k1.and (covered_left hD h2)).get
  have := S.disjoint (mov (midp ((w di).pos a') ((w di).pos b')) (leftN ((w di).pos a') ((w di).pos b')) e)
  omega

/-- Edges of the two meshes between the same points are twins. -/
theorem side_matching {w : World K} {ri di : Nat} (hR : Complete (w ri)) (hD : Complete (w di)) (S : SideBySide w ri di) :
    Matching w ri di := by
  intro e he e' he' hp
  have cR := edge_covered hR.toConforming he
  have cD := edge_covered hD.toConforming he'
  rcases hp with ⟨h1, h2⟩ | ⟨h1, h2⟩
  · exact (disjoint_left hR hD S cR cD h1 h2).elim
  rcases he with he | he
  · exact (disjoint_left hR hD S (hR.intrFull e he).2 cD h2 h1).elim
  rcases he' with he' | he'
  · exact (disjoint_left hR hD S cR (hD.intrFull e' he').2 h1 h2).elim
  refine ⟨he, ?_⟩
  by_cases hi : Iface w ri di e
  · obtain ⟨e2, ht⟩ := hi
    obtain ⟨l1, l2, l3, l4⟩ := S.adj.link e he e2 ht
    rw [ht, bdry_differ hD l1 he' (Or.inl ⟨by rw [← l4, h2], by rw [← l3, h1]⟩)]
  · by_cases hi' : Iface w di ri e'
    · obtain ⟨e2, ht⟩ := hi'
      obtain ⟨l1, l2⟩ := S.adj.back e' he' e2 ht
      obtain ⟨_, _, l3, l4⟩ := S.adj.link e2 l1 e' l2
      rw [← bdry_differ hR l1 he (Or.inl ⟨by rw [l3, h1], by rw [l4, h2]⟩), l2]
    · have hm := midp_ne (hR.bdry.proper _ (mem_pairs_of he))
      have := (S.rims e he hi e' he' hi' _ (midp_on _ _) (by rw [h1, h2, midp_comm]; exact midp_on _ _)).1
      exact (this.elim hm.1 hm.2).elim

/-! ### The merged mesh -/

section
variable {w w' : World K} {ri di : Nat} {φ : Nat → Nat} {κ : FRef → FRef} {ρ δ : Nat → Nat} (G : Glued w w' ri di φ κ ρ δ)
include G

/-- Sums over the sides of all elements, by their points. -/
theorem union_sum (c : Pt K → Pt K → Int) :
    ((allSides (w' ri)).map fun e => c ((w' ri).pos e.1) ((w' ri).pos e.2)).sum =
    ((allSides (w ri)).map fun e => c ((w ri).pos e.1) ((w ri).pos e.2)).sum +
    ((allSides (w di)).map fun e => c ((w di).pos e.1) ((w di).pos e.2)).sum := by
  have old : ∀ f, Live (w ri) f → ((sidesOf ((w' ri).F f).corners).map fun e => c ((w' ri).pos e.1) ((w' ri).pos e.2)).sum =
      ((sidesOf ((w ri).F f).corners).map fun e => c ((w ri).pos e.1) ((w ri).pos e.2)).sum := by
    intro f hf
    obtain ⟨h1, h2⟩ := G.corners_old hf
    rw [h1]
    rcases corners_cases G.adj.receiver.wf hf with ⟨x, y, z, hc⟩ | ⟨x, y, z, v, hc⟩ <;> rw [hc] at h2 ⊢
    · rw [sides3]; simp [h2 x (by simp), h2 y (by simp), h2 z (by simp)]
    · rw [sides4]; simp [h2 x (by simp), h2 y (by simp), h2 z (by simp), h2 v (by simp)]
  have new : ∀ f, Live (w di) f → ((sidesOf ((w' ri).F (κ f)).corners).map fun e => c ((w' ri).pos e.1) ((w' ri).pos e.2)).sum =
      ((sidesOf ((w di).F f).corners).map fun e => c ((w di).pos e.1) ((w di).pos e.2)).sum := by
    intro f hf
    obtain ⟨h1, h2⟩ := G.corners_new hf
    rw [h1]
    rcases corners_cases G.adj.donor.wf hf with ⟨x, y, z, hc⟩ | ⟨x, y, z, v, hc⟩ <;> rw [hc] at h2 ⊢
    · simp only [List.map_cons, List.map_nil]
      rw [sides3, sides3]; simp [h2 x (by simp), h2 y (by simp), h2 z (by simp)]
    · simp only [List.map_cons, List.map_nil]
      rw [sides4, sides4]; simp [h2 x (by simp), h2 y (by simp), h2 z (by simp), h2 v (by simp)]
  unfold allSides
  rw [sum_flatMapI, sum_flatMapI, sum_flatMapI]
  unfold facets
  rw [G.tris, G.quads]
  simp only [List.map_append, List.sum_append, List.map_map, Function.comp_def]
  rw [List.map_congr_left (l := (w ri).tris) (fun t ht => old (.tri t) ht), List.map_congr_left (l := (w ri).quads) (fun t ht => old (.quad t) ht),
    List.map_congr_left (l := (w di).tris) (fun t ht => new (.tri t) ht), List.map_congr_left (l := (w di).quads) (fun t ht => new (.quad t) ht)]
  ring

theorem union_winding (p : Pt K) : winding (w' ri).pos (allSides (w' ri)) p =
    winding (w ri).pos (allSides (w ri)) p + winding (w di).pos (allSides (w di)) p := by
  rw [winding_eq, winding_eq, winding_eq]
  exact union_sum G fun a b => crossing p a b

/-- The boundary of the merged mesh. -/
theorem union_pairs : pairs (w' ri) .bdry =
    (((w ri).es .bdry).filter fun e => ¬ Iface w ri di e).map (fun e => (((w ri).E e).v1, ((w ri).E e).v2)) ++
    (((w di).es .bdry).filter fun e => ¬ Iface w di ri e).map (fun e => (φ ((w di).E e).v1, φ ((w di).E e).v2)) := by
  unfold pairs
  rw [G.bdry, List.map_append, List.map_map]
  congr 1
  · refine List.map_congr_left fun e he => ?_
    have := G.mer.oldE _ e (List.mem_of_mem_filter he)
    rw [this.1, this.2.1]
  · refine List.map_congr_left fun e he => ?_
    rw [List.mem_filter] at he
    have hni := of_decide_eq_true he.2
    have := G.delta e (Or.inr he.1) fun h2 => hni h2.2
    simp only [Function.comp, this.1, this.2]

/-- The ends of edges keep their places. -/
theorem union_old {e : Nat} {l : EL} (he : e ∈ (w ri).es l) : (w' ri).pos ((w ri).E e).v1 = (w ri).pos ((w ri).E e).v1 ∧
    (w' ri).pos ((w ri).E e).v2 = (w ri).pos ((w ri).E e).v2 := by
  have := (G.adj.receiver.wf.ends l).2 e he
  exact ⟨(G.mer.old _ this.2.1).1, (G.mer.old _ this.2.2.1).1⟩

theorem union_new {e : Nat} {l : EL} (he : e ∈ (w di).es l) : (w' ri).pos (φ ((w di).E e).v1) = (w di).pos ((w di).E e).v1 ∧
    (w' ri).pos (φ ((w di).E e).v2) = (w di).pos ((w di).E e).v2 := by
  have := (G.adj.donor.wf.ends l).2 e he
  exact ⟨G.mer.pos _ this.2.1, G.mer.pos _ this.2.2.1⟩

theorem union_front (hR : Complete (w ri)) (hD : Complete (w di)) (S : SideBySide w ri di) :
    SimpleFront (w' ri).pos (pairs (w' ri) .bdry) := by
  have hc := G.conforming (side_matching hR hD S) hR.toConforming hD.toConforming
  refine ⟨balanced_chain (conforming_chain hc) (sides_balanced hc.wf), ?_, ?_, ?_⟩
  · intro x hx
    rw [union_pairs G, List.mem_append, List.mem_map, List.mem_map] at hx
    rcases hx with ⟨e, he, rfl⟩ | ⟨e, he, rfl⟩
    · have he := List.mem_of_mem_filter he
      dsimp only
      rw [(union_old G he).1, (union_old G he).2]
      exact hR.bdry.proper _ (mem_pairs_of he)
    · have he := List.mem_of_mem_filter he
      dsimp only
      rw [(union_new G he).1, (union_new G he).2]
      exact hD.bdry.proper _ (mem_pairs_of he)
  · rw [union_pairs G, List.pairwise_append, List.pairwise_map, List.pairwise_map]
    refine ⟨?_, ?_, ?_⟩
    · have h0 : ((w ri).es .bdry).Pairwise fun x y => Apart (w ri).pos (((w ri).E x).v1, ((w ri).E x).v2) (((w ri).E y).v1, ((w ri).E y).v2) :=
        List.pairwise_map.mp hR.bdry.apart
      refine (h0.filter _).imp_of_mem fun {x y} hx hy h z => ?_
      have hx := List.mem_of_mem_filter hx
      have hy := List.mem_of_mem_filter hy
      dsimp only
      rw [(union_old G hx).1, (union_old G hx).2, (union_old G hy).1, (union_old G hy).2]
      exact h z
    · have h0 : ((w di).es .bdry).Pairwise fun x y => Apart (w di).pos (((w di).E x).v1, ((w di).E x).v2) (((w di).E y).v1, ((w di).E y).v2) :=
        List.pairwise_map.mp hD.bdry.apart
      refine (h0.filter _).imp_of_mem fun {x y} hx hy h z => ?_
      have hx := List.mem_of_mem_filter hx
      have hy := List.mem_of_mem_filter hy
      dsimp only
      rw [(union_new G hx).1, (union_new G hx).2, (union_new G hy).1, (union_new G hy).2]
      exact h z
    · intro x hx y hy
      obtain ⟨e, he, rfl⟩ := List.mem_map.mp hx
      obtain ⟨e', he', rfl⟩ := List.mem_map.mp hy
      rw [List.mem_filter] at he he'
      intro z
      dsimp only
      rw [(union_old G he.1).1, (union_old G he.1).2, (union_new G he'.1).1, (union_new G he'.1).2]
      exact S.rims e he.1 (of_decide_eq_true he.2) e' he'.1 (of_decide_eq_true he'.2) z
  · intro p
    rw [conforming_winding hc, union_winding G, ← conforming_winding hR.toConforming, ← conforming_winding hD.toConforming]
    have h1 := hR.bdry.once p
    have h2 := hD.bdry.once p
    have h3 := S.disjoint p
    omega

omit G in
theorem halves_map {x y : Nat → Pt K} {φ : Nat → Nat} {f g : FRef} {cs : List Nat} (h : ∀ v ∈ cs, y (φ v) = x v) :
    halves y g (cs.map φ) = (halves x f cs).map fun z => (g, φ z.2.1, φ z.2.2.1, φ z.2.2.2) := by
  rcases cs with _ | ⟨a, _ | ⟨b, _ | ⟨c, _ | ⟨d, _ | ⟨e, l⟩⟩⟩⟩⟩ <;> simp only [halves, List.map_cons, List.map_nil]
  rw [h a (by simp), h b (by simp), h c (by simp), h d (by simp)]
  split_ifs <;> rfl

theorem union_ccw (hR : Complete (w ri)) (hD : Complete (w di)) :
    ∀ x ∈ pieces (w' ri), 0 < side ((w' ri).pos x.2.1) ((w' ri).pos x.2.2.1) ((w' ri).pos x.2.2.2) := by
  intro x hx
  obtain ⟨h1, h2⟩ := mem_pieces.mp hx
  rcases G.live.mp h1 with h3 | ⟨g, h3, h4⟩
  · obtain ⟨k1, k2⟩ := G.corners_old h3
    rw [k1] at h2
    obtain ⟨m1, m2, m3⟩ := halves_mem h2
    rw [halves_congr k2] at h2
    rw [k2 _ m1, k2 _ m2, k2 _ m3]
    exact hR.ccw x (mem_pieces.mpr ⟨h3, h2⟩)
  · obtain ⟨k1, k2⟩ := G.corners_new h3
    rw [← h4, k1, halves_map (f := g) k2, List.mem_map] at h2
    obtain ⟨y, hy, rfl⟩ := h2
    obtain ⟨m1, m2, m3⟩ := halves_mem hy
    dsimp only
    rw [k2 _ m1, k2 _ m2, k2 _ m3]
    have : y.1 = g := halves_fst hy
    exact hD.ccw y (mem_pieces.mpr ⟨by rw [this]; exact h3, by rw [this]; exact hy⟩)

/-- The merge of two complete meshes side by side is complete. -/
theorem union_complete (hR : Complete (w ri)) (hD : Complete (w di)) (S : SideBySide w ri di) : Complete (w' ri) where
  toConforming := G.conforming (side_matching hR hD S) hR.toConforming hD.toConforming
  front := by rw [G.mer.front, hR.front]
  bdry := union_front G hR hD S
  ccw := union_ccw G hR hD
  plain := by
    intro b hb
    rw [G.bdry, List.mem_append, List.mem_map] at hb
    unfold isInterior isGhost
    rcases hb with hb | ⟨e, he, rfl⟩
    · have hb := List.mem_of_mem_filter hb
      rw [(G.mer.oldE _ b hb).2.2.2.1]
      exact hR.plain b hb
    · rw [List.mem_filter] at he
      rw [(G.deltaB e he.1 (of_decide_eq_true he.2)).2.1]
      exact hD.plain e he.1

theorem union_flagged : BdryFlagged (w' ri) := by
  have key : ∀ v ∈ (w' ri).verts, BdryEnd (w' ri) v → ((w' ri).V v).props &&& Flags.vOnBoundary ≠ 0 := by
    intro v hv hb
    have fl : ∀ p : BitVec 8, (p ||| Flags.vOnBoundary) &&& Flags.vOnBoundary ≠ 0 := by decide +kernel
    rw [G.mer.verts, List.mem_append, List.mem_map] at hv
    rcases hv with hv | ⟨u, hu, rfl⟩
    · rw [(G.mer.old v hv).2]
      unfold mergedFlags
      dsimp only
      rw [if_pos hb]
      exact fl _
    · rw [List.mem_filter] at hu
      rw [G.mer.props u hu.1 (of_decide_eq_true hu.2)]
      unfold mergedFlags
      dsimp only
      rw [if_pos hb]
      exact fl _
  intro e he
  have := (G.wf.ends _).2 e he
  exact ⟨key _ this.2.1 ⟨e, he, Or.inl rfl⟩, key _ this.2.2.1 ⟨e, he, Or.inr rfl⟩⟩

theorem union_pointers {eps : K} (hF : ∀ f, Live (w ri) f → (w' ri).F f = (setupConnectivity eps (w ri)).F f)
    (hR : Complete (w ri)) (hl : NbrLen (w ri)) (hf : FreshPointers (w ri)) : NbrLen (w' ri) ∧ FreshPointers (w' ri) := by
  have b := setup_sbp eps hR.wf
  have st := settle (eps := eps) hR hl hf
  refine pointers_keep (s := setupConnectivity eps (w ri)) st.ready.len st.fresh ?_ ?_
  · intro f hlf
    rcases G.live.mp hlf with h | ⟨g, h, rfl⟩
    · exact Or.inl ⟨(sbp_live b f).mpr h, hF f h⟩
    · have := G.copies g h
      unfold CopiedF at this
      right
      rw [this.1, this.2.2.2]
      exact ⟨by simp, by simp⟩
  · rintro x y - ⟨e, he, hh⟩
    rw [b.es] at he
    rw [(b.ends e).1, (b.ends e).2.1] at hh
    refine ⟨e, ?_, ?_⟩
    · rw [G.intr]; simp [he]
    · rw [(G.mer.oldE _ e he).1, (G.mer.oldE _ e he).2.1]; exact hh

omit G in
theorem fCentroid_shape {s t : St K} {f g : FRef} (h : shape s f = shape t g) : s.fCentroid f = t.fCentroid g := by
  unfold shape at h
  unfold fCentroid
  rcases hs : (s.F f).corners with _ | ⟨a, _ | ⟨b, _ | ⟨c, _ | ⟨d, _ | ⟨e, l⟩⟩⟩⟩⟩ <;>
    rcases ht : (t.F g).corners with _ | ⟨a', _ | ⟨b', _ | ⟨c', _ | ⟨d', _ | ⟨e', l'⟩⟩⟩⟩⟩ <;> rw [hs, ht] at h <;> simp at h <;> simp [h]

theorem union_left {eps : K} (lr : LeftFacets eps (w ri)) (ld : LeftFacets eps (w di)) : LeftFacets eps (w' ri) := by
  intro f a b hlf hs
  rcases G.live.mp hlf with h | ⟨g, h, rfl⟩
  · have hs' := (G.side_old h a b).mp hs
    have hv := Glued.covered_verts G.adj.receiver.wf ⟨f, h, hs'⟩
    rw [fCentroid_shape (shape_old G h), (G.mer.old a hv.1).1, (G.mer.old b hv.2).1]
    exact lr f a b h hs'
  · obtain ⟨a', b', hs', rfl, rfl⟩ := (G.side_new h a b).mp hs
    have hv := Glued.covered_verts G.adj.donor.wf ⟨g, h, hs'⟩
    rw [fCentroid_shape (shape_new G h), G.mer.pos a' hv.1, G.mer.pos b' hv.2]
    exact ld g a' b' h hs'
end

end TQ.Whole

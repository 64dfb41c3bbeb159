import Verif.Cleanup.OrderLemmas
import Verif.Smoothing.PlaceProps
import Verif.Whole.CleanProps

/-! # C202: triangles are merged in the order of their shortest sides -/

set_option linter.unusedSectionVars false

namespace TQ
open MS MeshSpec MCSpec MC MS.St GeoSpec PlaceSpec
variable {K : Type*} [Field K] [LinearOrder K] [IsStrictOrderedRing K]

/-- The comparison of the sort. -/
theorem ordered_sorted (s : St K) : (orderedEdges s).Pairwise fun a b => mergeKey s a ≤ mergeKey s b := by
  have e : (fun a b => ¬ mergeKey s b < mergeKey s a) = fun a b => mergeKey s a ≤ mergeKey s b := by
    funext a b; exact propext not_lt
  haveI : IsTrans Nat fun a b => ¬ mergeKey s b < mergeKey s a := ⟨fun a b c h1 h2 => not_lt.mpr ((not_lt.mp h1).trans (not_lt.mp h2))⟩
  haveI : Std.Total fun a b => ¬ mergeKey s b < mergeKey s a := ⟨fun a b => by rw [not_lt, not_lt]; exact le_total _ _⟩
  have := List.pairwise_insertionSort (fun a b => ¬ mergeKey s b < mergeKey s a) (triEdges s)
  exact this.imp fun h => not_lt.mp h

/-- **C202 (order).** The list that is worked off holds exactly the collected edges, none behind one with a longer
shortest side, and edges with equally long shortest sides in the order of the mesh; there is only one such list. -/
theorem C202_order (s : St K) (l : List Nat) :
    l = orderedEdges s ↔ l.Perm (triEdges s) ∧ l.Pairwise (fun a b => mergeKey s a ≤ mergeKey s b) ∧
      ∀ k, l.filter (fun e => mergeKey s e = k) = (triEdges s).filter (fun e => mergeKey s e = k) := by
  have own : (orderedEdges s).Perm (triEdges s) ∧ (orderedEdges s).Pairwise (fun a b => mergeKey s a ≤ mergeKey s b) ∧
      ∀ k, (orderedEdges s).filter (fun e => mergeKey s e = k) = (triEdges s).filter (fun e => mergeKey s e = k) := by
    refine ⟨List.perm_insertionSort _ _, ordered_sorted s, fun k => ?_⟩
    have hp : (orderedEdges s).Perm (triEdges s) := List.perm_insertionSort _ _
    haveI : IsTrans Nat fun a b => ¬ mergeKey s b < mergeKey s a := ⟨fun a b c h1 h2 => not_lt.mpr ((not_lt.mp h1).trans (not_lt.mp h2))⟩
    haveI : Std.Total fun a b => ¬ mergeKey s b < mergeKey s a := ⟨fun a b => by rw [not_lt, not_lt]; exact le_total _ _⟩
    have sub : ((triEdges s).filter fun e => mergeKey s e = k).Sublist (orderedEdges s) := by
      refine List.sublist_insertionSort ?_ List.filter_sublist
      rw [List.pairwise_iff_forall_sublist]
      intro a b hab
      have ha : a ∈ (triEdges s).filter fun e => mergeKey s e = k := hab.subset (by simp)
      have hb : b ∈ (triEdges s).filter fun e => mergeKey s e = k := hab.subset (by simp)
      rw [List.mem_filter, decide_eq_true_eq] at ha hb
      rw [ha.2, hb.2]; exact lt_irrefl _
    have sub2 := sub.filter fun e => mergeKey s e = k
    rw [List.filter_filter] at sub2
    simp only [Bool.and_self] at sub2
    exact (sub2.eq_of_length (hp.filter _).length_eq.symm).symm
  constructor
  · rintro rfl; exact own
  · rintro ⟨h1, h2, h3⟩
    obtain ⟨o1, o2, o3⟩ := own
    have main : ∀ l m : List Nat, l.Pairwise (fun a b => mergeKey s a ≤ mergeKey s b) → m.Pairwise (fun a b => mergeKey s a ≤ mergeKey s b) →
        (∀ k, l.filter (fun e => mergeKey s e = k) = m.filter (fun e => mergeKey s e = k)) → l = m := by
      intro l
      induction l with
      | nil =>
        intro m _ _ h
        rcases m with _ | ⟨b, m⟩
        · rfl
        · have := h (mergeKey s b); simp at this
      | cons a l ih =>
        intro m hl hm h
        rcases m with _ | ⟨b, m⟩
        · have := h (mergeKey s a); simp at this
        · rw [List.pairwise_cons] at hl hm
          have key : mergeKey s a = mergeKey s b := by
            apply le_antisymm
            · have : b ∈ (a :: l).filter (fun e => mergeKey s e = mergeKey s b) := by rw [h]; simp
              rcases List.mem_cons.mp (List.mem_filter.mp this).1 with h | h
              · rw [h]
              · exact hl.1 b h
            · have : a ∈ (b :: m).filter (fun e => mergeKey s e = mergeKey s a) := by rw [← h]; simp
              rcases List.mem_cons.mp (List.mem_filter.mp this).1 with h | h
              · rw [h]
              · exact hm.1 a h
          have hd := h (mergeKey s a)
          simp only [List.filter_cons, key, decide_true, if_true] at hd
          injection hd with hd1 hd2
          subst hd1
          rw [ih m hl.2 hm.2 fun k => ?_]
          have := h k
          simp only [List.filter_cons] at this
          split at this
          · injection this
          · exact this
    exact main l _ h2 o2 fun k => (h3 k).trans (o3 k).symm

/-- **C202 (greedy).** With the order of the code, the merging runs through, and a pair of adjacent triangles that is
not merged lost one of its triangles to a pair with a side at most as long as all of its own sides. -/
theorem C202_greedy (col : FData → Int) {eps : K} {s : St K} (h : WF s) (hd : DirUnique s) (hu : UniqueIntr s) (hc : TrisCCW s)
    (hlf : LeftFacets eps s) (hn : NullWhereOpen s) :
    ∃ u, mergeTriangles col (orderedEdges (setupConnectivity eps s)) (setupConnectivity eps s) = some u ∧
      ShortestFirst (setupConnectivity eps s) u := by
  have hb := setup_sbp eps h
  have hp := (C202_order (setupConnectivity eps s) _).mp rfl
  obtain ⟨u0, r1, r2⟩ := merge_minv col h hd hu hc hlf hn hp.1
  generalize hs : setupConnectivity eps s = p at *
  have wp : WF p := sbp_wf hb h
  have up : UniqueIntr p := by
    intro x hx y hy hh
    rw [hb.es] at hx hy
    obtain ⟨x1, x2, -⟩ := hb.ends x
    obtain ⟨y1, y2, -⟩ := hb.ends y
    rw [x1, x2, y1, y2] at hh
    exact hu x hx y hy hh
  have dp : DirUnique p := by
    intro f g a b hf hg h1 h2
    rw [sbp_live hb] at hf hg
    rw [sbp_hasSide hb] at h1 h2
    exact hd f g a b hf hg h1 h2
  have cp : TrisCCW p := by
    intro t ht a b c hcs
    rw [hb.tris] at ht
    rw [(hb.corners _).1] at hcs
    simp only [sbp_pos hb]
    exact hc t ht a b c hcs
  have hlk : ∀ e ∈ orderedEdges p, e ∈ p.es .intr ∧ Linked p e := by
    intro e he
    have := triEdges_linked (eps := eps) h hd hlf hn (e := e) (by rw [hs]; exact hp.1.mem_iff.mp he)
    rwa [hs] at this
  have hB : ∀ e ∈ orderedEdges p, ∃ x y, Between p e x y := by
    intro e he
    obtain ⟨l1, l2⟩ := hlk e he
    have hm := hp.1.mem_iff.mp he
    unfold triEdges at hm
    rw [List.mem_filter, Bool.and_eq_true, decide_eq_true_eq, decide_eq_true_eq] at hm
    have isT : ∀ f, Live p f → nVerts p f = 3 → ∃ x, f = .tri x ∧ x ∈ p.tris := by
      intro f hf h3
      cases f with
      | null => exact absurd hf (by simp [Live])
      | tri x => exact ⟨x, rfl, hf⟩
      | quad q => exact absurd (wp.qcor q hf) (by unfold nVerts at h3; omega)
    obtain ⟨x, x1, x2⟩ := isT _ l2.1.1 hm.2.1.2
    obtain ⟨y, y1, y2⟩ := isT _ l2.2.1 hm.2.2.2
    exact ⟨x, y, l1, ⟨x2, x1 ▸ l2.1.2⟩, y2, y1 ▸ l2.2.2⟩
  have hnd : (orderedEdges p).Nodup := hp.1.nodup_iff.mpr ((wp.ends .intr).1.filter _)
  obtain ⟨u, h1, h2⟩ := greedy_loop wp dp (orderedEdges p) [] p (minv_start (col := col) wp up dp cp hlk) hnd hB hp.2.1 (by simp)
    (fun q hq => .inl hq) (fun e he => absurd he (by simp))
  refine ⟨u, h1, fun e x y hxy he => ?_⟩
  have hin : e ∈ orderedEdges p := by
    rw [hp.1.mem_iff]
    unfold triEdges
    rw [List.mem_filter]
    refine ⟨hxy.edge, ?_⟩
    have hes : e ∈ s.es .intr := by rw [← hb.es]; exact hxy.edge
    obtain ⟨i1, i2, -, -⟩ := setup_intr (eps := eps) h hd hlf hes
    rw [hs] at i1 i2
    obtain ⟨x1, x2, -⟩ := hb.ends e
    have a1 := i1 (.tri x) ((sbp_live hb _).mp (show Live p (.tri x) from hxy.left.1)) ((sbp_hasSide hb _ _ _).mp (by
      have := hxy.left.2; rwa [x1, x2] at this))
    have a2 := i2 (.tri y) ((sbp_live hb _).mp (show Live p (.tri y) from hxy.right.1)) ((sbp_hasSide hb _ _ _).mp (by
      have := hxy.right.2; rwa [x1, x2] at this))
    rw [a1, a2]
    simp [nVerts, wp.tcor x hxy.left.1, wp.tcor y hxy.right.1]
  obtain ⟨e', q1, q2, q3, x', y', q4, q5⟩ := h2 e (by simpa using hin) he
  refine ⟨e', x', y', q4, q2, ?_, noLonger_of_key wp dp hxy q4 (hlk e hin).2 (hlk e' (by simpa using q1)).2 q3⟩
  have same : ∀ z w a b, z ∈ p.tris → w ∈ p.tris → HasSide p (.tri z) a b → HasSide p (.tri w) a b → z = w := by
    intro z w a b hz hw h1 h2
    have := dp (.tri z) (.tri w) a b hz hw h1 h2
    injection this
  rcases q5 with (q5 | q5) | (q5 | q5)
  · exact .inl (same _ _ _ _ q4.left.1 hxy.left.1 q5 hxy.left.2)
  · exact .inr (.inr (.inl (same _ _ _ _ q4.right.1 hxy.left.1 q5 hxy.left.2)))
  · exact .inr (.inl (same _ _ _ _ q4.left.1 hxy.right.1 q5 hxy.right.2))
  · exact .inr (.inr (.inr (same _ _ _ _ q4.right.1 hxy.right.1 q5 hxy.right.2)))

/-- **C202 (shortest).** A pair of adjacent triangles with a side shorter than those of all triangles around is merged:
whatever shares one of the two triangles has no side that short. -/
theorem C202_shortest (col : FData → Int) {eps : K} {s u : St K} (h : WF s) (hd : DirUnique s) (hu : UniqueIntr s) (hc : TrisCCW s)
    (hlf : LeftFacets eps s) (hn : NullWhereOpen s)
    (hr : mergeTriangles col (orderedEdges (setupConnectivity eps s)) (setupConnectivity eps s) = some u) {e x y : Nat}
    (hxy : Between (setupConnectivity eps s) e x y)
    (hs : ∀ e' x' y', Between (setupConnectivity eps s) e' x' y' → e' ≠ e → (x' = x ∨ x' = y ∨ y' = x ∨ y' = y) →
      ¬ NoLonger (setupConnectivity eps s) x' y' x y) : e ∉ u.es .intr := by
  intro he
  obtain ⟨v, h1, h2⟩ := C202_greedy col h hd hu hc hlf hn
  rw [hr] at h1
  obtain rfl := Option.some.inj h1
  obtain ⟨e', x', y', a, b, c, d⟩ := h2 e x y hxy he
  exact hs e' x' y' a (fun hh => b (hh ▸ he)) c d

theorem foldMin_mul {c : K} (hc : 0 < c) : ∀ (l : List K) (x : K), (l.map (c * ·)).foldl min (c * x) = c * l.foldl min x
  | [], _ => rfl
  | y :: l, x => by
    rw [List.map_cons, List.foldl_cons, List.foldl_cons, ← mul_min_of_nonneg _ _ hc.le]
    exact foldMin_mul hc l _

theorem minSqr_place (f : Similarity K) (hf : 0 < f.factor) (s : St K) (g : FRef) : minSqr (place f s) g = f.factor * minSqr s g := by
  unfold minSqr
  have e : (place f s).sideSqrs g = (s.sideSqrs g).map (f.factor * ·) := by
    unfold sideSqrs
    rw [show (place f s).F = s.F from rfl]
    split <;> simp only [pos_place, at_sub, turn_normSq, List.map_cons, List.map_nil]
  rw [e]
  rcases s.sideSqrs g with _ | ⟨x, l⟩
  · exact (mul_zero _).symm
  · exact foldMin_mul hf l x

theorem ordered_place (f : Similarity K) (hf : 0 < f.factor) (s : St K) : orderedEdges (place f s) = orderedEdges s := by
  unfold orderedEdges
  have e : ∀ a, mergeKey (place f s) a = f.factor * mergeKey s a := by
    intro a
    unfold mergeKey
    rw [minSqr_place f hf, minSqr_place f hf, mul_min_of_nonneg _ _ hf.le]; rfl
  simp only [e, mul_lt_mul_iff_right₀ hf]
  rfl

theorem doubleTris_place {f : Similarity K} {eps eps' : K} (T : SameTests f.at Set.univ eps' eps) (ix : FRef → Nat) (s : St K) :
    doubleTris eps' ix (place f s) = (doubleTris eps ix s).map (place f) := by
  unfold doubleTris
  rw [show scan (place f s) false ix = scan s false ix from rfl]
  rcases scan s false ix with _ | c
  · rfl
  · dsimp only
    rw [show some (place f s) = (some s).map (place f) from rfl, newTris_place]
    generalize c.out.foldl (fun o m => o.bind fun s => newTri s m) (some s) = o
    rcases o with _ | s2
    · rfl
    · simp only [Option.map_some, cleanOld_place, setup_place T]

theorem tri2quad_place {f : Similarity K} (hf : 0 < f.factor) {eps eps' : K} (T : SameTests f.at Set.univ eps' eps) (ix : FRef → Nat) (s : St K) :
    tri2quad eps' ix (orderedEdges (setupConnectivity eps' (place f s))) (place f s) =
      (tri2quad eps ix (orderedEdges (setupConnectivity eps s)) s).map (place f) := by
  unfold tri2quad
  rw [setup_place T, ordered_place f hf, mergeTriangles_place]
  refine option_bind_place (place f) (place f) (fun u => ?_) _
  rw [clearQuads_place T]
  refine option_bind_place (place f) (place f) (fun v => ?_) _
  rw [show assignIndices (place f v) (fun _ => 0) ix = assignIndices v (fun _ => 0) ix from rfl]
  exact doubleTris_place T _ v

/-- **C202 (unit).** The whole conversion to quads, with its order, gives the same mesh at another place, in another
direction and, with a tolerance that fits, in another unit of length; turns and shifts need no other tolerance. -/
theorem C202_placed (f : Similarity K) (hf : 0 < f.factor) (eps : K) (ix : FRef → Nat) (s : St K) :
    tri2quad (f.factor ^ 2 * eps) ix (orderedEdges (setupConnectivity (f.factor ^ 2 * eps) (place f s))) (place f s) =
      (tri2quad eps ix (orderedEdges (setupConnectivity eps s)) s).map (place f) ∧
    (f.Motion → tri2quad eps ix (orderedEdges (setupConnectivity eps (place f s))) (place f s) =
      (tri2quad eps ix (orderedEdges (setupConnectivity eps s)) s).map (place f)) :=
  ⟨tri2quad_place hf (C198_fitting_partial f hf eps) ix s, fun hm => tri2quad_place hf (C198_moved_partial f hm eps) ix s⟩

namespace MCEx
/-- A strip of four triangles (12 to 15) with the interior edges 16, 17 and 18; the last triangle has the shortest side. -/
def strip : St ℚ :=
  ((((((((((((((((((((St.empty 1).addVertex ⟨0, 0⟩).addVertex ⟨6, 0⟩).addVertex ⟨10, 0⟩).addVertex ⟨10, 3⟩).addVertex ⟨6, 6⟩).addVertex ⟨0, 6⟩).addBdry 0 1 1).addBdry 1 2 1).addBdry 2
    3 1).addBdry 3 4 1).addBdry 4 5 1).addBdry 5 0 1).addTri 0 1 5 1).addTri 1 4 5 1).addTri 1 3 4 1).addTri 1 2 3 1).addIntr 1 5).addIntr 1 4).addIntr 1 3)
theorem built_strip : Built 1 strip := by
  refine Built.addEdge _ _ _ _ _ (Built.addEdge _ _ _ _ _ (Built.addEdge _ _ _ _ _ (Built.addTri _ _ _ _ (Built.addTri _ _ _ _ (Built.addTri _ _ _ _ (Built.addTri _ _ _ _
    (Built.addEdge _ _ _ _ _ (Built.addEdge _ _ _ _ _ (Built.addEdge _ _ _ _ _ (Built.addEdge _ _ _ _ _ (Built.addEdge _ _ _ _ _ (Built.addEdge _ _ _ _ _
    ((((((Built.empty.addVertex _).addVertex _).addVertex _).addVertex _).addVertex _).addVertex _)
    ?_ ?_ ?_) ?_ ?_ ?_) ?_ ?_ ?_) ?_ ?_ ?_) ?_ ?_ ?_) ?_ ?_ ?_) ?_ ?_ ?_ ?_) ?_ ?_ ?_ ?_) ?_ ?_ ?_ ?_) ?_ ?_ ?_ ?_) ?_ ?_ ?_) ?_ ?_ ?_) ?_ ?_ ?_ <;> decide
theorem strip_dir : DirUnique strip := dirUnique_of (by decide +kernel)
theorem strip_shapes : SoundShapes (1 / 1000000) strip := shapes_of (by decide +kernel)
theorem strip_intr : UniqueIntr strip := by unfold UniqueIntr; decide +kernel
theorem strip_null : NullWhereOpen strip := by
  unfold NullWhereOpen; simp only [all_live]; decide +kernel
end MCEx

/-- the hypotheses hold for the strip; its edges are worked off in another order than they are listed: the pair with
the shortest side comes first, and the middle edge stays, as both of its triangles are gone; in the
square of four triangles all pairs have equally short sides and keep their order -/
example : (WF MCEx.strip ∧ DirUnique MCEx.strip ∧ UniqueIntr MCEx.strip ∧ TrisCCW MCEx.strip ∧ LeftFacets (1 / 1000000) MCEx.strip ∧ NullWhereOpen MCEx.strip) ∧
    triEdges (setupConnectivity (1 / 1000000) MCEx.strip) = [16, 17, 18] ∧ orderedEdges (setupConnectivity (1 / 1000000) MCEx.strip) = [18, 17, 16] ∧
    MCEx.shown (mergeTriangles FData.color (orderedEdges (setupConnectivity (1 / 1000000) MCEx.strip)) (setupConnectivity (1 / 1000000) MCEx.strip)) []
      [[4, 1, 2, 3], [0, 1, 4, 5]] [1, 1] [17] = true ∧
    ((orderedEdges (setupConnectivity (1 / 1000000) WEx.four)).map (mergeKey (setupConnectivity (1 / 1000000) WEx.four)) = [1 / 2, 1 / 2, 1 / 2, 1 / 2] ∧
      orderedEdges (setupConnectivity (1 / 1000000) WEx.four) = WEx.four.es .intr) :=
  ⟨⟨built_wf MCEx.built_strip, MCEx.strip_dir, MCEx.strip_intr, ccw_of_shapes MCEx.strip_shapes,
    C48_left_geometry (built_wf MCEx.built_strip) MCEx.strip_shapes, MCEx.strip_null⟩, by decide +kernel, by decide +kernel, by decide +kernel, by decide +kernel⟩

end TQ

#print axioms TQ.C202_order
#print axioms TQ.C202_greedy
#print axioms TQ.C202_shortest
#print axioms TQ.C202_placed

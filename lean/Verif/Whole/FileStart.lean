import Verif.Whole.FileLemmas
import Verif.Whole.OutlineProps
import Verif.Boundary.InsideProps

/-! # Lemmas: the preparation of the mesh of a drawing succeeds -/

set_option linter.unusedSectionVars false
set_option linter.unusedSimpArgs false

namespace TQ.Fl
open TQ.Cf TQ.OutlSpec TQ.Sh TQ.FlSpec TQ.BdSpec TQ.GeoSpec TQ.GN TQ.FUSpec TQ.FU TQ.Outl
variable {K : Type} [Field K] [LinearOrder K] [IsStrictOrderedRing K]

/-- A point on the line and between the ends in the sense of `in_segment` is a point between the ends. -/
theorem between_of_near {p q r : Pt K} (hpq : p ≠ q) (h0 : side p q r = 0) (h1 : 0 < Pt.dot (r - p) (q - p))
    (h2 : Pt.dot (r - p) (q - p) < Pt.normSq (q - p)) : OnClosed p q r ∧ r ≠ p ∧ r ≠ q := by
  have hn : 0 < Pt.normSq (q - p) := lt_trans h1 h2
  refine ⟨⟨Pt.dot (r - p) (q - p) / Pt.normSq (q - p), by positivity, by rw [div_le_one hn]; exact h2.le, ?_⟩, ?_, ?_⟩
  · unfold side at h0
    have hx : (r.x - p.x) * Pt.normSq (q - p) = Pt.dot (r - p) (q - p) * (q.x - p.x) := by
      unfold Pt.dot Pt.normSq
      simp only [Pt.sub_x, Pt.sub_y]
      linear_combination (-(q.y - p.y)) * h0
    have hy : (r.y - p.y) * Pt.normSq (q - p) = Pt.dot (r - p) (q - p) * (q.y - p.y) := by
      unfold Pt.dot Pt.normSq
      simp only [Pt.sub_x, Pt.sub_y]
      linear_combination (q.x - p.x) * h0
    apply Pt.ext' <;> simp only [onSeg]
    · rw [div_mul_eq_mul_div, ← hx, mul_div_cancel_right₀ _ hn.ne']; ring
    · rw [div_mul_eq_mul_div, ← hy, mul_div_cancel_right₀ _ hn.ne']; ring
  · rintro rfl
    unfold Pt.dot at h1
    simp at h1
  · rintro rfl
    exact lt_irrefl _ h2

/-- Segments that meet in common end points only are not reported. -/
theorem apart_unreported {eps : K} {p1 q1 p2 q2 : Pt K} (h1 : p1 ≠ q1) (h2 : p2 ≠ q2) (ha : SegApart (p1, q1) (p2, q2))
    (hs : Sharp eps [p1, q1, p2, q2]) : ¬SegmentsMeet eps p1 q1 p2 q2 := by
  intro hc
  have near : ∀ p ∈ [p1, q1, p2, q2], ∀ q ∈ [p1, q1, p2, q2], ∀ r ∈ [p1, q1, p2, q2], p ≠ q → NearOpenSeg eps p q r → OnClosed p q r ∧ r ≠ p ∧ r ≠ q := by
    intro p hp q hq r hr hpq h
    obtain ⟨n1, n2, n3⟩ := h
    refine between_of_near hpq (hs p hp q hq r hr ?_) n2 ?_
    · rw [← area2_side, area2_turn, ← pow_two]; exact n1
    · unfold Pt.dot Pt.normSq
      simp only [Pt.sub_x, Pt.sub_y]
      rw [← pow_two, ← pow_two]; exact n3
  have e1 : ∀ a b : Pt K, OnClosed a b a := fun a b => ⟨0, le_refl _, zero_le_one, by apply Pt.ext' <;> simp [onSeg]⟩
  have e2 : ∀ a b : Pt K, OnClosed a b b := fun a b => ⟨1, zero_le_one, le_refl _, by apply Pt.ext' <;> simp [onSeg]⟩
  rcases hc with h | h | h | h | h
  · obtain ⟨s, t, s0, s1, t0, t1, e⟩ := h
    have hx := ha (onSeg p1 q1 s) ⟨s, s0.le, s1.le, rfl⟩ ⟨t, t0.le, t1.le, e⟩
    rcases hx.1 with hx | hx
    · apply h1
      have k1 := congrArg Pt.x hx
      have k2 := congrArg Pt.y hx
      simp only [onSeg] at k1 k2
      apply Pt.ext'
      · have : s * (q1.x - p1.x) = 0 := by linarith
        rcases mul_eq_zero.mp this with h | h
        · exact absurd h s0.ne'
        · linarith
      · have : s * (q1.y - p1.y) = 0 := by linarith
        rcases mul_eq_zero.mp this with h | h
        · exact absurd h s0.ne'
        · linarith
    · apply h1
      have k1 := congrArg Pt.x hx
      have k2 := congrArg Pt.y hx
      simp only [onSeg] at k1 k2
      apply Pt.ext'
      · have : (1 - s) * (q1.x - p1.x) = 0 := by linarith
        rcases mul_eq_zero.mp this with h | h
        · linarith
        · linarith
      · have : (1 - s) * (q1.y - p1.y) = 0 := by linarith
        rcases mul_eq_zero.mp this with h | h
        · linarith
        · linarith
  · obtain ⟨a, b, c⟩ := near _ (by simp) _ (by simp) _ (by simp) h1 h
    rcases (ha p2 a (e1 _ _)).1 with h | h
    · exact b h
    · exact c h
  · obtain ⟨a, b, c⟩ := near _ (by simp) _ (by simp) _ (by simp) h1 h
    rcases (ha q2 a (e2 _ _)).1 with h | h
    · exact b h
    · exact c h
  · obtain ⟨a, b, c⟩ := near _ (by simp) _ (by simp) _ (by simp) h2 h
    rcases (ha p1 (e1 _ _) a).2 with h | h
    · exact b h
    · exact c h
  · obtain ⟨a, b, c⟩ := near _ (by simp) _ (by simp) _ (by simp) h2 h
    rcases (ha q1 (e2 _ _) a).2 with h | h
    · exact b h
    · exact c h

/-- In a loop through different vertices, the next edge is the next one in the list. -/
theorem nextIdx_loop {es : List BEdge} (hl : BdSpec.Loop es) (hn : (es.map (·.v1)).Nodup) (h2 : 2 ≤ es.length) {i : Nat} (hi : i < es.length) :
    nextIdx es i es[i] = some ((i + 1) % es.length) := by
  have hj : (i + 1) % es.length < es.length := Nat.mod_lt _ (by omega)
  have hv : (es[i]).v2 = (es[(i + 1) % es.length]).v1 := by
    have h : (es.map (·.v2))[i]? = ((es.map (·.v1)).rotate 1)[i]? := by rw [hl]
    rw [List.getElem?_map, List.getElem?_eq_getElem hi, List.getElem?_rotate (by simpa using hi), List.getElem?_map, List.length_map, List.getElem?_eq_getElem hj] at h
    simpa using h
  have hne : (i + 1) % es.length ≠ i := by
    rcases Nat.lt_or_ge (i + 1) es.length with h | h
    · rw [Nat.mod_eq_of_lt h]; omega
    · have : i + 1 = es.length := by omega
      rw [this, Nat.mod_self]; omega
  unfold nextIdx
  rw [List.find?_range_eq_some]
  refine ⟨by rw [List.getElem?_eq_getElem hj]; simp [hne, hv], List.mem_range.mpr hj, ?_⟩
  intro j hjlt
  have hjl : j < es.length := lt_trans hjlt hj
  rw [List.getElem?_eq_getElem hjl, hv]
  have : (es[j]).v1 ≠ (es[(i + 1) % es.length]).v1 := by
    intro h
    have := (List.Nodup.getElem_inj_iff hn (i := j) (j := (i + 1) % es.length) (hi := by simpa using hjl) (hj := by simpa using hj)).mp (by simpa using h)
    omega
  simp [this]

/-- Such a loop is traversable. -/
theorem traversable_loop {es : List BEdge} (hl : BdSpec.Loop es) (hn : (es.map (·.v1)).Nodup) (h2 : 2 ≤ es.length) : isTraversable es 0 = true := by
  have key : ∀ n i, i < es.length → es.length ≤ i + n → followTo es 0 n i = true := by
    intro n
    induction n with
    | zero => intro i h1 h2; omega
    | succ n ih =>
      intro i hi hn'
      rw [followTo, List.getElem?_eq_getElem hi]
      dsimp only
      rw [nextIdx_loop hl hn h2 hi]
      dsimp only
      rcases Nat.lt_or_ge (i + 1) es.length with h | h
      · rw [Nat.mod_eq_of_lt h, if_neg (by omega)]
        exact ih _ h (by omega)
      · have : i + 1 = es.length := by omega
        rw [this, Nat.mod_self, if_pos rfl]
  exact key _ 0 (by omega) (by omega)

/-- The corners of a boundary. -/
theorem made_corners {bt : BdryType} {st : List (BVert K)} {L : EList K} {ps : List (Pt K)} (h : Made bt st L ps) :
    (L.edges.map fun e => storePos st e.v1).Perm ps := by
  have h1 := h.segs.map Prod.fst
  rw [List.map_map] at h1
  refine h1.trans ?_
  rw [ring_cyclic]
  unfold cyclicPairs
  split_ifs
  · rw [List.map_fst_zip (by simp)]
  · rw [List.map_map, show (Prod.fst ∘ Prod.swap : Pt K × Pt K → Pt K) = Prod.snd from rfl, List.map_snd_zip (by simp)]
    exact List.rotate_perm _ _

theorem made_ends {bt : BdryType} {st : List (BVert K)} {L : EList K} {ps : List (Pt K)} (h : Made bt st L ps) {e : BEdge} (he : e ∈ L.edges) :
    storePos st e.v1 ∈ ps ∧ storePos st e.v2 ∈ ps := by
  refine ⟨(made_corners h).subset (List.mem_map_of_mem (f := fun e => storePos st e.v1) he), ?_⟩
  have h1 : e.v2 ∈ L.edges.map (·.v2) := List.mem_map_of_mem he
  rw [h.loop, List.mem_rotate] at h1
  obtain ⟨f, hf, e1⟩ := List.mem_map.mp h1
  rw [← e1]
  exact (made_corners h).subset (List.mem_map_of_mem (f := fun e => storePos st e.v1) hf)

theorem made_traversable {bt : BdryType} {st : List (BVert K)} {L : EList K} {ps : List (Pt K)} (h : Made bt st L ps) (hn : ps.Nodup)
    (hp : 0 < polygonArea ps) : L.edges ≠ [] ∧ isTraversable L.edges 0 = true := by
  have h3 : 3 ≤ ps.length := by
    by_contra hc
    rw [polygonArea_short ps (by omega)] at hp
    exact lt_irrefl _ hp
  have hlen : L.edges.length = ps.length := by
    rw [← (made_corners h).length_eq, List.length_map]
  have hnd : (L.edges.map (·.v1)).Nodup := by
    have := (made_corners h).nodup_iff.mpr hn
    rw [show (L.edges.map fun e => storePos st e.v1) = (L.edges.map (·.v1)).map (storePos st) by rw [List.map_map]; rfl] at this
    exact this.of_map
  exact ⟨by intro hc; rw [hc] at hlen; simp at hlen; omega, traversable_loop h.loop hnd (by omega)⟩

/-- The domain of a drawing passes the check. -/
theorem drawing_check {D : DEnv K} {c : Cfg K} {d : Dm K} {b : BDef K} {bs : List (BDef K)} {ps : List (Pt K)} {hs : List (List (Pt K))}
    (H : Drawing D c b bs ps hs) (h : makeDomain D c = .ok d) (hsim : SimpleOutline (withHoles ps hs)) (hnd : ∀ q ∈ ps :: hs, q.Nodup)
    {eps : K} (he : 0 < eps) (hsh : Sharp eps (ps ++ hs.flatten)) :
    checkDomain eps (storePos d.verts) (d.bdries.map fun b => (b.1 == .exterior, b.2.edges)) = some true := by
  have hout := drawing_outline H h
  unfold Dm.sources at hout
  rw [source_segs] at hout
  have hS := simple_of_perm hout.symm hsim
  obtain ⟨-, L, Ls, e, m, ms⟩ := drawing_bdries H h
  have key : ∀ b ∈ d.bdries, ∃ q ∈ ps :: hs, Made b.1 d.verts b.2 q := by
    intro b hb
    rw [e] at hb
    rcases List.mem_cons.mp hb with rfl | hb
    · exact ⟨ps, List.mem_cons_self .., m⟩
    · obtain ⟨q, hq, hr⟩ := forall₂_mem ms b hb
      exact ⟨q, List.mem_cons_of_mem _ hq, by rw [hr.1]; exact hr.2⟩
  have htrav : ∀ b ∈ d.bdries, b.2.edges ≠ [] ∧ isTraversable b.2.edges 0 = true := by
    intro b hb
    obtain ⟨q, hq, hm⟩ := key b hb
    exact made_traversable hm (hnd q hq) (H.ccw q hq)
  have hends : ∀ b ∈ d.bdries, ∀ e ∈ b.2.edges, storePos d.verts e.v1 ∈ ps ++ hs.flatten ∧ storePos d.verts e.v2 ∈ ps ++ hs.flatten := by
    intro b hb e he
    obtain ⟨q, hq, hm⟩ := key b hb
    have hin : ∀ x ∈ q, x ∈ ps ++ hs.flatten := by
      intro x hx
      rcases List.mem_cons.mp hq with rfl | hq
      · exact List.mem_append_left _ hx
      · exact List.mem_append_right _ (List.mem_flatten.mpr ⟨q, hq, hx⟩)
    exact ⟨hin _ (made_ends hm he).1, hin _ (made_ends hm he).2⟩
  have hprop : ∀ b ∈ d.bdries, ∀ e ∈ b.2.edges, storePos d.verts e.v1 ≠ storePos d.verts e.v2 := by
    intro b hb e he
    exact hS.proper (storePos d.verts e.v1, storePos d.verts e.v2)
      (List.mem_flatMap.mpr ⟨b, hb, List.mem_map_of_mem (f := fun e => (storePos d.verts e.v1, storePos d.verts e.v2)) he⟩)
  have hmeet : ∀ b ∈ d.bdries, ∀ b' ∈ d.bdries, ∀ e ∈ b.2.edges, ∀ f ∈ b'.2.edges,
      SegApart (storePos d.verts e.v1, storePos d.verts e.v2) (storePos d.verts f.v1, storePos d.verts f.v2) →
      ¬SegmentsMeet eps (storePos d.verts e.v1) (storePos d.verts e.v2) (storePos d.verts f.v1) (storePos d.verts f.v2) := by
    intro b hb b' hb' e he' f hf ha
    refine apart_unreported (hprop b hb e he') (hprop b' hb' f hf) ha ?_
    have hmem : ∀ x ∈ [storePos d.verts e.v1, storePos d.verts e.v2, storePos d.verts f.v1, storePos d.verts f.v2], x ∈ ps ++ hs.flatten := by
      intro x hx
      simp only [List.mem_cons, List.not_mem_nil, or_false] at hx
      rcases hx with rfl | rfl | rfl | rfl
      · exact (hends b hb e he').1
      · exact (hends b hb e he').2
      · exact (hends b' hb' f hf).1
      · exact (hends b' hb' f hf).2
    exact fun x hx y hy z hz => hsh x (hmem x hx) y (hmem y hy) z (hmem z hz)
  obtain ⟨hin, hacr⟩ := List.pairwise_flatMap.mp hS.apart
  haveI : Std.Symm (SegApart (K := K)) := ⟨fun _ _ k => segApart_symm k⟩
  unfold checkDomain
  rw [if_neg (by rw [e]; simp), if_neg (by rw [e]; simp), if_neg ?_, if_neg ?_]
  · simp only [Option.some.injEq, List.all_eq_true, Bool.and_eq_true, Bool.not_eq_true', Bool.or_eq_true, decide_eq_true_eq]
    rintro ⟨b, i⟩ hbi
    rw [List.mem_zipIdx_iff_getElem?, List.getElem?_map, Option.map_eq_some_iff] at hbi
    obtain ⟨b, hb, rfl⟩ := hbi
    change d.bdries[i]? = some b at hb
    have hbm := List.mem_of_getElem? hb
    refine ⟨?_, ?_⟩
    · by_contra hc
      rw [Bool.not_eq_false] at hc
      obtain ⟨k, l, hk, hl, hkl, -, -, hme⟩ := (C26_no_false_alarm_partial eps he _).1 _ hc
      have hpw := List.pairwise_map.mp (hin b hbm)
      refine hmeet b hbm b hbm _ (List.getElem_mem _) _ (List.getElem_mem _) ?_ hme
      rcases Nat.lt_or_gt_of_ne hkl with hlt | hlt
      · exact List.pairwise_iff_getElem.mp hpw k l hk hl hlt
      · exact segApart_symm (List.pairwise_iff_getElem.mp hpw l k hl hk hlt)
    · rintro ⟨b', j⟩ hbj
      rw [List.mem_zipIdx_iff_getElem?, List.getElem?_map, Option.map_eq_some_iff] at hbj
      obtain ⟨b', hb', rfl⟩ := hbj
      change d.bdries[j]? = some b' at hb'
      have hbm' := List.mem_of_getElem? hb'
      by_cases hij : j = i
      · exact Or.inl hij
      · right
        by_contra hc
        rw [Bool.not_eq_false] at hc
        obtain ⟨e1, he1, f1, hf1, hme⟩ := (C26_no_false_alarm_partial eps he _).2 _ _ hc
        refine hmeet b hbm b' hbm' e1 he1 f1 hf1 ?_ hme
        obtain ⟨hi', rfl⟩ := List.getElem?_eq_some_iff.mp hb
        obtain ⟨hj', rfl⟩ := List.getElem?_eq_some_iff.mp hb'
        have m1 := List.mem_map_of_mem (f := fun e => (storePos d.verts e.v1, storePos d.verts e.v2)) he1
        have m2 := List.mem_map_of_mem (f := fun e => (storePos d.verts e.v1, storePos d.verts e.v2)) hf1
        rcases Nat.lt_or_gt_of_ne hij with hlt | hlt
        · exact segApart_symm (List.pairwise_iff_getElem.mp hacr j i hj' hi' hlt _ m2 _ m1)
        · exact List.pairwise_iff_getElem.mp hacr i j hi' hj' hlt _ m1 _ m2
  · simp only [Bool.not_eq_true', Bool.not_eq_false, List.all_eq_true]
    intro x hx
    obtain ⟨b, hb, rfl⟩ := List.mem_map.mp hx
    exact (htrav b hb).2
  · simp only [List.any_eq_true, not_exists, not_and]
    intro x hx
    obtain ⟨b, hb, rfl⟩ := List.mem_map.mp hx
    simpa using (htrav b hb).1

/-- The front can be set up if all its edges can be divided. -/
theorem initFront_total {nbr : Fr.SrcEdge K → List (Fr.SrcEdge K)} {bd : List (List (Fr.SrcEdge K))} {fx : List (Fr.SrcEdge K)}
    {sub : List (Fr.MVert K) → Fr.FEdge → Option (List (Pt K))}
    (hs : ∀ s e, (∃ c ∈ Fr.collectCalls nbr bd fx, (Fr.vpos s e.v1, Fr.vpos s e.v2) = callPts c) → ∃ coords, sub s e = some coords) :
    ∃ r, Fr.initFront sub [] (Fr.collect nbr bd fx) = some r := by
  have hg := good_collect nbr bd fx
  obtain ⟨es0, h0, hfa⟩ := initEdges_calls hg 0
  have tot : ∀ (f : Fr.FEdge → Option (List (Pt K))) (es : List Fr.FEdge), (∀ e ∈ es, ∃ l, f e = some l) → ∀ st, ∃ q, Fr.refineEdges f st es = some q := by
    intro f es
    induction es with
    | nil => intro _ st; exact ⟨_, rfl⟩
    | cons e es ih =>
      intro hf st
      have ih := ih fun e he => hf e (List.mem_cons_of_mem _ he)
      rw [Fr.refineEdges]
      split_ifs
      · obtain ⟨q, hq⟩ := ih st
        rw [hq]; exact ⟨_, rfl⟩
      · obtain ⟨l, hl⟩ := hf e (List.mem_cons_self ..)
        rw [hl]
        dsimp only
        obtain ⟨q, hq⟩ := ih (Fr.refineEdge l st e).1
        rw [hq]; exact ⟨_, rfl⟩
  unfold Fr.initFront
  rw [show ([] : List (Fr.MVert K)).length = 0 from rfl, h0]
  dsimp only
  obtain ⟨q, hq⟩ := tot (sub (Fr.initVerts [] (Fr.collect nbr bd fx))) es0 (by
    intro e he
    obtain ⟨c, hc, i, j, rfl, hi, hj⟩ := forall₂_mem hfa e he
    refine hs _ _ ⟨c, hc, ?_⟩
    have v1 := vpos_init [] _ hi
    have v2 := vpos_init [] _ hj
    simp only [List.length_nil] at v1 v2
    rw [v1, v2]) (Fr.initVerts [] (Fr.collect nbr bd fx))
  rw [hq]; exact ⟨_, rfl⟩

/-- The fixed edges of the domain. -/
theorem fixed_drawn {D : DEnv K} {c : Cfg K} {d : Dm K} (h : makeDomain D c = .ok d) (hfew : c.verts.length < 2 ^ 31) {fs : List (Pt K × Pt K)} (hf : FixedDrawn c fs) :
    d.fixedSources.map (fun e => (e.p1, e.p2)) = fs := by
  obtain ⟨h1, h2, -⟩ := makeDomain_ok h
  have hp := makeBdries_prefix h1
  obtain ⟨k1, -⟩ := addFixedTables_ok h2
  unfold Dm.fixedSources
  rw [k1, List.nil_append, List.map_map, List.map_map]
  unfold FixedDrawn at hf
  clear k1 h2
  generalize c.fixedEdges.flatten = rows at hf
  induction hf with
  | nil => rfl
  | cons hr _ ih =>
    obtain ⟨i, j, rfl, hi, hj⟩ := hr
    rw [List.map_cons, ih]
    obtain ⟨l1, e1⟩ := storePos_init hp hi
    obtain ⟨l2, e2⟩ := storePos_init hp hj
    congr 1
    simp only [Function.comp_apply, srcEdge]
    rw [toSize_nat (lt_trans (lt_trans l1 hfew) (by norm_num)), toSize_nat (lt_trans (lt_trans l2 hfew) (by norm_num)), e1, e2]

/-- The preparation of the mesh succeeds. -/
theorem drawing_prepared {D : DEnv K} {c : Cfg K} {d : Dm K} {b : BDef K} {bs : List (BDef K)} {ps : List (Pt K)} {hs : List (List (Pt K))}
    (H : Drawing D c b bs ps hs) (h : makeDomain D c = .ok d) (hsim : SimpleOutline (withHoles ps hs)) (hnd : ∀ q ∈ ps :: hs, q.Nodup)
    {fs : List (Pt K × Pt K)} (hf : FixedDrawn c fs) {eps : K} (he : 0 < eps) (hsh : Sharp eps (ps ++ hs.flatten))
    {sub : List (Fr.MVert K) → Fr.FEdge → Option (List (Pt K))} (hsub : Divisible sub (withHoles ps hs ++ fs)) (m : Int) :
    ∃ w, prepareMesh (d.prep eps sub) (fun _ => MS.St.empty m) 0 = .ret true w := by
  have hout := drawing_outline H h
  have hfx := fixed_drawn h H.few hf
  unfold prepareMesh
  rw [if_neg (by simp [isEmpty, MS.St.empty])]
  have hc := drawing_check H h hsim hnd he hsh
  change checkDomain (d.prep eps sub).eps (d.prep eps sub).pos (d.prep eps sub).bdries = some true at hc
  rw [hc]
  obtain ⟨⟨vs, es, A⟩, hi⟩ := initFront_total (nbr := fun _ => []) (bd := d.sources) (fx := d.fixedSources) (sub := sub) (by
    intro s e ⟨x, hx, hxe⟩
    refine hsub s e ?_
    rw [hxe]
    unfold Fr.collectCalls at hx
    rcases List.mem_append.mp hx with hx | hx
    · apply List.mem_append_left
      rw [← hout.mem_iff]
      obtain ⟨b, hb, hx⟩ := List.mem_flatMap.mp hx
      obtain ⟨e, he, hx⟩ := List.mem_flatMap.mp hx
      simp only [List.length_nil, gt_iff_lt, lt_self_iff_false, if_false, List.mem_singleton] at hx
      subst hx
      unfold outline
      exact List.mem_flatMap.mpr ⟨b, hb, List.mem_flatMap.mpr ⟨e, he, by simp [callPts]⟩⟩
    · apply List.mem_append_right
      obtain ⟨e, he, rfl⟩ := List.mem_map.mp hx
      rw [← hfx]
      exact List.mem_map_of_mem (f := fun e : Fr.SrcEdge K => (e.p1, e.p2)) he)
  change Fr.initFront (d.prep eps sub).sub [] (d.prep eps sub).front = _ at hi
  dsimp only
  rw [hi]
  dsimp only
  rw [if_neg (by simp [checkFront])]
  exact ⟨_, rfl⟩

/-! ### The construction of the domain succeeds -/

theorem gatherVerts_congr {n1 n2 : List (BVert K) → Pt K → Out (Option Nat)} {cs : List (Pt K)} (h : ∀ p ∈ cs, ∀ st, n1 st p = n2 st p) :
    ∀ (ps : List (Pt K)) (st : List (BVert K)), gatherVerts n1 cs ps st = gatherVerts n2 cs ps st := by
  induction cs with
  | nil => intro ps st; rfl
  | cons c cs ih =>
    intro ps st
    cases ps with
    | nil => rfl
    | cons p ps =>
      rw [gatherVerts, gatherVerts, h c (List.mem_cons_self ..)]
      cases n2 st c with
      | ok r => dsimp only; rw [ih fun p hp => h p (List.mem_cons_of_mem _ hp)]
      | abort => rfl
      | ub => rfl

/-- A shape is built if the search is defined at its corners. -/
theorem createShape_progress {nearest : List (BVert K) → Pt K → Out (Option Nat)} {coords : List (Pt K)} (hn : ∀ p ∈ coords, ∀ st, ∃ r, nearest st p = .ok r) (bt : BdryType)
    (st : List (BVert K)) {props : List (Pt K)} {colors : List Int} (hnd : coords.Nodup) (h2 : 2 ≤ coords.length)
    (hp : coords.length ≤ props.length) (hcl : coords.length ≤ colors.length) (hcol : ∀ c ∈ colors, 0 ≤ c) :
    ∃ r, createShape nearest bt st emptyBoundary coords props colors = .ok r := by
  classical
  let n2 : List (BVert K) → Pt K → Out (Option Nat) := fun st p => if p ∈ coords then nearest st p else .ok none
  obtain ⟨r, hr⟩ := C18_progress n2 (fun st p => by
    by_cases h : p ∈ coords
    · obtain ⟨r, hr⟩ := hn p h st
      exact ⟨r, by simp only [n2, if_pos h, hr]⟩
    · exact ⟨none, by simp only [n2, if_neg h]⟩) bt st coords props colors hnd h2 hp hcl hcol
  refine ⟨r, ?_⟩
  rw [← hr]
  unfold createShape
  rw [gatherVerts_congr (n2 := n2) fun p hp st => by simp only [n2, if_pos hp]]

/-- A boundary can be built. -/
theorem makeBdry_progress {D : DEnv K} {ext : K} {bt : BdryType} {vs : List (VertDef K)} {st : List (BVert K)} {b : BDef K} {ps : List (Pt K)}
    (hst : initVerts vs <+: st) (hfew : vs.length < 2 ^ 31) (hd : Draws D (vs.map (·.xy)) bt b ps) (hp : 0 < polygonArea ps) (hnd : ps.Nodup)
    (hm : ∀ m ∈ markers D b, 0 ≤ m) (hs : ∀ q, Written D b q → ∀ p ∈ q, ∀ st, ∃ r, D.nearest ext st p = .ok r) : ∃ r, makeBdry D ext bt st b = .ok r := by
  have h3 : 3 ≤ ps.length := by
    by_contra hc
    rw [polygonArea_short ps (by omega)] at hp
    exact lt_irrefl _ hp
  cases hd with
  | @shape _ q _ hw ho =>
    obtain ⟨props, colors, e, l1, l2, l3⟩ := makeBdry_shape hw ext bt st
    have hq : q.Nodup ∧ 2 ≤ q.length := by
      rcases ho with rfl | rfl
      · exact ⟨hnd, by omega⟩
      · exact ⟨List.nodup_reverse.mpr hnd, by rw [List.length_reverse]; omega⟩
    obtain ⟨r, hr⟩ := createShape_progress (hs q hw) bt st hq.1 hq.2 l1 l2 fun c hc => hm c (l3 c hc)
    exact ⟨r, by rw [e, hr]; rfl⟩
  | @edges rows _ idx h1 h2 hpos =>
    have hl : (if bt = .exterior then ps else ps.reverse).Nodup ∧ 2 ≤ (if bt = .exterior then ps else ps.reverse).length := by
      split_ifs
      · exact ⟨hnd, by omega⟩
      · exact ⟨List.nodup_reverse.mpr hnd, by rw [List.length_reverse]; omega⟩
    generalize (if bt = .exterior then ps else ps.reverse) = l at hpos hl
    have hlen := hpos.length_eq
    have hat : ∀ (k : Nat) (hk : k < idx.length), idx[k] < vs.length ∧ storePos st idx[k] = l[k]'(by omega) := by
      intro k hk
      exact storePos_init hst (List.Forall₂.get hpos hk (by omega))
    have hrl : rows.length = idx.length := by simpa using congrArg List.length h1
    have hrow : ∀ (k : Nat) (hk : k < rows.length), App.toSize (rows[k]).1 = idx[k]'(by omega) ∧ App.toSize (rows[k]).2.1 = idx[(k + 1) % idx.length]'(Nat.mod_lt _ (by omega)) := by
      intro k hk
      have e1 : (rows.map (·.1))[k]? = (idx.map (Nat.cast : Nat → Int))[k]? := by rw [h1]
      have e2 : (rows.map (·.2.1))[k]? = ((idx.rotate 1).map (Nat.cast : Nat → Int))[k]? := by rw [h2]
      rw [List.getElem?_map, List.getElem?_map, List.getElem?_eq_getElem hk, List.getElem?_eq_getElem (by omega)] at e1
      rw [List.getElem?_map, List.getElem?_map, List.getElem?_eq_getElem hk, List.getElem?_rotate (by omega), List.getElem?_eq_getElem (Nat.mod_lt _ (by omega))] at e2
      simp only [Option.map_some, Option.some.injEq] at e1 e2
      rw [e1, e2]
      exact ⟨toSize_nat (lt_trans (lt_trans (hat k (by omega)).1 hfew) (by norm_num)),
        toSize_nat (lt_trans (lt_trans (hat _ (Nat.mod_lt _ (by omega))).1 hfew) (by norm_num))⟩
    have hvl : vs.length ≤ st.length := by simpa [initVerts] using hst.length_le
    have hdiff : ∀ (k : Nat) (hk : k < rows.length), storePos st (App.toSize (rows[k]).1) ≠ storePos st (App.toSize (rows[k]).2.1) := by
      intro k hk
      have hj : (k + 1) % idx.length < idx.length := Nat.mod_lt _ (by omega)
      rw [(hrow k hk).1, (hrow k hk).2, (hat k (by omega)).2, (hat _ hj).2]
      intro hc
      have := (List.Nodup.getElem_inj_iff hl.1).mp hc
      rcases Nat.lt_or_ge (k + 1) idx.length with h | h
      · rw [Nat.mod_eq_of_lt h] at this; omega
      · have h7 : k + 1 = idx.length := by omega
        rw [h7, Nat.mod_self] at this; omega
    obtain ⟨L', hL⟩ := runCalls_progress (storePos st) (rows.map rowCall) (emptyBoundary : EList K) (by
      intro t ht
      obtain ⟨r, hr, rfl⟩ := List.mem_map.mp ht
      obtain ⟨k, hk, rfl⟩ := List.mem_iff_getElem.mp hr
      exact ⟨hm _ (List.mem_map_of_mem (f := fun r : Int × Int × Int => r.2.2) hr), hdiff k hk⟩)
    rw [List.map_map] at hL
    have hadd := addRows_run (bad := badIndex bt st.length) (st := st) (rows := rows) (L := emptyBoundary) (L' := L') (by
      intro r hr
      obtain ⟨k, hk, rfl⟩ := List.mem_iff_getElem.mp hr
      have hj : (k + 1) % idx.length < idx.length := Nat.mod_lt _ (by omega)
      obtain ⟨r1, r2⟩ := hrow k hk
      have b1 := (hat k (by omega)).1
      have b2 := (hat _ hj).1
      rw [r1, r2]
      refine ⟨by omega, by omega, ?_⟩
      cases bt <;> simp [badIndex, App.badExterior, App.badInterior] <;> omega) hL
    refine ⟨(st, L'), ?_⟩
    rw [makeBdry, hadd]
    rfl

theorem makeBdries_progress {D : DEnv K} {ext : K} {vs : List (VertDef K)} (hfew : vs.length < 2 ^ 31) {bs : List (BdryType × BDef K)} {qs : List (List (Pt K))}
    {st : List (BVert K)} (hst : initVerts vs <+: st) (hd : List.Forall₂ (fun b q => Draws D (vs.map (·.xy)) b.1 b.2 q) bs qs) (hp : ∀ q ∈ qs, 0 < polygonArea q ∧ q.Nodup)
    (hb : ∀ b ∈ bs, (∀ m ∈ markers D b.2, 0 ≤ m) ∧ ∀ q, Written D b.2 q → ∀ p ∈ q, ∀ st, ∃ r, D.nearest ext st p = .ok r) : ∃ r, makeBdries D ext bs st = .ok r := by
  induction hd generalizing st with
  | nil => exact ⟨_, rfl⟩
  | @cons b q bs qs h1 _ ih =>
    obtain ⟨bt, b⟩ := b
    obtain ⟨k1, k2⟩ := hb _ (List.mem_cons_self ..)
    obtain ⟨p1, p2⟩ := hp _ (List.mem_cons_self ..)
    obtain ⟨⟨st1, L⟩, hr⟩ := makeBdry_progress (ext := ext) hst hfew h1 p1 p2 k1 k2
    obtain ⟨⟨st2, Ls⟩, hr2⟩ := ih (hst.trans (makeBdry_prefix hr)) (fun q hq => hp q (List.mem_cons_of_mem _ hq)) fun b hb' => hb b (List.mem_cons_of_mem _ hb')
    refine ⟨(st2, (bt, L) :: Ls), ?_⟩
    rw [makeBdries, hr]
    change (do let (st2, Ls) ← makeBdries D ext bs st1; Except.ok (st2, (bt, L) :: Ls)) = _
    rw [hr2]
    rfl

theorem addFixedRows_progress {vs : List (VertDef K)} (hfew : vs.length < 2 ^ 31) {st : List (BVert K)} (hst : initVerts vs <+: st) {rows : List (Int × Int)}
    (h : ∀ r ∈ rows, ∃ (i j : Nat) (s : Pt K × Pt K), r = ((i : Int), (j : Int)) ∧ (vs.map (·.xy))[i]? = some s.1 ∧ (vs.map (·.xy))[j]? = some s.2 ∧ s.1 ≠ s.2) (L : EList K) :
    ∃ L', addFixedRows st rows L = .ok L' := by
  induction rows generalizing L with
  | nil => exact ⟨_, rfl⟩
  | cons r rows ih =>
    obtain ⟨i, j, s, rfl, hi, hj, hne⟩ := h r (List.mem_cons_self ..)
    obtain ⟨l1, e1⟩ := storePos_init hst hi
    obtain ⟨l2, e2⟩ := storePos_init hst hj
    have hvl : vs.length ≤ st.length := by simpa [initVerts] using hst.length_le
    rw [addFixedRows, toSize_nat (lt_trans (lt_trans l1 hfew) (by norm_num)), toSize_nat (lt_trans (lt_trans l2 hfew) (by norm_num))]
    rw [if_neg (by simp [App.badFixed]; omega), if_pos ⟨by omega, by omega⟩]
    unfold EList.insertEdge
    rw [if_neg (by dsimp only; rw [e1, e2]; exact hne)]
    exact ih (fun r hr => h r (List.mem_cons_of_mem _ hr)) _

/-- The domain of a drawing can be built. -/
theorem drawing_progress {D : DEnv K} {c : Cfg K} {b : BDef K} {bs : List (BDef K)} {ps : List (Pt K)} {hs : List (List (Pt K))} {fs : List (Pt K × Pt K)}
    (H : Drawing D c b bs ps hs) (C : Constructible D c ps hs fs) : ∃ d, makeDomain D c = .ok d := by
  have hd : List.Forall₂ (fun b q => Draws D (c.verts.map (·.xy)) b.1 b.2 q) c.bdries (ps :: hs) := by
    rw [H.bdries]
    refine .cons H.outer ?_
    rw [List.forall₂_map_left_iff]
    exact H.holes
  obtain ⟨⟨st, Ls⟩, h1⟩ := makeBdries_progress (ext := c.extent) H.few (List.prefix_refl _) hd (fun q hq => ⟨H.ccw q hq, C.corners q hq⟩)
    fun b hb => ⟨C.markers b hb, C.search b hb⟩
  have hst := makeBdries_prefix h1
  have hrows : ∀ r ∈ c.fixedEdges.flatten, ∃ (i j : Nat) (s : Pt K × Pt K), r = ((i : Int), (j : Int)) ∧ (c.verts.map (·.xy))[i]? = some s.1 ∧ (c.verts.map (·.xy))[j]? = some s.2 ∧ s.1 ≠ s.2 := by
    intro r hr
    obtain ⟨s, hs, i, j, e, hi, hj⟩ := forall₂_mem C.fixed r hr
    exact ⟨i, j, s, e, hi, hj, C.proper s hs⟩
  have tabs : ∀ (ts : List (List (Int × Int))) (L : EList K), (∀ t ∈ ts, ∀ r ∈ t, r ∈ c.fixedEdges.flatten) → ∃ L', addFixedTables st ts L = .ok L' := by
    intro ts
    induction ts with
    | nil => intro L _; exact ⟨_, rfl⟩
    | cons t ts ih =>
      intro L ht
      obtain ⟨L1, hL1⟩ := addFixedRows_progress H.few hst (rows := t) (fun r hr => hrows r (ht t (List.mem_cons_self ..) r hr)) L
      obtain ⟨L2, hL2⟩ := ih L1 fun t ht' => ht t (List.mem_cons_of_mem _ ht')
      refine ⟨L2, ?_⟩
      rw [addFixedTables, hL1]
      exact hL2
  obtain ⟨fe, hfe⟩ := tabs c.fixedEdges ⟨false, [], 0⟩ fun t ht r hr => List.mem_flatten.mpr ⟨t, ht, hr⟩
  refine ⟨⟨st, Ls, (List.range c.verts.length).filter fun i => (c.verts[i]?).any (fun v : VertDef K => v.fixed), fe⟩, ?_⟩
  unfold makeDomain
  rw [h1]
  change (do let fe ← addFixedTables st c.fixedEdges ⟨false, [], 0⟩; Except.ok (Dm.mk st Ls ((List.range c.verts.length).filter fun i => (c.verts[i]?).any (fun v : VertDef K => v.fixed)) fe)) = _
  rw [hfe]
  rfl

end TQ.Fl

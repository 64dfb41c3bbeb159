import Verif.Boundary.Spec
import Verif.Geometry.Lemmas
import Verif.Geometry.Props
import Mathlib.Algebra.BigOperators.Ring.List
import Mathlib.Algebra.BigOperators.Group.List.Lemmas
import Mathlib.Data.List.Count

/-! # Helper lemmas for edge lists and boundaries -/

set_option linter.unusedSectionVars false

namespace TQ
open GeoSpec BdSpec
variable {K : Type*} [Field K] [LinearOrder K] [IsStrictOrderedRing K]

/-! ### areas -/

/-- sum of the fan of triangles over all edges -/
def fanSum (pos : Nat → Pt K) (o : Pt K) (es : List BEdge) : K :=
  (es.map fun e => triArea o (pos e.v1) (pos e.v2)).sum

theorem areaLoop_eq (pos : Nat → Pt K) (o : Pt K) (es : List BEdge) : ∀ acc : K,
    1 / 2 * areaLoop pos o acc es = 1 / 2 * acc + fanSum pos o es := by
  induction es with
  | nil => intro acc; simp [areaLoop, fanSum]
  | cons e es ih =>
    intro acc
    rw [areaLoop, ih]
    unfold fanSum
    rw [List.map_cons, List.sum_cons]
    have : triArea o (pos e.v1) (pos e.v2) = 1 / 2 * Pt.cross (pos e.v1 - o) (pos e.v2 - o) := by
      unfold triArea Pt.cross; simp only [Pt.sub_x, Pt.sub_y]; ring
    rw [this]; ring

theorem triArea_self (o b : Pt K) : triArea o o b = 0 := by unfold triArea; ring

theorem computeArea_eq (pos : Nat → Pt K) (old : K) (e : BEdge) (es : List BEdge)
    (h : 3 ≤ (e :: es).length) :
    computeArea pos old (e :: es) = fanSum pos (pos e.v1) (e :: es) := by
  unfold computeArea
  rw [if_neg (by omega)]
  dsimp only
  rw [areaLoop_eq]
  simp only [fanSum, List.map_cons, List.sum_cons, triArea_self]
  ring

theorem loop_pairs (pos : Nat → Pt K) (es : List BEdge) (h : Loop es) :
    cyclicPairs (corners pos es) = es.map fun e => (pos e.v1, pos e.v2) := by
  unfold cyclicPairs corners
  have : (es.map fun e => pos e.v1).rotate 1 = es.map fun e => pos e.v2 := by
    have h2 := congrArg (List.map pos) h
    rw [List.map_map, List.map_rotate, List.map_map] at h2
    exact h2.symm
  rw [this, List.zip_map']

theorem fanSum_loop (pos : Nat → Pt K) (o : Pt K) (es : List BEdge) (h : Loop es) :
    fanSum pos o es = polygonArea (corners pos es) := by
  rw [C15_fan _ o]
  unfold cyclicSum fanSum
  rw [loop_pairs pos es h, List.map_map]
  rfl

theorem polygonArea_short (vs : List (Pt K)) (h : vs.length < 3) : polygonArea vs = 0 := by
  rcases vs with _ | ⟨a, _ | ⟨b, _ | ⟨c, vs⟩⟩⟩
  · simp [polygonArea, polygonLoop]
  · rw [polygonArea_eq_cyclicSum]; simp [cyclicSum, cyclicPairs, shoe]
  · rw [polygonArea_eq_cyclicSum]
    simp [cyclicSum, cyclicPairs, shoe]
    ring
  · simp at h; omega

theorem computeArea_loop (pos : Nat → Pt K) (es : List BEdge) (h : Loop es) :
    computeArea pos 0 es = polygonArea (corners pos es) := by
  by_cases hl : es.length < 3
  · rw [polygonArea_short _ (by simpa [corners] using hl)]
    simp [computeArea, hl]
  · cases es with
    | nil => simp at hl
    | cons e es => rw [computeArea_eq _ _ _ _ (by omega), fanSum_loop _ _ _ h]

/-- the area attribute is what `compute_area` would give from a zero start -/
def AreaInv (pos : Nat → Pt K) (L : EList K) : Prop := L.area = computeArea pos 0 L.edges

theorem computeArea_old (pos : Nat → Pt K) (a b : K) (es : List BEdge) (h : 3 ≤ es.length) :
    computeArea pos a es = computeArea pos b es := by
  unfold computeArea
  rw [if_neg (by omega), if_neg (by omega)]
  cases es with
  | nil => simp at h
  | cons => rfl

theorem insertEdge_some {pos : Nat → Pt K} {L L' : EList K} {k : Nat} {e : BEdge}
    (h : L.insertEdge pos k e = some L') :
    pos e.v1 ≠ pos e.v2 ∧ L'.edges = L.edges.take k ++ e :: L.edges.drop k ∧
    L'.oriented = L.oriented ∧
    L'.area = (if L.oriented then computeArea pos L.area L'.edges else L.area) := by
  unfold EList.insertEdge at h
  split_ifs at h with h1 <;> simp at h <;> subst h <;> simp_all

theorem insertEdge_areaInv {pos : Nat → Pt K} {L L' : EList K} {k : Nat} {e : BEdge}
    (ho : L.oriented = true) (hi : AreaInv pos L) (h : L.insertEdge pos k e = some L') :
    AreaInv pos L' := by
  obtain ⟨_, he, _, ha⟩ := insertEdge_some h
  unfold AreaInv at *
  rw [ha, if_pos ho]
  by_cases hl : 3 ≤ L'.edges.length
  · exact computeArea_old _ _ _ _ hl
  · have h2 : L.edges.length < L'.edges.length := by
      rw [he]; simp; omega
    have h3 : L.area = 0 := by
      rw [hi]; unfold computeArea; rw [if_pos (by omega)]
    unfold computeArea; rw [if_pos (by omega), if_pos (by omega), h3]

/-- edge created by a boundary -/
def mkB (t : Nat × Nat × Int) : BEdge := ⟨t.1, t.2.1, t.2.2, Flags.add 0 Flags.eOnBoundary⟩

theorem bAddEdge_some {pos : Nat → Pt K} {L L' : EList K} {a b : Nat} {c : Int}
    (h : L.bAddEdge pos a b c = some L') :
    0 ≤ c ∧ L.insertEdge pos L.edges.length (mkB (a, b, c)) = some L' := by
  unfold EList.bAddEdge EList.bInsertEdge at h
  split_ifs at h with h1
  exact ⟨h1, h⟩

theorem runCalls_ok (pos : Nat → Pt K) (cs : List (Option (Nat × Nat × Int))) :
    ∀ L L' : EList K, L.oriented = true → AreaInv pos L → runCalls pos cs L = .ok L' →
    ∃ ts : List (Nat × Nat × Int), cs = ts.map some ∧ L'.edges = L.edges ++ ts.map mkB ∧
      L'.oriented = true ∧ AreaInv pos L' ∧
      ∀ t ∈ ts, 0 ≤ t.2.2 ∧ pos t.1 ≠ pos t.2.1 := by
  induction cs with
  | nil =>
    intro L L' ho hi h
    simp [runCalls] at h; subst h
    exact ⟨[], by simp, by simp, ho, hi, by simp⟩
  | cons c cs ih =>
    intro L L' ho hi h
    rcases c with _ | ⟨a, b, c⟩
    · simp [runCalls] at h
    · rw [runCalls] at h
      cases h1 : L.bAddEdge pos a b c with
      | none => rw [h1] at h; simp at h
      | some L1 =>
        rw [h1] at h; dsimp only at h
        obtain ⟨hc, h2⟩ := bAddEdge_some h1
        obtain ⟨hp, he, ho1, _⟩ := insertEdge_some h2
        obtain ⟨ts, e1, e2, e3, e4, e5⟩ := ih L1 L' (ho1.trans ho) (insertEdge_areaInv ho hi h2) h
        refine ⟨(a, b, c) :: ts, by simp [e1], ?_, e3, e4, ?_⟩
        · rw [e2, he]; simp
        · intro t ht
          rcases List.mem_cons.mp ht with rfl | ht
          · exact ⟨hc, hp⟩
          · exact e5 t ht

/-- all calls well formed: no abort -/
theorem runCalls_progress (pos : Nat → Pt K) (ts : List (Nat × Nat × Int)) :
    ∀ L : EList K, (∀ t ∈ ts, 0 ≤ t.2.2 ∧ pos t.1 ≠ pos t.2.1) →
    ∃ L', runCalls pos (ts.map some) L = .ok L' := by
  induction ts with
  | nil => intro L _; exact ⟨L, rfl⟩
  | cons t ts ih =>
    intro L h
    obtain ⟨a, b, c⟩ := t
    have h0 := h (a, b, c) (by simp)
    have : ∃ L1, L.bAddEdge pos a b c = some L1 := by
      unfold EList.bAddEdge EList.bInsertEdge EList.insertEdge
      rw [if_pos h0.1, if_neg h0.2]
      exact ⟨_, rfl⟩
    obtain ⟨L1, h1⟩ := this
    obtain ⟨L', h2⟩ := ih L1 fun t ht => h t (List.mem_cons_of_mem _ ht)
    exact ⟨L', by rw [List.map_cons, runCalls, h1]; exact h2⟩

/-! ### vertices of shapes -/

theorem storePos_prefix {st st' : List (BVert K)} {i : Nat} {v : BVert K} (h : st <+: st')
    (hi : st[i]? = some v) : storePos st' i = v.xy := by
  obtain ⟨t, rfl⟩ := h
  unfold storePos
  rw [List.getElem?_append_left (by
    have := (List.getElem?_eq_some_iff.mp hi).1; exact this), hi]
  rfl

theorem pickVert_ok (st : List (BVert K)) (r : Option Nat) (c p : Pt K) : ∃ v : BVert K,
    st <+: (pickVert st r c p).2 ∧ (pickVert st r c p).2[(pickVert st r c p).1]? = some v ∧
    v.xy = c := by
  have fresh : ∃ v : BVert K, st <+: st ++ [(⟨c, p.x, p.y⟩ : BVert K)] ∧
      (st ++ [(⟨c, p.x, p.y⟩ : BVert K)])[st.length]? = some v ∧ v.xy = c :=
    ⟨⟨c, p.x, p.y⟩, List.prefix_append _ _, by simp, rfl⟩
  unfold pickVert
  cases r with
  | none => exact fresh
  | some j =>
    dsimp only
    cases hj : st[j]? with
    | none => exact fresh
    | some v =>
      dsimp only
      by_cases hx : v.xy = c
      · rw [if_pos hx]; exact ⟨v, List.prefix_refl _, hj, hx⟩
      · rw [if_neg hx]; exact fresh

theorem gatherVerts_ok (nearest : List (BVert K) → Pt K → Out (Option Nat)) (cs : List (Pt K)) :
    ∀ (ps : List (Pt K)) (st st' : List (BVert K)) (vs : List Nat),
    gatherVerts nearest cs ps st = .ok (vs, st') →
    st <+: st' ∧ vs.map (storePos st') = cs := by
  induction cs with
  | nil =>
    intro ps st st' vs h
    simp [gatherVerts] at h
    obtain ⟨rfl, rfl⟩ := h
    simp
  | cons c cs ih =>
    intro ps st st' vs h
    cases ps with
    | nil => simp [gatherVerts] at h
    | cons p ps =>
      rw [gatherVerts] at h
      cases hn : nearest st c with
      | ub => rw [hn] at h; simp at h
      | abort => rw [hn] at h; simp at h
      | ok r =>
        rw [hn] at h; dsimp only at h
        obtain ⟨v, hpre, hi, hv⟩ := pickVert_ok st r c p
        generalize pickVert st r c p = q at h hpre hi
        obtain ⟨i, st1⟩ := q
        dsimp only at h hpre hi
        cases hg : gatherVerts nearest cs ps st1 with
        | ub => rw [hg] at h; simp at h
        | abort => rw [hg] at h; simp at h
        | ok q =>
          obtain ⟨is, st2⟩ := q
          rw [hg] at h; dsimp only at h
          simp only [Out.ok.injEq, Prod.mk.injEq] at h
          obtain ⟨rfl, rfl⟩ := h
          obtain ⟨h1, h2⟩ := ih ps st1 st2 is hg
          refine ⟨hpre.trans h1, ?_⟩
          rw [List.map_cons, h2, storePos_prefix h1 hi, hv]

theorem gatherVerts_progress (nearest : List (BVert K) → Pt K → Out (Option Nat))
    (hn : ∀ st p, ∃ r, nearest st p = .ok r) (cs : List (Pt K)) :
    ∀ (ps : List (Pt K)) (st : List (BVert K)), cs.length ≤ ps.length →
    ∃ q, gatherVerts nearest cs ps st = .ok q := by
  induction cs with
  | nil => intro ps st _; exact ⟨_, rfl⟩
  | cons c cs ih =>
    intro ps st h
    cases ps with
    | nil => simp at h
    | cons p ps =>
      rw [gatherVerts]
      obtain ⟨r, hr⟩ := hn st c
      rw [hr]; dsimp only
      generalize pickVert st r c p = q
      obtain ⟨i, st1⟩ := q
      dsimp only
      obtain ⟨⟨is, st2⟩, h2⟩ := ih ps st1 (by simpa using h)
      rw [h2]
      exact ⟨_, rfl⟩

/-! ### the calls of the shape functions -/

theorem jdx_eq (i n : Nat) (hi : i < n) : (cppMOD ((i : Int) + 1) (n : Int)).toNat = (i + 1) % n := by
  unfold cppMOD
  have h1 : Int.tmod ((i : Int) + 1) (n : Int) = (((i + 1) % n : Nat) : Int) := by
    rw [Int.tmod_eq_emod_of_nonneg (by omega)]; push_cast; rfl
  rw [h1, Int.tmod_eq_emod_of_nonneg (by omega)]
  rw [Int.add_emod_right]
  have : ((((i + 1) % n : Nat) : Int) % (n : Int)) = (((i + 1) % n : Nat) : Int) := by
    apply Int.emod_eq_of_lt (by omega)
    exact_mod_cast Nat.mod_lt _ (by omega)
  rw [this, Int.toNat_natCast]

/-- the forward list of calls -/
def fwdCall (vs : List Nat) (cs : List Int) (i : Nat) : Option (Nat × Nat × Int) :=
  match vs[i]?, vs[(i + 1) % vs.length]?, cs[i]? with
  | some x, some y, some z => some (x, y, z)
  | _, _, _ => none

def bwdCall (vs : List Nat) (cs : List Int) (i : Nat) : Option (Nat × Nat × Int) :=
  match vs[(i + 1) % vs.length]?, vs[i]?, cs[(i + 1) % vs.length]? with
  | some x, some y, some z => some (x, y, z)
  | _, _, _ => none

theorem shapeCalls_fwd {bt : BdryType} {ccw : Bool}
    (h : (bt = .exterior ∧ ccw = true) ∨ (bt = .interior ∧ ccw = false)) (vs : List Nat)
    (cs : List Int) : shapeCalls bt ccw vs cs = (List.range vs.length).map (fwdCall vs cs) := by
  unfold shapeCalls
  dsimp only
  rw [if_pos h]
  apply List.map_congr_left
  intro i hi
  rw [jdx_eq i _ (List.mem_range.mp hi)]
  rfl

theorem shapeCalls_bwd {bt : BdryType} {ccw : Bool}
    (h : ¬((bt = .exterior ∧ ccw = true) ∨ (bt = .interior ∧ ccw = false))) (vs : List Nat)
    (cs : List Int) :
    shapeCalls bt ccw vs cs = (List.range vs.length).reverse.map (bwdCall vs cs) := by
  unfold shapeCalls
  dsimp only
  rw [if_neg h]
  apply List.map_congr_left
  intro i hi
  rw [jdx_eq i _ (List.mem_range.mp (List.mem_reverse.mp hi))]
  rfl

theorem fwdCall_some {vs : List Nat} {cs : List Int} {i : Nat} {t : Nat × Nat × Int}
    (h : fwdCall vs cs i = some t) :
    vs[i]? = some t.1 ∧ vs[(i + 1) % vs.length]? = some t.2.1 ∧ cs[i]? = some t.2.2 := by
  unfold fwdCall at h
  split at h
  · simp at h; subst h; simp_all
  · simp at h

theorem bwdCall_some {vs : List Nat} {cs : List Int} {i : Nat} {t : Nat × Nat × Int}
    (h : bwdCall vs cs i = some t) :
    vs[(i + 1) % vs.length]? = some t.1 ∧ vs[i]? = some t.2.1 ∧
      cs[(i + 1) % vs.length]? = some t.2.2 := by
  unfold bwdCall at h
  split at h
  · simp at h; subst h; simp_all
  · simp at h

theorem map_some_getElem {α : Type*} {l : List (Option α)} {ts : List α} (h : l = ts.map some)
    (i : Nat) (hi : i < ts.length) : l[i]? = some (some ts[i]) := by
  rw [h]; simp [hi]

theorem fwd_lists {vs : List Nat} {cs : List Int} {ts : List (Nat × Nat × Int)}
    (h : (List.range vs.length).map (fwdCall vs cs) = ts.map some) :
    ts.length = vs.length ∧ ts.map (·.1) = vs ∧ ts.map (·.2.1) = vs.rotate 1 ∧
    ∀ (i : Nat) (hi : i < ts.length), cs[i]? = some (ts[i]).2.2 := by
  have hl : ts.length = vs.length := by
    have := congrArg List.length h; simpa using this.symm
  have key : ∀ (i : Nat) (hi : i < ts.length), fwdCall vs cs i = some ts[i] := by
    intro i hi
    have := map_some_getElem h i hi
    rw [List.getElem?_map, List.getElem?_range (by omega)] at this
    simpa using this
  refine ⟨hl, ?_, ?_, fun i hi => (fwdCall_some (key i hi)).2.2⟩
  · apply List.ext_getElem (by simp [hl])
    intro i h1 h2
    have := (fwdCall_some (key i (by simpa using h1))).1
    rw [List.getElem?_eq_getElem h2] at this
    simpa using (Option.some.inj this).symm
  · apply List.ext_getElem (by simp [hl])
    intro i h1 h2
    have h3 := (fwdCall_some (key i (by simpa using h1))).2.1
    have hlt : (i + 1) % vs.length < vs.length := Nat.mod_lt _ (by simp at h2; omega)
    rw [List.getElem?_eq_getElem hlt] at h3
    simp only [List.getElem_map, List.getElem_rotate]
    exact (Option.some.inj h3).symm

theorem bwd_lists {vs : List Nat} {cs : List Int} {ts : List (Nat × Nat × Int)}
    (h : (List.range vs.length).reverse.map (bwdCall vs cs) = ts.map some) :
    ts.length = vs.length ∧ ts.map (·.1) = (vs.rotate 1).reverse ∧ ts.map (·.2.1) = vs.reverse ∧
    ∀ (i : Nat) (hi : i < ts.length),
      cs[(i + 1) % vs.length]? = some (ts[ts.length - 1 - i]'(by omega)).2.2 := by
  have h' : (List.range vs.length).map (bwdCall vs cs) = ts.reverse.map some := by
    have := congrArg List.reverse h
    simpa [List.map_reverse] using this
  have hl : ts.length = vs.length := by
    have := congrArg List.length h; simpa using this.symm
  have key : ∀ (i : Nat) (hi : i < ts.reverse.length), bwdCall vs cs i = some ts.reverse[i] := by
    intro i hi
    have := map_some_getElem h' i hi
    rw [List.getElem?_map, List.getElem?_range (by simp at hi; omega)] at this
    simpa using this
  have e1 : ts.reverse.map (·.1) = vs.rotate 1 := by
    apply List.ext_getElem (by simp [hl])
    intro i h1 h2
    have h3 := (bwdCall_some (key i (by simpa using h1))).1
    have hlt : (i + 1) % vs.length < vs.length := Nat.mod_lt _ (by simp at h2; omega)
    rw [List.getElem?_eq_getElem hlt] at h3
    simp only [List.getElem_map, List.getElem_rotate]
    exact (Option.some.inj h3).symm
  have e2 : ts.reverse.map (·.2.1) = vs := by
    apply List.ext_getElem (by simp [hl])
    intro i h1 h2
    have := (bwdCall_some (key i (by simpa using h1))).2.1
    rw [List.getElem?_eq_getElem h2] at this
    simpa using (Option.some.inj this).symm
  refine ⟨hl, ?_, ?_, ?_⟩
  · rw [← e1, ← List.map_reverse, List.reverse_reverse]
  · conv_rhs => rw [← e2]
    rw [← List.map_reverse, List.reverse_reverse]
  · intro i hi
    have h3 := (bwdCall_some (key i (by simpa using hi))).2.2
    rw [h3]
    rw [List.getElem_reverse]

theorem rotate_reverse_loop {α : Type*} (l : List α) :
    (l.rotate 1).reverse.rotate 1 = l.reverse := by
  cases l with
  | nil => rfl
  | cons a l =>
    rw [List.rotate_cons_succ, List.rotate_zero, List.reverse_append]
    simp only [List.reverse_cons, List.reverse_nil, List.nil_append, List.singleton_append]
    rw [List.rotate_cons_succ, List.rotate_zero]

end TQ

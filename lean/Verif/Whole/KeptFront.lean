import Verif.Whole.BdryFront

/-! # Lemmas: the boundary edges of a prepared mesh cover the edges of the domain -/

set_option linter.unusedSectionVars false
set_option linter.unusedSimpArgs false
set_option linter.unusedVariables false

namespace TQ.Whole
open TQ TQ.FUSpec TQ.OutlSpec TQ.FU TQ.GeoSpec TQ.FrSpec TQ.Outl TQ.Fr TQ.GN TQ.MS TQ.MS.St
variable {K : Type*} [Field K] [LinearOrder K] [IsStrictOrderedRing K]

theorem cut_cover (p q : Pt K) : ∀ (ts : List K) (s t : K), s ≤ t → t ≤ 1 → ∃ c ∈ cut p q s ts, OnClosed c.1 c.2 (onLine p q t) := by
  have seg : ∀ {s t u : K}, s ≤ t → t ≤ u → OnClosed (onLine p q s) (onLine p q u) (onLine p q t) := by
    intro s t u h1 h2
    rcases eq_or_lt_of_le (h1.trans h2) with h | h
    · have : t = s := le_antisymm (by rw [h]; exact h2) h1
      rw [this]; exact closed_left _ _
    · have h' : 0 < u - s := by linarith
      refine ⟨(t - s) / (u - s), div_nonneg (by linarith) h'.le, (div_le_one h').mpr (by linarith), ?_⟩
      have := h'.ne'
      apply Pt.ext' <;> simp only [GeoSpec.onSeg, onLine] <;> field_simp <;> ring
  intro ts
  induction ts with
  | nil => intro s t h1 h2; exact ⟨_, List.mem_singleton.mpr rfl, seg h1 h2⟩
  | cons u ts ih =>
    intro s t h1 h2
    rcases le_total t u with h | h
    · exact ⟨_, List.mem_cons_self .., seg h1 h⟩
    · obtain ⟨c, hc, hon⟩ := ih u t h h2
      exact ⟨c, List.mem_cons_of_mem _ hc, hon⟩

/-- The pieces of a segment cover it. -/
theorem isCut_cover {s : Pt K × Pt K} {l : List (Pt K × Pt K)} (h : IsCut s l) {z : Pt K} (hz : OnClosed s.1 s.2 z) : ∃ c ∈ l, OnClosed c.1 c.2 z := by
  obtain ⟨ts, -, rfl⟩ := h
  obtain ⟨t, t0, t1, rfl⟩ := hz
  exact cut_cover s.1 s.2 ts 0 t t0 t1

/-- The point is on an edge of the front with the marker of `e`. -/
def Has (st0 st : List (MVert K)) (l : List FEdge) (e : FEdge) : Prop :=
  ∀ z, OnClosed (vpos st0 e.v1) (vpos st0 e.v2) z → ∃ f ∈ l, f.color = e.color ∧ f.isFixed = e.isFixed ∧ OnClosed (vpos st f.v1) (vpos st f.v2) z

theorem refineEdges_full (sub : FEdge → Option (List (Pt K))) (st0 : List (MVert K))
    (es : List FEdge) : ∀ (st st' : List (MVert K)) (l : List FEdge),
    (∃ x0, st = st0 ++ x0) → InRange st0.length es →
    (∀ e ∈ es, ∀ coords, sub e = some coords → Partition (vpos st0 e.v1) (vpos st0 e.v2) coords) →
    refineEdges sub st es = some (st', l) → ∀ e ∈ es, Has st0 st' l e := by
  induction es with
  | nil => intro st st' l _ _ _ h; simp
  | cons e es ih =>
    intro st st' l hx hir hon h
    have he := hir e (by simp)
    have hes : InRange st0.length es := fun f hf => hir f (List.mem_cons_of_mem _ hf)
    have hon' : ∀ f ∈ es, ∀ coords, sub f = some coords → Partition (vpos st0 f.v1) (vpos st0 f.v2) coords := fun f hf => hon f (List.mem_cons_of_mem _ hf)
    obtain ⟨x0, hx0⟩ := hx
    have hst : st0.length ≤ st.length := by rw [hx0]; simp
    have hvp : ∀ i, i < st0.length → vpos st i = vpos st0 i := fun i hi => by rw [hx0, vpos_append hi]
    have hirst : InRange st.length es := fun f hf => by have := hes f hf; omega
    have one : ∀ ext (f : FEdge), f.v1 = e.v1 → f.v2 = e.v2 → f.color = e.color → f.isFixed = e.isFixed → ∀ l, f ∈ l → Has st0 (st ++ ext) l e := by
      intro ext f e1 e2 e3 e4 l hl z hz
      refine ⟨f, hl, e3, e4, ?_⟩
      rw [e1, e2, vpos_append (by omega), vpos_append (by omega), hvp _ he.1, hvp _ he.2]
      exact hz
    rw [refineEdges] at h
    split_ifs at h with ht
    · cases hr : refineEdges sub st es with
      | none => rw [hr] at h; simp at h
      | some q =>
        rw [hr] at h
        simp only [Option.some.injEq, Prod.mk.injEq] at h
        obtain ⟨rfl, rfl⟩ := h
        obtain ⟨⟨ext, h1⟩, _⟩ := refineEdges_range sub es _ _ _ hr hirst
        intro f hf
        rcases List.mem_cons.mp hf with rfl | hf
        · rw [h1]; exact one ext f rfl rfl rfl rfl _ (List.mem_cons_self ..)
        · intro z hz
          obtain ⟨g, hg, r⟩ := ih _ _ _ ⟨x0, hx0⟩ hes hon' hr f hf z hz
          exact ⟨g, List.mem_cons_of_mem _ hg, r⟩
    · cases hs : sub e with
      | none => rw [hs] at h; simp at h
      | some coords =>
        rw [hs] at h
        dsimp only at h
        cases hr : refineEdges sub (refineEdge coords st e).1 es with
        | none => rw [hr] at h; simp at h
        | some q =>
          rw [hr] at h
          simp only [Option.some.injEq, Prod.mk.injEq] at h
          obtain ⟨rfl, rfl⟩ := h
          have hpart := hon e (by simp) coords hs
          have hre : (∃ ext, (refineEdge coords st e).1 = st ++ ext) ∧
              InRange (refineEdge coords st e).1.length (refineEdge coords st e).2 ∧
              Has st0 (refineEdge coords st e).1 (refineEdge coords st e).2 e := by
            unfold refineEdge
            split_ifs with hlen
            · refine ⟨⟨[], by simp⟩, by
                intro f hf; simp at hf; subst hf; exact ⟨by dsimp only; omega, by dsimp only; omega⟩, ?_⟩
              have := one []
              rw [List.append_nil] at this
              exact this _ rfl rfl rfl rfl _ (List.mem_singleton.mpr rfl)
            · obtain ⟨⟨ext, h1, _⟩, h2⟩ := subEdges_range e (coords.drop 1).dropLast st e.v1
                (by omega) (by omega)
              refine ⟨⟨ext, h1⟩, h2, ?_⟩
              intro z hz
              obtain ⟨ts, t1, t2⟩ := partition_inner hpart (by omega)
              obtain ⟨i1, i2⟩ := subEdges_points e (coords.drop 1).dropLast st e.v1 (by omega) (by omega)
              obtain ⟨c, hc, hon⟩ := isCut_cover (s := (vpos st0 e.v1, vpos st0 e.v2)) ⟨ts, t1, rfl⟩ hz
              rw [cut_zip, onLine_zero, onLine_one, ← t2, ← hvp _ he.1, ← hvp _ he.2, ← i1, ← i2, List.zip_map'] at hc
              obtain ⟨f, hf, rfl⟩ := List.mem_map.mp hc
              obtain ⟨f1, f2, -⟩ := subEdges_fixed e _ _ _ f hf
              exact ⟨f, hf, f2, f1, hon⟩
          obtain ⟨⟨ext1, h1⟩, h2, h5⟩ := hre
          have hir2 : InRange (refineEdge coords st e).1.length es := by
            intro f hf; have := hirst f hf; rw [h1]; simp; omega
          obtain ⟨⟨ext2, h3⟩, _⟩ := refineEdges_range sub es _ _ _ hr hir2
          intro f hf z hz
          rcases List.mem_cons.mp hf with rfl | hf
          · obtain ⟨g, hg, a1, a2, a3⟩ := h5 z hz
            have := h2 g hg
            refine ⟨g, List.mem_append_left _ hg, a1, a2, ?_⟩
            rw [h3, vpos_append this.1, vpos_append this.2]
            exact a3
          · obtain ⟨g, hg, r⟩ := ih _ _ _ ⟨x0 ++ ext1, by rw [h1, hx0]; simp⟩ hes hon' hr f hf z hz
            exact ⟨g, List.mem_append_right _ hg, r⟩

/-- The free edges of the initial front cover the edges of the domain and of the neighbours, with their markers. -/
theorem front_full {nbr : Fr.SrcEdge K → List (Fr.SrcEdge K)} {bd : List (List (Fr.SrcEdge K))} {fx : List (Fr.SrcEdge K)}
    (D : DomainData nbr bd fx) {sub : List (Fr.MVert K) → Fr.FEdge → Option (List (Pt K))} (hS : PartSub sub) {st' : List (Fr.MVert K)} {es : List Fr.FEdge} {A : K}
    (h : Fr.initFront sub [] (Fr.collect nbr bd fx) = some (st', es, A)) :
    ∀ c ∈ collectCalls nbr bd fx, c.1.fixed = false → ∀ z, OnClosed (callPts c).1 (callPts c).2 z →
      ∃ f ∈ free es, f.color = c.1.color ∧ OnClosed (vpos st' f.v1) (vpos st' f.v2) z := by
  have hg := good_collect nbr bd fx
  obtain ⟨es0, h0, hfa⟩ := initEdges_calls hg 0
  unfold initFront at h
  rw [show ([] : List (Fr.MVert K)).length = 0 from rfl, h0] at h
  dsimp only at h
  cases hr : refineEdges (sub (initVerts [] (collect nbr bd fx)))
      (initVerts [] (collect nbr bd fx)) es0 with
  | none => rw [hr] at h; simp at h
  | some q =>
    rw [hr] at h
    simp only [Option.some.injEq, Prod.mk.injEq] at h
    obtain ⟨rfl, rfl, rfl⟩ := h
    have hir : InRange (initVerts [] (collect nbr bd fx)).length es0 := by
      intro e he
      obtain ⟨c, hc, i, j, rfl, hi, hj⟩ := forall₂_mem hfa e he
      have := coord_some_lt hi
      have := coord_some_lt hj
      unfold initVerts
      simp; omega
    have key := refineEdges_full _ (initVerts [] (collect nbr bd fx)) es0 _ _ _ ⟨[], by simp⟩ hir (by
      intro e he coords hco
      obtain ⟨c, hc, i, j, rfl, hi, hj⟩ := forall₂_mem hfa e he
      refine hS _ _ _ ?_ hco
      dsimp only
      have v1 := vpos_init [] _ hi
      have v2 := vpos_init [] _ hj
      simp only [List.length_nil] at v1 v2
      rw [v1, v2]
      have := D.ne c hc
      unfold callPts
      split_ifs
      · exact this.symm
      · exact this) hr
    intro c hc hfix z hz
    obtain ⟨e, he, i, j, rfl, hi, hj⟩ := forall₂_mem (List.Forall₂.flip hfa) c hc
    have v1 := vpos_init [] _ hi
    have v2 := vpos_init [] _ hj
    simp only [List.length_nil] at v1 v2
    obtain ⟨f, hf, k1, k2, k3⟩ := key _ he z (by dsimp only; rw [v1, v2]; exact hz)
    rw [edgeProps_fixed] at k2
    refine ⟨f, ?_, k1, k3⟩
    rw [free_ghosts]
    refine List.mem_filter.mpr ⟨hf, ?_⟩
    rw [k2, hfix]; rfl

/-- The boundary edges of a prepared mesh cover the edges of the domain without neighbours, with their markers. -/
theorem prepared_full {nbr : Fr.SrcEdge K → List (Fr.SrcEdge K)} {bd : List (List (Fr.SrcEdge K))} {fx : List (Fr.SrcEdge K)}
    (D : DomainData nbr bd fx) {P : Prep K} (hP : P.front = Fr.collect nbr bd fx) (hS : PartSub P.sub) {w w' : MM.World K} {a : Nat} (hw : MeshSpec.WF (w a))
    (hr : ∀ x ∈ P.refs, x.1 ≠ a) (h : prepareMesh P w a = .ret true w') {b : List (Fr.SrcEdge K)} (hb : b ∈ bd) {e : Fr.SrcEdge K} (he : e ∈ b) (hn : nbr e = [])
    {z : Pt K} (hz : OnClosed e.p1 e.p2 z) :
    ∃ f ∈ (w' a).es .bdry, ((w' a).E f).color = e.color ∧ OnClosed ((w' a).pos ((w' a).E f).v1) ((w' a).pos ((w' a).E f).v2) z := by
  obtain ⟨vs, es, A, hf, -, h3⟩ := C115_vertices D hP hw hr h
  rw [hP] at hf
  have hc : (e, false) ∈ collectCalls nbr bd fx := by
    unfold collectCalls
    refine List.mem_append_left _ (List.mem_flatMap.mpr ⟨b, hb, List.mem_flatMap.mpr ⟨e, he, ?_⟩⟩)
    rw [hn]; simp
  obtain ⟨f, hfm, f1, f2⟩ := front_full D hS hf _ hc (D.free b hb e he).1 z hz
  have := List.mem_map_of_mem (f := fun e : FEdge => (vpos vs e.v1, vpos vs e.v2, e.color)) hfm
  unfold free at this
  rw [← h3] at this
  obtain ⟨g, hg, hge⟩ := List.mem_map.mp this
  simp only [Prod.mk.injEq] at hge
  refine ⟨g, hg, hge.2.2.trans f1, ?_⟩
  rw [hge.1, hge.2.1]
  exact f2

end TQ.Whole

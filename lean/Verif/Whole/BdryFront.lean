import Verif.Whole.BdryRun
import Verif.Whole.Outline

/-! # Lemmas: the markers of the boundary edges of a prepared mesh -/

set_option linter.unusedSectionVars false
set_option linter.unusedSimpArgs false
set_option linter.unusedVariables false

namespace TQ.Whole
open TQ TQ.FUSpec TQ.OutlSpec TQ.FU TQ.GeoSpec TQ.FrSpec TQ.Outl TQ.Fr TQ.GN TQ.MS TQ.MS.St
variable {K : Type*} [Field K] [LinearOrder K] [IsStrictOrderedRing K]

theorem closed_line (p q : Pt K) {t : K} (h0 : 0 ≤ t) (h1 : t ≤ 1) : OnClosed p q (onLine p q t) := ⟨t, h0, h1, rfl⟩

/-- The edge `f` of the front with vertices `st` is a part of the edge `e`. -/
def PartOf (st0 st : List (MVert K)) (e f : FEdge) : Prop :=
  f.color = e.color ∧ f.isFixed = e.isFixed ∧ OnClosed (vpos st0 e.v1) (vpos st0 e.v2) (vpos st f.v1) ∧ OnClosed (vpos st0 e.v1) (vpos st0 e.v2) (vpos st f.v2)

theorem refineEdges_parts (sub : FEdge → Option (List (Pt K))) (st0 : List (MVert K))
    (es : List FEdge) : ∀ (st st' : List (MVert K)) (l : List FEdge),
    (∃ x0, st = st0 ++ x0) → InRange st0.length es →
    (∀ e ∈ es, ∀ coords, sub e = some coords → Partition (vpos st0 e.v1) (vpos st0 e.v2) coords) →
    refineEdges sub st es = some (st', l) → ∀ f ∈ l, ∃ e ∈ es, PartOf st0 st' e f := by
  induction es with
  | nil => intro st st' l _ _ _ h; simp [refineEdges] at h; intro f hf; rw [h.2] at hf; simp at hf
  | cons e es ih =>
    intro st st' l hx hir hon h
    have he := hir e (by simp)
    have hes : InRange st0.length es := fun f hf => hir f (List.mem_cons_of_mem _ hf)
    have hon' : ∀ f ∈ es, ∀ coords, sub f = some coords → Partition (vpos st0 f.v1) (vpos st0 f.v2) coords := fun f hf => hon f (List.mem_cons_of_mem _ hf)
    obtain ⟨x0, hx0⟩ := hx
    have hst : st0.length ≤ st.length := by rw [hx0]; simp
    have hvp : ∀ i, i < st0.length → vpos st i = vpos st0 i := fun i hi => by rw [hx0, vpos_append hi]
    have hirst : InRange st.length es := fun f hf => by have := hes f hf; omega
    have one : ∀ ext (f : FEdge), f.v1 = e.v1 → f.v2 = e.v2 → f.color = e.color → f.isFixed = e.isFixed → PartOf st0 (st ++ ext) e f := by
      intro ext f e1 e2 e3 e4
      refine ⟨e3, e4, ?_⟩
      rw [e1, e2, vpos_append (by omega), vpos_append (by omega), hvp _ he.1, hvp _ he.2]
      exact ⟨closed_left _ _, closed_right _ _⟩
    rw [refineEdges] at h
    split_ifs at h with ht
    · cases hr : refineEdges sub st es with
      | none => rw [hr] at h; simp at h
      | some q =>
        rw [hr] at h
        simp only [Option.some.injEq, Prod.mk.injEq] at h
        obtain ⟨rfl, rfl⟩ := h
        obtain ⟨⟨ext, h1⟩, _⟩ := refineEdges_range sub es _ _ _ hr hirst
        intro f hf
        rcases List.mem_cons.mp hf with rfl | hf
        · exact ⟨f, by simp, by rw [h1]; exact one ext f rfl rfl rfl rfl⟩
        · obtain ⟨e', he', hp⟩ := ih _ _ _ ⟨x0, hx0⟩ hes hon' hr f hf
          exact ⟨e', List.mem_cons_of_mem _ he', hp⟩
    · cases hs : sub e with
      | none => rw [hs] at h; simp at h
      | some coords =>
        rw [hs] at h
        dsimp only at h
        cases hr : refineEdges sub (refineEdge coords st e).1 es with
        | none => rw [hr] at h; simp at h
        | some q =>
          rw [hr] at h
          simp only [Option.some.injEq, Prod.mk.injEq] at h
          obtain ⟨rfl, rfl⟩ := h
          have hpart := hon e (by simp) coords hs
          have hre : (∃ ext, (refineEdge coords st e).1 = st ++ ext) ∧
              InRange (refineEdge coords st e).1.length (refineEdge coords st e).2 ∧
              ∀ f ∈ (refineEdge coords st e).2, PartOf st0 (refineEdge coords st e).1 e f := by
            unfold refineEdge
            split_ifs with hlen
            · refine ⟨⟨[], by simp⟩, by
                intro f hf; simp at hf; subst hf; exact ⟨by dsimp only; omega, by dsimp only; omega⟩, ?_⟩
              intro f hf
              have := one [] f
              rw [List.append_nil] at this
              simp only [List.mem_singleton] at hf
              subst hf
              exact this rfl rfl rfl rfl
            · obtain ⟨⟨ext, h1, _⟩, h2⟩ := subEdges_range e (coords.drop 1).dropLast st e.v1
                (by omega) (by omega)
              refine ⟨⟨ext, h1⟩, h2, ?_⟩
              intro f hf
              obtain ⟨f1, f2, -⟩ := subEdges_fixed e _ _ _ f hf
              refine ⟨f2, f1, ?_⟩
              obtain ⟨ts, t1, t2⟩ := partition_inner hpart (by omega)
              obtain ⟨i1, i2⟩ := subEdges_points e (coords.drop 1).dropLast st e.v1 (by omega) (by omega)
              have on : ∀ p ∈ (coords.drop 1).dropLast, OnClosed (vpos st0 e.v1) (vpos st0 e.v2) p := by
                intro p hp
                rw [t2] at hp
                obtain ⟨t, ht, rfl⟩ := List.mem_map.mp hp
                rw [List.pairwise_cons] at t1
                refine closed_line _ _ (t1.1 t (List.mem_append_left _ ht)).le ?_
                exact ((List.pairwise_append.mp t1.2).2.2 t ht 1 (by simp)).le
              have m1 := List.mem_map_of_mem (f := fun f => vpos (subEdges e st e.v1 (coords.drop 1).dropLast).1 f.v1) hf
              have m2 := List.mem_map_of_mem (f := fun f => vpos (subEdges e st e.v1 (coords.drop 1).dropLast).1 f.v2) hf
              rw [i1] at m1
              rw [i2] at m2
              constructor
              · rcases List.mem_cons.mp m1 with m | m
                · rw [m, hvp _ he.1]; exact closed_left _ _
                · exact on _ m
              · rcases List.mem_append.mp m2 with m | m
                · exact on _ m
                · rw [List.mem_singleton.mp m, hvp _ he.2]; exact closed_right _ _
          obtain ⟨⟨ext1, h1⟩, h2, h5⟩ := hre
          have hir2 : InRange (refineEdge coords st e).1.length es := by
            intro f hf; have := hirst f hf; rw [h1]; simp; omega
          obtain ⟨⟨ext2, h3⟩, _⟩ := refineEdges_range sub es _ _ _ hr hir2
          intro f hf
          rcases List.mem_append.mp hf with hf | hf
          · obtain ⟨a1, a2, a3⟩ := h5 f hf
            have := h2 f hf
            refine ⟨e, by simp, a1, a2, ?_⟩
            rw [h3, vpos_append this.1, vpos_append this.2]
            exact a3
          · obtain ⟨e', he', hp⟩ := ih _ _ _ ⟨x0 ++ ext1, by rw [h1, hx0]; simp⟩ hes hon' hr f hf
            exact ⟨e', List.mem_cons_of_mem _ he', hp⟩

/-- The free edges of the initial front are parts of the edges of the domain or of the neighbours, with their markers. -/
theorem front_parts {nbr : Fr.SrcEdge K → List (Fr.SrcEdge K)} {bd : List (List (Fr.SrcEdge K))} {fx : List (Fr.SrcEdge K)}
    (D : DomainData nbr bd fx) {sub : List (Fr.MVert K) → Fr.FEdge → Option (List (Pt K))} (hS : PartSub sub) {st' : List (Fr.MVert K)} {es : List Fr.FEdge} {A : K}
    (h : Fr.initFront sub [] (Fr.collect nbr bd fx) = some (st', es, A)) :
    ∀ f ∈ free es, ∃ c ∈ collectCalls nbr bd fx, c.1.fixed = false ∧ f.color = c.1.color ∧ OnClosed (callPts c).1 (callPts c).2 (vpos st' f.v1) ∧
      OnClosed (callPts c).1 (callPts c).2 (vpos st' f.v2) := by
  have hg := good_collect nbr bd fx
  obtain ⟨es0, h0, hfa⟩ := initEdges_calls hg 0
  unfold initFront at h
  rw [show ([] : List (Fr.MVert K)).length = 0 from rfl, h0] at h
  dsimp only at h
  cases hr : refineEdges (sub (initVerts [] (collect nbr bd fx)))
      (initVerts [] (collect nbr bd fx)) es0 with
  | none => rw [hr] at h; simp at h
  | some q =>
    rw [hr] at h
    simp only [Option.some.injEq, Prod.mk.injEq] at h
    obtain ⟨rfl, rfl, rfl⟩ := h
    have hir : InRange (initVerts [] (collect nbr bd fx)).length es0 := by
      intro e he
      obtain ⟨c, hc, i, j, rfl, hi, hj⟩ := forall₂_mem hfa e he
      have := coord_some_lt hi
      have := coord_some_lt hj
      unfold initVerts
      simp; omega
    have key := refineEdges_parts _ (initVerts [] (collect nbr bd fx)) es0 _ _ _ ⟨[], by simp⟩ hir (by
      intro e he coords hco
      obtain ⟨c, hc, i, j, rfl, hi, hj⟩ := forall₂_mem hfa e he
      refine hS _ _ _ ?_ hco
      dsimp only
      have v1 := vpos_init [] _ hi
      have v2 := vpos_init [] _ hj
      simp only [List.length_nil] at v1 v2
      rw [v1, v2]
      have := D.ne c hc
      unfold callPts
      split_ifs
      · exact this.symm
      · exact this) hr
    intro f hf
    rw [free_ghosts] at hf
    have hfx := List.mem_filter.mp hf
    obtain ⟨e, he, k1, k2, k3, k4⟩ := key f hfx.1
    obtain ⟨c, hc, i, j, rfl, hi, hj⟩ := forall₂_mem hfa e he
    have v1 := vpos_init [] _ hi
    have v2 := vpos_init [] _ hj
    simp only [List.length_nil] at v1 v2
    rw [edgeProps_fixed] at k2
    have hfix : f.isFixed = false := by simpa using hfx.2
    rw [v1, v2] at k3 k4
    exact ⟨c, hc, by rw [← k2]; exact hfix, k1, k3, k4⟩

/-- The boundary edges of a prepared mesh: parts of the edges of the domain, or of the neighbours along it. -/
theorem mk_prepared {nbr : Fr.SrcEdge K → List (Fr.SrcEdge K)} {bd : List (List (Fr.SrcEdge K))} {fx : List (Fr.SrcEdge K)}
    (D : DomainData nbr bd fx) {P : Prep K} (hP : P.front = Fr.collect nbr bd fx) (hS : PartSub P.sub) {w w' : MM.World K} {a : Nat} (hw : MeshSpec.WF (w a))
    (hr : ∀ x ∈ P.refs, x.1 ≠ a) (h : prepareMesh P w a = .ret true w') {M : Pt K → Pt K → Int → Prop} (hM : Parts M)
    (h1 : ∀ b ∈ bd, ∀ e ∈ b, M e.p1 e.p2 e.color) (h2 : ∀ b ∈ bd, ∀ e ∈ b, ∀ n ∈ nbr e, M n.p2 n.p1 n.color) : Mk M (w' a) := by
  obtain ⟨vs, es, A, hf, -, h3⟩ := C115_vertices D hP hw hr h
  rw [hP] at hf
  intro e he
  have := List.mem_map_of_mem (f := fun e => ((w' a).pos ((w' a).E e).v1, (w' a).pos ((w' a).E e).v2, ((w' a).E e).color)) he
  rw [h3] at this
  obtain ⟨f, hfm, hfe⟩ := List.mem_map.mp this
  simp only [Prod.mk.injEq] at hfe
  rw [← hfe.1, ← hfe.2.1, ← hfe.2.2]
  obtain ⟨c, hc, c1, c2, c3, c4⟩ := front_parts D hS hf f hfm
  rw [c2]
  refine hM _ _ _ _ _ ?_ c3 c4
  unfold collectCalls at hc
  rcases List.mem_append.mp hc with hc | hc
  · obtain ⟨b, hb, hc⟩ := List.mem_flatMap.mp hc
    obtain ⟨e, he, hc⟩ := List.mem_flatMap.mp hc
    split_ifs at hc
    · obtain ⟨n, hn, rfl⟩ := List.mem_map.mp hc
      exact h2 b hb e he n hn
    · simp only [List.mem_singleton] at hc
      subst hc
      exact h1 b hb e he
  · obtain ⟨e, he, rfl⟩ := List.mem_map.mp hc
    have := D.fixed e he
    dsimp only at c1
    rw [c1] at this
    simp at this

end TQ.Whole

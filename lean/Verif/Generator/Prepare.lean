import Verif.Generator.Lemmas
import Verif.Front.Props
import Verif.Cleanup.Resume
import Verif.Smoothing.Spec
import Verif.FrontUpdate.SimpleProps
import Verif.FrontUpdate.Props
import Verif.Triangulation.Props

/-! # Properties of the preparation of a mesh -/

set_option linter.unusedSectionVars false
set_option linter.unusedSimpArgs false

namespace TQ
open MS MS.St MM GN MeshSpec MCSpec MergeSpec FUSpec FrSpec

section
variable {K : Type*} [Field K] [LinearOrder K]

/-! ### The front data -/

theorem free_ghosts (es : List Fr.FEdge) : free (Fr.addGhosts es) = free es := by
  unfold Fr.addGhosts
  induction es with
  | nil => rfl
  | cons e es ih =>
    rw [List.flatMap_cons, free_append, ih, ← List.singleton_append (l := es), free_append]
    congr 1
    cases h : e.isFixed with
    | false => simp [free, h]
    | true =>
      have : (⟨e.v2, e.v1, e.color, Flags.add (Flags.add 0 Flags.eIsFixed) Flags.eIsGhost, false⟩ : Fr.FEdge).isFixed = true := by
        unfold Fr.FEdge.isFixed; dsimp only; decide
      simp only [free, h, ↓reduceIte, List.filter_cons, this, List.filter_nil, Bool.not_true, Bool.false_eq_true]

/-- A vertex of the mesh is flagged as boundary vertex. -/
def vFlag (st : List (Fr.MVert K)) (i : Nat) : Prop := ∃ v, st[i]? = some v ∧ Flags.has v.props Flags.vOnBoundary = true

theorem vFlag_ext {st ext : List (Fr.MVert K)} {i : Nat} (h : vFlag st i) : vFlag (st ++ ext) i := by
  obtain ⟨v, h1, h2⟩ := h
  exact ⟨v, by rw [List.getElem?_append_left (by exact (List.getElem?_eq_some_iff.mp h1).1)]; exact h1, h2⟩

theorem subEdges_ext (e : Fr.FEdge) (ps : List (Pt K)) : ∀ (st : List (Fr.MVert K)) (cur : Nat), ∃ ext, (Fr.subEdges e st cur ps).1 = st ++ ext := by
  induction ps with
  | nil => intro st cur; exact ⟨[], by simp [Fr.subEdges]⟩
  | cons p ps ih =>
    intro st cur
    obtain ⟨ext, h⟩ := ih (st ++ [⟨p, if e.isFixed then Flags.add (Flags.add 0 Flags.vOnFront) Flags.vIsFixed else Flags.add (Flags.add 0 Flags.vOnFront) Flags.vOnBoundary⟩]) st.length
    exact ⟨⟨p, if e.isFixed then Flags.add (Flags.add 0 Flags.vOnFront) Flags.vIsFixed else Flags.add (Flags.add 0 Flags.vOnFront) Flags.vOnBoundary⟩ :: ext, by rw [Fr.subEdges]; dsimp only; rw [h]; simp⟩

theorem subEdges_flags (e : Fr.FEdge) (hfx : e.isFixed = false) (ps : List (Pt K)) : ∀ (st : List (Fr.MVert K)) (cur : Nat),
    vFlag st cur → vFlag st e.v2 → ∀ f ∈ (Fr.subEdges e st cur ps).2, vFlag (Fr.subEdges e st cur ps).1 f.v1 ∧ vFlag (Fr.subEdges e st cur ps).1 f.v2 := by
  induction ps with
  | nil =>
    intro st cur h1 h2 f hf
    simp only [Fr.subEdges, List.mem_singleton] at hf
    subst hf; exact ⟨h1, h2⟩
  | cons p ps ih =>
    intro st cur h1 h2 f hf
    rw [Fr.subEdges] at hf ⊢
    simp only [hfx, Bool.false_eq_true, ↓reduceIte] at hf ⊢
    have hn : vFlag (st ++ [(⟨p, Flags.add (Flags.add 0 Flags.vOnFront) Flags.vOnBoundary⟩ : Fr.MVert K)]) st.length :=
      ⟨_, by rw [List.getElem?_concat_length], by dsimp only; decide⟩
    rcases List.mem_cons.mp hf with rfl | hf
    · obtain ⟨ext, hx⟩ := subEdges_ext e ps (st ++ [(⟨p, Flags.add (Flags.add 0 Flags.vOnFront) Flags.vOnBoundary⟩ : Fr.MVert K)]) st.length
      dsimp only
      rw [hx]
      exact ⟨vFlag_ext (vFlag_ext h1), vFlag_ext hn⟩
    · exact ih _ _ hn (vFlag_ext h2) f hf

theorem refineEdges_flags (sub : Fr.FEdge → Option (List (Pt K))) (es : List Fr.FEdge) :
    ∀ (st st' : List (Fr.MVert K)) (l : List Fr.FEdge), Fr.refineEdges sub st es = some (st', l) →
      (∀ e ∈ es, vFlag st e.v1 ∧ vFlag st e.v2) →
      (∃ ext, st' = st ++ ext) ∧ ∀ f ∈ free l, vFlag st' f.v1 ∧ vFlag st' f.v2 := by
  induction es with
  | nil =>
    intro st st' l h _
    simp only [Fr.refineEdges, Option.some.injEq, Prod.mk.injEq] at h
    rw [← h.2]; exact ⟨⟨[], by simp [h.1]⟩, by simp [free]⟩
  | cons e es ih =>
    intro st st' l h hr
    rw [Fr.refineEdges] at h
    split_ifs at h with ht
    · cases hq : Fr.refineEdges sub st es with
      | none => rw [hq] at h; simp at h
      | some q =>
        rw [hq] at h
        simp only [Option.some.injEq, Prod.mk.injEq] at h
        obtain ⟨⟨ext, i1⟩, i2⟩ := ih _ _ _ hq (fun x hx => hr x (List.mem_cons_of_mem _ hx))
        obtain ⟨rfl, rfl⟩ := h
        refine ⟨⟨ext, i1⟩, ?_⟩
        intro f hf
        rw [← List.singleton_append, free_append] at hf
        rcases List.mem_append.mp hf with hf | hf
        · have := (List.mem_filter.mp hf).1
          simp only [List.mem_singleton] at this
          subst this
          rw [i1]
          exact ⟨vFlag_ext (hr f (by simp)).1, vFlag_ext (hr f (by simp)).2⟩
        · exact i2 f hf
    · cases hs : sub e with
      | none => rw [hs] at h; simp at h
      | some coords =>
        rw [hs] at h
        dsimp only at h
        cases hq : Fr.refineEdges sub (Fr.refineEdge coords st e).1 es with
        | none => rw [hq] at h; simp at h
        | some q =>
          rw [hq] at h
          simp only [Option.some.injEq, Prod.mk.injEq] at h
          obtain ⟨ext0, hx0⟩ : ∃ ext, (Fr.refineEdge coords st e).1 = st ++ ext := by
            unfold Fr.refineEdge
            split_ifs
            · exact ⟨[], by simp⟩
            · exact subEdges_ext e _ _ _
          obtain ⟨⟨ext, i1⟩, i2⟩ := ih _ _ _ hq (fun x hx => by
            rw [hx0]
            exact ⟨vFlag_ext (hr x (List.mem_cons_of_mem _ hx)).1, vFlag_ext (hr x (List.mem_cons_of_mem _ hx)).2⟩)
          obtain ⟨rfl, rfl⟩ := h
          refine ⟨⟨ext0 ++ ext, by rw [i1, hx0]; simp⟩, ?_⟩
          intro f hf
          rw [free_append] at hf
          rcases List.mem_append.mp hf with hf | hf
          · obtain ⟨hf, hfx⟩ := List.mem_filter.mp hf
            obtain ⟨r1, r2⟩ := hr e (by simp)
            rw [i1]
            have key : vFlag (Fr.refineEdge coords st e).1 f.v1 ∧ vFlag (Fr.refineEdge coords st e).1 f.v2 := by
              unfold Fr.refineEdge at hf ⊢
              split_ifs at hf ⊢
              · simp only [List.mem_singleton] at hf; subst hf; exact ⟨r1, r2⟩
              · have he : e.isFixed = false := by
                  rw [← (subEdges_fixed e _ _ _ f hf).1]; simpa using hfx
                exact subEdges_flags e he _ _ _ r1 r2 f hf
            exact ⟨vFlag_ext key.1, vFlag_ext key.2⟩
          · exact i2 f hf

variable [IsStrictOrderedRing K]

/-- The data of a domain for the preparation of a mesh: closed boundaries; the neighbour edges of a boundary edge lead
back along it; boundary edges are not fixed, fixed edges are; no edge has equal ends. -/
structure DomainData (nbr : Fr.SrcEdge K → List (Fr.SrcEdge K)) (bd : List (List (Fr.SrcEdge K))) (fx : List (Fr.SrcEdge K)) : Prop where
  closed : ∀ b ∈ bd, ClosedSrc b
  leads : ∀ b ∈ bd, ∀ e ∈ b, nbr e ≠ [] → LeadsBack e.p1 e.p2 (nbr e)
  free : ∀ b ∈ bd, ∀ e ∈ b, e.fixed = false ∧ ∀ n ∈ nbr e, n.fixed = false
  fixed : ∀ e ∈ fx, e.fixed = true
  ne : ∀ c ∈ Fr.collectCalls nbr bd fx, c.1.p1 ≠ c.1.p2

/-- What is known about the initial front. -/
theorem front_facts {nbr : Fr.SrcEdge K → List (Fr.SrcEdge K)} {bd : List (List (Fr.SrcEdge K))} {fx : List (Fr.SrcEdge K)}
    (D : DomainData nbr bd fx) (sub : List (Fr.MVert K) → Fr.FEdge → Option (List (Pt K))) {vs : List (Fr.MVert K)} {es : List Fr.FEdge} {A : K}
    (h : Fr.initFront sub [] (Fr.collect nbr bd fx) = some (vs, es, A)) :
    (∀ e ∈ es, e.v1 < vs.length ∧ e.v2 < vs.length ∧ e.v1 ≠ e.v2) ∧ (∀ v, bal v (free es) = 0) ∧ A = 1 / 2 * crossSum vs (free es) ∧
    (∀ e ∈ free es, vFlag vs e.v1 ∧ vFlag vs e.v2) := by
  obtain ⟨b1, b2, _⟩ := (C30_front_balanced nbr bd fx D.closed D.leads D.free D.fixed sub []).2 vs es A h
  have hg := good_collect nbr bd fx
  obtain ⟨es0, h0, hfa⟩ := initEdges_calls hg 0
  unfold Fr.initFront at h
  rw [show ([] : List (Fr.MVert K)).length = 0 from rfl, h0] at h
  dsimp only at h
  cases hr : Fr.refineEdges (sub (Fr.initVerts [] (Fr.collect nbr bd fx))) (Fr.initVerts [] (Fr.collect nbr bd fx)) es0 with
  | none => rw [hr] at h; simp at h
  | some q =>
    rw [hr] at h
    simp only [Option.some.injEq, Prod.mk.injEq] at h
    obtain ⟨rfl, rfl, rfl⟩ := h
    have hir : ∀ e ∈ es0, e.v1 < (Fr.initVerts [] (Fr.collect nbr bd fx)).length ∧ e.v2 < (Fr.initVerts [] (Fr.collect nbr bd fx)).length ∧ e.v1 ≠ e.v2 := by
      intro e he
      obtain ⟨c, hc, i, j, rfl, hi, hj⟩ := forall₂_mem hfa e he
      have h1 := coord_some_lt hi
      have h2 := coord_some_lt hj
      refine ⟨by unfold Fr.initVerts; simp; omega, by unfold Fr.initVerts; simp; omega, ?_⟩
      dsimp only
      intro hij
      have : i = j := by omega
      subst this
      rw [hi] at hj
      have := D.ne c hc
      unfold callPts at hj
      simp only [Option.some.injEq] at hj
      split_ifs at hj
      · exact this hj.symm
      · exact this hj
    have hne := refineEdges_ne _ _ _ _ _ hr hir
    have hfl := refineEdges_flags _ _ _ _ _ hr (by
      have hv : ∀ i, i < (Fr.initVerts [] (Fr.collect nbr bd fx)).length → vFlag (Fr.initVerts [] (Fr.collect nbr bd fx)) i := by
        intro i hi
        refine ⟨_, List.getElem?_eq_getElem hi, ?_⟩
        have hm := List.getElem_mem hi
        have := C87_boundary_flag_partial [] (Fr.collect nbr bd fx) ((Fr.initVerts [] (Fr.collect nbr bd fx))[i]) (by simpa using hm)
        exact this.2.1
      intro e he
      exact ⟨hv _ (hir e he).1, hv _ (hir e he).2.1⟩)
    have hbal : ∀ v, bal v (Fr.addGhosts q.2) = 0 := fun v => by rw [bal_count, b1 v]; simp
    refine ⟨?_, ?_, ?_, ?_⟩
    · intro e he
      refine ⟨(b2 e he).1, (b2 e he).2, ?_⟩
      obtain ⟨f, hf, h | ⟨_, h1, h2⟩⟩ := addGhosts_mem he
      · rw [h]; exact hne f hf
      · rw [h1, h2]; exact (hne f hf).symm
    · intro v
      rw [free_ghosts, ← addGhosts_bal]; exact hbal v
    · rw [frontArea_balanced _ _ (perm_of_bal hbal), addGhosts_cross, free_ghosts]
    · rw [free_ghosts]; exact hfl.2

/-- The signed area of the boundary pieces of a domain: neighbour edges backwards in place of the edges they cover. -/
def sourceArea (nbr : Fr.SrcEdge K → List (Fr.SrcEdge K)) (bd : List (List (Fr.SrcEdge K))) : K :=
  1 / 2 * (bd.map fun b => (b.map fun e => if nbr e = [] then Pt.cross e.p1 e.p2 else ((nbr e).map fun n => Pt.cross n.p2 n.p1).sum).sum).sum

/-- The subdivision of the edges in `init_front`. -/
def subOf (norm : Pt K → K) (rho : Pt K → K) (fuel : Nat) (s : List (Fr.MVert K)) (e : Fr.FEdge) : Option (List (Pt K)) :=
  Fr.subCoords norm rho fuel (Fr.vpos s e.v1) (Fr.vpos s e.v2)

/-- A subdivision of edges by points of the line through the ends. -/
def LineSub (sub : List (Fr.MVert K) → Fr.FEdge → Option (List (Pt K))) : Prop :=
  ∀ s e coords, Fr.vpos s e.v1 ≠ Fr.vpos s e.v2 → sub s e = some coords →
    ∃ ts : List K, (coords.drop 1).dropLast = ts.map (onLine (Fr.vpos s e.v1) (Fr.vpos s e.v2))

/-- The subdivision of the code has its points on the line. -/
theorem lineSub_code (norm : Pt K → K) (hnorm : IsNorm norm) (rho : Pt K → K) (hrho : ∀ p, 0 < rho p) (fuel : Nat) : LineSub (subOf norm rho fuel) :=
  fun _ _ _ hne h => subCoords_onLine hnorm hne hrho fuel h

open Fr in
theorem front_area {nbr : Fr.SrcEdge K → List (Fr.SrcEdge K)} {bd : List (List (Fr.SrcEdge K))} {fx : List (Fr.SrcEdge K)}
    (D : DomainData nbr bd fx) {sub : List (Fr.MVert K) → Fr.FEdge → Option (List (Pt K))} (hS : LineSub sub) {st' : List (Fr.MVert K)} {es : List Fr.FEdge} {A : K}
    (h : Fr.initFront sub [] (Fr.collect nbr bd fx) = some (st', es, A)) : A = sourceArea nbr bd := by
  have hbal := (C30_front_balanced nbr bd fx D.closed D.leads D.free D.fixed sub []).2 st' es A h
  have hf1 := D.free
  have hf2 := D.fixed
  unfold sourceArea
  have hg := good_collect nbr bd fx
  obtain ⟨es0, h0, hfa⟩ := initEdges_calls hg 0
  unfold initFront at h
  rw [show ([] : List (Fr.MVert K)).length = 0 from rfl, h0] at h
  dsimp only at h
  cases hr : refineEdges (sub (initVerts [] (collect nbr bd fx)))
      (initVerts [] (collect nbr bd fx)) es0 with
  | none => rw [hr] at h; simp at h
  | some q =>
    rw [hr] at h
    simp only [Option.some.injEq, Prod.mk.injEq] at h
    obtain ⟨rfl, rfl, rfl⟩ := h
    have hir : InRange (initVerts [] (collect nbr bd fx)).length es0 := by
      intro e he
      obtain ⟨c, hc, i, j, rfl, hi, hj⟩ := forall₂_mem hfa e he
      have := coord_some_lt hi
      have := coord_some_lt hj
      unfold initVerts
      simp; omega
    have hon : ∀ e ∈ es0, OnEdge (initVerts [] (collect nbr bd fx)) (sub (initVerts [] (collect nbr bd fx))) e := by
      intro e he coords hco
      obtain ⟨c, hc, i, j, rfl, hi, hj⟩ := forall₂_mem hfa e he
      refine hS _ _ _ ?_ hco
      dsimp only
      have v1 := vpos_init [] _ hi
      have v2 := vpos_init [] _ hj
      simp only [List.length_nil] at v1 v2
      rw [v1, v2]
      have := D.ne c hc
      unfold callPts
      split_ifs
      · exact this.symm
      · exact this
    have hperm := perm_of_bal (es := addGhosts q.2) (fun v => by rw [bal_count, hbal.1 v]; simp)
    rw [frontArea_balanced _ _ hperm, addGhosts_cross,
      refineEdges_cross _ _ _ _ _ _ ⟨[], by simp⟩ hir hon hr, crossSum_calls (free_forall₂ hfa)]
    congr 1
    unfold collectCalls
    rw [List.filter_append]
    have h1 : (fx.map fun e => (e, false)).filter (fun c : SrcEdge K × Bool => !c.1.fixed) = [] := by
      rw [List.filter_eq_nil_iff]
      intro c hc
      obtain ⟨e, he, rfl⟩ := List.mem_map.mp hc
      simp [hf2 e he]
    rw [h1, List.append_nil, List.filter_eq_self.mpr]
    · clear * -
      induction bd with
      | nil => simp
      | cons b bd ih =>
        rw [List.flatMap_cons, List.map_append, List.sum_append, ih, List.map_cons, List.sum_cons]
        congr 1
        clear ih
        induction b with
        | nil => simp
        | cons e b ih =>
          rw [List.flatMap_cons, List.map_append, List.sum_append, ih, List.map_cons, List.sum_cons]
          congr 1
          cases hnb : nbr e with
          | nil => simp [callPts]
          | cons n ns => simp [callPts, Function.comp_def]
    · intro c hc
      obtain ⟨b, hb, hc⟩ := List.mem_flatMap.mp hc
      obtain ⟨e, he, hc⟩ := List.mem_flatMap.mp hc
      split_ifs at hc
      · obtain ⟨n, hn, rfl⟩ := List.mem_map.mp hc
        simp [(hf1 b hb e he).2 n hn]
      · simp at hc; subst hc; simp [(hf1 b hb e he).1]


/-! ### The preparation -/

theorem isEmpty_iff (s : St K) : isEmpty s = true ↔ s.verts = [] ∧ s.quads = [] ∧ s.tris = [] ∧ s.es .intr = [] ∧ s.es .bdry = [] := by
  unfold isEmpty
  simp only [Bool.and_eq_true, decide_eq_true_eq, List.length_eq_zero_iff, Nat.add_eq_zero_iff]
  tauto

/-- **C81.** A preparation that reports failure leaves all meshes as they are; it fails exactly if the mesh is not
empty or the domain is found invalid. -/
theorem C81_failed_preparation (P : Prep K) (w w' : World K) (a : Nat) (h : prepareMesh P w a = .ret false w') :
    w' = w ∧ (isEmpty (w a) = false ∨ checkDomain P.eps P.pos P.bdries = some false) := by
  unfold prepareMesh at h
  cases he : isEmpty (w a) with
  | false =>
    rw [he] at h
    simp only [Bool.not_false, ↓reduceIte, PrepRes.ret.injEq, true_and] at h
    exact ⟨h.symm, Or.inl rfl⟩
  | true =>
    rw [he] at h
    simp only [Bool.not_true, Bool.false_eq_true, ↓reduceIte] at h
    cases hd : checkDomain P.eps P.pos P.bdries with
    | none => rw [hd] at h; simp at h
    | some b =>
      rw [hd] at h
      cases b with
      | false =>
        simp only [PrepRes.ret.injEq, true_and] at h
        exact ⟨h.symm, Or.inr rfl⟩
      | true =>
        dsimp only at h
        cases hf : Fr.initFront P.sub [] P.front with
        | none => rw [hf] at h; simp at h
        | some q =>
          rw [hf] at h
          simp [checkFront] at h

/-- The steps of a successful preparation. -/
theorem prepare_steps {P : Prep K} {w w' : World K} {a : Nat} (h : prepareMesh P w a = .ret true w') :
    isEmpty (w a) = true ∧ checkDomain P.eps P.pos P.bdries = some true ∧
    ∃ vs es A, Fr.initFront P.sub [] P.front = some (vs, es, A) ∧
      w' = (es.foldl (addFrontEdge a (w a).nxt) (upd w a fun s => (vs ++ fixVerts P.fixed).foldl addVert s, P.refs)).1 := by
  unfold prepareMesh at h
  cases he : isEmpty (w a) with
  | false => rw [he] at h; simp at h
  | true =>
    rw [he] at h
    simp only [Bool.not_true, Bool.false_eq_true, ↓reduceIte] at h
    cases hd : checkDomain P.eps P.pos P.bdries with
    | none => rw [hd] at h; simp at h
    | some b =>
      rw [hd] at h
      cases b with
      | false => simp at h
      | true =>
        dsimp only at h
        cases hf : Fr.initFront P.sub [] P.front with
        | none => rw [hf] at h; simp at h
        | some q =>
          rw [hf] at h
          obtain ⟨vs, es, A⟩ := q
          simp only [checkFront, Bool.not_true, Bool.false_eq_true, ↓reduceIte, PrepRes.ret.injEq, true_and] at h
          refine ⟨rfl, rfl, vs, es, A, rfl, ?_⟩
          rw [← h]
          congr 3
          funext m
          by_cases hm : m = a
          · subst hm; simp only [upd_self]; rw [addFixed_fold, List.foldl_append]
          · rw [upd_ne _ _ hm, upd_ne _ _ hm, upd_ne _ _ hm]

/-- What is known about a prepared mesh. -/
theorem prepared_spec {nbr : Fr.SrcEdge K → List (Fr.SrcEdge K)} {bd : List (List (Fr.SrcEdge K))} {fx : List (Fr.SrcEdge K)}
    (D : DomainData nbr bd fx) {P : Prep K} (hP : P.front = Fr.collect nbr bd fx) {w w' : World K} {a : Nat} (hw : WF (w a))
    (hr : ∀ x ∈ P.refs, x.1 ≠ a) (h : prepareMesh P w a = .ret true w') :
    ∃ vs es A, Fr.initFront P.sub [] P.front = some (vs, es, A) ∧
      (∀ e ∈ es, e.v1 < vs.length ∧ e.v2 < vs.length ∧ e.v1 ≠ e.v2) ∧ (∀ v, bal v (free es) = 0) ∧ A = 1 / 2 * crossSum vs (free es) ∧
      (∀ e ∈ free es, vFlag vs e.v1 ∧ vFlag vs e.v2) ∧
      EdgesAdded (w a).nxt ((vs ++ fixVerts P.fixed).foldl addVert (w a)) (w' a) (free es) ∧
      (∀ m, m ≠ a → SameButTwins (w m) (w' m)) ∧ ∀ m, m ≠ a → m ∉ P.refs.map (·.1) → w' m = w m := by
  obtain ⟨_, _, vs, es, A, hf, rfl⟩ := prepare_steps h
  rw [hP] at hf
  obtain ⟨f1, f2, f3, f4⟩ := front_facts D P.sub hf
  obtain ⟨c1, c2, c3, _⟩ := addVerts_spec (vs ++ fixVerts P.fixed) (w a) hw
  obtain ⟨d1, d2, d3⟩ := edges_fold a (w a).nxt (s := (vs ++ fixVerts P.fixed).foldl addVert (w a)) es (by
    intro e he
    obtain ⟨e1, e2, e3⟩ := f1 e he
    rw [c2, List.length_append]
    refine ⟨List.mem_append_right _ ?_, List.mem_append_right _ ?_, e3⟩ <;>
    · rw [List.mem_range'_1]; omega) (upd w a fun s => (vs ++ fixVerts P.fixed).foldl addVert s) P.refs [] hr (by
      rw [upd_self]; exact edgesAdded_refl c1 _)
  rw [List.nil_append] at d1
  refine ⟨vs, es, A, by rw [hP]; exact hf, f1, f2, f3, f4, d1, fun m hm => ?_, fun m hm hm2 => ?_⟩
  · have := d2 m hm; rwa [upd_ne _ _ hm] at this
  · have := d3 m hm hm2; rwa [upd_ne _ _ hm] at this

/-- The ends of the boundary edges of a mesh after edges were added. -/
theorem added_pairs {off : Nat} {s t : St K} {done : List Fr.FEdge} (h : EdgesAdded off s t done) (hb : s.es .bdry = []) :
    pairs t .bdry = done.map (fun e => (off + e.v1, off + e.v2)) ∧ (t.es .bdry).map (fun e => (t.E e).color) = done.map (·.color) ∧
    ∀ e ∈ t.es .bdry, (t.E e).fl = .null := by
  obtain ⟨new, n1, n2, _⟩ := h.bdry
  rw [hb, List.nil_append] at n1
  refine ⟨?_, ?_, ?_⟩
  · have := congrArg (List.map fun d : EData => (d.v1, d.v2)) n2
    rw [List.map_map, List.map_map] at this
    unfold pairs
    rw [n1]; exact this
  · have := congrArg (List.map fun d : EData => d.color) n2
    rw [List.map_map, List.map_map] at this
    rw [n1]; exact this
  · intro e he
    rw [n1] at he
    have hm : bare (t.E e) ∈ new.map (fun e => bare (t.E e)) := List.mem_map_of_mem he
    rw [n2, List.mem_map] at hm
    obtain ⟨f, _, hf⟩ := hm
    have := congrArg EData.fl hf
    exact this.symm

theorem bal_pairs (off : Nat) (es : List Fr.FEdge) (h : ∀ v, bal v es = 0) : FUSpec.Balanced (es.map fun e => (off + e.v1, off + e.v2)) := by
  intro v
  rw [List.countP_map, List.countP_map]
  by_cases hv : off ≤ v
  · have := h (v - off)
    rw [bal_count] at this
    have e1 : es.countP ((fun e : Nat × Nat => decide (e.1 = v)) ∘ fun e => (off + e.v1, off + e.v2)) = es.countP fun e => decide (e.v1 = v - off) := by
      refine List.countP_congr fun e _ => ?_
      simp only [Function.comp_apply, decide_eq_true_eq]; omega
    have e2 : es.countP ((fun e : Nat × Nat => decide (e.2 = v)) ∘ fun e => (off + e.v1, off + e.v2)) = es.countP fun e => decide (e.v2 = v - off) := by
      refine List.countP_congr fun e _ => ?_
      simp only [Function.comp_apply, decide_eq_true_eq]; omega
    rw [e1, e2]; omega
  · have e1 : es.countP ((fun e : Nat × Nat => decide (e.1 = v)) ∘ fun e => (off + e.v1, off + e.v2)) = 0 := by
      rw [List.countP_eq_zero]; intro e _
      simp only [Function.comp_apply, decide_eq_true_eq]; omega
    have e2 : es.countP ((fun e : Nat × Nat => decide (e.2 = v)) ∘ fun e => (off + e.v1, off + e.v2)) = 0 := by
      rw [List.countP_eq_zero]; intro e _
      simp only [Function.comp_apply, decide_eq_true_eq]; omega
    rw [e1, e2]

/-- **C115.** A successfully prepared mesh is consistent and has no elements and no interior edges; its boundary
edges form closed loops, the ends of each are flagged as boundary vertices, no element is at any of them; they
enclose the area of the domain boundaries.  The other meshes change in nothing but the twins of their
boundary edges. -/
theorem C115_prepared {nbr : Fr.SrcEdge K → List (Fr.SrcEdge K)} {bd : List (List (Fr.SrcEdge K))} {fx : List (Fr.SrcEdge K)}
    (D : DomainData nbr bd fx) {P : Prep K} (hP : P.front = Fr.collect nbr bd fx) (hS : LineSub P.sub) {w w' : World K} {a : Nat} (hw : WF (w a))
    (hr : ∀ x ∈ P.refs, x.1 ≠ a) (h : prepareMesh P w a = .ret true w') :
    WF (w' a) ∧ (w' a).tris = [] ∧ (w' a).quads = [] ∧ (w' a).es .intr = [] ∧ (w' a).es .front = (w a).es .front ∧
    FUSpec.Balanced (pairs (w' a) .bdry) ∧ enclosed (w' a).pos (pairs (w' a) .bdry) = sourceArea nbr bd ∧
    SmSpec.BdryFlagged (w' a) ∧ (∀ e ∈ (w' a).es .bdry, ((w' a).E e).fl = .null) ∧ (w' a).area = (w a).area ∧
    (∀ m, m ≠ a → SameButTwins (w m) (w' m)) := by
  obtain ⟨vs, es, A, hf, f1, f2, f3, f4, E, o1, o2⟩ := prepared_spec D hP hw hr h
  obtain ⟨hemp, _⟩ := prepare_steps h
  rw [isEmpty_iff] at hemp
  obtain ⟨_, hq, ht, hi, hb⟩ := hemp
  obtain ⟨c1, c2, c3, c4, c5, c6, c7, c8, c9, c10, c11, c12⟩ := addVerts_spec (vs ++ fixVerts P.fixed) (w a) hw
  obtain ⟨p1, p2, p3⟩ := added_pairs E (by rw [c4]; exact hb)
  have hv : ∀ i v, vs[i]? = some v → ((w' a).V ((w a).nxt + i)).xy = v.xy ∧ ((w' a).V ((w a).nxt + i)).props = v.props := by
    intro i v hiv
    have := c12 i v (by rw [List.getElem?_append_left (List.getElem?_eq_some_iff.mp hiv).1]; exact hiv)
    obtain ⟨e1, e2, _⟩ := E.vdata ((w a).nxt + i)
    rw [e1, e2, this]; exact ⟨rfl, rfl⟩
  refine ⟨E.wf, by rw [E.tris, c6, ht], by rw [E.quads, c7, hq], by rw [E.others _ (by simp), c4, hi], by rw [E.others _ (by simp), c4], ?_, ?_, ?_, p3, by rw [E.area, c9], o1⟩
  · rw [p1]; exact bal_pairs _ _ f2
  · have hA := front_area D hS (by rw [hP] at hf; exact hf)
    rw [← hA, f3, p1]
    unfold enclosed crossSum
    rw [List.map_map, ← List.sum_map_mul_left]
    congr 1
    refine List.map_congr_left ?_
    intro e he
    obtain ⟨e1, e2, _⟩ := f1 e (List.mem_filter.mp he).1
    simp only [Function.comp_apply]
    have q : ∀ i, i < vs.length → (w' a).pos ((w a).nxt + i) = Fr.vpos vs i := by
      intro i hi
      have hg : vs[i]? = some vs[i] := List.getElem?_eq_getElem hi
      unfold MS.St.pos Fr.vpos
      rw [(hv i _ hg).1, hg]; rfl
    rw [q _ e1, q _ e2]
  · intro e he
    have hm : ((w' a).E e).v1 = ((w' a).E e).v1 ∧ True := ⟨rfl, trivial⟩
    have hpm : (((w' a).E e).v1, ((w' a).E e).v2) ∈ pairs (w' a) .bdry := by
      unfold pairs; exact List.mem_map_of_mem (f := fun e => (((w' a).E e).v1, ((w' a).E e).v2)) he
    rw [p1, List.mem_map] at hpm
    obtain ⟨f, hf1, hf2⟩ := hpm
    rw [Prod.mk.injEq] at hf2
    obtain ⟨⟨v1, g1, g2⟩, ⟨v2, g3, g4⟩⟩ := f4 f hf1
    rw [← hf2.1, ← hf2.2, (hv _ _ g1).2, (hv _ _ g3).2]
    unfold Flags.has at g2 g4
    exact ⟨by simpa using g2, by simpa using g4⟩

/-- **C115.** The vertices of a prepared mesh are those of the initial front followed by the isolated fixed
vertices, with their coordinates and flags; the boundary edges are the front edges that are not fixed, with
their colours. -/
theorem C115_vertices {nbr : Fr.SrcEdge K → List (Fr.SrcEdge K)} {bd : List (List (Fr.SrcEdge K))} {fx : List (Fr.SrcEdge K)}
    (D : DomainData nbr bd fx) {P : Prep K} (hP : P.front = Fr.collect nbr bd fx) {w w' : World K} {a : Nat} (hw : WF (w a))
    (hr : ∀ x ∈ P.refs, x.1 ≠ a) (h : prepareMesh P w a = .ret true w') :
    ∃ vs es A, Fr.initFront P.sub [] P.front = some (vs, es, A) ∧
      (w' a).verts.map (fun v => ((w' a).pos v, ((w' a).V v).props)) = vs.map (fun v => (v.xy, v.props)) ++
        (P.fixed.filter fun v => v.fixed && decide (v.nEdges = 0)).map (fun v => (v.xy, Flags.vIsFixed ||| Flags.vOnFront)) ∧
      ((w' a).es .bdry).map (fun e => ((w' a).pos ((w' a).E e).v1, (w' a).pos ((w' a).E e).v2, ((w' a).E e).color)) =
        (es.filter fun e => !e.isFixed).map fun e => (Fr.vpos vs e.v1, Fr.vpos vs e.v2, e.color) := by
  obtain ⟨vs, es, A, hf, f1, f2, f3, f4, E, o1, o2⟩ := prepared_spec D hP hw hr h
  obtain ⟨hemp, _⟩ := prepare_steps h
  rw [isEmpty_iff] at hemp
  obtain ⟨hv0, hq, ht, hi, hb⟩ := hemp
  obtain ⟨c1, c2, c3, c4, c5, c6, c7, c8, c9, c10, c11, c12⟩ := addVerts_spec (vs ++ fixVerts P.fixed) (w a) hw
  have hv : ∀ i v, (vs ++ fixVerts P.fixed)[i]? = some v → ((w' a).V ((w a).nxt + i)).xy = v.xy ∧ ((w' a).V ((w a).nxt + i)).props = v.props := by
    intro i v hiv
    obtain ⟨e1, e2, _⟩ := E.vdata ((w a).nxt + i)
    rw [e1, e2, c12 i v hiv]; exact ⟨rfl, rfl⟩
  refine ⟨vs, es, A, hf, ?_, ?_⟩
  · have hR : vs.map (fun v => (v.xy, v.props)) ++
        (P.fixed.filter fun v => v.fixed && decide (v.nEdges = 0)).map (fun v => (v.xy, Flags.vIsFixed ||| Flags.vOnFront)) =
        (vs ++ fixVerts P.fixed).map fun v => (v.xy, v.props) := by
      rw [List.map_append]
      congr 1
      unfold fixVerts
      rw [List.map_map]
      refine List.map_congr_left fun v _ => ?_
      simp only [Function.comp_apply, Prod.mk.injEq, true_and]
      decide
    rw [hR, E.verts, c2, hv0, List.nil_append]
    apply List.ext_getElem?
    intro i
    rw [List.getElem?_map, List.getElem?_map]
    by_cases hi : i < (vs ++ fixVerts P.fixed).length
    · rw [List.getElem?_range' hi, List.getElem?_eq_getElem hi]
      have := hv i _ (List.getElem?_eq_getElem hi)
      simp only [Option.map_some, Option.some.injEq, Prod.mk.injEq, Nat.one_mul]
      exact this
    · rw [List.getElem?_eq_none (by simpa using hi), List.getElem?_eq_none (by simpa using hi)]; rfl
  · obtain ⟨new, n1, n2, _⟩ := E.bdry
    rw [c4, hb, List.nil_append] at n1
    have := congrArg (List.map fun d : EData => ((w' a).pos d.v1, (w' a).pos d.v2, d.color)) n2
    rw [List.map_map, List.map_map] at this
    rw [n1]
    refine Eq.trans this ?_
    refine List.map_congr_left ?_
    intro e he
    obtain ⟨e1, e2, _⟩ := f1 e (List.mem_filter.mp he).1
    have q : ∀ i, i < vs.length → (w' a).pos ((w a).nxt + i) = Fr.vpos vs i := by
      intro i hi
      have hg : vs[i]? = some vs[i] := List.getElem?_eq_getElem hi
      unfold MS.St.pos Fr.vpos
      rw [(hv i _ (by rw [List.getElem?_append_left hi]; exact hg)).1, hg]; rfl
    simp only [Function.comp_apply, bareOf]
    rw [q _ e1, q _ e2]

/-! ### From the domain to the mesh -/

theorem no_sharing {s : St K} (h : WF s) (ht : s.tris = []) (hq : s.quads = []) {v : Nat} (hv : v ∈ s.verts) (b : Nat) : MC.sharing s v b = [] := by
  have hf : (s.V v).facets = [] := by
    rw [List.eq_nil_iff_forall_not_mem]
    intro f hf
    have := ((h.facets v hv).2 f).mp hf
    cases f <;> simp [Live, ht, hq] at this
  unfold MC.sharing; rw [hf]; rfl

/-- The start of a meshing step for a mesh without elements and interior edges: the front consists of the
boundary edges. -/
theorem start_bare (eps : K) {s : St K} (h : WF s) (ht : s.tris = []) (hq : s.quads = []) (hi : s.es .intr = []) (hf : s.es .front = [])
    (hn : ∀ e ∈ s.es .bdry, (s.E e).fl = .null) :
    let t := MC.startStep eps s
    WF t ∧ SameElements s t ∧ pairs t .front = pairs s .bdry ∧ t.es .bdry = s.es .bdry ∧ t.es .intr = [] ∧
      (∀ e ∈ s.es .bdry, t.E e = s.E e) ∧ (∀ v, flagged t v ↔ flagged s v ∨ ∃ e ∈ s.es .bdry, (s.E e).v1 = v ∨ (s.E e).v2 = v) ∧
      ∀ k ∈ t.es .front, ∃ e ∈ s.es .bdry, TQ.MC.pairOf t k = TQ.MC.pairOf s e ∧ (t.E k).props = (s.E e).props := by
  have h1 : MC.setupConnectivity eps s = s := by
    unfold MC.setupConnectivity
    rw [hi, List.foldl_nil]
    have : ∀ l : List Nat, (∀ e ∈ l, e ∈ s.es .bdry) → l.foldl (MC.connBdry eps) s = s := by
      intro l
      induction l with
      | nil => intro _; rfl
      | cons e l ih =>
        intro hl
        have he := ((h.ends .bdry).2 e (hl e (by simp))).2.1
        rw [List.foldl_cons]
        have : MC.connBdry eps s e = s := by
          unfold MC.connBdry; rw [no_sharing h ht hq he]
        rw [this]
        exact ih fun x hx => hl x (List.mem_cons_of_mem _ hx)
    exact this _ fun _ hx => hx
  have h2 : MC.frontEdges s = s.es .bdry := by
    unfold MC.frontEdges
    rw [hi, List.filter_nil, List.nil_append, List.filter_eq_self]
    intro e he
    simpa using hn e he
  obtain ⟨j1, j2, j3, j4, j5, ⟨nf, k1, k2, k3, k4⟩, j7⟩ := TQ.MC.initFold h (s.es .bdry) (fun e he => (liveE_iff h.toSound e).mpr ⟨_, he⟩)
  unfold MC.startStep
  rw [h1]
  have hii : MC.initFront s = (s.es .bdry).foldl MC.addFrontEdge s := by unfold MC.initFront; rw [h2]
  rw [← hii] at j1 j2 j3 j4 j5 k1 k2 k3 k4 j7
  generalize MC.initFront s = i at *
  have hfi : MC.frontEdges i = s.es .bdry := by
    unfold MC.frontEdges
    rw [j4 _ (by simp), j4 _ (by simp), hi, List.filter_nil, List.nil_append, List.filter_eq_self]
    intro e he
    rw [j5 e (TQ.MC.edge_lt h he)]
    simpa using hn e he
  obtain ⟨m1, m2, m3, m4, m5, m6⟩ := TQ.MC.removeFold j1 (s.es .bdry) (fun e he => Or.inr (by rw [j4 _ (by simp)]; exact he)) (h.ends .bdry).1
  have hrr : MC.removeInvalid i = (s.es .bdry).foldl removeIntr i := by unfold MC.removeInvalid; rw [hfi]
  rw [← hrr] at m1 m2 m3 m4 m5 m6
  generalize MC.removeInvalid i = t at *
  refine ⟨m1, TQ.MC.se_trans j2 m2, ?_, by rw [m3 _ (by simp), j4 _ (by simp)], by rw [m4, j4 _ (by simp), hi]; rfl, ?_, fun v => (m6 v).trans (j7 v), ?_⟩
  · unfold pairs
    rw [m3 _ (by simp), k1, hf, List.nil_append, m5]
    exact k2
  · intro e he
    rw [m5, j5 e (TQ.MC.edge_lt h he)]
  · intro k hk
    rw [m3 _ (by simp), k1, hf, List.nil_append] at hk
    have := k4 k hk
    unfold TQ.MC.pairOf at this ⊢
    rw [m5]
    exact this

/-- **C117 (partial).** From the domain to the mesh: a mesh is prepared for a domain, its front is initialised, and
the front is advanced until it is empty.  Then the mesh area is the area of the domain, the boundary of the
triangulation is the boundary of the prepared mesh, and every point (not on a line through a side) is covered
as often as the boundary winds around it: inside the domain once, outside never.  Missing: that the side edges
always run along the front (`AllOriented`) is a hypothesis. -/
theorem C117_tiles_domain_partial {nbr : Fr.SrcEdge K → List (Fr.SrcEdge K)} {bd : List (List (Fr.SrcEdge K))} {fx : List (Fr.SrcEdge K)}
    (D : DomainData nbr bd fx) {P : Prep K} (hP : P.front = Fr.collect nbr bd fx) (hS : LineSub P.sub) {w w' : World K} {a : Nat} {c : Int}
    (hw : w a = St.empty c) (hr : ∀ x ∈ P.refs, x.1 ≠ a) (h : prepareMesh P w a = .ret true w')
    {env : FU.Env K} (he : 0 < env.eps) (hq : QueryLive env) (hs : SortOK env) {log : List Entry} {s : St K}
    (hrun : Run env (MC.startStep env.eps (w' a)) log s) (ho : AllOriented log) (hf : s.es .front = []) :
    s.area = sourceArea nbr bd ∧ (∀ x y, chain (sides s) x y = chain (pairs (w' a) .bdry) x y) ∧
    ∀ p, Generic s p → (s.tris.countP (Covers s p) : Int) = winding (w' a).pos (pairs (w' a) .bdry) p := by
  obtain ⟨c1, c2, c3, c4, c5, c6, c7, c8, c9, c10, c11⟩ := C115_prepared D hP hS (by rw [hw]; exact wf_empty c) hr h
  obtain ⟨d1, d2, d3, d4, d5, d6, d7, -⟩ := start_bare env.eps c1 c2 c3 c4 (by rw [c5, hw]; rfl) c9
  have hpos : (MC.startStep env.eps (w' a)).pos = (w' a).pos := funext d2.pos
  obtain ⟨e1, e2⟩ := C35_complete he hq hs d1 (by rw [d2.tris, c2]) hrun ho hf
  rw [d3] at e1 e2
  rw [hpos, d2.area, c10, c7, hw] at e1
  refine ⟨by rw [e1]; exact zero_add _, e2, fun p hp => ?_⟩
  have := C90_tiling he hq hs d1 (by rw [d2.tris, c2]) hrun ho hf hp
  rw [d3, hpos] at this
  exact this

/-- **C117.** The same for a simple boundary, without a hypothesis on the directions of the side edges: exact
queries, tolerance below the resolution of the mesh, ranges of the checks large enough (see
`C140_reach_of_size`). -/
theorem C117_tiles_simple_domain {nbr : Fr.SrcEdge K → List (Fr.SrcEdge K)} {bd : List (List (Fr.SrcEdge K))} {fx : List (Fr.SrcEdge K)}
    (D : DomainData nbr bd fx) {P : Prep K} (hP : P.front = Fr.collect nbr bd fx) (hS : LineSub P.sub) {w w' : World K} {a : Nat} {c : Int}
    (hw : w a = St.empty c) (hr : ∀ x ∈ P.refs, x.1 ≠ a) (h : prepareMesh P w a = .ret true w')
    (hsim : SimpleFront (w' a).pos (pairs (w' a) .bdry))
    {env : FU.Env K} (he : 0 < env.eps) (hq : QueryExact env) (hs : SortOK env)
    (hn : ∀ p, 0 ≤ env.norm p ∧ Pt.normSq p ≤ env.norm p * env.norm p) {log : List Entry} {s : St K}
    (hrun : Run env (MC.startStep env.eps (w' a)) log s) (hres : Resolved env.eps s) (hreach : AllReach env s.pos log)
    (hf : s.es .front = []) :
    s.area = sourceArea nbr bd ∧ (∀ x y, chain (sides s) x y = chain (pairs (w' a) .bdry) x y) ∧
    ∀ p, Generic s p → s.tris.countP (Covers s p) = if winding (w' a).pos (pairs (w' a) .bdry) p = 1 then 1 else 0 := by
  obtain ⟨c1, c2, c3, c4, c5, c6, c7, c8, c9, c10, c11⟩ := C115_prepared D hP hS (by rw [hw]; exact wf_empty c) hr h
  obtain ⟨d1, d2, d3, d4, d5, d6, d7, -⟩ := start_bare env.eps c1 c2 c3 c4 (by rw [c5, hw]; rfl) c9
  have hpos : (MC.startStep env.eps (w' a)).pos = (w' a).pos := funext d2.pos
  have hsim' : SimpleFront (MC.startStep env.eps (w' a)).pos (pairs (MC.startStep env.eps (w' a)) .front) := by
    rw [hpos, d3]; exact hsim
  obtain ⟨e1, e2, e3⟩ := C142_complete he hq hs hn d1 (by rw [d2.tris, c2]) hsim' hrun hres hreach hf
  rw [d3] at e1 e2
  rw [hpos, d2.area, c10, c7, hw] at e1
  refine ⟨by rw [e1]; exact zero_add _, e2, fun p hp => ?_⟩
  have := e3 p hp
  rw [d3, hpos] at this
  exact this

end
end TQ

#print axioms TQ.C117_tiles_simple_domain
#print axioms TQ.C81_failed_preparation
#print axioms TQ.C115_prepared
#print axioms TQ.C115_vertices
#print axioms TQ.C117_tiles_domain_partial

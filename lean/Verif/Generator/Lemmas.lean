import Verif.Generator.Model
import Verif.Front.Lemmas
import Verif.Merger.Loops

/-! # Lemmas on the preparation of a mesh -/

set_option linter.unusedSectionVars false
set_option linter.unusedSimpArgs false

namespace TQ
open MS MS.St MM GN MeshSpec MergeSpec

section
variable {K : Type*} [Field K] [LinearOrder K]

/-! ### Vertices -/

theorem addVert_V (s : St K) (v : Fr.MVert K) (x : Nat) :
    (addVert s v).V x = if x = s.nxt then ⟨v.xy, v.props, [], []⟩ else s.V x := by
  unfold addVert setProps addVertex
  simp only [upd]
  split_ifs with h <;> simp

/-- What the loop over new vertices does. -/
theorem addVerts_spec (vs : List (Fr.MVert K)) : ∀ (s : St K), WF s →
    let t := vs.foldl addVert s
    WF t ∧ t.verts = s.verts ++ List.range' s.nxt vs.length ∧ t.nxt = s.nxt + vs.length ∧ t.es = s.es ∧ t.E = s.E ∧
    t.tris = s.tris ∧ t.quads = s.quads ∧ t.F = s.F ∧ t.area = s.area ∧ t.color = s.color ∧
    (∀ x, x < s.nxt → t.V x = s.V x) ∧ ∀ i v, vs[i]? = some v → t.V (s.nxt + i) = ⟨v.xy, v.props, [], []⟩ := by
  induction vs with
  | nil => intro s h; simp [h]
  | cons v vs ih =>
    intro s h
    have hw : WF (addVert s v) := wf_setProps (wf_addVertex h _) _ _
    obtain ⟨c1, c2, c3, c4, c5, c6, c7, c8, c9, c10, c11, c12⟩ := ih (addVert s v) hw
    rw [List.foldl_cons]
    refine ⟨c1, ?_, ?_, c4, c5, c6, c7, c8, c9, c10, ?_, ?_⟩
    · rw [c2, List.length_cons, List.range'_succ]
      simp [addVert, setProps, addVertex]
    · rw [c3, List.length_cons]
      simp only [addVert, setProps, addVertex]; omega
    · intro x hx
      rw [c11 x (by simp only [addVert, setProps, addVertex]; omega), addVert_V, if_neg (by omega)]
    · intro i u hu
      cases i with
      | zero =>
        simp only [List.getElem?_cons_zero, Option.some.injEq] at hu
        subst hu
        rw [Nat.add_zero, c11 _ (by simp only [addVert, setProps, addVertex]; omega), addVert_V, if_pos rfl]
      | succ i =>
        simp only [List.getElem?_cons_succ] at hu
        have := c12 i u hu
        have e : (addVert s v).nxt = s.nxt + 1 := rfl
        rw [e] at this
        rw [← this]; congr 1; omega

/-- The vertices made for the fixed vertices. -/
def fixVerts (l : List (FixV K)) : List (Fr.MVert K) :=
  (l.filter fun v => v.fixed && decide (v.nEdges = 0)).map fun v => ⟨v.xy, Flags.add (Flags.add 0 Flags.vIsFixed) Flags.vOnFront⟩

theorem addFixed_fold (l : List (FixV K)) : ∀ s : St K, l.foldl addFixed s = (fixVerts l).foldl addVert s := by
  induction l with
  | nil => intro s; rfl
  | cons v l ih =>
    intro s
    rw [List.foldl_cons, ih]
    unfold fixVerts
    rw [List.filter_cons]
    unfold addFixed
    cases v.fixed with
    | false => rfl
    | true =>
      by_cases h : v.nEdges = 0
      · simp [h]
      · have : v.nEdges > 0 := by omega
        simp [h, this]

/-! ### Edges -/

/-- All data of an edge but its twin. -/
def bare (d : EData) : EData := { d with twin := none }

/-- A boundary edge of the mesh made from a front edge. -/
def bareOf (off : Nat) (e : Fr.FEdge) : EData := ⟨off + e.v1, off + e.v2, e.color, e.props, .bdry, .null, .null, none⟩

theorem sbt_bare {s t : St K} (h : SameButTwins s t) (e : Nat) : bare (t.E e) = bare (s.E e) := by
  rw [h.2 e]; rfl

/-- What is kept and what is known after the edges `done` were added to the mesh `a`. -/
structure EdgesAdded (off : Nat) (s t : St K) (done : List Fr.FEdge) : Prop where
  wf : WF t
  verts : t.verts = s.verts
  vdata : ∀ v, (t.V v).xy = (s.V v).xy ∧ (t.V v).props = (s.V v).props ∧ (t.V v).facets = (s.V v).facets
  tris : t.tris = s.tris
  quads : t.quads = s.quads
  fdata : t.F = s.F
  area : t.area = s.area
  color : t.color = s.color
  others : ∀ l, l ≠ .bdry → t.es l = s.es l
  bdry : ∃ new, t.es .bdry = s.es .bdry ++ new ∧ new.map (fun e => bare (t.E e)) = done.map (bareOf off) ∧
    ∀ e ∈ new, s.nxt ≤ e ∧ e < t.nxt
  old : ∀ e, e < s.nxt → t.E e = s.E e
  nxt : s.nxt ≤ t.nxt

theorem edgesAdded_refl {s : St K} (h : WF s) (off : Nat) : EdgesAdded off s s [] :=
  ⟨h, rfl, fun _ => ⟨rfl, rfl, rfl⟩, rfl, rfl, rfl, rfl, rfl, fun _ _ => rfl, ⟨[], by simp, rfl, by simp⟩, fun _ _ => rfl, le_refl _⟩

theorem edgesAdded_step {off : Nat} {s t : St K} {done : List Fr.FEdge} (h : EdgesAdded off s t done) (e : Fr.FEdge)
    (h1 : off + e.v1 ∈ s.verts) (h2 : off + e.v2 ∈ s.verts) (hne : e.v1 ≠ e.v2) :
    EdgesAdded off s (t.addEdge .bdry (off + e.v1) (off + e.v2) e.color e.props) (done ++ [e]) := by
  obtain ⟨new, n1, n2, n3⟩ := h.bdry
  refine ⟨wf_addEdge h.wf _ _ _ (by rw [h.verts]; exact h1) (by rw [h.verts]; exact h2) (by omega), h.verts, ?_, h.tris, h.quads, h.fdata,
    h.area, h.color, ?_, ⟨new ++ [t.nxt], ?_, ?_, ?_⟩, ?_, ?_⟩
  · intro v
    rw [← (h.vdata v).1, ← (h.vdata v).2.1, ← (h.vdata v).2.2]
    simp only [addEdge, upd]
    split_ifs <;> exact ⟨rfl, rfl, rfl⟩
  · intro l hl
    rw [← h.others l hl]
    simp [addEdge, upd, hl]
  · simp [addEdge, upd, n1]
  · rw [List.map_append, List.map_append, ← n2]
    congr 1
    · refine List.map_congr_left ?_
      intro x hx
      have := (n3 x hx).2
      simp [addEdge, upd, ne_of_lt this]
    · simp [addEdge, upd, bareOf, bare]
  · intro x hx
    have hn : (t.addEdge .bdry (off + e.v1) (off + e.v2) e.color e.props).nxt = t.nxt + 1 := rfl
    rw [hn]
    rcases List.mem_append.mp hx with hx | hx
    · have := n3 x hx; omega
    · simp only [List.mem_singleton] at hx
      subst hx
      exact ⟨h.nxt, Nat.lt_succ_self _⟩
  · intro x hx
    have := h.nxt
    rw [← h.old x hx]
    have hne2 : x ≠ t.nxt := by omega
    simp only [addEdge, upd, if_neg hne2]
  · exact le_trans h.nxt (Nat.le_succ _)

theorem edgesAdded_twin {off : Nat} {s t : St K} {done : List Fr.FEdge} (h : EdgesAdded off s t done) (n : Nat) (x : Nat × Nat)
    (hn : s.nxt ≤ n) : EdgesAdded off s (setTwin t n x) done := by
  obtain ⟨new, n1, n2, n3⟩ := h.bdry
  refine ⟨wf_setTwin h.wf _ _, h.verts, h.vdata, h.tris, h.quads, h.fdata, h.area, h.color, h.others, ⟨new, n1, ?_, n3⟩, ?_, h.nxt⟩
  · rw [← n2]
    refine List.map_congr_left ?_
    intro y _
    unfold setTwin upd bare
    dsimp only
    split_ifs <;> rfl
  · intro e he
    rw [← h.old e he]
    have hne2 : e ≠ n := by omega
    simp only [setTwin, upd, if_neg hne2]

theorem upd_self {α β : Type*} [DecidableEq α] (f : α → β) (i : α) (g : β → β) : upd f i g i = g (f i) := by simp [upd]

/-- The loop over the front edges. -/
theorem edges_fold (a off : Nat) {s : St K} (es : List Fr.FEdge)
    (hr : ∀ e ∈ es, off + e.v1 ∈ s.verts ∧ off + e.v2 ∈ s.verts ∧ e.v1 ≠ e.v2) :
    ∀ (w : World K) (refs : List (Nat × Nat)) (done : List Fr.FEdge), (∀ x ∈ refs, x.1 ≠ a) → EdgesAdded off s (w a) done →
    let r := es.foldl (addFrontEdge a off) (w, refs)
    EdgesAdded off s (r.1 a) (done ++ free es) ∧ (∀ m, m ≠ a → SameButTwins (w m) (r.1 m)) ∧
    ∀ m, m ≠ a → m ∉ refs.map (·.1) → r.1 m = w m := by
  induction es with
  | nil =>
    intro w refs done _ h
    refine ⟨?_, fun m _ => sbt_refl _, fun _ _ _ => rfl⟩
    simp only [free, List.filter_nil, List.append_nil]
    exact h
  | cons e es ih =>
    intro w refs done hrefs h
    rw [List.foldl_cons]
    obtain ⟨h1, h2, h3⟩ := hr e (by simp)
    have ih' := ih fun f hf => hr f (List.mem_cons_of_mem _ hf)
    have hfree : free (e :: es) = (if e.isFixed then [] else [e]) ++ free es := by
      unfold free
      rw [List.filter_cons]
      cases e.isFixed <;> simp
    rw [hfree]
    unfold addFrontEdge
    cases hf : e.isFixed with
    | true =>
      simp only [↓reduceIte, List.nil_append]
      exact ih' w refs done hrefs h
    | false =>
      simp only [Bool.false_eq_true, ↓reduceIte]
      rw [← List.append_assoc]
      have hs1 := edgesAdded_step h e h1 h2 h3
      cases ht : e.twin with
      | false =>
        simp only [Bool.false_eq_true, ↓reduceIte]
        obtain ⟨c1, c2, c3⟩ := ih' (upd w a fun s => s.addEdge .bdry (off + e.v1) (off + e.v2) e.color e.props) refs (done ++ [e]) hrefs (by rw [upd_self]; exact hs1)
        refine ⟨c1, fun m hm => ?_, fun m hm hm2 => ?_⟩
        · have := c2 m hm; rwa [upd_ne _ _ hm] at this
        · have := c3 m hm hm2; rwa [upd_ne _ _ hm] at this
      | true =>
        simp only [↓reduceIte]
        cases refs with
        | nil =>
          dsimp only
          obtain ⟨c1, c2, c3⟩ := ih' (upd w a fun s => s.addEdge .bdry (off + e.v1) (off + e.v2) e.color e.props) [] (done ++ [e]) hrefs (by rw [upd_self]; exact hs1)
          refine ⟨c1, fun m hm => ?_, fun m hm hm2 => ?_⟩
          · have := c2 m hm; rwa [upd_ne _ _ hm] at this
          · have := c3 m hm hm2; rwa [upd_ne _ _ hm] at this
        | cons x rest =>
          dsimp only
          have hx : x.1 ≠ a := hrefs x (by simp)
          obtain ⟨c1, c2, c3⟩ := ih' (upd (upd (upd w a fun s => s.addEdge .bdry (off + e.v1) (off + e.v2) e.color e.props) x.1
              fun s => setTwin s x.2 (a, (w a).nxt)) a fun s => setTwin s (w a).nxt x) rest (done ++ [e])
              (fun y hy => hrefs y (List.mem_cons_of_mem _ hy)) (by
                rw [upd_self, upd_ne _ _ hx.symm, upd_self]
                exact edgesAdded_twin hs1 _ _ h.nxt)
          refine ⟨c1, fun m hm => ?_, fun m hm hm2 => ?_⟩
          · have := c2 m hm
            rw [upd_ne _ _ hm] at this
            refine sbt_trans ?_ this
            by_cases hmx : m = x.1
            · subst hmx
              rw [upd_self, upd_ne _ _ hm]
              refine ⟨rfl, fun y => ?_⟩
              unfold setTwin upd
              dsimp only
              split_ifs <;> rfl
            · rw [upd_ne _ _ hmx, upd_ne _ _ hm]; exact sbt_refl _
          · simp only [List.map_cons, List.mem_cons, not_or] at hm2
            have := c3 m hm hm2.2
            rwa [upd_ne _ _ hm, upd_ne _ _ hm2.1, upd_ne _ _ hm] at this

/-! ### Ends of the front edges -/

theorem subEdges_ne (e : Fr.FEdge) (ps : List (Pt K)) : ∀ (st : List (Fr.MVert K)) (cur : Nat), cur < st.length → e.v2 < st.length →
    (cur ≠ e.v2) → ∀ f ∈ (Fr.subEdges e st cur ps).2, f.v1 ≠ f.v2 := by
  induction ps with
  | nil =>
    intro st cur _ _ hne f hf
    simp only [Fr.subEdges, List.mem_singleton] at hf
    subst hf; exact hne
  | cons p ps ih =>
    intro st cur hc h2 hne f hf
    rw [Fr.subEdges] at hf
    rcases List.mem_cons.mp hf with rfl | hf
    · exact ne_of_lt hc
    · exact ih _ _ (by simp) (by simp; omega) (by omega) f hf

theorem refineEdge_len (coords : List (Pt K)) (st : List (Fr.MVert K)) (e : Fr.FEdge) (h1 : e.v1 < st.length) (h2 : e.v2 < st.length) :
    st.length ≤ (Fr.refineEdge coords st e).1.length := by
  unfold Fr.refineEdge
  split_ifs
  · exact le_refl _
  · obtain ⟨ext, h, _⟩ := (subEdges_range e ((coords.drop 1).dropLast) st e.v1 h1 h2).1
    rw [h]; simp

theorem refineEdges_ne (sub : Fr.FEdge → Option (List (Pt K))) (es : List Fr.FEdge) :
    ∀ (st st' : List (Fr.MVert K)) (l : List Fr.FEdge), Fr.refineEdges sub st es = some (st', l) →
      (∀ e ∈ es, e.v1 < st.length ∧ e.v2 < st.length ∧ e.v1 ≠ e.v2) → ∀ f ∈ l, f.v1 ≠ f.v2 := by
  induction es with
  | nil => intro st st' l h _; simp only [Fr.refineEdges, Option.some.injEq, Prod.mk.injEq] at h; rw [← h.2]; simp
  | cons e es ih =>
    intro st st' l h hr
    rw [Fr.refineEdges] at h
    split_ifs at h with ht
    · cases hq : Fr.refineEdges sub st es with
      | none => rw [hq] at h; simp at h
      | some q =>
        rw [hq] at h
        simp only [Option.some.injEq, Prod.mk.injEq] at h
        rw [← h.2]
        intro f hf
        rcases List.mem_cons.mp hf with rfl | hf
        · exact (hr f (by simp)).2.2
        · exact ih _ _ _ hq (fun x hx => hr x (List.mem_cons_of_mem _ hx)) f hf
    · cases hs : sub e with
      | none => rw [hs] at h; simp at h
      | some coords =>
        rw [hs] at h
        dsimp only at h
        cases hq : Fr.refineEdges sub (Fr.refineEdge coords st e).1 es with
        | none => rw [hq] at h; simp at h
        | some q =>
          rw [hq] at h
          simp only [Option.some.injEq, Prod.mk.injEq] at h
          rw [← h.2]
          obtain ⟨r1, r2, r3⟩ := hr e (by simp)
          intro f hf
          rcases List.mem_append.mp hf with hf | hf
          · unfold Fr.refineEdge at hf
            split_ifs at hf
            · simp only [List.mem_singleton] at hf; subst hf; exact r3
            · exact subEdges_ne e _ st e.v1 r1 r2 r3 f hf
          · refine ih _ _ _ hq ?_ f hf
            intro x hx
            obtain ⟨x1, x2, x3⟩ := hr x (List.mem_cons_of_mem _ hx)
            have := refineEdge_len coords st e r1 r2
            exact ⟨by omega, by omega, x3⟩

end
end TQ

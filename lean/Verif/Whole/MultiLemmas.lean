import Verif.Whole.MultiModel
import Verif.Whole.Next

/-! # Lemmas: the links that the preparation makes -/

set_option linter.unusedSectionVars false

namespace TQ
open MS MS.St MM GN FrSpec MeshSpec
variable {K : Type*} [Field K] [LinearOrder K]

/-- The search with addresses finds the same edges. -/
theorem nbrA_snd (eps : K) (w : World K) (ms : List Nat) (e : Fr.SrcEdge K) :
    (nbrA eps w ms e).map (·.2) = Fr.nbrEdges eps (ms.map fun m => (bdryOf w m).map (·.2)) e := by
  have key : ∀ (ls : List (List ((Nat × Nat) × Fr.SrcEdge K))) (found : List ((Nat × Nat) × Fr.SrcEdge K)),
      (ls.foldl (nbrStepA eps e) found).map (·.2) = (ls.map fun l => l.map (·.2)).foldl (Fr.nbrStep eps e) (found.map (·.2)) := by
    intro ls
    induction ls with
    | nil => intro found; rfl
    | cons l ls ih =>
      intro found
      rw [List.foldl_cons, List.map_cons, List.foldl_cons, ih]
      congr 1
      unfold nbrStepA Fr.nbrStep
      dsimp only
      rw [List.map_mergeSort (s := fun a b => !decide (Pt.normSq (Fr.srcMid b - e.p1) < Pt.normSq (Fr.srcMid a - e.p1))) (fun _ _ _ _ => rfl)]
      rw [List.map_append, List.filter_map, List.filter_map]
      rfl
  unfold nbrA Fr.nbrEdges
  rw [key, List.map_map]
  rfl

/-- Every edge found is a boundary edge of one of the meshes. -/
theorem nbrA_mem {eps : K} {w : World K} {ms : List Nat} {e : Fr.SrcEdge K} {n : (Nat × Nat) × Fr.SrcEdge K} (h : n ∈ nbrA eps w ms e) :
    n.1.1 ∈ ms ∧ n.1.2 ∈ (w n.1.1).es .bdry ∧ n.2 = edgeSrc (w n.1.1) n.1.2 := by
  have key : ∀ (ls : List (List ((Nat × Nat) × Fr.SrcEdge K))) (found : List ((Nat × Nat) × Fr.SrcEdge K)),
      n ∈ ls.foldl (nbrStepA eps e) found → n ∈ found ∨ ∃ l ∈ ls, n ∈ l := by
    intro ls
    induction ls with
    | nil => intro found h; exact Or.inl h
    | cons l ls ih =>
      intro found h
      rcases ih _ h with h | ⟨l', h1, h2⟩
      · unfold nbrStepA at h
        rw [List.mem_mergeSort, List.mem_append] at h
        rcases h with h | h
        · exact Or.inl h
        · exact Or.inr ⟨l, List.mem_cons_self .., (List.mem_filter.mp (List.mem_filter.mp h).1).1⟩
      · exact Or.inr ⟨l', List.mem_cons_of_mem _ h1, h2⟩
  rcases key _ _ h with h | ⟨l, h1, h2⟩
  · simp at h
  · obtain ⟨m, hm, rfl⟩ := List.mem_map.mp h1
    obtain ⟨x, hx, rfl⟩ := List.mem_map.mp h2
    exact ⟨hm, hx, rfl⟩

/-! ### The front edges with a twin -/

/-- The front edges that become boundary edges with a link. -/
def twinned (es : List Fr.FEdge) : List Fr.FEdge := es.filter fun e => !e.isFixed && e.twin

theorem twinned_cons (e : Fr.FEdge) (es : List Fr.FEdge) : twinned (e :: es) = (if !e.isFixed && e.twin then [e] else []) ++ twinned es := by
  unfold twinned
  rw [List.filter_cons]
  split_ifs <;> rfl

theorem twinned_append (es fs : List Fr.FEdge) : twinned (es ++ fs) = twinned es ++ twinned fs := List.filter_append ..

theorem twinned_none {es : List Fr.FEdge} (h : ∀ e ∈ es, e.twin = false) : twinned es = [] := by
  unfold twinned
  rw [List.filter_eq_nil_iff]
  intro e he
  simp [h e he]

theorem subEdges_twin (e : Fr.FEdge) (ps : List (Pt K)) : ∀ (st : List (Fr.MVert K)) (cur : Nat), ∀ f ∈ (Fr.subEdges e st cur ps).2, f.twin = false := by
  induction ps with
  | nil => intro st cur f hf; simp only [Fr.subEdges, List.mem_singleton] at hf; subst hf; rfl
  | cons p ps ih =>
    intro st cur f hf
    simp only [Fr.subEdges, List.mem_cons] at hf
    rcases hf with rfl | hf
    · rfl
    · exact ih _ _ f hf

theorem refineEdges_twinned (sub : Fr.FEdge → Option (List (Pt K))) (es : List Fr.FEdge) :
    ∀ (st : List (Fr.MVert K)) (q : List (Fr.MVert K) × List Fr.FEdge), Fr.refineEdges sub st es = some q → twinned q.2 = twinned es ∧ ∃ ext, q.1 = st ++ ext := by
  induction es with
  | nil => intro st q h; simp only [Fr.refineEdges, Option.some.injEq] at h; subst h; exact ⟨rfl, [], by simp⟩
  | cons e es ih =>
    intro st q h
    unfold Fr.refineEdges at h
    cases ht : e.twin with
    | true =>
      rw [ht] at h
      simp only [↓reduceIte] at h
      cases hr : Fr.refineEdges sub st es with
      | none => rw [hr] at h; simp at h
      | some q' =>
        rw [hr] at h
        simp only [Option.some.injEq] at h
        subst h
        obtain ⟨i1, i2⟩ := ih st q' hr
        exact ⟨by rw [twinned_cons, twinned_cons, i1], i2⟩
    | false =>
      rw [ht] at h
      simp only [Bool.false_eq_true, ↓reduceIte] at h
      cases hs : sub e with
      | none => rw [hs] at h; simp at h
      | some coords =>
        rw [hs] at h
        dsimp only at h
        cases hr : Fr.refineEdges sub (Fr.refineEdge coords st e).1 es with
        | none => rw [hr] at h; simp at h
        | some q' =>
          rw [hr] at h
          simp only [Option.some.injEq] at h
          subst h
          obtain ⟨i1, ext, i2⟩ := ih _ q' hr
          have h0 : ∀ f ∈ (Fr.refineEdge coords st e).2, f.twin = false := by
            intro f hf
            unfold Fr.refineEdge at hf
            split_ifs at hf
            · simp only [List.mem_singleton] at hf; subst hf; exact ht
            · exact subEdges_twin _ _ _ _ f hf
          refine ⟨?_, ?_⟩
          · rw [twinned_append, twinned_none h0, i1, twinned_cons, ht]; simp
          · obtain ⟨x, hx⟩ : ∃ x, (Fr.refineEdge coords st e).1 = st ++ x := by
              unfold Fr.refineEdge
              split_ifs
              · exact ⟨[], by simp⟩
              · exact subEdges_ext _ _ _ _
            exact ⟨x ++ ext, by rw [i2, hx]; simp⟩

theorem ghosts_twinned (es : List Fr.FEdge) : twinned (Fr.addGhosts es) = twinned es := by
  induction es with
  | nil => rfl
  | cons e es ih =>
    have : Fr.addGhosts (e :: es) = (if e.isFixed then
      [⟨e.v2, e.v1, e.color, Flags.add (Flags.add 0 Flags.eIsFixed) Flags.eIsGhost, false⟩, e] else [e]) ++ Fr.addGhosts es := rfl
    rw [this, twinned_append, ih, twinned_cons]
    congr 1
    cases h : e.isFixed <;> cases h2 : e.twin <;> simp [twinned, h, h2]

/-- The loop over the front edges links the new boundary edges with the given ones, one after the other. -/
theorem fold_links (a off : Nat) (es : List Fr.FEdge) : ∀ (w : World K) (refs : List (Nat × Nat)), (∀ x ∈ refs, x.1 ≠ a) → refs.Nodup →
    (twinned es).length = refs.length →
    let r := (es.foldl (addFrontEdge a off) (w, refs)).1
    let Good := fun (p : Fr.FEdge × (Nat × Nat)) (e : Nat) => ((r a).E e).v1 = off + p.1.v1 ∧ ((r a).E e).v2 = off + p.1.v2 ∧ ((r a).E e).twin = some p.2 ∧
      ((r p.2.1).E p.2.2).twin = some (a, e)
    (∀ e, e < (w a).nxt → (r a).E e = (w a).E e) ∧
    (∃ new, (r a).es .bdry = (w a).es .bdry ++ new ∧ ∀ e ∈ new, ((r a).E e).twin = none ∨ ∃ p ∈ (twinned es).zip refs, Good p e) ∧
    (∀ p ∈ (twinned es).zip refs, ∃ e ∈ (r a).es .bdry, Good p e) ∧
    (∀ m e, m ≠ a → (m, e) ∉ refs → ((r m).E e).twin = ((w m).E e).twin) := by
  induction es with
  | nil =>
    intro w refs _ _ hl
    have : refs = [] := by simpa [twinned] using hl.symm
    subst this
    exact ⟨fun _ _ => rfl, ⟨[], by simp, by simp⟩, by simp [twinned], fun _ _ _ _ => rfl⟩
  | cons f es ih =>
    intro w refs hrefs hnd hl
    rw [List.foldl_cons]
    rw [twinned_cons] at hl ⊢
    cases hf : f.isFixed with
    | true =>
      rw [show addFrontEdge a off (w, refs) f = (w, refs) by simp [addFrontEdge, hf]]
      simp only [hf, Bool.not_true, Bool.false_and, Bool.false_eq_true, ↓reduceIte, List.nil_append] at hl ⊢
      exact ih w refs hrefs hnd hl
    | false =>
      simp only [hf, Bool.not_false, Bool.true_and, Bool.false_eq_true, ↓reduceIte] at hl ⊢
      cases ht : f.twin with
      | false =>
        rw [show addFrontEdge a off (w, refs) f = (upd w a fun s => s.addEdge .bdry (off + f.v1) (off + f.v2) f.color f.props, refs) by simp [addFrontEdge, hf, ht]]
        simp only [ht, Bool.false_eq_true, ↓reduceIte, List.nil_append] at hl ⊢
        obtain ⟨c1, ⟨new, n1, n2⟩, c3, c4⟩ := ih (upd w a fun s => s.addEdge .bdry (off + f.v1) (off + f.v2) f.color f.props) refs hrefs hnd hl
        rw [upd_self] at c1 n1
        have hn : ((w a).addEdge .bdry (off + f.v1) (off + f.v2) f.color f.props).nxt = (w a).nxt + 1 := rfl
        rw [hn] at c1
        refine ⟨fun e he => ?_, ⟨(w a).nxt :: new, ?_, ?_⟩, c3, fun m e hm hx => ?_⟩
        · rw [c1 e (by omega)]; simp [addEdge, upd, ne_of_lt he]
        · rw [n1]; simp [addEdge, upd]
        · intro e he
          rcases List.mem_cons.mp he with rfl | he
          · left; rw [c1 _ (by omega)]; simp [addEdge, upd]
          · exact n2 e he
        · rw [c4 m e hm hx, upd_ne _ _ hm]
      | true =>
        cases refs with
        | nil => simp [ht] at hl
        | cons x rest =>
          rw [show addFrontEdge a off (w, x :: rest) f = (upd (upd (upd w a fun s => s.addEdge .bdry (off + f.v1) (off + f.v2) f.color f.props) x.1
              fun s => setTwin s x.2 (a, (w a).nxt)) a fun s => setTwin s (w a).nxt x, rest) by simp [addFrontEdge, hf, ht]]
          simp only [ht, ↓reduceIte, List.cons_append, List.nil_append, List.length_cons, Nat.add_right_cancel_iff, List.zip_cons_cons] at hl ⊢
          have hx : x.1 ≠ a := hrefs x (by simp)
          rw [List.nodup_cons] at hnd
          obtain ⟨c1, ⟨new, n1, n2⟩, c3, c4⟩ := ih (upd (upd (upd w a fun s => s.addEdge .bdry (off + f.v1) (off + f.v2) f.color f.props) x.1
              fun s => setTwin s x.2 (a, (w a).nxt)) a fun s => setTwin s (w a).nxt x) rest
              (fun y hy => hrefs y (List.mem_cons_of_mem _ hy)) hnd.2 hl
          rw [upd_self, upd_ne _ _ hx.symm, upd_self] at c1 n1
          have hn : (setTwin ((w a).addEdge .bdry (off + f.v1) (off + f.v2) f.color f.props) (w a).nxt x).nxt = (w a).nxt + 1 := rfl
          rw [hn] at c1
          have hE := c1 (w a).nxt (by omega)
          have hX := c4 x.1 x.2 hx hnd.1
          rw [upd_ne _ _ hx, upd_self] at hX
          have hX' : (((List.foldl (addFrontEdge a off) (upd (upd (upd w a fun s => s.addEdge .bdry (off + f.v1) (off + f.v2) f.color f.props) x.1
              fun s => setTwin s x.2 (a, (w a).nxt)) a fun s => setTwin s (w a).nxt x, rest) es).1 x.1).E x.2).twin = some (a, (w a).nxt) := by
            rw [hX]; simp [setTwin, upd]
          refine ⟨fun e he => ?_, ⟨(w a).nxt :: new, ?_, ?_⟩, ?_, fun m e hm hxr => ?_⟩
          · rw [c1 e (by omega)]; simp [addEdge, setTwin, upd, ne_of_lt he]
          · rw [n1]; simp [addEdge, setTwin, upd]
          · intro e he
            rcases List.mem_cons.mp he with rfl | he
            · right
              refine ⟨(f, x), List.mem_cons_self .., ?_, ?_, ?_, hX'⟩ <;> rw [hE] <;> simp [addEdge, setTwin, upd]
            · rcases n2 e he with h | ⟨p, hp, h⟩
              · exact Or.inl h
              · exact Or.inr ⟨p, List.mem_cons_of_mem _ hp, h⟩
          · intro p hp
            rcases List.mem_cons.mp hp with rfl | hp
            · refine ⟨(w a).nxt, ?_, ?_, ?_, ?_, hX'⟩
              · rw [n1]; simp [addEdge, setTwin, upd]
              all_goals rw [hE]; simp [addEdge, setTwin, upd]
            · exact c3 p hp
          · simp only [List.mem_cons, not_or] at hxr
            rw [c4 m e hm hxr.2, upd_ne _ _ hm]
            by_cases hmx : m = x.1
            · subst hmx
              rw [upd_self, upd_ne _ _ hm]
              have : e ≠ x.2 := fun h => hxr.1 (by rw [h])
              simp [setTwin, upd, this]
            · rw [upd_ne _ _ hmx, upd_ne _ _ hm]

theorem forall₂_filter {α β : Type*} {R : α → β → Prop} {l : List α} {m : List β} (p : α → Bool) (q : β → Bool) (h : List.Forall₂ R l m)
    (hpq : ∀ a b, R a b → p a = q b) : List.Forall₂ R (l.filter p) (m.filter q) := by
  induction h with
  | nil => exact .nil
  | @cons a b l m hab _ ih =>
    rw [List.filter_cons, List.filter_cons, hpq a b hab]
    split_ifs
    · exact .cons hab ih
    · exact ih

/-- The neighbour edges in the order in which they are met. -/
theorem calls_twinned {nbr : Fr.SrcEdge K → List (Fr.SrcEdge K)} {bd : List (List (Fr.SrcEdge K))} {fx : List (Fr.SrcEdge K)}
    (hfree : ∀ b ∈ bd, ∀ e ∈ b, ∀ n ∈ nbr e, n.fixed = false) :
    (Fr.collectCalls nbr bd fx).filter (fun c => !c.1.fixed && c.2) = (bd.flatMap fun b => b.flatMap nbr).map fun n => (n, true) := by
  unfold Fr.collectCalls
  rw [List.filter_append]
  have h2 : (fx.map fun e => (e, false)).filter (fun c => !c.1.fixed && c.2) = [] := by
    rw [List.filter_eq_nil_iff]
    intro c hc
    obtain ⟨e, -, rfl⟩ := List.mem_map.mp hc
    simp
  rw [h2, List.append_nil, List.filter_flatMap, List.map_flatMap]
  refine List.flatMap_congr fun b hb => ?_
  rw [List.filter_flatMap, List.map_flatMap]
  refine List.flatMap_congr fun e he => ?_
  split_ifs with h
  · rw [List.filter_eq_self]
    intro c hc
    obtain ⟨n, hn, rfl⟩ := List.mem_map.mp hc
    simp [hfree b hb e he n hn]
  · have : nbr e = [] := by rwa [gt_iff_lt, List.length_pos_iff, not_not] at h
    simp [this]

/-- The front edges with a twin are the neighbour edges, backwards. -/
theorem front_twinned [IsStrictOrderedRing K] {nbr : Fr.SrcEdge K → List (Fr.SrcEdge K)} {bd : List (List (Fr.SrcEdge K))} {fx : List (Fr.SrcEdge K)}
    (hfree : ∀ b ∈ bd, ∀ e ∈ b, ∀ n ∈ nbr e, n.fixed = false) (sub : List (Fr.MVert K) → Fr.FEdge → Option (List (Pt K))) {vs : List (Fr.MVert K)} {es : List Fr.FEdge} {A : K}
    (h : Fr.initFront sub [] (Fr.collect nbr bd fx) = some (vs, es, A)) :
    List.Forall₂ (fun (f : Fr.FEdge) (n : Fr.SrcEdge K) => f.v1 < vs.length ∧ f.v2 < vs.length ∧ Fr.vpos vs f.v1 = n.p2 ∧ Fr.vpos vs f.v2 = n.p1 ∧
      Fr.FID.find (Fr.collect nbr bd fx).vmap n.p2 = some f.v1 ∧ Fr.FID.find (Fr.collect nbr bd fx).vmap n.p1 = some f.v2)
      (twinned es) (bd.flatMap fun b => b.flatMap nbr) := by
  have hg := good_collect nbr bd fx
  obtain ⟨es0, h0, hfa⟩ := initEdges_calls hg 0
  unfold Fr.initFront at h
  rw [show ([] : List (Fr.MVert K)).length = 0 from rfl, h0] at h
  dsimp only at h
  cases hr : Fr.refineEdges (sub (Fr.initVerts [] (Fr.collect nbr bd fx))) (Fr.initVerts [] (Fr.collect nbr bd fx)) es0 with
  | none => rw [hr] at h; simp at h
  | some q =>
    rw [hr] at h
    simp only [Option.some.injEq, Prod.mk.injEq] at h
    obtain ⟨rfl, rfl, rfl⟩ := h
    obtain ⟨t1, ext, t2⟩ := refineEdges_twinned _ _ _ _ hr
    rw [ghosts_twinned, t1]
    have key := forall₂_filter (fun e : Fr.FEdge => !e.isFixed && e.twin) (fun c : Fr.SrcEdge K × Bool => !c.1.fixed && c.2) hfa (by
      rintro e c ⟨i, j, rfl, -, -⟩
      rw [edgeProps_fixed])
    rw [calls_twinned hfree, List.forall₂_map_right_iff] at key
    refine key.imp ?_
    rintro f n ⟨i, j, rfl, hi, hj⟩
    have li := coord_some_lt hi
    have lj := coord_some_lt hj
    have hl : (Fr.initVerts [] (Fr.collect nbr bd fx)).length = (Fr.collect nbr bd fx).verts.length := by simp [Fr.initVerts]
    have e1 := vpos_init [] (Fr.collect nbr bd fx) hi
    have e2 := vpos_init [] (Fr.collect nbr bd fx) hj
    rw [show ([] : List (Fr.MVert K)).length = 0 from rfl] at e1 e2
    dsimp only
    rw [t2, vpos_append (by omega), vpos_append (by omega), e1, e2, List.length_append]
    have f1 := (hg.inv _ _).mpr hi
    have f2 := (hg.inv _ _).mpr hj
    exact ⟨by omega, by omega, rfl, rfl, by rw [Nat.zero_add]; exact f1, by rw [Nat.zero_add]; exact f2⟩

/-- The links after the preparation of a mesh. -/
theorem links_made [IsStrictOrderedRing K] {nbr : Fr.SrcEdge K → List (Fr.SrcEdge K)} {bd : List (List (Fr.SrcEdge K))} {fx : List (Fr.SrcEdge K)}
    (D : DomainData nbr bd fx) {P : Prep K} (hP : P.front = Fr.collect nbr bd fx) {w w' : World K} {a : Nat} (hw : WF (w a))
    (hr : ∀ x ∈ P.refs, x.1 ≠ a) (nd : P.refs.Nodup) (h : prepareMesh P w a = .ret true w') {srcs : List ((Nat × Nat) × Fr.SrcEdge K)}
    (h1 : P.refs = srcs.map (·.1)) (h2 : (bd.flatMap fun b => b.flatMap nbr) = srcs.map (·.2)) :
    let T := fun (p : (Nat × Nat) × Fr.SrcEdge K) (e : Nat) => (w' a).pos ((w' a).E e).v1 = p.2.p2 ∧ (w' a).pos ((w' a).E e).v2 = p.2.p1 ∧
      ((w' a).E e).twin = some p.1 ∧ ((w' p.1.1).E p.1.2).twin = some (a, e)
    (∀ p ∈ srcs, ∃ e ∈ (w' a).es .bdry, T p e) ∧ (∀ e ∈ (w' a).es .bdry, ((w' a).E e).twin = none ∨ ∃ p ∈ srcs, T p e) ∧
    (∀ m e, m ≠ a → (m, e) ∉ P.refs → ((w' m).E e).twin = ((w m).E e).twin) ∧
    ∃ place : Pt K → Nat, ∀ e ∈ (w' a).es .bdry, ((w' a).E e).twin ≠ none →
      ((w' a).E e).v1 = place ((w' a).pos ((w' a).E e).v1) ∧ ((w' a).E e).v2 = place ((w' a).pos ((w' a).E e).v2) := by
  obtain ⟨hemp, -, vs, es, A, hf, hw'⟩ := prepare_steps h
  obtain ⟨vs', es', A', hf', -, -, -, -, E, -, -⟩ := prepared_spec D hP hw hr h
  rw [hf] at hf'
  simp only [Option.some.injEq, Prod.mk.injEq] at hf'
  obtain ⟨rfl, rfl, rfl⟩ := hf'
  rw [isEmpty_iff] at hemp
  obtain ⟨-, -, -, -, hb⟩ := hemp
  obtain ⟨-, -, -, c4, -, -, -, -, -, -, -, c12⟩ := addVerts_spec (vs ++ fixVerts P.fixed) (w a) hw
  have hpos : ∀ i, i < vs.length → (w' a).pos ((w a).nxt + i) = Fr.vpos vs i := by
    intro i hi
    have hg : vs[i]? = some vs[i] := List.getElem?_eq_getElem hi
    have := c12 i _ (by rw [List.getElem?_append_left hi]; exact hg)
    unfold MS.St.pos Fr.vpos
    rw [(E.vdata _).1, this, hg]; rfl
  rw [hP] at hf
  have ft := front_twinned (fun b hb e he => (D.free b hb e he).2) P.sub hf
  rw [h2] at ft
  have hlen : (twinned es).length = P.refs.length := by rw [h1, ft.length_eq]; simp
  obtain ⟨-, ⟨new, n1, n2⟩, k3, k4⟩ := fold_links a (w a).nxt es (upd w a fun s => (vs ++ fixVerts P.fixed).foldl addVert s) P.refs hr nd hlen
  rw [← hw'] at n1 n2 k3 k4
  rw [upd_self, c4, hb, List.nil_append] at n1
  -- the entry of `srcs` for an entry of the other list, and back
  rw [List.forall₂_map_right_iff] at ft
  have z1 : ∀ p ∈ (twinned es).zip P.refs, ∃ n, (p.2, n) ∈ srcs ∧ p.1.v1 < vs.length ∧ p.1.v2 < vs.length ∧ Fr.vpos vs p.1.v1 = n.p2 ∧ Fr.vpos vs p.1.v2 = n.p1 ∧
      Fr.FID.find (Fr.collect nbr bd fx).vmap n.p2 = some p.1.v1 ∧ Fr.FID.find (Fr.collect nbr bd fx).vmap n.p1 = some p.1.v2 := by
    rw [h1]
    clear h1 h2 hlen n2 k3 k4
    generalize twinned es = ts at ft
    induction ft with
    | nil => simp
    | @cons f x fs xs hh _ ih =>
      intro p hp
      rw [List.map_cons, List.zip_cons_cons, List.mem_cons] at hp
      rcases hp with rfl | hp
      · exact ⟨x.2, List.mem_cons_self .., hh⟩
      · obtain ⟨n, q1, q2⟩ := ih p hp
        exact ⟨n, List.mem_cons_of_mem _ q1, q2⟩
  have z2 : ∀ x ∈ srcs, ∃ f, (f, x.1) ∈ (twinned es).zip P.refs ∧ f.v1 < vs.length ∧ f.v2 < vs.length ∧ Fr.vpos vs f.v1 = x.2.p2 ∧ Fr.vpos vs f.v2 = x.2.p1 ∧
      Fr.FID.find (Fr.collect nbr bd fx).vmap x.2.p2 = some f.v1 ∧ Fr.FID.find (Fr.collect nbr bd fx).vmap x.2.p1 = some f.v2 := by
    rw [h1]
    clear h1 h2 hlen n2 k3 k4 z1
    generalize twinned es = ts at ft
    induction ft with
    | nil => simp
    | @cons f x fs xs hh _ ih =>
      intro y hy
      rw [List.map_cons, List.zip_cons_cons]
      rcases List.mem_cons.mp hy with rfl | hy
      · exact ⟨f, List.mem_cons_self .., hh⟩
      · obtain ⟨g, q1, q2⟩ := ih y hy
        exact ⟨g, List.mem_cons_of_mem _ q1, q2⟩
  refine ⟨fun p hp => ?_, fun e he => ?_, fun m e hm hx => ?_, fun p => (w a).nxt + (Fr.FID.find (Fr.collect nbr bd fx).vmap p).getD 0, fun e he ht => ?_⟩
  · obtain ⟨f, q1, l1, l2, q2, q3, -⟩ := z2 p hp
    obtain ⟨e, he, g1, g2, g3, g4⟩ := k3 _ q1
    exact ⟨e, he, by rw [g1, hpos _ l1, q2], by rw [g2, hpos _ l2, q3], g3, g4⟩
  · rw [n1] at he
    rcases n2 e he with h | ⟨p, hp, g1, g2, g3, g4⟩
    · exact Or.inl h
    · obtain ⟨n, q1, l1, l2, q2, q3, -⟩ := z1 p hp
      exact Or.inr ⟨(p.2, n), q1, by rw [g1, hpos _ l1, q2], by rw [g2, hpos _ l2, q3], g3, g4⟩
  · rw [k4 m e hm hx, upd_ne _ _ hm]
  · rw [n1] at he
    rcases n2 e he with h | ⟨p, hp, g1, g2, -, -⟩
    · exact absurd h ht
    · obtain ⟨n, -, l1, l2, q2, q3, q4, q5⟩ := z1 p hp
      rw [g1, g2, hpos _ l1, hpos _ l2, q2, q3]
      dsimp only
      rw [q4, q5]
      exact ⟨rfl, rfl⟩

end TQ

import Verif.Boundary.Lemmas
import Mathlib.Data.Rat.Defs
import Mathlib.Algebra.Order.Ring.Rat

/-!
# Properties of edge lists and boundaries: C17–C22, C24, C26, C78, C83 (C23 is in `Domain/Props`)
-/

set_option linter.unusedSectionVars false

namespace TQ
open GeoSpec BdSpec
variable {K : Type*} [Field K] [LinearOrder K] [IsStrictOrderedRing K]

/-! ## C17 -/

/-- A sequence of calls of `EdgeList::add_edge`; an exception is caught by the caller, who goes on;
an abort ends the program. -/
def runAdds (pos : Nat → Pt K) : List (Nat × Nat × Int) → EList K → EList K
  | [], L => L
  | (a, b, c) :: cs, L =>
    match L.addEdge pos a b c with
    | .throws => runAdds pos cs L
    | .abort => L
    | .ok L' => runAdds pos cs L'

theorem connected_snoc {es : List BEdge} {e : BEdge} (h : Connected es)
    (hl : ∀ l ∈ es.getLast?, l.v2 = e.v1) : Connected (es ++ [e]) := by
  intro i hi
  rw [List.length_append, List.length_singleton] at hi
  rcases Nat.lt_or_ge (i + 1) es.length with h1 | h1
  · rw [List.getElem_append_left (by omega), List.getElem_append_left h1]
    exact h i h1
  · have hi' : i = es.length - 1 := by omega
    subst hi'
    rw [List.getElem_append_left (by omega), List.getElem_append_right (by omega)]
    simp only [List.getElem_singleton]
    apply hl
    rw [List.getLast?_eq_getElem?, List.getElem?_eq_getElem (by omega)]
    exact rfl

theorem addEdge_ok {pos : Nat → Pt K} {L L' : EList K} {a b : Nat} {c : Int}
    (ho : L.oriented = true) (h : L.addEdge pos a b c = .ok L') :
    (∀ l ∈ L.edges.getLast?, l.v2 = a) ∧ L'.edges = L.edges ++ [⟨a, b, c, 0⟩] ∧
    L.insertEdge pos L.edges.length ⟨a, b, c, 0⟩ = some L' := by
  have hins : ∀ r : EList.AddRes K, (match L.insertEdge pos L.edges.length ⟨a, b, c, 0⟩ with
      | none => EList.AddRes.abort
      | some L' => .ok L') = r → r = .ok L' →
      L'.edges = L.edges ++ [⟨a, b, c, 0⟩] ∧
      L.insertEdge pos L.edges.length ⟨a, b, c, 0⟩ = some L' := by
    intro r hr h
    subst hr
    cases h1 : L.insertEdge pos L.edges.length ⟨a, b, c, 0⟩ with
    | none => rw [h1] at h; simp at h
    | some L1 =>
      rw [h1] at h; simp at h; subst h
      exact ⟨by have := (insertEdge_some h1).2.1; simpa using this, rfl⟩
  unfold EList.addEdge at h
  dsimp only at h
  split_ifs at h with h1
  · rcases h1 with h1 | h1
    · rw [ho] at h1; simp at h1
    · have : L.edges = [] := List.eq_nil_of_length_eq_zero (by omega)
      exact ⟨by simp [this], hins _ rfl h⟩
  · cases hl : L.edges.getLast? with
    | none => rw [hl] at h; exact ⟨by simp, hins _ rfl h⟩
    | some e =>
      rw [hl] at h; dsimp only at h
      split_ifs at h with h2
      refine ⟨?_, hins _ rfl h⟩
      intro l hl'; simp at hl'; subst hl'; exact (not_not.mp h2).symm

/-- C17: whatever calls of `add_edge` are made on an oriented edge list, it is a connected chain, and
its area attribute is the one of `compute_area`. -/
theorem C17_chain (pos : Nat → Pt K) (cs : List (Nat × Nat × Int)) (L : EList K)
    (ho : L.oriented = true) (h : Connected L.edges) : Connected (runAdds pos cs L).edges := by
  induction cs generalizing L with
  | nil => exact h
  | cons t cs ih =>
    obtain ⟨a, b, c⟩ := t
    rw [runAdds]
    cases h1 : L.addEdge pos a b c with
    | throws => exact ih L ho h
    | abort => exact h
    | ok L' =>
      obtain ⟨h2, h3, h4⟩ := addEdge_ok ho h1
      refine ih L' ((insertEdge_some h4).2.2.1.trans ho) ?_
      rw [h3]
      exact connected_snoc h h2

/-- C17: `add_edge` throws exactly if the list is oriented, not empty and the new edge does not start
at the end of the last one; otherwise the edge is appended (or the edge has zero length and the
program aborts). -/
theorem C17_throws (pos : Nat → Pt K) (L : EList K) (ho : L.oriented = true) (a b : Nat) (c : Int) :
    (L.addEdge pos a b c = .throws ↔ ∃ l ∈ L.edges.getLast?, l.v2 ≠ a) ∧
    ((∀ l ∈ L.edges.getLast?, l.v2 = a) → pos a ≠ pos b →
      ∃ L', L.addEdge pos a b c = .ok L' ∧ L'.edges = L.edges ++ [⟨a, b, c, 0⟩]) := by
  have hne : (match L.insertEdge pos L.edges.length ⟨a, b, c, 0⟩ with
      | none => EList.AddRes.abort
      | some L' => .ok L') ≠ (.throws : EList.AddRes K) := by
    cases L.insertEdge pos L.edges.length ⟨a, b, c, 0⟩ <;> simp
  have hiff : L.addEdge pos a b c = .throws ↔ ∃ l ∈ L.edges.getLast?, l.v2 ≠ a := by
    unfold EList.addEdge; dsimp only
    split_ifs with h1
    · rcases h1 with h1 | h1
      · rw [ho] at h1; simp at h1
      · have : L.edges = [] := List.eq_nil_of_length_eq_zero (by omega)
        rw [this] at hne ⊢; simp at hne ⊢; exact hne
    · cases hl : L.edges.getLast? with
      | none => simp at hne ⊢; exact hne
      | some e =>
        dsimp only
        split_ifs with h2
        · simp; exact fun h => h2 h.symm
        · simp only [Option.mem_def, Option.some.injEq, exists_eq_left']
          constructor
          · intro h; exact absurd h hne
          · intro h; exact absurd (not_not.mp h2).symm h
  refine ⟨hiff, ?_⟩
  intro hl hp
  cases h1 : L.addEdge pos a b c with
  | throws =>
    obtain ⟨l, h2, h3⟩ := hiff.mp h1
    exact absurd (hl l h2) h3
  | abort =>
    exfalso
    have hi : ∃ L', L.insertEdge pos L.edges.length ⟨a, b, c, 0⟩ = some L' := by
      unfold EList.insertEdge; rw [if_neg hp]; exact ⟨_, rfl⟩
    obtain ⟨L', hi⟩ := hi
    unfold EList.addEdge at h1; dsimp only at h1
    rw [hi] at h1; dsimp only at h1
    split_ifs at h1
    cases hl : L.edges.getLast? with
    | none => rw [hl] at h1; simp at h1
    | some e => rw [hl] at h1; dsimp only at h1; split_ifs at h1
  | ok L' => exact ⟨L', rfl, (addEdge_ok ho h1).2.1⟩

/-- A square of vertices 0,1,2,3 used in the examples. -/
def sq (i : Nat) : Pt ℚ :=
  match i with
  | 0 => ⟨0, 0⟩ | 1 => ⟨2, 0⟩ | 2 => ⟨2, 2⟩ | 3 => ⟨0, 2⟩ | _ => ⟨9, 9⟩

example : (runAdds sq [(0, 1, 1), (2, 3, 1), (1, 2, 1), (2, 0, 1)] (emptyBoundary : EList ℚ)).edges.length
    = 3 := by decide +kernel

/-! ## C83: boundaries bypass the check -/

/-- C83 (refuted): `Boundary::add_edge` accepts edges that are not connected to the chain. -/
theorem C83_boundary_chain_violated : ∃ L L' : EList ℚ,
    (emptyBoundary : EList ℚ).bAddEdge sq 0 1 1 = some L ∧ L.bAddEdge sq 2 3 1 = some L' ∧
    ¬ Connected L'.edges := by
  refine ⟨⟨true, [⟨0, 1, 1, 1⟩], 0⟩, ⟨true, [⟨0, 1, 1, 1⟩, ⟨2, 3, 1, 1⟩], 0⟩, by decide +kernel,
    by decide +kernel, ?_⟩
  intro h
  exact absurd (h 0 (by simp)) (by decide)

/-- C83, what holds: the chain stays connected if the caller starts each edge at the end of the
previous one. -/
theorem C83_boundary_chain_partial (pos : Nat → Pt K) (L L' : EList K) (a b : Nat) (c : Int)
    (h : Connected L.edges) (hl : ∀ l ∈ L.edges.getLast?, l.v2 = a)
    (hadd : L.bAddEdge pos a b c = some L') : Connected L'.edges := by
  obtain ⟨_, h2⟩ := bAddEdge_some hadd
  have := (insertEdge_some h2).2.1
  simp only [List.take_length, List.drop_length] at this
  rw [this]
  exact connected_snoc h hl

/-! ## C20 -/

/-- C20: if the calls of `add_edge` on an empty boundary produce a closed loop, the maintained area is
the shoelace area of the polygon. -/
theorem C20_boundary_area (pos : Nat → Pt K) (calls : List (Nat × Nat × Int)) (L : EList K)
    (h : runCalls pos (calls.map some) emptyBoundary = .ok L) (hl : Loop L.edges) :
    L.area = polygonArea (corners pos L.edges) := by
  obtain ⟨_, _, _, _, h4, _⟩ := runCalls_ok pos _ _ L rfl
    (by unfold AreaInv; simp [emptyBoundary, computeArea]) h
  rw [h4, computeArea_loop _ _ hl]

/-- C20 for `EdgeList::add_edge`. -/
theorem C20_edgelist_area (pos : Nat → Pt K) (calls : List (Nat × Nat × Int))
    (hl : Loop (runAdds pos calls (emptyBoundary : EList K)).edges) :
    (runAdds pos calls (emptyBoundary : EList K)).area =
      polygonArea (corners pos (runAdds pos calls (emptyBoundary : EList K)).edges) := by
  have : ∀ (calls : List (Nat × Nat × Int)) (L : EList K), L.oriented = true → AreaInv pos L →
      AreaInv pos (runAdds pos calls L) := by
    intro calls
    induction calls with
    | nil => intro L _ h; exact h
    | cons t cs ih =>
      intro L ho h
      obtain ⟨a, b, c⟩ := t
      rw [runAdds]
      cases h1 : L.addEdge pos a b c with
      | throws => exact ih L ho h
      | abort => exact h
      | ok L' =>
        obtain ⟨h2, h3, h4⟩ := addEdge_ok ho h1
        exact ih L' ((insertEdge_some h4).2.2.1.trans ho) (insertEdge_areaInv ho h h4)
  rw [this calls emptyBoundary rfl (by unfold AreaInv; simp [emptyBoundary, computeArea]),
    computeArea_loop _ _ hl]

example : ∃ L : EList ℚ, runCalls sq ([(0, 1, 1), (1, 2, 1), (2, 3, 1), (3, 0, 1)].map some)
    emptyBoundary = .ok L ∧ Loop L.edges ∧ L.area = 4 := by
  refine ⟨⟨true, [⟨0, 1, 1, 1⟩, ⟨1, 2, 1, 1⟩, ⟨2, 3, 1, 1⟩, ⟨3, 0, 1, 1⟩], 4⟩, ?_, ?_, rfl⟩
  · decide +kernel
  · unfold Loop; decide

/-! ## C18 -/

/-- C18: a boundary built from coordinates has one edge per coordinate, is a closed loop through
exactly these points (in the given or the opposite order), has the area of the polygon up to sign,
and the sign is the one of its type. -/
theorem C18_shape (nearest : List (BVert K) → Pt K → Out (Option Nat)) (bt : BdryType)
    (st st' : List (BVert K)) (coords props : List (Pt K)) (colors : List Int) (L : EList K)
    (h : createShape nearest bt st emptyBoundary coords props colors = .ok (st', L)) :
    L.edges.length = coords.length ∧ Loop L.edges ∧
    (corners (storePos st') L.edges = coords ∨
      corners (storePos st') L.edges = (coords.rotate 1).reverse) ∧
    (∀ e ∈ L.edges, e.props = Flags.eOnBoundary) ∧
    (bt = .exterior → L.area = |polygonArea coords|) ∧
    (bt = .interior → L.area = - |polygonArea coords|) := by
  unfold createShape at h
  rw [if_neg (by simp [emptyBoundary])] at h
  dsimp only at h
  cases hg : gatherVerts nearest coords props st with
  | ub => rw [hg] at h; simp at h
  | abort => rw [hg] at h; simp at h
  | ok q =>
    obtain ⟨vs, st1⟩ := q
    rw [hg] at h; dsimp only at h
    cases hr : runCalls (storePos st1) (shapeCalls bt (decide (polygonArea coords > 0)) vs colors)
        emptyBoundary with
    | ub => rw [hr] at h; simp at h
    | abort => rw [hr] at h; simp at h
    | ok L1 =>
      rw [hr] at h; dsimp only at h
      simp only [Out.ok.injEq, Prod.mk.injEq] at h
      obtain ⟨rfl, rfl⟩ := h
      obtain ⟨_, hv⟩ := gatherVerts_ok _ _ _ _ _ _ hg
      have hlen : vs.length = coords.length := by rw [← hv]; simp
      obtain ⟨ts, e1, e2, _, e4, _⟩ := runCalls_ok _ _ _ L1 rfl
        (by unfold AreaInv; simp [emptyBoundary, computeArea]) hr
      have e2 : L1.edges = ts.map mkB := by simpa [emptyBoundary] using e2
      have hprops : ∀ e ∈ L1.edges, e.props = Flags.eOnBoundary := by
        rw [e2]; intro e he
        obtain ⟨t, _, rfl⟩ := List.mem_map.mp he
        simp [mkB, Flags.add]
      have m1 : L1.edges.map (·.v1) = ts.map (·.1) := by rw [e2, List.map_map]; rfl
      have m2 : L1.edges.map (·.v2) = ts.map (·.2.1) := by rw [e2, List.map_map]; rfl
      have hc : corners (storePos st1) L1.edges = (ts.map (·.1)).map (storePos st1) := by
        rw [← m1, List.map_map]; rfl
      by_cases hd : (bt = .exterior ∧ decide (polygonArea coords > 0) = true) ∨
          (bt = .interior ∧ decide (polygonArea coords > 0) = false)
      · rw [shapeCalls_fwd hd] at e1
        obtain ⟨l1, l2, l3, _⟩ := fwd_lists e1
        have hloop : Loop L1.edges := by unfold Loop; rw [m1, m2, l2, l3]
        have hcor : corners (storePos st1) L1.edges = coords := by rw [hc, l2, hv]
        refine ⟨by rw [e2]; simp [l1, hlen], hloop, Or.inl hcor, hprops, ?_, ?_⟩
        · intro hb
          rw [e4, computeArea_loop _ _ hloop, hcor]
          rcases hd with ⟨_, hd⟩ | ⟨hd, _⟩
          · rw [abs_of_pos (by simpa using hd)]
          · rw [hb] at hd; cases hd
        · intro hb
          rw [e4, computeArea_loop _ _ hloop, hcor]
          rcases hd with ⟨hd, _⟩ | ⟨_, hd⟩
          · rw [hb] at hd; cases hd
          · rw [abs_of_nonpos (by simpa using hd)]; ring
      · rw [shapeCalls_bwd hd] at e1
        obtain ⟨l1, l2, l3, _⟩ := bwd_lists e1
        have hloop : Loop L1.edges := by
          unfold Loop; rw [m1, m2, l2, l3, rotate_reverse_loop]
        have hcor : corners (storePos st1) L1.edges = (coords.rotate 1).reverse := by
          rw [hc, l2, List.map_reverse, List.map_rotate, hv]
        have harea : L1.area = - polygonArea coords := by
          rw [e4, computeArea_loop _ _ hloop, hcor, (C15_laws _ 0 0).1, (C15_laws _ 1 0).2.1]
        refine ⟨by rw [e2]; simp [l1, hlen], hloop, Or.inr hcor, hprops, ?_, ?_⟩
        · intro hb
          rw [harea]
          have : ¬ (polygonArea coords > 0) := fun hp => hd (Or.inl ⟨hb, by simpa using hp⟩)
          rw [abs_of_nonpos (not_lt.mp this)]
        · intro hb
          rw [harea]
          have : polygonArea coords > 0 := by
            by_contra hp; exact hd (Or.inr ⟨hb, by simpa using hp⟩)
          rw [abs_of_pos this]

/-- C18: the construction succeeds for pairwise distinct points with non-negative markers and
sufficiently long property and marker lists. -/
theorem C18_progress (nearest : List (BVert K) → Pt K → Out (Option Nat))
    (hn : ∀ st p, ∃ r, nearest st p = .ok r) (bt : BdryType) (st : List (BVert K))
    (coords props : List (Pt K)) (colors : List Int) (hnd : coords.Nodup) (h2 : 2 ≤ coords.length)
    (hp : coords.length ≤ props.length) (hcl : coords.length ≤ colors.length)
    (hcol : ∀ c ∈ colors, 0 ≤ c) :
    ∃ r, createShape nearest bt st emptyBoundary coords props colors = .ok r := by
  unfold createShape
  rw [if_neg (by simp [emptyBoundary])]
  dsimp only
  obtain ⟨⟨vs, st1⟩, hg⟩ := gatherVerts_progress nearest hn coords props st hp
  rw [hg]; dsimp only
  obtain ⟨_, hv⟩ := gatherVerts_ok _ _ _ _ _ _ hg
  have hlen : vs.length = coords.length := by rw [← hv]; simp
  have hpos : ∀ (i : Nat) (hi : i < vs.length), storePos st1 vs[i] = coords[i]'(by omega) := by
    intro i hi
    have : (vs.map (storePos st1))[i]? = some (coords[i]'(by omega)) := by
      rw [hv]; exact List.getElem?_eq_getElem _
    rw [List.getElem?_map, List.getElem?_eq_getElem hi] at this
    simpa using this
  have hdiff : ∀ (i : Nat) (hi : i < vs.length),
      storePos st1 vs[i] ≠ storePos st1 (vs[(i + 1) % vs.length]'(Nat.mod_lt _ (by omega))) := by
    intro i hi
    rw [hpos i hi, hpos _ (Nat.mod_lt _ (by omega))]
    intro hc
    have := (List.Nodup.getElem_inj_iff hnd).mp hc
    rcases Nat.lt_or_ge (i + 1) vs.length with h | h
    · rw [Nat.mod_eq_of_lt h] at this; omega
    · have h7 : i + 1 = vs.length := by omega
      rw [h7, Nat.mod_self] at this; omega
  have hmem : ∀ t ∈ colors, 0 ≤ t := hcol
  suffices hs : ∃ L', runCalls (storePos st1)
      (shapeCalls bt (decide (polygonArea coords > 0)) vs colors) emptyBoundary = .ok L' by
    obtain ⟨L', hs⟩ := hs
    rw [hs]; exact ⟨_, rfl⟩
  -- the calls as a list of triples
  have build : ∀ (f : Nat → Option (Nat × Nat × Int)) (is : List Nat),
      (∀ i ∈ is, ∃ t, f i = some t ∧ 0 ≤ t.2.2 ∧ storePos st1 t.1 ≠ storePos st1 t.2.1) →
      ∃ ts : List (Nat × Nat × Int), is.map f = ts.map some ∧
        ∀ t ∈ ts, 0 ≤ t.2.2 ∧ storePos st1 t.1 ≠ storePos st1 t.2.1 := by
    intro f is
    induction is with
    | nil => intro _; exact ⟨[], rfl, by simp⟩
    | cons i is ih =>
      intro h
      obtain ⟨t, ht, h3⟩ := h i (by simp)
      obtain ⟨ts, h4, h5⟩ := ih fun j hj => h j (List.mem_cons_of_mem _ hj)
      refine ⟨t :: ts, by simp [ht, h4], ?_⟩
      intro s hs
      rcases List.mem_cons.mp hs with rfl | hs
      · exact h3
      · exact h5 s hs
  by_cases hd : (bt = .exterior ∧ decide (polygonArea coords > 0) = true) ∨
      (bt = .interior ∧ decide (polygonArea coords > 0) = false)
  · rw [shapeCalls_fwd hd]
    obtain ⟨ts, e1, e2⟩ := build (fwdCall vs colors) (List.range vs.length) (by
      intro i hi
      have hi := List.mem_range.mp hi
      refine ⟨(vs[i], vs[(i + 1) % vs.length]'(Nat.mod_lt _ (by omega)), colors[i]'(by omega)), ?_,
        hmem _ (List.getElem_mem _), hdiff i hi⟩
      unfold fwdCall
      rw [List.getElem?_eq_getElem hi, List.getElem?_eq_getElem (Nat.mod_lt _ (by omega)),
        List.getElem?_eq_getElem (by omega)])
    rw [e1]
    exact runCalls_progress _ _ _ e2
  · rw [shapeCalls_bwd hd]
    obtain ⟨ts, e1, e2⟩ := build (bwdCall vs colors) (List.range vs.length).reverse (by
      intro i hi
      have hi := List.mem_range.mp (List.mem_reverse.mp hi)
      have hj : (i + 1) % vs.length < vs.length := Nat.mod_lt _ (by omega)
      refine ⟨(vs[(i + 1) % vs.length]'hj, vs[i], colors[(i + 1) % vs.length]'(by omega)), ?_,
        hmem _ (List.getElem_mem _), fun h => hdiff i hi h.symm⟩
      unfold bwdCall
      rw [List.getElem?_eq_getElem hi, List.getElem?_eq_getElem hj,
        List.getElem?_eq_getElem (by omega)])
    rw [e1]
    exact runCalls_progress _ _ _ e2

/-- a `get_nearest` that finds exact matches -/
def exactNearest (st : List (BVert ℚ)) (p : Pt ℚ) : Out (Option Nat) :=
  .ok (st.findIdx? fun v => v.xy == p)

def cwSquare : List (Pt ℚ) := [⟨0, 0⟩, ⟨0, 2⟩, ⟨2, 2⟩, ⟨2, 0⟩]

/-- result of building an exterior boundary from a clockwise square -/
def cwSquareResult : List (BVert ℚ) × EList ℚ :=
  ([⟨⟨0, 0⟩, 0, 0⟩, ⟨⟨0, 2⟩, 0, 0⟩, ⟨⟨2, 2⟩, 0, 0⟩, ⟨⟨2, 0⟩, 0, 0⟩],
   ⟨true, [⟨0, 3, 1, 1⟩, ⟨3, 2, 4, 1⟩, ⟨2, 1, 3, 1⟩, ⟨1, 0, 2, 1⟩], 4⟩)

theorem cwSquare_run : createShape exactNearest .exterior [] emptyBoundary cwSquare
    [0, 0, 0, 0] [1, 2, 3, 4] = .ok cwSquareResult := by decide +kernel

/-! ## C19 -/

/-- C19 (refuted): the first segment of the input, from (0,0) to (0,2), was given the marker 1, but
the edge between these points carries the marker 2. -/
theorem C19_markers_violated : ∃ (coords : List (Pt ℚ)) (colors : List Int) (st' : List (BVert ℚ))
    (L : EList ℚ),
    createShape exactNearest .exterior [] emptyBoundary coords [0, 0, 0, 0] colors = .ok (st', L) ∧
    coords.length = 4 ∧ colors.length = 4 ∧
    ∃ p q c, coords[0]? = some p ∧ coords[1]? = some q ∧ colors[0]? = some c ∧
      ¬ HasSegment (storePos st') L.edges p q c ∧ HasSegment (storePos st') L.edges p q 2 ∧ c = 1 := by
  refine ⟨cwSquare, [1, 2, 3, 4], _, _, cwSquare_run, rfl, rfl, ⟨0, 0⟩, ⟨0, 2⟩, 1, rfl, rfl, rfl,
    ?_, ?_, rfl⟩
  · unfold HasSegment; decide +kernel
  · unfold HasSegment; decide +kernel

/-- C19, what holds: without reversal the `i`-th marker is on the `i`-th segment; with reversal the
`i`-th segment gets the marker of the following segment. In particular
constant markers are always right. -/
theorem C19_markers_partial (nearest : List (BVert K) → Pt K → Out (Option Nat)) (bt : BdryType)
    (st st' : List (BVert K)) (coords props : List (Pt K)) (colors : List Int) (L : EList K)
    (h : createShape nearest bt st emptyBoundary coords props colors = .ok (st', L))
    (i : Nat) (hi : i < coords.length) :
    ∃ c, HasSegment (storePos st') L.edges coords[i]
        (coords[(i + 1) % coords.length]'(Nat.mod_lt _ (by omega))) c ∧
      (((bt = .exterior ∧ 0 < polygonArea coords) ∨ (bt = .interior ∧ polygonArea coords ≤ 0)) →
        colors[i]? = some c) ∧
      (((bt = .exterior ∧ polygonArea coords ≤ 0) ∨ (bt = .interior ∧ 0 < polygonArea coords)) →
        colors[(i + 1) % coords.length]? = some c) := by
  unfold createShape at h
  rw [if_neg (by simp [emptyBoundary])] at h
  dsimp only at h
  cases hg : gatherVerts nearest coords props st with
  | ub => rw [hg] at h; simp at h
  | abort => rw [hg] at h; simp at h
  | ok q =>
    obtain ⟨vs, st1⟩ := q
    rw [hg] at h; dsimp only at h
    cases hr : runCalls (storePos st1) (shapeCalls bt (decide (polygonArea coords > 0)) vs colors)
        emptyBoundary with
    | ub => rw [hr] at h; simp at h
    | abort => rw [hr] at h; simp at h
    | ok L1 =>
      rw [hr] at h; dsimp only at h
      simp only [Out.ok.injEq, Prod.mk.injEq] at h
      obtain ⟨rfl, rfl⟩ := h
      obtain ⟨_, hv⟩ := gatherVerts_ok _ _ _ _ _ _ hg
      have hlen : vs.length = coords.length := by rw [← hv]; simp
      have hpos : ∀ (i : Nat) (hi : i < vs.length), storePos st1 vs[i] = coords[i]'(by omega) := by
        intro i hi
        have : (vs.map (storePos st1))[i]? = some (coords[i]'(by omega)) := by
          rw [hv]; exact List.getElem?_eq_getElem _
        rw [List.getElem?_map, List.getElem?_eq_getElem hi] at this
        simpa using this
      obtain ⟨ts, e1, e2, _, _, _⟩ := runCalls_ok _ _ _ L1 rfl
        (by unfold AreaInv; simp [emptyBoundary, computeArea]) hr
      have e2 : L1.edges = ts.map mkB := by simpa [emptyBoundary] using e2
      have hj : (i + 1) % vs.length < vs.length := Nat.mod_lt _ (by omega)
      by_cases hd : (bt = .exterior ∧ decide (polygonArea coords > 0) = true) ∨
          (bt = .interior ∧ decide (polygonArea coords > 0) = false)
      · rw [shapeCalls_fwd hd] at e1
        obtain ⟨l1, l2, l3, l4⟩ := fwd_lists e1
        have hit : i < ts.length := by omega
        refine ⟨(ts[i]).2.2, ⟨mkB ts[i], ?_, Or.inl ⟨?_, ?_⟩, rfl⟩, fun _ => l4 i hit, ?_⟩
        · rw [e2]; exact List.mem_map_of_mem (List.getElem_mem _)
        · have : (ts[i]).1 = vs[i]'(by omega) := by
            have : (ts.map (·.1))[i]? = vs[i]? := by rw [l2]
            rw [List.getElem?_map, List.getElem?_eq_getElem hit, List.getElem?_eq_getElem (by omega)]
              at this
            simpa using this
          change storePos st1 (ts[i]).1 = _
          rw [this, hpos]
        · have : (ts[i]).2.1 = vs[(i + 1) % vs.length] := by
            have h5 : (ts.map (·.2.1))[i]? = (vs.rotate 1)[i]? := by rw [l3]
            rw [List.getElem?_map, List.getElem?_eq_getElem hit,
              List.getElem?_eq_getElem (by simp; omega), List.getElem_rotate] at h5
            simpa using h5
          change storePos st1 (ts[i]).2.1 = _
          rw [this, hpos]
          simp only [hlen]
        · intro hb
          exfalso
          rcases hd with ⟨h1, h2⟩ | ⟨h1, h2⟩ <;> rcases hb with ⟨h3, h4⟩ | ⟨h3, h4⟩ <;>
            (simp_all; try linarith)
      · rw [shapeCalls_bwd hd] at e1
        obtain ⟨l1, l2, l3, l4⟩ := bwd_lists e1
        have hit : i < ts.length := by omega
        have hr : ts.length - 1 - i < ts.length := by omega
        refine ⟨(ts[ts.length - 1 - i]).2.2, ⟨mkB ts[ts.length - 1 - i], ?_, Or.inr ⟨?_, ?_⟩, rfl⟩,
          ?_, ?_⟩
        · rw [e2]; exact List.mem_map_of_mem (List.getElem_mem _)
        · have : (ts[ts.length - 1 - i]).1 = vs[(i + 1) % vs.length] := by
            have h5 : (ts.map (·.1))[ts.length - 1 - i]? = (vs.rotate 1).reverse[ts.length - 1 - i]? := by
              rw [l2]
            rw [List.getElem?_map, List.getElem?_eq_getElem hr,
              List.getElem?_eq_getElem (by simp; omega), List.getElem_reverse,
              List.getElem_rotate] at h5
            simp only [Option.map_some, Option.some.injEq, List.length_rotate] at h5
            rw [h5]
            congr 2; omega
          change storePos st1 (ts[ts.length - 1 - i]).1 = _
          rw [this, hpos]
          simp only [hlen]
        · have : (ts[ts.length - 1 - i]).2.1 = vs[i]'(by omega) := by
            have h5 : (ts.map (·.2.1))[ts.length - 1 - i]? = vs.reverse[ts.length - 1 - i]? := by
              rw [l3]
            rw [List.getElem?_map, List.getElem?_eq_getElem hr,
              List.getElem?_eq_getElem (by simp; omega), List.getElem_reverse] at h5
            simp only [Option.map_some, Option.some.injEq] at h5
            rw [h5]
            congr 1; omega
          change storePos st1 (ts[ts.length - 1 - i]).2.1 = _
          rw [this, hpos]
        · intro hb
          exfalso
          apply hd
          rcases hb with ⟨h3, h4⟩ | ⟨h3, h4⟩
          · exact Or.inl ⟨h3, by simpa using h4⟩
          · exact Or.inr ⟨h3, by simpa using h4⟩
        · intro _
          have := l4 i hit
          rw [← hlen]; exact this

/-! ## C21, C22 -/

theorem loop_take_drop {es : List BEdge} {k : Nat} {e : BEdge} (hk : es[k]? = some e) :
    es = es.take k ++ e :: es.drop (k + 1) := by
  have h := (List.getElem?_eq_some_iff.mp hk)
  obtain ⟨h1, h2⟩ := h
  rw [← h2]
  simp

theorem take_drop_mid {α : Type*} (p : List α) (x : α) (r : List α) (k : Nat) (h : p.length = k) :
    (p ++ x :: r).take (k + 1) = p ++ [x] ∧ (p ++ x :: r).drop (k + 1) = r := by
  subst h
  constructor
  · rw [List.take_append]; simp
  · rw [List.drop_append]; simp

/-- explicit form of a successful split -/
theorem splitEdge_some {pos pos' : Nat → Pt K} {L L' : EList K} {k vn : Nat} {s : K}
    (h : L.splitEdge pos k vn s = some (pos', L')) :
    ∃ e, L.edges[k]? = some e ∧ 0 < s ∧ s < 1 ∧
      pos' = (fun i => if i = vn then EList.splitPoint s (pos e.v1) (pos e.v2) else pos i) ∧
      L'.edges = L.edges.take k ++ ⟨e.v1, vn, e.color, e.props⟩ :: ⟨vn, e.v2, e.color, e.props⟩ ::
        L.edges.drop (k + 1) ∧
      L'.oriented = L.oriented ∧
      (L.oriented = true → ∃ old, L'.area = computeArea pos' old (L.edges.take k ++
        ⟨e.v1, vn, e.color, e.props⟩ :: ⟨vn, e.v2, e.color, e.props⟩ :: e ::
        L.edges.drop (k + 1))) ∧
      (L.oriented = false → L'.area = L.area) := by
  unfold EList.splitEdge at h
  split_ifs at h with h1
  rw [not_or, not_le, not_le] at h1
  cases he : L.edges[k]? with
  | none => rw [he] at h; simp at h
  | some e =>
    rw [he] at h; dsimp only at h
    cases hi1 : EList.insertEdge (fun i => if i = vn then EList.splitPoint s (pos e.v1) (pos e.v2)
        else pos i) L k ⟨e.v1, vn, e.color, e.props⟩ with
    | none => rw [hi1] at h; simp at h
    | some L1 =>
      rw [hi1] at h; dsimp only at h
      cases hi2 : EList.insertEdge (fun i => if i = vn then EList.splitPoint s (pos e.v1) (pos e.v2)
          else pos i) L1 (k + 1) ⟨vn, e.v2, e.color, e.props⟩ with
      | none => rw [hi2] at h; simp at h
      | some L2 =>
        rw [hi2] at h
        simp only [Option.some.injEq, Prod.mk.injEq] at h
        obtain ⟨hp, hL⟩ := h
        obtain ⟨_, a2, a3, a4⟩ := insertEdge_some hi1
        obtain ⟨_, b2, b3, b4⟩ := insertEdge_some hi2
        have hk : k < L.edges.length := (List.getElem?_eq_some_iff.mp he).1
        have hdrop : L.edges.drop k = e :: L.edges.drop (k + 1) := by
          rw [List.drop_eq_getElem_cons hk]
          rw [List.getElem?_eq_getElem hk] at he
          rw [Option.some.inj he]
        have htk : (L.edges.take k).length = k := by simp; omega
        have e2 : L2.edges = L.edges.take k ++ ⟨e.v1, vn, e.color, e.props⟩ ::
            ⟨vn, e.v2, e.color, e.props⟩ :: e :: L.edges.drop (k + 1) := by
          rw [b2, a2, hdrop]
          obtain ⟨q1, q2⟩ := take_drop_mid (L.edges.take k) (⟨e.v1, vn, e.color, e.props⟩ : BEdge)
            (e :: L.edges.drop (k + 1)) k htk
          rw [q1, q2]; simp
        have e3 : L'.edges = L.edges.take k ++ ⟨e.v1, vn, e.color, e.props⟩ ::
            ⟨vn, e.v2, e.color, e.props⟩ :: L.edges.drop (k + 1) := by
          rw [← hL]; dsimp only
          rw [e2, List.eraseIdx_append_of_length_le (by omega), htk]
          have : k + 2 - k = 2 := by omega
          rw [this]; rfl
        refine ⟨e, rfl, h1.2, h1.1, hp.symm, e3, ?_, ?_, ?_⟩
        · rw [← hL]; dsimp only; rw [b3, a3]
        · intro ho
          refine ⟨L1.area, ?_⟩
          rw [← hL]; dsimp only
          rw [b4, if_pos (a3.trans ho), e2, hp]
        · intro ho
          rw [← hL]; dsimp only
          rw [b4, if_neg (by rw [a3, ho]; simp), a4, if_neg (by rw [ho]; simp)]

theorem loop_split {pre post : List BEdge} {e e1 e2 : BEdge} (h : Loop (pre ++ e :: post))
    (h1 : e1.v1 = e.v1) (h12 : e1.v2 = e2.v1) (h2 : e2.v2 = e.v2) :
    Loop (pre ++ e1 :: e2 :: post) := by
  unfold Loop at *
  cases pre with
  | nil =>
    simp only [List.nil_append, List.map_cons, List.rotate_cons_succ, List.rotate_zero] at *
    cases post with
    | nil => simp_all
    | cons f fs =>
      simp only [List.map_cons, List.cons_append, List.cons.injEq] at *
      exact ⟨h12, h2.trans h.1, by rw [h.2, h1]⟩
  | cons p ps =>
    simp only [List.cons_append, List.map_cons, List.map_append, List.rotate_cons_succ,
      List.rotate_zero] at *
    rw [h1, h12, h2]
    have hlen : ∀ (a : Nat), (p.v2 :: (ps.map (·.v2)) ) = (ps.map (·.v1)) ++ [a] ∧
        (e.v2 :: post.map (·.v2)) = post.map (·.v1) ++ [p.v1] →
        p.v2 :: (ps.map (·.v2) ++ e2.v1 :: e.v2 :: post.map (·.v2)) =
          (ps.map (·.v1) ++ a :: e2.v1 :: post.map (·.v1)) ++ [p.v1] := by
      intro a ⟨ha, hb⟩
      rw [hb]
      have : p.v2 :: (ps.map (·.v2) ++ e2.v1 :: (post.map (·.v1) ++ [p.v1])) =
          (p.v2 :: ps.map (·.v2)) ++ e2.v1 :: (post.map (·.v1) ++ [p.v1]) := by simp
      rw [this, ha]; simp
    have hsplit : (p.v2 :: ps.map (·.v2)) ++ (e.v2 :: post.map (·.v2)) =
        (ps.map (·.v1) ++ [e.v1]) ++ (post.map (·.v1) ++ [p.v1]) := by
      simpa using h
    have := List.append_inj hsplit (by simp)
    exact hlen e.v1 this

/-- C21: splitting keeps the closed loop, replaces the edge by two edges with its marker and
properties through the new vertex, and the enclosed polygon keeps its area. -/
theorem C21_split_loop (pos pos' : Nat → Pt K) (L L' : EList K) (k vn : Nat) (s : K)
    (hloop : Loop L.edges) (hfresh : ∀ e ∈ L.edges, e.v1 ≠ vn ∧ e.v2 ≠ vn)
    (h : L.splitEdge pos k vn s = some (pos', L')) :
    ∃ e, L.edges[k]? = some e ∧ Loop L'.edges ∧
      L'.edges = L.edges.take k ++ [⟨e.v1, vn, e.color, e.props⟩, ⟨vn, e.v2, e.color, e.props⟩] ++
        L.edges.drop (k + 1) ∧
      (∃ t, 0 < t ∧ t < 1 ∧ pos' vn = onSeg (pos e.v1) (pos e.v2) t) ∧
      (∀ i, i ≠ vn → pos' i = pos i) ∧
      polygonArea (corners pos' L'.edges) = polygonArea (corners pos L.edges) := by
  obtain ⟨e, he, hs0, hs1, hp, hE, _, _, _⟩ := splitEdge_some h
  have hnv : pos' vn = onSeg (pos e.v1) (pos e.v2) (1 - s) := by
    rw [hp]; dsimp only; rw [if_pos rfl]
    unfold EList.splitPoint onSeg
    apply Pt.ext' <;> simp only [Pt.add_x, Pt.add_y, Pt.smul_x, Pt.smul_y] <;> ring
  have hother : ∀ i, i ≠ vn → pos' i = pos i := by
    intro i hi; rw [hp]; dsimp only; rw [if_neg hi]
  have hdec := loop_take_drop he
  have hl' : Loop L'.edges := by
    rw [hE]
    refine loop_split (e := e) ?_ rfl rfl rfl
    rw [← hdec]; exact hloop
  refine ⟨e, he, hl', by rw [hE]; simp, ⟨1 - s, by linarith, by linarith, hnv⟩, hother, ?_⟩
  rw [← fanSum_loop pos' 0 _ hl', ← fanSum_loop pos 0 _ hloop]
  have hcongr : ∀ es : List BEdge, (∀ f ∈ es, f ∈ L.edges) → fanSum pos' 0 es = fanSum pos 0 es := by
    intro es hes
    unfold fanSum
    congr 1
    apply List.map_congr_left
    intro f hf
    rw [hother _ (hfresh f (hes f hf)).1, hother _ (hfresh f (hes f hf)).2]
  have heM : e ∈ L.edges := List.mem_of_getElem? he
  have hadd : ∀ (p : Nat → Pt K) (a b : List BEdge), fanSum p 0 (a ++ b) = fanSum p 0 a + fanSum p 0 b := by
    intro p a b; unfold fanSum; rw [List.map_append, List.sum_append]
  have hcons : ∀ (p : Nat → Pt K) (f : BEdge) (b : List BEdge),
      fanSum p 0 (f :: b) = triArea 0 (p f.v1) (p f.v2) + fanSum p 0 b := by
    intro p f b; unfold fanSum; rw [List.map_cons, List.sum_cons]
  rw [hE, hadd, hcons, hcons, hcongr _ (fun f hf => List.mem_of_mem_take hf),
    hcongr _ (fun f hf => List.mem_of_mem_drop hf)]
  conv_rhs => rw [hdec, hadd, hcons]
  dsimp only
  rw [hother _ (hfresh e heM).1, hother _ (hfresh e heM).2, hnv]
  unfold triArea onSeg
  simp only [Pt.zero_x, Pt.zero_y]
  ring

/-- C21, the area attribute after a split of an oriented loop with a correct area: it is off by the
triangle between the first vertex of the list and the split edge (the old edge is still in the list
when the area is computed).  It is right iff this triangle is degenerate, e.g. for the first and the
last edge of the list. -/
theorem C21_split_area_partial (pos pos' : Nat → Pt K) (L L' : EList K) (k vn : Nat) (s : K)
    (hloop : Loop L.edges) (hfresh : ∀ e ∈ L.edges, e.v1 ≠ vn ∧ e.v2 ≠ vn)
    (ho : L.oriented = true)
    (h : L.splitEdge pos k vn s = some (pos', L')) :
    ∃ e f, L.edges[k]? = some e ∧ L.edges.head? = some f ∧
      L'.area = polygonArea (corners pos' L'.edges) + triArea (pos f.v1) (pos e.v1) (pos e.v2) := by
  obtain ⟨e, he, hl', hE, ⟨t, _, _, hnv⟩, hother, _⟩ :=
    C21_split_loop pos pos' L L' k vn s hloop hfresh h
  obtain ⟨e', he', _, _, _, _, _, hA, _⟩ := splitEdge_some h
  rw [he] at he'; cases he'
  obtain ⟨old, hA⟩ := hA ho
  have heM : e ∈ L.edges := List.mem_of_getElem? he
  obtain ⟨f, hf⟩ : ∃ f, L.edges.head? = some f := by
    cases hc : L.edges with
    | nil => rw [hc] at heM; simp at heM
    | cons a l => exact ⟨a, rfl⟩
  refine ⟨e, f, he, hf, ?_⟩
  rw [hA]
  -- the first vertex of the list with the old edge is the first vertex of the old list
  obtain ⟨g, rest, hg, hgv⟩ : ∃ g rest, (L.edges.take k ++
      ⟨e.v1, vn, e.color, e.props⟩ :: ⟨vn, e.v2, e.color, e.props⟩ :: e ::
        L.edges.drop (k + 1)) = g :: rest ∧ g.v1 = f.v1 := by
    cases k with
    | zero =>
      refine ⟨_, _, rfl, ?_⟩
      cases hc : L.edges with
      | nil => rw [hc] at heM; simp at heM
      | cons a l => rw [hc] at he hf; simp at he hf; simp [← he, ← hf]
    | succ k =>
      cases hc : L.edges with
      | nil => rw [hc] at heM; simp at heM
      | cons a l => rw [hc] at hf; simp at hf; subst hf; exact ⟨a, _, rfl, rfl⟩
  have hlen : 3 ≤ (g :: rest).length := by rw [← hg]; simp; omega
  rw [hg, computeArea_eq _ _ _ _ hlen, ← hg, hgv]
  rw [← fanSum_loop pos' (pos' f.v1) _ hl', hE]
  have hfM : f ∈ L.edges := List.mem_of_head? hf
  unfold fanSum
  simp only [List.map_append, List.map_cons, List.sum_append, List.sum_cons, List.map_nil,
    List.sum_nil]
  rw [hother _ (hfresh e heM).1, hother _ (hfresh e heM).2, hother _ (hfresh f hfM).1]
  ring

/-- a list of four edges around the square, with its area -/
def sqList : EList ℚ := ⟨true, [⟨0, 1, 1, 1⟩, ⟨1, 2, 1, 1⟩, ⟨2, 3, 1, 1⟩, ⟨3, 0, 1, 1⟩], 4⟩

/-- C21 (refuted for the area): after splitting the second side of a square of area 4 the edge list
reports the area 6. -/
theorem C21_split_area_violated : ∃ pos' L', sqList.splitEdge sq 1 7 (1 / 2) = some (pos', L') ∧
    Loop L'.edges ∧ polygonArea (corners pos' L'.edges) = 4 ∧ L'.area = 6 := by
  refine ⟨fun i => if i = 7 then EList.splitPoint (1 / 2) (sq 1) (sq 2) else sq i,
    ⟨true, [⟨0, 1, 1, 1⟩, ⟨1, 7, 1, 1⟩, ⟨7, 2, 1, 1⟩, ⟨2, 3, 1, 1⟩, ⟨3, 0, 1, 1⟩], 6⟩, ?_, ?_, ?_,
    rfl⟩
  · unfold EList.splitEdge
    rw [if_neg (by decide +kernel)]
    have h0 : sqList.edges[1]? = some ⟨1, 2, 1, 1⟩ := rfl
    rw [h0]; dsimp only
    have h1 : EList.insertEdge (fun i => if i = 7 then EList.splitPoint (1 / 2) (sq 1) (sq 2)
        else sq i) sqList 1 ⟨1, 7, 1, 1⟩ = some
        ⟨true, [⟨0, 1, 1, 1⟩, ⟨1, 7, 1, 1⟩, ⟨1, 2, 1, 1⟩, ⟨2, 3, 1, 1⟩, ⟨3, 0, 1, 1⟩], 5⟩ := by
      decide +kernel
    rw [h1]
    have h2 : EList.insertEdge (fun i => if i = 7 then EList.splitPoint (1 / 2) (sq 1) (sq 2)
        else sq i) ⟨true, [⟨0, 1, 1, 1⟩, ⟨1, 7, 1, 1⟩, ⟨1, 2, 1, 1⟩, ⟨2, 3, 1, 1⟩, ⟨3, 0, 1, 1⟩], 5⟩
        2 ⟨7, 2, 1, 1⟩ = some ⟨true, [⟨0, 1, 1, 1⟩, ⟨1, 7, 1, 1⟩, ⟨7, 2, 1, 1⟩, ⟨1, 2, 1, 1⟩,
          ⟨2, 3, 1, 1⟩, ⟨3, 0, 1, 1⟩], 6⟩ := by
      decide +kernel
    dsimp only
    rw [h2]
    rfl
  · unfold Loop; decide
  · decide +kernel

/-- C22 (refuted): for every edge and every admissible `s ≠ 1/2` the new vertex is not at the
documented position `v1 + s (v2 - v1)`. -/
theorem C22_split_position_violated (pos pos' : Nat → Pt K) (L L' : EList K) (k vn : Nat) (s : K)
    (h : L.splitEdge pos k vn s = some (pos', L')) (hs : s ≠ 1 / 2) :
    ∃ e, L.edges[k]? = some e ∧ (pos e.v1 ≠ pos e.v2 →
      pos' vn ≠ onSeg (pos e.v1) (pos e.v2) s) := by
  obtain ⟨e, he, _, _, hp, _⟩ := splitEdge_some h
  refine ⟨e, he, ?_⟩
  intro hne heq
  apply hne
  rw [hp] at heq
  dsimp only at heq
  rw [if_pos rfl] at heq
  have hx := congrArg Pt.x heq
  have hy := congrArg Pt.y heq
  unfold EList.splitPoint onSeg at hx hy
  simp only [Pt.add_x, Pt.add_y, Pt.smul_x, Pt.smul_y] at hx hy
  have h2 : (2 * s - 1) ≠ 0 := by
    intro h0; apply hs; linarith
  apply Pt.ext'
  · have : (2 * s - 1) * ((pos e.v1).x - (pos e.v2).x) = 0 := by linarith
    rcases mul_eq_zero.mp this with h | h
    · exact absurd h h2
    · linarith
  · have : (2 * s - 1) * ((pos e.v1).y - (pos e.v2).y) = 0 := by linarith
    rcases mul_eq_zero.mp this with h | h
    · exact absurd h h2
    · linarith

/-- C22, what holds: the new vertex is at the mirrored parameter, and at the documented position
only for `s = 1/2`. (The callers, QuadLayering.h:315 and 438, are written for the mirrored parameter.) -/
theorem C22_split_position_partial (pos pos' : Nat → Pt K) (L L' : EList K) (k vn : Nat) (s : K)
    (h : L.splitEdge pos k vn s = some (pos', L')) :
    ∃ e, L.edges[k]? = some e ∧ pos' vn = onSeg (pos e.v1) (pos e.v2) (1 - s) ∧
      (s = 1 / 2 → pos' vn = onSeg (pos e.v1) (pos e.v2) s) := by
  obtain ⟨e, he, _, _, hp, _⟩ := splitEdge_some h
  have hnv : pos' vn = onSeg (pos e.v1) (pos e.v2) (1 - s) := by
    rw [hp]; dsimp only; rw [if_pos rfl]
    unfold EList.splitPoint onSeg
    apply Pt.ext' <;> simp only [Pt.add_x, Pt.add_y, Pt.smul_x, Pt.smul_y] <;> ring
  refine ⟨e, he, hnv, ?_⟩
  intro hs
  rw [hnv, hs]
  congr 1; norm_num

example : (sqList.splitEdge sq 1 7 (1 / 4)).isSome = true ∧ (1 / 4 : ℚ) ≠ 1 / 2 ∧
    sq 1 ≠ sq 2 := by decide +kernel

end TQ
#print axioms TQ.C17_chain
#print axioms TQ.C17_throws
#print axioms TQ.C83_boundary_chain_violated
#print axioms TQ.C83_boundary_chain_partial
#print axioms TQ.C20_boundary_area
#print axioms TQ.C20_edgelist_area
#print axioms TQ.C18_shape
#print axioms TQ.C18_progress
#print axioms TQ.C19_markers_violated
#print axioms TQ.C19_markers_partial
#print axioms TQ.C21_split_loop
#print axioms TQ.C21_split_area_partial
#print axioms TQ.C21_split_area_violated
#print axioms TQ.C22_split_position_violated
#print axioms TQ.C22_split_position_partial

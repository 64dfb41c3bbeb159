import Verif.Whole.FileSpec

/-! # Lemmas: the domain of a mesh definition -/

set_option linter.unusedSectionVars false
set_option linter.unusedSimpArgs false

namespace TQ.Fl
open TQ.Cf TQ.OutlSpec TQ.Sh TQ.FlSpec TQ.BdSpec TQ.GeoSpec TQ.GN
variable {K : Type} [Field K] [LinearOrder K]

theorem toSize_nat {n : Nat} (h : n < 2 ^ 64) : App.toSize (n : Int) = n := by
  unfold App.toSize
  rw [Int.emod_eq_of_lt (by omega) (by exact_mod_cast h)]
  simp

theorem lift_ok {A : Type} {o : Out A} {a : A} (h : lift o = .ok a) : o = .ok a := by
  cases o <;> simp [lift] at h
  rw [h]

/-- The edges of a table. -/
def rowCall (r : Int × Int × Int) : Nat × Nat × Int := (App.toSize r.1, App.toSize r.2.1, r.2.2)

theorem addRows_ok {bad : Nat → Nat → Bool} {st : List (BVert K)} {rows : List (Int × Int × Int)} {L L' : EList K}
    (h : addRows bad st rows L = .ok L') :
    (∀ r ∈ rows, App.toSize r.1 < st.length ∧ App.toSize r.2.1 < st.length) ∧
    runCalls (storePos st) (rows.map fun r => some (rowCall r)) L = .ok L' := by
  induction rows generalizing L with
  | nil =>
    simp [addRows] at h
    subst h
    exact ⟨by simp, rfl⟩
  | cons r rows ih =>
    obtain ⟨z1, z2, m⟩ := r
    rw [addRows] at h
    split at h
    · cases h
    · split at h
      · next hr =>
        split at h
        · cases h
        · next L1 h1 =>
          obtain ⟨i1, i2⟩ := ih h
          refine ⟨?_, ?_⟩
          · intro r hr'
            rcases List.mem_cons.mp hr' with rfl | hr'
            · exact hr
            · exact i1 r hr'
          · rw [List.map_cons]
            show runCalls (storePos st) (some (App.toSize z1, App.toSize z2, m) :: _) L = _
            rw [runCalls, h1]
            exact i2
      · cases h

/-- The same backwards. -/
theorem addRows_run {bad : Nat → Nat → Bool} {st : List (BVert K)} {rows : List (Int × Int × Int)} {L L' : EList K}
    (hr : ∀ r ∈ rows, App.toSize r.1 < st.length ∧ App.toSize r.2.1 < st.length ∧ bad (App.toSize r.1) (App.toSize r.2.1) = false)
    (h : runCalls (storePos st) (rows.map fun r => some (rowCall r)) L = .ok L') : addRows bad st rows L = .ok L' := by
  induction rows generalizing L with
  | nil =>
    simp [runCalls] at h
    subst h
    rfl
  | cons r rows ih =>
    obtain ⟨z1, z2, m⟩ := r
    obtain ⟨a1, a2, a3⟩ := hr _ (List.mem_cons_self ..)
    rw [addRows]
    dsimp only at a1 a2 a3
    rw [a3, if_neg (by simp), if_pos ⟨a1, a2⟩]
    rw [List.map_cons] at h
    change runCalls (storePos st) (some (App.toSize z1, App.toSize z2, m) :: _) L = _ at h
    rw [runCalls] at h
    split at h
    · cases h
    · next L1 h1 =>
      rw [h1]
      exact ih (fun r hr' => hr r (List.mem_cons_of_mem _ hr')) h

/-- Shapes are built by `create_boundary_shape` with the corners written. -/
theorem makeBdry_shape {D : DEnv K} {b : BDef K} {q : List (Pt K)} (h : Written D b q) (ext : K) (bt : BdryType) (st : List (BVert K)) :
    ∃ props colors, makeBdry D ext bt st b = lift (createShape (D.nearest ext) bt st emptyBoundary q props colors) ∧
      q.length ≤ props.length ∧ q.length ≤ colors.length ∧ ∀ c ∈ colors, c ∈ markers D b := by
  have er : ∀ (c : Pt K) (w h : K), rectangleCoords c w h = rectangle c w h := by
    intro c w h
    unfold rectangleCoords rectangle
    have e1 : 1 / 2 * w = w / 2 := by ring
    have e2 : 1 / 2 * h = h / 2 := by ring
    rw [e1, e2]
  cases h with
  | coords rows => exact ⟨_, _, rfl, by simp, by simp, by simp [markers]⟩
  | rect m c w h s =>
    refine ⟨_, _, by rw [makeBdry, setRectangle, er], by simp [rectangle], by simp [rectangle], ?_⟩
    intro c hc
    rw [List.eq_of_mem_replicate hc]
    simp [markers]
  | circ m c r s n h3 hn =>
    have hn' : n < 2 ^ 64 := lt_trans hn (by norm_num)
    refine ⟨_, _, by rw [makeBdry, if_neg (by simp), toSize_nat hn', setCircle, if_neg (by omega)]; rfl, by simp [roundPoints], by simp [roundPoints], by simp [markers]⟩
  | square m c a s =>
    refine ⟨_, _, by rw [makeBdry, setSquare, setRectangle, er], by simp [rectangle], by simp [rectangle], ?_⟩
    intro c hc
    rw [List.eq_of_mem_replicate hc]
    simp [markers]
  | triangle m c a s => exact ⟨_, _, by rw [makeBdry, setCircle, if_neg (by omega)]; rfl, by simp [roundPoints], by simp [roundPoints], by simp [markers]⟩
  | csv f t rows hf hr => exact ⟨_, _, by rw [makeBdry, hf]; dsimp only; rw [hr], by simp, by simp, by simp [markers, hf, hr, Except.toOption]⟩

variable [IsStrictOrderedRing K]
open TQ.Outl TQ.FUSpec TQ.FU TQ.FrSpec

/-- The boundary of a domain with the vertices `st` for the polygon `ps`. -/
structure Made (bt : BdryType) (st : List (BVert K)) (L : EList K) (ps : List (Pt K)) : Prop where
  loop : Loop L.edges
  props : ∀ e ∈ L.edges, e.props = Flags.eOnBoundary
  range : ∀ e ∈ L.edges, e.v1 < st.length ∧ e.v2 < st.length
  segs : (L.edges.map fun e => (storePos st e.v1, storePos st e.v2)).Perm (if bt = .exterior then ring ps else (ring ps).map Prod.swap)
  area : L.area = if bt = .exterior then polygonArea ps else - polygonArea ps

theorem made_mono {bt : BdryType} {st st' : List (BVert K)} {L : EList K} {ps : List (Pt K)} (h : Made bt st L ps) (hp : st <+: st') : Made bt st' L ps := by
  refine ⟨h.loop, h.props, fun e he => ⟨lt_of_lt_of_le (h.range e he).1 hp.length_le, lt_of_lt_of_le (h.range e he).2 hp.length_le⟩, ?_, h.area⟩
  rw [show (L.edges.map fun e => (storePos st' e.v1, storePos st' e.v2)) = L.edges.map fun e => (storePos st e.v1, storePos st e.v2) from
    List.map_congr_left fun e he => by rw [storePos_mono hp (h.range e he).1, storePos_mono hp (h.range e he).2]]
  exact h.segs

theorem order_area {q ps : List (Pt K)} (ho : Order q ps) (hp : 0 < polygonArea ps) : |polygonArea q| = polygonArea ps := by
  rcases ho with rfl | rfl
  · exact abs_of_pos hp
  · rw [(C15_laws _ 0 0).1, abs_neg, abs_of_pos hp]

theorem makeBdry_prefix {D : DEnv K} {ext : K} {bt : BdryType} {st st' : List (BVert K)} {b : BDef K} {L : EList K}
    (h : makeBdry D ext bt st b = .ok (st', L)) : st <+: st' := by
  have key : ∀ coords props colors, lift (createShape (D.nearest ext) bt st emptyBoundary coords props colors) = .ok (st', L) → st <+: st' :=
    fun _ _ _ h => (createShape_data (lift_ok h)).1
  have circ : ∀ dir c xy r n s t, lift (setCircle dir (D.nearest ext) bt st emptyBoundary c xy r n s t) = .ok (st', L) → st <+: st' := by
    intro dir c xy r n s t h
    unfold setCircle at h
    split at h
    · simp only [lift, Except.ok.injEq, Prod.mk.injEq] at h
      rw [h.1]
    · exact key _ _ _ h
  cases b with
  | edges rows =>
    rw [makeBdry] at h
    cases hr : addRows (badIndex bt st.length) st rows emptyBoundary with
    | error f => rw [hr] at h; cases h
    | ok L1 =>
      rw [hr] at h
      change Except.ok (st, L1) = _ at h
      simp only [Except.ok.injEq, Prod.mk.injEq] at h
      rw [h.1]
  | coords rows => exact key _ _ _ h
  | rect m c w hh s => exact key _ _ _ h
  | circ m c r n s =>
    rw [makeBdry] at h
    split at h
    · cases h
    · exact circ _ _ _ _ _ _ _ h
  | square m c a s => exact key _ _ _ h
  | triangle m c a s => exact circ _ _ _ _ _ _ _ h
  | csv f =>
    rw [makeBdry] at h
    split at h
    · cases h
    · split at h
      · cases h
      · exact key _ _ _ h

theorem storePos_init {vs : List (VertDef K)} {st : List (BVert K)} (h : initVerts vs <+: st) {i : Nat} {p : Pt K} (hi : (vs.map (·.xy))[i]? = some p) :
    i < vs.length ∧ storePos st i = p := by
  rw [List.getElem?_map, Option.map_eq_some_iff] at hi
  obtain ⟨v, hv, rfl⟩ := hi
  refine ⟨(List.getElem?_eq_some_iff.mp hv).1, ?_⟩
  rw [storePos_prefix h (i := i) (v := ⟨v.xy, v.s.x, v.s.y⟩) (by unfold initVerts; rw [List.getElem?_map, hv]; rfl)]

/-- A boundary is the polygon that its definition means. -/
theorem makeBdry_made {D : DEnv K} {ext : K} {bt : BdryType} {vs : List (VertDef K)} {st st' : List (BVert K)} {b : BDef K} {L : EList K} {ps : List (Pt K)}
    (hst : initVerts vs <+: st) (hfew : vs.length < 2 ^ 31) (hd : Draws D (vs.map (·.xy)) bt b ps) (hp : 0 < polygonArea ps)
    (h : makeBdry D ext bt st b = .ok (st', L)) : Made bt st' L ps := by
  cases hd with
  | shape hw ho =>
    obtain ⟨props, colors, e, -⟩ := makeBdry_shape hw ext bt st
    rw [e] at h
    have h := lift_ok h
    obtain ⟨-, hl, -, hp', hE, hI⟩ := C18_shape _ _ _ _ _ _ _ _ h
    refine ⟨hl, hp', (createShape_data h).2.1, createShape_ring_pos h ho hp, ?_⟩
    rw [← order_area ho hp]
    cases bt with
    | exterior => rw [if_pos rfl]; exact hE rfl
    | interior => rw [if_neg (by simp)]; exact hI rfl
  | @edges rows _ idx h1 h2 hpos =>
    rw [makeBdry] at h
    cases hr : addRows (badIndex bt st.length) st rows emptyBoundary with
    | error f => rw [hr] at h; cases h
    | ok L1 =>
      rw [hr] at h
      change Except.ok (st, L1) = _ at h
      simp only [Except.ok.injEq, Prod.mk.injEq] at h
      obtain ⟨rfl, rfl⟩ := h
      obtain ⟨r1, r2⟩ := addRows_ok hr
      obtain ⟨ts, e1, e2, -, e4, -⟩ := runCalls_ok _ _ _ L1 rfl (by unfold AreaInv; simp [emptyBoundary, computeArea]) r2
      have e1 : ts = rows.map rowCall := by
        have := congrArg (List.map (Option.getD · (0, 0, 0))) e1
        simpa [List.map_map, Function.comp_def] using this.symm
      have e2 : L1.edges = rows.map fun r => mkB (rowCall r) := by rw [e2, e1]; simp [emptyBoundary, Function.comp_def]
      have hidx : ∀ i ∈ idx, i < vs.length := by
        intro i hi
        obtain ⟨p, -, hp⟩ := forall₂_mem hpos i hi
        exact (storePos_init hst hp).1
      have key : ∀ l : List Nat, (∀ i ∈ l, i ∈ idx) → (l.map (Nat.cast : Nat → Int)).map App.toSize = l := by
        intro l hl
        rw [List.map_map]
        conv_rhs => rw [← List.map_id l]
        apply List.map_congr_left
        intro i hi
        exact toSize_nat (lt_trans (lt_trans (hidx i (hl i hi)) hfew) (by norm_num))
      have k1 : L1.edges.map (·.v1) = idx := by
        rw [e2, List.map_map]
        have := congrArg (List.map App.toSize) h1
        rw [key idx fun _ h => h, List.map_map] at this
        exact this
      have k2 : L1.edges.map (·.v2) = idx.rotate 1 := by
        rw [e2, List.map_map]
        have := congrArg (List.map App.toSize) h2
        rw [key _ fun i hi => List.mem_rotate.mp hi, List.map_map] at this
        exact this
      have hloop : Loop L1.edges := by unfold BdSpec.Loop; rw [k1, k2]
      have hcor : corners (storePos st) L1.edges = if bt = .exterior then ps else ps.reverse := by
        have : corners (storePos st) L1.edges = idx.map (storePos st) := by rw [← k1, List.map_map]; rfl
        rw [this]
        clear k1 k2 h1 h2 hidx key this
        generalize (if bt = .exterior then ps else ps.reverse) = l at hpos
        induction hpos with
        | nil => rfl
        | cons hh _ ih => rw [List.map_cons, ih, (storePos_init hst hh).2]
      refine ⟨hloop, ?_, ?_, ?_, ?_⟩
      · intro e he
        rw [e2] at he
        obtain ⟨r, -, rfl⟩ := List.mem_map.mp he
        rfl
      · intro e he
        rw [e2] at he
        obtain ⟨r, hr, rfl⟩ := List.mem_map.mp he
        exact r1 r hr
      · rw [← loop_pairs _ _ hloop, ← ring_cyclic, hcor]
        split_ifs
        · exact List.Perm.refl _
        · exact ring_reverse _
      · rw [e4, computeArea_loop _ _ hloop, hcor]
        split_ifs
        · rfl
        · exact (C15_laws _ 0 0).1

theorem makeBdries_cons {D : DEnv K} {ext : K} {bt : BdryType} {b : BDef K} {bs : List (BdryType × BDef K)} {st st' : List (BVert K)} {Ls : List (BdryType × EList K)}
    (h : makeBdries D ext ((bt, b) :: bs) st = .ok (st', Ls)) :
    ∃ st1 L Ls', makeBdry D ext bt st b = .ok (st1, L) ∧ makeBdries D ext bs st1 = .ok (st', Ls') ∧ Ls = (bt, L) :: Ls' := by
  rw [makeBdries] at h
  cases h1 : makeBdry D ext bt st b with
  | error f => rw [h1] at h; cases h
  | ok r =>
    obtain ⟨st1, L⟩ := r
    rw [h1] at h
    change (do let (st2, Ls) ← makeBdries D ext bs st1; Except.ok (st2, (bt, L) :: Ls)) = _ at h
    cases h2 : makeBdries D ext bs st1 with
    | error f => rw [h2] at h; cases h
    | ok r =>
      obtain ⟨st2, Ls'⟩ := r
      rw [h2] at h
      change Except.ok (st2, (bt, L) :: Ls') = _ at h
      simp only [Except.ok.injEq, Prod.mk.injEq] at h
      obtain ⟨rfl, rfl⟩ := h
      exact ⟨st1, L, Ls', rfl, h2, rfl⟩

theorem makeBdries_prefix {D : DEnv K} {ext : K} {bs : List (BdryType × BDef K)} {st st' : List (BVert K)} {Ls : List (BdryType × EList K)}
    (h : makeBdries D ext bs st = .ok (st', Ls)) : st <+: st' := by
  induction bs generalizing st Ls with
  | nil =>
    simp only [makeBdries, Except.ok.injEq, Prod.mk.injEq] at h
    rw [h.1]
  | cons b bs ih =>
    obtain ⟨st1, L, Ls', h1, h2, -⟩ := makeBdries_cons h
    exact (makeBdry_prefix h1).trans (ih h2)

/-- All boundaries are the polygons that their definitions mean. -/
theorem makeBdries_made {D : DEnv K} {ext : K} {vs : List (VertDef K)} (hfew : vs.length < 2 ^ 31) {bs : List (BdryType × BDef K)} {qs : List (List (Pt K))}
    {st st' : List (BVert K)} {Ls : List (BdryType × EList K)} (hst : initVerts vs <+: st)
    (hd : List.Forall₂ (fun b q => Draws D (vs.map (·.xy)) b.1 b.2 q) bs qs) (hp : ∀ q ∈ qs, 0 < polygonArea q)
    (h : makeBdries D ext bs st = .ok (st', Ls)) :
    Ls.map (·.1) = bs.map (·.1) ∧ List.Forall₂ (fun L q => Made L.1 st' L.2 q) Ls qs := by
  induction hd generalizing st Ls with
  | nil =>
    simp only [makeBdries, Except.ok.injEq, Prod.mk.injEq] at h
    rw [← h.2]
    exact ⟨rfl, .nil⟩
  | @cons b q bs qs hb _ ih =>
    obtain ⟨bt, b⟩ := b
    obtain ⟨st1, L, Ls', h1, h2, rfl⟩ := makeBdries_cons h
    obtain ⟨i1, i2⟩ := ih (hst.trans (makeBdry_prefix h1)) (fun q hq => hp q (List.mem_cons_of_mem _ hq)) h2
    refine ⟨by rw [List.map_cons, i1]; rfl, .cons (made_mono (makeBdry_made hst hfew hb (hp _ (List.mem_cons_self ..)) h1) (makeBdries_prefix h2)) i2⟩

theorem makeDomain_ok {D : DEnv K} {c : Cfg K} {d : Dm K} (h : makeDomain D c = .ok d) :
    makeBdries D c.extent c.bdries (initVerts c.verts) = .ok (d.verts, d.bdries) ∧ addFixedTables d.verts c.fixedEdges ⟨false, [], 0⟩ = .ok d.fixedEdges ∧
    d.fixedVerts = (List.range c.verts.length).filter fun i => (c.verts[i]?).any (·.fixed) := by
  unfold makeDomain at h
  cases h1 : makeBdries D c.extent c.bdries (initVerts c.verts) with
  | error f => rw [h1] at h; cases h
  | ok r =>
    obtain ⟨st, bs⟩ := r
    rw [h1] at h
    change (do let fe ← addFixedTables st c.fixedEdges ⟨false, [], 0⟩; Except.ok (Dm.mk st bs ((List.range c.verts.length).filter fun i => (c.verts[i]?).any (fun v : VertDef K => v.fixed)) fe)) = _ at h
    cases h2 : addFixedTables st c.fixedEdges ⟨false, [], 0⟩ with
    | error f => rw [h2] at h; cases h
    | ok fe =>
      rw [h2] at h
      change Except.ok (Dm.mk _ _ _ _) = _ at h
      simp only [Except.ok.injEq] at h
      subst h
      exact ⟨rfl, h2, rfl⟩

/-- Fixed edges are flagged and have a length. -/
theorem addFixedRows_ok {st : List (BVert K)} {rows : List (Int × Int)} {L L' : EList K} (h : addFixedRows st rows L = .ok L') :
    L'.edges = L.edges ++ rows.map (fun r => ⟨App.toSize r.1, App.toSize r.2, -1, Flags.add 0 Flags.eIsFixed⟩) ∧
    ∀ r ∈ rows, App.toSize r.1 < st.length ∧ App.toSize r.2 < st.length ∧ storePos st (App.toSize r.1) ≠ storePos st (App.toSize r.2) := by
  induction rows generalizing L with
  | nil =>
    simp only [addFixedRows, Except.ok.injEq] at h
    subst h
    simp
  | cons r rows ih =>
    obtain ⟨z1, z2⟩ := r
    rw [addFixedRows] at h
    split at h
    · cases h
    · split at h
      · next hr =>
        split at h
        · cases h
        · next L1 h1 =>
          obtain ⟨i1, i2⟩ := ih h
          obtain ⟨k1, k2, -⟩ := insertEdge_some h1
          refine ⟨by rw [i1, k2]; simp, ?_⟩
          intro r hr'
          rcases List.mem_cons.mp hr' with rfl | hr'
          · exact ⟨hr.1, hr.2, k1⟩
          · exact i2 r hr'
      · cases h

theorem addFixedTables_ok {st : List (BVert K)} {ts : List (List (Int × Int))} {L L' : EList K} (h : addFixedTables st ts L = .ok L') :
    L'.edges = L.edges ++ ts.flatten.map (fun r => ⟨App.toSize r.1, App.toSize r.2, -1, Flags.add 0 Flags.eIsFixed⟩) ∧
    ∀ r ∈ ts.flatten, App.toSize r.1 < st.length ∧ App.toSize r.2 < st.length ∧ storePos st (App.toSize r.1) ≠ storePos st (App.toSize r.2) := by
  induction ts generalizing L with
  | nil =>
    simp only [addFixedTables, Except.ok.injEq] at h
    subst h
    simp
  | cons t ts ih =>
    rw [addFixedTables] at h
    cases h1 : addFixedRows st t L with
    | error f => rw [h1] at h; cases h
    | ok L1 =>
      rw [h1] at h
      change addFixedTables st ts L1 = _ at h
      obtain ⟨i1, i2⟩ := ih h
      obtain ⟨k1, k2⟩ := addFixedRows_ok h1
      refine ⟨by rw [i1, k1]; simp, ?_⟩
      intro r hr
      rw [List.flatten_cons] at hr
      rcases List.mem_append.mp hr with hr | hr
      · exact k2 r hr
      · exact i2 r hr

/-- The edges that are not of the boundary. -/
theorem fixedSources_ok {D : DEnv K} {c : Cfg K} {d : Dm K} (h : makeDomain D c = .ok d) : ∀ e ∈ d.fixedSources, e.fixed = true ∧ e.p1 ≠ e.p2 := by
  obtain ⟨-, h2, -⟩ := makeDomain_ok h
  obtain ⟨k1, k2⟩ := addFixedTables_ok h2
  intro e he
  unfold Dm.fixedSources at he
  obtain ⟨f, hf, rfl⟩ := List.mem_map.mp he
  rw [k1, List.nil_append] at hf
  obtain ⟨r, hr, rfl⟩ := List.mem_map.mp hf
  refine ⟨?_, (k2 r hr).2.2⟩
  unfold srcEdge
  dsimp only
  decide

/-- The boundaries of the domain. -/
theorem drawing_bdries {D : DEnv K} {c : Cfg K} {d : Dm K} {b : BDef K} {bs : List (BDef K)} {ps : List (Pt K)} {hs : List (List (Pt K))}
    (H : Drawing D c b bs ps hs) (h : makeDomain D c = .ok d) :
    initVerts c.verts <+: d.verts ∧ ∃ L Ls, d.bdries = (.exterior, L) :: Ls ∧ Made .exterior d.verts L ps ∧
      List.Forall₂ (fun L q => L.1 = .interior ∧ Made .interior d.verts L.2 q) Ls hs := by
  obtain ⟨h1, -, -⟩ := makeDomain_ok h
  refine ⟨makeBdries_prefix h1, ?_⟩
  rw [H.bdries] at h1
  have hd : List.Forall₂ (fun b q => Draws D (c.verts.map (·.xy)) b.1 b.2 q) ((BdryType.exterior, b) :: bs.map (Prod.mk .interior)) (ps :: hs) := by
    refine .cons H.outer ?_
    rw [List.forall₂_map_left_iff]
    exact H.holes
  obtain ⟨k1, k2⟩ := makeBdries_made H.few (List.prefix_refl _) hd H.ccw h1
  cases hb : d.bdries with
  | nil => rw [hb] at k2; cases k2
  | cons L Ls =>
    obtain ⟨bt, L⟩ := L
    rw [hb] at k1 k2
    simp only [List.map_cons, List.cons.injEq] at k1
    obtain ⟨rfl, k1⟩ := k1
    cases k2 with
    | cons m ms =>
      refine ⟨L, Ls, rfl, m, ?_⟩
      have hi : ∀ L ∈ Ls, L.1 = .interior := by
        intro L hL
        have := List.mem_map_of_mem (f := (·.1)) hL
        rw [k1, List.map_map] at this
        obtain ⟨x, -, hx⟩ := List.mem_map.mp this
        exact hx.symm
      clear k1 hd H hb
      induction ms with
      | nil => exact .nil
      | @cons L q Ls qs m' _ ih =>
        have e := hi L (List.mem_cons_self ..)
        refine .cons ⟨e, e ▸ m'⟩ (ih fun L hL => hi L (List.mem_cons_of_mem _ hL))

/-- The outline of the domain is that of the drawing. -/
theorem drawing_outline {D : DEnv K} {c : Cfg K} {d : Dm K} {b : BDef K} {bs : List (BDef K)} {ps : List (Pt K)} {hs : List (List (Pt K))}
    (H : Drawing D c b bs ps hs) (h : makeDomain D c = .ok d) : (outline (fun _ => []) d.sources).Perm (withHoles ps hs) := by
  obtain ⟨-, L, Ls, e, m, ms⟩ := drawing_bdries H h
  unfold Dm.sources
  rw [source_segs, e, List.flatMap_cons]
  unfold withHoles
  refine List.Perm.append (by simpa using m.segs) ?_
  clear e m H
  induction ms with
  | nil => exact List.Perm.refl _
  | cons m _ ih =>
    rw [List.flatMap_cons, List.flatMap_cons]
    exact List.Perm.append (by simpa using m.2.segs) ih

/-- The domain is fit for the front. -/
theorem drawing_data {D : DEnv K} {c : Cfg K} {d : Dm K} {b : BDef K} {bs : List (BDef K)} {ps : List (Pt K)} {hs : List (List (Pt K))}
    (H : Drawing D c b bs ps hs) (h : makeDomain D c = .ok d) (hs' : ∀ s ∈ withHoles ps hs, s.1 ≠ s.2) : DomainData (fun _ => []) d.sources d.fixedSources := by
  have hfx := fixedSources_ok h
  have hout := drawing_outline H h
  obtain ⟨-, L, Ls, e, m, ms⟩ := drawing_bdries H h
  have key : ∀ b ∈ d.bdries, BdSpec.Loop b.2.edges ∧ ∀ e ∈ b.2.edges, e.props = Flags.eOnBoundary := by
    intro b hb
    rw [e] at hb
    rcases List.mem_cons.mp hb with rfl | hb
    · exact ⟨m.loop, m.props⟩
    · obtain ⟨r, -, hr⟩ := forall₂_mem ms b hb
      exact ⟨hr.2.loop, hr.2.props⟩
  refine ⟨?_, fun _ _ _ _ hn => absurd rfl hn, ?_, fun e he => (hfx e he).1, ?_⟩
  · intro b hb
    unfold Dm.sources Sh.sources at hb
    obtain ⟨c, hc, rfl⟩ := List.mem_map.mp hb
    unfold ClosedSrc
    rw [List.map_map, List.map_map]
    have hl := congrArg (List.map (storePos d.verts)) (key c hc).1
    rw [List.map_map, List.map_rotate, List.map_map] at hl
    change (c.2.edges.map fun e => storePos d.verts e.v2).Perm (c.2.edges.map fun e => storePos d.verts e.v1)
    change (c.2.edges.map fun e => storePos d.verts e.v2) = (c.2.edges.map fun e => storePos d.verts e.v1).rotate 1 at hl
    rw [hl]
    exact List.rotate_perm _ _
  · intro b hb e he
    unfold Dm.sources Sh.sources at hb
    obtain ⟨c, hc, rfl⟩ := List.mem_map.mp hb
    obtain ⟨f, hf, rfl⟩ := List.mem_map.mp he
    refine ⟨?_, by simp⟩
    unfold srcEdge
    rw [(key c hc).2 f hf]
    rfl
  · intro c hc
    unfold Fr.collectCalls at hc
    rcases List.mem_append.mp hc with hc | hc
    · obtain ⟨b, hb, hc⟩ := List.mem_flatMap.mp hc
      obtain ⟨e, he, hc⟩ := List.mem_flatMap.mp hc
      simp only [List.length_nil, gt_iff_lt, lt_self_iff_false, if_false, List.mem_singleton] at hc
      subst hc
      refine hs' (e.p1, e.p2) ?_
      rw [← hout.mem_iff]
      unfold outline
      exact List.mem_flatMap.mpr ⟨b, hb, List.mem_flatMap.mpr ⟨e, he, by simp⟩⟩
    · obtain ⟨e, he, rfl⟩ := List.mem_map.mp hc
      exact (hfx e he).2

/-- The area of the domain. -/
theorem drawing_area {D : DEnv K} {c : Cfg K} {d : Dm K} {b : BDef K} {bs : List (BDef K)} {ps : List (Pt K)} {hs : List (List (Pt K))}
    (H : Drawing D c b bs ps hs) (h : makeDomain D c = .ok d) :
    sourceArea (fun _ => []) d.sources = polygonArea ps - (hs.map polygonArea).sum ∧ Dom.area d.dom = polygonArea ps - (hs.map polygonArea).sum := by
  refine ⟨by rw [outline_area, ← withHoles_area, ((drawing_outline H h).map _).sum_eq], ?_⟩
  obtain ⟨-, L, Ls, e, m, ms⟩ := drawing_bdries H h
  rw [area_eq_sum]
  show ((d.bdries.map fun b => b.2.area).sum) = _
  rw [e, List.map_cons, List.sum_cons]
  have := m.area
  rw [if_pos rfl] at this
  dsimp only
  rw [this, sub_eq_add_neg]
  congr 1
  clear e m this H
  induction ms with
  | nil => simp
  | cons m _ ih =>
    have := m.2.area
    rw [if_neg (by simp)] at this
    rw [List.map_cons, List.sum_cons, List.map_cons, List.sum_cons, ih, this]
    ring

/-- The corners of the outer polygon are vertices of the domain. -/
theorem made_corner {bt : BdryType} {st : List (BVert K)} {L : EList K} {ps : List (Pt K)} (h : Made bt st L ps) {p : Pt K} (hp : p ∈ ps) :
    ∃ v < st.length, storePos st v = p := by
  have h1 : p ∈ (ring ps).map Prod.fst := by
    rw [ring_cyclic]
    unfold cyclicPairs
    rw [List.map_fst_zip (by simp)]
    exact hp
  obtain ⟨s, hs, rfl⟩ := List.mem_map.mp h1
  have h2 := h.segs
  split_ifs at h2
  · obtain ⟨e, he, e1⟩ := List.mem_map.mp (h2.mem_iff.mpr hs)
    exact ⟨e.v1, (h.range e he).1, by rw [← e1]⟩
  · obtain ⟨e, he, e1⟩ := List.mem_map.mp (h2.mem_iff.mpr (List.mem_map_of_mem hs))
    refine ⟨e.v2, (h.range e he).2, ?_⟩
    have := congrArg Prod.snd e1
    exact this

theorem flat_area {ps : List (Pt K)} (h : (∀ p ∈ ps, p.x = 0) ∨ ∀ p ∈ ps, p.y = 0) : polygonArea ps = 0 := by
  rw [← ring_area, ring_cyclic, mul_eq_zero]
  right
  apply List.sum_eq_zero
  intro x hx
  obtain ⟨s, hs, rfl⟩ := List.mem_map.mp hx
  have h1 := (List.of_mem_zip hs).1
  have h2 := List.mem_rotate.mp (List.of_mem_zip hs).2
  unfold Pt.cross
  rcases h with h | h <;> rw [h _ h1, h _ h2] <;> ring

/-- The extent of the domain. -/
theorem drawing_extent {D : DEnv K} {c : Cfg K} {d : Dm K} {b : BDef K} {bs : List (BDef K)} {ps : List (Pt K)} {hs : List (List (Pt K))}
    (H : Drawing D c b bs ps hs) (h : makeDomain D c = .ok d) :
    (Dom.extent d.dom).1.1 ≠ (Dom.extent d.dom).1.2 ∧ (Dom.extent d.dom).2.1 ≠ (Dom.extent d.dom).2.2 := by
  obtain ⟨-, L, Ls, -, m, -⟩ := drawing_bdries H h
  have hp := H.ccw ps (List.mem_cons_self ..)
  obtain ⟨⟨a1, a2, a3, a4⟩, -⟩ := C25_extent_partial d.dom
  have key : ∀ p ∈ ps, ∃ v ∈ d.dom.verts, d.dom.pos v = p := by
    intro p hp
    obtain ⟨v, hv, e⟩ := made_corner m hp
    exact ⟨v, List.mem_range.mpr hv, e⟩
  constructor
  · intro heq
    apply hp.ne'
    refine flat_area (Or.inl fun p hq => ?_)
    obtain ⟨v, hv, rfl⟩ := key p hq
    have hm : (d.dom.pos v).x ∈ (0 : K) :: d.dom.verts.map fun v => (d.dom.pos v).x := List.mem_cons_of_mem _ (List.mem_map_of_mem hv)
    have k1 := a1.2 _ hm
    have k2 := a2.2 _ hm
    have k3 := a1.2 _ (List.mem_cons_self ..)
    have k4 := a2.2 _ (List.mem_cons_self ..)
    linarith
  · intro heq
    apply hp.ne'
    refine flat_area (Or.inr fun p hq => ?_)
    obtain ⟨v, hv, rfl⟩ := key p hq
    have hm : (d.dom.pos v).y ∈ (0 : K) :: d.dom.verts.map fun v => (d.dom.pos v).y := List.mem_cons_of_mem _ (List.mem_map_of_mem hv)
    have k1 := a3.2 _ hm
    have k2 := a4.2 _ hm
    have k3 := a3.2 _ (List.mem_cons_self ..)
    have k4 := a4.2 _ (List.mem_cons_self ..)
    linarith

end TQ.Fl

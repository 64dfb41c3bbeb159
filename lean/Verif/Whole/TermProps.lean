import Verif.Whole.TermSpec
import Verif.Triangulation.Term
import Verif.Whole.AppProps
import Mathlib.Algebra.Order.Archimedean.Basic

/-! # The meshing terminates (C165), and covers no more than the domain (C166) -/

set_option linter.unusedSectionVars false

namespace TQ
open TQ.MS TQ.MS.St TQ.MeshSpec TQ.MCSpec TQ.FUSpec TQ.FU TQ.TG TQ.TGSpec TQ.WholeSpec TQ.Whole TQ.TermSpec TQ.AppSpec TQ.AM TQ.QL TQ.QLSpec
variable {K : Type*} [Field K] [LinearOrder K] [IsStrictOrderedRing K]

/-! ### C165: termination -/

theorem run_trans_len {env : FU.Env K} {s t : St K} {log : List Entry} (hr : Run env s log t) {l2 : List Entry} {u : St K} (h : Run env t l2 u) :
    Run env s (log ++ l2) u := by
  induction h with
  | start => rw [List.append_nil]; exact hr
  | update _ a b c ih => rw [← List.append_assoc]; exact Run.update ih a b c
  | exhaustive _ a b c ih => rw [← List.append_assoc]; exact Run.exhaustive ih a b c
  | updateFail _ a b ih => exact Run.updateFail ih a b
  | exhaustiveFail _ a b c ih => exact Run.exhaustiveFail ih a b c
  | reorder _ a ih => exact Run.reorder ih a

theorem generate_of_bound {env : FU.Env K} (he : 0 < env.eps) (hq : QueryLive env) (hs : SortOK env) (par : Par K) {s : St K}
    (h : WF s) (hf : s.es .front ≠ []) {nEl fuel N : Nat} (hfuel : 2 * N * ((s.es .front).length + N) ≤ fuel)
    (h1 : ∀ {k L log}, advLoop env par nEl k (advStart env s) = .fuel L → Run env s log L.s → log.length < N)
    (h2 : ∀ {k k' L L' log}, advLoop env par nEl k (advStart env s) = .ret false L →
      exhLoop env (nEl - L.n) k' (exhStart env L.s L.fbase) = .fuel L' → Run env s log L'.s → log.length < N) :
    ∃ b s' c, TG.generate env par nEl fuel s = .ret b s' c := by
  have hx : (s.es .front).head?.isSome := by
    cases hc : s.es .front with
    | nil => exact absurd hc hf
    | cons a as => rfl
  have r1 := advLoop_res he hq hs par h hx fuel (advStart_inv (env := env) hf nEl)
  unfold TG.generate
  cases hl : advLoop env par nEl fuel (advStart env s) with
  | undef => rw [hl] at r1; cases r1
  | fuel L =>
    exfalso
    obtain ⟨⟨rl, hr, hn⟩, -, hb⟩ := adv_turns he hq hs par h hf hl
    have := h1 hl hr
    have : 2 * (L.n + 1) * ((s.es .front).length + L.n) ≤ 2 * N * ((s.es .front).length + N) :=
      Nat.mul_le_mul (by omega) (by omega)
    omega
  | ret b L =>
    rw [hl] at r1
    cases b with
    | true => exact ⟨_, _, _, rfl⟩
    | false =>
      dsimp only
      cases r1 with
      | fail hr hlim hne _ =>
        obtain ⟨rl, hr, hn⟩ := hr
        have hwf := run_wf he hq hs h hr
        have hlen := run_front_len he hq hs h hr
        have r2 := exhLoop_res he hq hs hwf fuel (exhStart_inv (env := env) hne (nEl - L.n) L.fbase)
        cases hl2 : exhLoop env (nEl - L.n) fuel (exhStart env L.s L.fbase) with
        | undef => rw [hl2] at r2; cases r2
        | ret b L' => exact ⟨_, _, _, rfl⟩
        | fuel L' =>
          exfalso
          obtain ⟨⟨rl2, hr2, hn2⟩, -, hb⟩ := exh_turns he hq hs hwf hne hl2
          have := h2 hl hl2 (run_trans_len hr hr2)
          rw [List.length_append] at this
          have : (L'.n + 1) * ((L.s.es .front).length + L'.n) ≤ 2 * N * ((s.es .front).length + N) :=
            Nat.mul_le_mul (by omega) (by omega)
          omega

/-- **C165.** With a limit on the number of elements the meshing always terminates: on every mesh with a front the
loops return after at most `2 n (m + n)` turns each, for the limit `n` and `m` front edges.  No condition on the
geometry. -/
theorem C165_limited {env : FU.Env K} (he : 0 < env.eps) (hq : QueryLive env) (hs : SortOK env) (par : Par K) {s : St K}
    (h : WF s) (hf : s.es .front ≠ []) {nEl fuel : Nat} (hl : 0 < nEl)
    (hfuel : 2 * nEl * ((s.es .front).length + nEl) ≤ fuel) :
    ∃ b s' c, TG.generate env par nEl fuel s = .ret b s' c := by
  have hx : (s.es .front).head?.isSome := by
    cases hc : s.es .front with
    | nil => exact absurd hc hf
    | cons a as => rfl
  refine generate_of_bound he hq hs par h hf hfuel ?_ ?_
  · intro k L log hk hr
    obtain ⟨⟨rl, hr', hn⟩, hlim, -⟩ := adv_turns he hq hs par h hf hk
    have e1 := run_tris he hq hs h hr
    have e2 := run_tris he hq hs h hr'
    omega
  · intro k k' L L' log hk hk' hr
    have r1 := advLoop_res he hq hs par h hx k (advStart_inv (env := env) hf nEl)
    rw [hk] at r1
    cases r1 with
    | fail hr1 hlim hne _ =>
      obtain ⟨rl, hr1, hn⟩ := hr1
      have hwf := run_wf he hq hs h hr1
      obtain ⟨⟨rl2, hr2, hn2⟩, hlim2, -⟩ := exh_turns he hq hs hwf hne hk'
      have e1 := run_tris he hq hs h hr
      have e2 := run_tris he hq hs h (run_trans_len hr1 hr2)
      rw [List.length_append] at e2
      omega

/-- **C165.** The same for the exhaustive function. -/
theorem C165_limited_exhaustive {env : FU.Env K} (he : 0 < env.eps) (hq : QueryLive env) (hs : SortOK env) {s : St K}
    (h : WF s) (hf : s.es .front ≠ []) {nEl fuel : Nat} (hl : 0 < nEl)
    (hfuel : nEl * ((s.es .front).length + nEl) ≤ fuel) :
    ∃ b s' c, generateExhaustive env nEl fuel s = .ret b s' c := by
  obtain ⟨l1, r1, -⟩ := sortFront_run (env := env) (s := s) (n := 0) false ⟨[], .start, rfl⟩
  have w1 := run_wf he hq hs h r1
  have hp := sortFront_perm env s false
  have hne : (sortFront env false s).es .front ≠ [] := by
    intro hc; rw [hc] at hp; exact hf (List.perm_nil.mp hp.symm)
  have r2 := exhLoop_res he hq hs w1 fuel (exhStart_inv (env := env) hne nEl (baseFirst s none).2)
  unfold generateExhaustive
  cases hl2 : exhLoop env nEl fuel (exhStart env (sortFront env false s) (baseFirst s none).2) with
  | undef => rw [hl2] at r2; cases r2
  | ret b L' => exact ⟨_, _, _, rfl⟩
  | fuel L' =>
    exfalso
    obtain ⟨-, hlim, hb⟩ := exh_turns he hq hs w1 hne hl2
    rw [hp.length_eq] at hb
    have : (L'.n + 1) * ((s.es .front).length + L'.n) ≤ nEl * ((s.es .front).length + nEl) :=
      Nat.mul_le_mul (by omega) (by omega)
    omega

/-- **C165.** The number of triangles is bounded by the area that the front encloses: `c` triangles that are large
compared to the tolerance (C140) have `c² ε ≤ (2 A)²`. -/
theorem C165_count {env : FU.Env K} (he : 0 < env.eps) (hq : QueryExact env) (hs : SortOK env)
    (hn : ∀ p, 0 ≤ env.norm p ∧ Pt.normSq p ≤ env.norm p * env.norm p) {s0 : St K} (h0 : WF s0)
    (hsim : SimpleFront s0.pos (pairs s0 .front)) {log : List Entry} {s : St K} (hr : Run env s0 log s)
    (hres : Resolved env.eps s) (hreach : Reaching env s0 s) :
    (log.length : K) ^ 2 * env.eps ≤ (2 * enclosed s0.pos (pairs s0 .front)) ^ 2 := by
  have hall := reaching_all he (queryExact_live hq) hs h0 hr hreach
  obtain ⟨a1, a2⟩ := run_area_lower he (queryExact_live hq) hs h0 hr hres
  have h1 := C142_area_conserved he hq hs hn h0 hsim hr hres hall
  have h2 := simple_nonneg (C140_stays_simple he hq hs hn h0 hsim hr hres hall).2
  refine le_trans a2 (pow_le_pow_left₀ (by linarith) (by linarith) 2)

/-- **C165.** Without a limit the meshing terminates as well, if the front encloses a region and the triangles are large
compared to the tolerance (conditions of C140 in the states that the loops pass through): with `A` the area of the region
and `N² ε > (2 A)²` the loops return after at most `2 N (m + N)` turns each. -/
theorem C165_terminates {env : FU.Env K} (he : 0 < env.eps) (hq : QueryExact env) (hs : SortOK env)
    (hn : ∀ p, 0 ≤ env.norm p ∧ Pt.normSq p ≤ env.norm p * env.norm p) {s : St K} (h : WF s)
    (hsim : SimpleFront s.pos (pairs s .front)) (hf : s.es .front ≠ []) (par : Par K) {nEl fuel N : Nat}
    (hv : ∀ t, Visited env par nEl s t → Resolved env.eps t ∧ Reaching env s t)
    (hN : (2 * enclosed s.pos (pairs s .front)) ^ 2 < (N : K) ^ 2 * env.eps)
    (hfuel : 2 * N * ((s.es .front).length + N) ≤ fuel) :
    ∃ b s' c, TG.generate env par nEl fuel s = .ret b s' c := by
  have key : ∀ {t log}, Visited env par nEl s t → Run env s log t → log.length < N := by
    intro t log ht hr
    obtain ⟨k1, k2⟩ := hv t ht
    have := lt_of_le_of_lt (C165_count he hq hs hn h hsim hr k1 k2) hN
    have h3 : (log.length : K) ^ 2 < (N : K) ^ 2 := lt_of_mul_lt_mul_right this he.le
    exact_mod_cast lt_of_pow_lt_pow_left₀ 2 (Nat.cast_nonneg N) h3
  exact generate_of_bound he (queryExact_live hq) hs par h hf hfuel (fun hk hr => key (.front hk) hr)
    (fun hk hk' hr => key (.exhaustive hk hk') hr)

/-- **C165.** In an Archimedean field such a number of turns exists. -/
theorem C165_some_turns [Archimedean K] {env : FU.Env K} (he : 0 < env.eps) (hq : QueryExact env) (hs : SortOK env)
    (hn : ∀ p, 0 ≤ env.norm p ∧ Pt.normSq p ≤ env.norm p * env.norm p) {s : St K} (h : WF s)
    (hsim : SimpleFront s.pos (pairs s .front)) (hf : s.es .front ≠ []) (par : Par K) {nEl : Nat}
    (hv : ∀ t, Visited env par nEl s t → Resolved env.eps t ∧ Reaching env s t) :
    ∃ n, ∀ fuel, n ≤ fuel → ∃ b s' c, TG.generate env par nEl fuel s = .ret b s' c := by
  obtain ⟨N, hN⟩ := exists_nat_gt ((2 * enclosed s.pos (pairs s .front)) ^ 2 / env.eps)
  refine ⟨2 * (N + 1) * ((s.es .front).length + (N + 1)), fun fuel hfuel => ?_⟩
  refine C165_terminates he hq hs hn h hsim hf par hv ?_ hfuel
  rw [div_lt_iff₀ he] at hN
  refine lt_of_lt_of_le hN (mul_le_mul_of_nonneg_right ?_ he.le)
  push_cast
  have : (0 : K) ≤ N := Nat.cast_nonneg N
  nlinarith

theorem advLoop_more {env : FU.Env K} {par : Par K} {nEl : Nat} : ∀ {k : Nat} (j : Nat) {L L' : Lp K} {b : Bool},
    advLoop env par nEl k L = .ret b L' → advLoop env par nEl (k + j) L = .ret b L'
  | 0, j, L, L', b, h => by simp [advLoop] at h
  | k + 1, j, L, L', b, h => by
    rw [show k + 1 + j = (k + j) + 1 by omega]
    unfold advLoop at h ⊢
    cases ht : advTurn env par nEl L with
    | next M => rw [ht] at h; exact advLoop_more j h
    | ret b' M => rw [ht] at h; exact h
    | undef => rw [ht] at h; simp at h

theorem exhLoop_more {env : FU.Env K} {nEl : Nat} : ∀ {k : Nat} (j : Nat) {L L' : Lp K} {b : Bool},
    exhLoop env nEl k L = .ret b L' → exhLoop env nEl (k + j) L = .ret b L'
  | 0, j, L, L', b, h => by simp [exhLoop] at h
  | k + 1, j, L, L', b, h => by
    rw [show k + 1 + j = (k + j) + 1 by omega]
    unfold exhLoop at h ⊢
    cases ht : exhTurn env nEl L with
    | next M => rw [ht] at h; exact exhLoop_more j h
    | ret b' M => rw [ht] at h; exact h
    | undef => rw [ht] at h; simp at h

/-- **C165.** The number of turns given to the model does not matter once the loops have returned: the result is the
result of the code's unbounded loops. -/
theorem C165_same_result {env : FU.Env K} {par : Par K} {nEl fuel c : Nat} {s s' : St K} {b : Bool}
    (h : TG.generate env par nEl fuel s = .ret b s' c) (j : Nat) : TG.generate env par nEl (fuel + j) s = .ret b s' c := by
  unfold TG.generate at h ⊢
  cases h1 : advLoop env par nEl fuel (advStart env s) with
  | undef => rw [h1] at h; simp at h
  | fuel L => rw [h1] at h; simp at h
  | ret b1 L =>
    rw [h1] at h
    rw [advLoop_more j h1]
    cases b1 with
    | true => exact h
    | false =>
      dsimp only at h ⊢
      cases h2 : exhLoop env (nEl - L.n) fuel (exhStart env L.s L.fbase) with
      | undef => rw [h2] at h; simp at h
      | fuel L => rw [h2] at h; simp at h
      | ret b2 L2 =>
        rw [h2] at h
        rw [exhLoop_more j h2]
        exact h

theorem facet_area_pos {s : St K} (h : Meshing s) {f : FRef} (hf : Live s f) : 0 < s.fArea f := by
  obtain ⟨h1, h2⟩ := (ccw_iff h.wf).mp h.ccw
  cases f with
  | null => exact absurd hf id
  | tri t =>
    obtain ⟨a, b, c, hc⟩ := List.length_eq_three.mp (h.wf.tcor t hf)
    have := h1 t hf a b c hc
    rw [side_area2] at this
    unfold fArea
    rw [hc]
    unfold side at this
    unfold triArea Pt.cross
    simp only [Pt.sub_x, Pt.sub_y]
    linarith
  | quad q =>
    obtain ⟨a, b, c, d, hc⟩ : ∃ a b c d, (s.F (.quad q)).corners = [a, b, c, d] := by
      have := h.wf.qcor q hf
      match hcs : (s.F (.quad q)).corners, this with
      | [a, b, c, d], _ => exact ⟨a, b, c, d, rfl⟩
    have := h2 q hf a b c d hc
    unfold fArea
    rw [hc]
    unfold side at this
    unfold quadArea Pt.cross
    simp only [Pt.sub_x, Pt.sub_y]
    rcases this with ⟨h3, h4⟩ | ⟨h3, h4⟩ <;> linarith

theorem meshArea_nonneg {s : St K} (h : Meshing s) : 0 ≤ meshArea s := by
  rw [meshArea_facets]
  refine List.sum_nonneg fun x hx => ?_
  obtain ⟨f, hf, rfl⟩ := List.mem_map.mp hx
  exact (facet_area_pos h (mem_facets.mp hf)).le

theorem fArea_le {s : St K} (h : Meshing s) {f : FRef} (hf : Live s f) : s.fArea f ≤ meshArea s := by
  rw [meshArea_facets]
  refine List.single_le_sum (fun x hx => ?_) _ (List.mem_map_of_mem (mem_facets.mpr hf))
  obtain ⟨g, hg, rfl⟩ := List.mem_map.mp hx
  exact (facet_area_pos h (mem_facets.mp hg)).le

/-- **C165.** `Triangulation::generate_elements` terminates on prepared domains, also after quad layers and earlier steps:
`N² ε > (2 A)²` for the area `A` of the domain, `m` edges of the front. -/
theorem C165_triangulate {L : LEnv K} (he : 0 < L.env.eps) (hq : QueryExact L.env) (hso : SortOK L.env)
    (hn : ∀ p, 0 ≤ L.env.norm p ∧ Pt.normSq p ≤ L.env.norm p * L.env.norm p) {s0 a : St K} (h0 : Bare s0)
    (h : Staged L s0 a) {par : Par K} {nEl fuel N : Nat} {ix0 : FRef → Nat}
    (hv : ∀ t, Visited L.env par nEl (MC.startStep L.env.eps a) t →
      Resolved L.env.eps t ∧ Reaching L.env (MC.startStep L.env.eps a) t)
    (hN : (2 * enclosed s0.pos (pairs s0 .bdry)) ^ 2 < (N : K) ^ 2 * L.env.eps)
    (hfuel : 2 * N * (((MC.startStep L.env.eps a).es .front).length + N) ≤ fuel) :
    triangulate L.env par nEl fuel ix0 a ≠ .fuel := by
  have hw := staged_start h
  have i := work_inv he hq hso hn h0 hw
  have key : TG.generate L.env par nEl fuel (MC.startStep L.env.eps a) ≠ .fuel := by
    by_cases hf : (MC.startStep L.env.eps a).es .front = []
    · cases fuel with
      | zero =>
        exfalso
        have : N = 0 := by
          rcases Nat.eq_zero_or_pos N with h | h
          · exact h
          · have := Nat.mul_pos (Nat.mul_pos (show 0 < 2 by omega) h) (show 0 < ((MC.startStep L.env.eps a).es .front).length + N by omega)
            omega
        rw [this] at hN
        have := sq_nonneg (2 * enclosed s0.pos (pairs s0 .bdry))
        simp only [Nat.cast_zero] at hN
        nlinarith
      | succ fuel => rw [C94_complete_mesh_violated L.env par nEl fuel hf]; simp
    · have e1 := meshing_area i.mesh
      have e2 := work_enclosed he hq hso hn h0 hw
      have e3 := meshArea_nonneg i.mesh
      have e4 := simple_nonneg i.mesh.front
      obtain ⟨b, s', c, hg⟩ := C165_terminates he hq hso hn i.mesh.wf i.mesh.front hf par hv
        (lt_of_le_of_lt (pow_le_pow_left₀ (by linarith) (by linarith) 2) hN) hfuel
      rw [hg]; simp
  unfold triangulate
  split_ifs
  · simp
  · split
    · simp
    · rename_i hg; exact absurd hg key
    · split <;> simp

/-- **C165.** So does a run of the application (for the quad layers see `C165_layer_walk`). -/
theorem C165_application {L : LEnv K} (he : 0 < L.env.eps) (hq : QueryExact L.env) (hso : SortOK L.env)
    (hn : ∀ p, 0 ≤ L.env.norm p ∧ Pt.normSq p ≤ L.env.norm p * L.env.norm p) {s0 : St K} (h0 : Bare s0)
    {fuel N : Nat} {J : Job K} {D : Dom.Domain K} (hfine : LayersFine L fuel J.layers s0)
    (hv : ∀ a t, layerAll L fuel J.layers s0 = some a → Visited L.env J.par 0 (MC.startStep L.env.eps a) t →
      Resolved L.env.eps t ∧ Reaching L.env (MC.startStep L.env.eps a) t)
    (hN : (2 * enclosed s0.pos (pairs s0 .bdry)) ^ 2 < (N : K) ^ 2 * L.env.eps)
    (hfuel : ∀ a, layerAll L fuel J.layers s0 = some a →
      2 * N * (((MC.startStep L.env.eps a).es .front).length + N) ≤ fuel) :
    generateMesh L fuel J D s0 ≠ .fuel := by
  unfold generateMesh
  split
  · simp
  · rename_i a ha
    have key := C165_triangulate (ix0 := J.ix1) he hq hso hn h0 (layerAll_staged .prepared hfine ha) (fun t ht => hv a t ha ht) hN (hfuel a ha)
    split
    · simp
    · rename_i hg; exact absurd hg key
    · split
      · simp
      · split
        · simp
        · split <;> simp

theorem reaches_walk_le {next : Nat → Option Nat} {stop : Nat} : ∀ {n e fuel : Nat}, reaches next stop n e = true → n ≤ fuel →
    ∃ l, walk next stop fuel e = .ok l
  | 0, e, fuel, h, _ => by simp [reaches] at h
  | n + 1, e, 0, h, hf => by omega
  | n + 1, e, fuel + 1, h, hf => by
    unfold reaches at h
    unfold walk
    cases hn : next e with
    | none => rw [hn] at h; simp at h
    | some f =>
      rw [hn] at h
      dsimp only at h ⊢
      split_ifs at h ⊢
      · exact ⟨_, rfl⟩
      · obtain ⟨l, hl⟩ := reaches_walk_le h (show n ≤ fuel by omega)
        rw [hl]; exact ⟨_, rfl⟩

/-- A walk that leads to `ee` and from there to `es` stops at `es`. -/
theorem reaches_on {next : Nat → Option Nat} {ee es : Nat} (h1 : next ee = some es) : ∀ {n e : Nat},
    e = ee ∨ reaches next ee n e = true → reaches next es (n + 1) e = true
  | n, e, .inl h => by
    subst h
    unfold reaches
    rw [h1]; simp
  | 0, e, .inr h => by simp [reaches] at h
  | n + 1, e, .inr h => by
    unfold reaches at h ⊢
    cases hn : next e with
    | none => rw [hn] at h; simp at h
    | some f =>
      rw [hn] at h
      dsimp only at h ⊢
      by_cases hf : f = es
      · rw [if_pos hf]
      · rw [if_neg hf]
        refine reaches_on h1 ?_
        split_ifs at h with h2
        · exact Or.inl h2
        · exact Or.inr h

/-- The edge that `get_edge` finds at the end of an edge is its next edge. -/
theorem next_edgeTo {s : St K} (h : WF s) {v es ee : Nat} (hv : v ∈ s.verts) (h1 : edgeFrom s v = some es)
    (h2 : edgeTo s v = some ee) : s.nextEdge ee = some es := by
  obtain ⟨m2, e2⟩ := edgeTo_spec h hv h2
  obtain ⟨l2, -, -, hne, -⟩ := (h.ends _).2 ee m2
  unfold nextEdge
  unfold edgeFrom at h1
  rw [e2, l2, ← h1]
  refine List.find?_congr fun f _ => ?_
  by_cases hf : f = ee
  · subst hf
    have : ¬ (s.E f).v1 = v := by rw [← e2]; exact hne
    simp [this]
  · simp [hf]

/-- **C165.** The walk along the front in `QuadLayerVertices::QuadLayerVertices`, a loop without bound, ends after at most
as many turns as the front has edges, for all start and end edges that `find_start_and_ending_edges` delivers (also if
several parts of the front meet in a vertex). -/
theorem C165_layer_walk {L : LEnv K} {s : St K} (h : WF s) {xs xe : Pt K} {es ee : Nat} {closed : Bool}
    (hf : findEdges L s xs xe = .yes es ee closed) {fuel : Nat} (hfuel : (s.es .front).length ≤ fuel) :
    ∃ l, walk s.nextEdge ee fuel es = .ok l := by
  unfold findEdges at hf
  split at hf
  · rename_i a b ha _
    obtain ⟨x, hx, hxa⟩ := closest_mem ha
    have ma := ((h.ends _).2 x hx).2.1
    rw [hxa] at ma
    split at hf
    · rename_i e1 e2 h1 h2
      by_cases hr : reaches s.nextEdge e2 (s.es .front).length e1 = true
      · rw [hr] at hf
        simp only [Bool.not_true, Bool.false_eq_true, if_false] at hf
        by_cases hab : a = b
        · rw [if_pos hab] at hf
          subst hab
          have hnx := next_edgeTo h ma h1 h2
          split at hf
          · rename_i f hn
            split_ifs at hf <;> simp only [Found.yes.injEq] at hf
            · obtain ⟨rfl, rfl, -⟩ := hf
              generalize (s.es .front).length = n at hr hfuel
              cases n with
              | zero => simp [reaches] at hr
              | succ n =>
                refine reaches_walk_le (reaches_on hnx (n := n) ?_) hfuel
                unfold reaches at hr
                rw [hn] at hr
                dsimp only at hr
                split_ifs at hr with h3
                · exact Or.inl h3
                · exact Or.inr hr
            · obtain ⟨rfl, rfl, -⟩ := hf
              exact reaches_walk_le hr hfuel
          · simp only [Found.yes.injEq] at hf
            obtain ⟨rfl, rfl, -⟩ := hf
            exact reaches_walk_le hr hfuel
        · rw [if_neg hab] at hf
          simp only [Found.yes.injEq] at hf
          obtain ⟨rfl, rfl, -⟩ := hf
          exact reaches_walk_le hr hfuel
      · simp only [Bool.not_eq_true] at hr
        rw [hr] at hf; simp at hf
    · simp at hf
  · simp at hf

/-! ### C166: the covered area -/

/-- **C166.** In every state of the meshing of a domain by layers and triangulation steps the value of `Mesh::area()` is
the sum of the areas of the elements, these are positive, and the sum is at most the area of the domain. -/
theorem C166_work {L : LEnv K} (he : 0 < L.env.eps) (hq : QueryExact L.env) (hso : SortOK L.env)
    (hn : ∀ p, 0 ≤ L.env.norm p ∧ Pt.normSq p ≤ L.env.norm p * L.env.norm p) {s0 u : St K} (h0 : Bare s0) (h : Work L s0 u) :
    u.area = s0.area + meshArea u ∧ (∀ f, Live u f → 0 < u.fArea f) ∧ meshArea u ≤ enclosed s0.pos (pairs s0 .bdry) ∧
    ∀ f, Live u f → u.fArea f ≤ enclosed s0.pos (pairs s0 .bdry) := by
  have i := work_inv he hq hso hn h0 h
  have e1 := meshing_area i.mesh
  have e2 := work_enclosed he hq hso hn h0 h
  have e3 := simple_nonneg i.mesh.front
  have e4 := i.area
  exact ⟨by linarith, fun f hf => facet_area_pos i.mesh hf, by linarith, fun f hf => le_trans (fArea_le i.mesh hf) (by linarith)⟩

/-- **C166.** The area reported after a call of `generate_elements` with any result and any limit is between the area
before the first call and that plus the area of the domain. -/
theorem C166_triangulate {L : LEnv K} (he : 0 < L.env.eps) (hq : QueryExact L.env) (hso : SortOK L.env)
    (hn : ∀ p, 0 ≤ L.env.norm p ∧ Pt.normSq p ≤ L.env.norm p * L.env.norm p) {s0 a : St K} (h0 : Bare s0)
    (h : Staged L s0 a) {par : Par K} {nEl fuel : Nat} {ix0 : FRef → Nat} (hm : MeshedWell L.env par nEl fuel a)
    {ok : Bool} {t : St K} (hb : a.es .bdry ≠ []) (ht : triangulate L.env par nEl fuel ix0 a = .ret ok t) :
    s0.area ≤ t.area ∧ t.area ≤ s0.area + enclosed s0.pos (pairs s0 .bdry) := by
  unfold triangulate at ht
  rw [if_neg (by have := List.length_pos_of_ne_nil hb; omega)] at ht
  split at ht
  · simp at ht
  · simp at ht
  · rename_i ok' u c hg
    split at ht
    · simp at ht
    · rename_i t' hi
      simp only [Out.ret.injEq] at ht
      obtain ⟨rfl, rfl⟩ := ht
      obtain ⟨hw, -, -⟩ := generate_work he hq hso hn h0 h hm hg
      obtain ⟨k1, -, k3, -⟩ := C166_work he hq hso hn h0 hw
      have k4 := meshArea_nonneg (work_inv he hq hso hn h0 hw).mesh
      rw [area_improve hi, area_finish, k1]
      constructor <;> linarith

/-! ### Examples -/

namespace TMEx
open TQ.MC
/-- All states of a loop that stops after `n` turns. -/
theorem visited_of {env : FU.Env ℚ} {par : Par ℚ} {nEl : Nat} {s : St ℚ} (n : Nat)
    (h1 : (match advLoop env par nEl n (advStart env s) with | .ret true _ => true | _ => false) = true)
    (h2 : ((List.range n).all fun k => match advLoop env par nEl k (advStart env s) with
      | .fuel L => APEx.wellOK env s L.s | _ => true) = true) {t : St ℚ} (h : Visited env par nEl s t) :
    Resolved env.eps t ∧ Reaching env s t := by
  obtain ⟨M, hM⟩ : ∃ M, advLoop env par nEl n (advStart env s) = .ret true M := by
    rcases hr : advLoop env par nEl n (advStart env s) with ⟨_ | _, M⟩ | _ | _
    · rw [hr] at h1; simp at h1
    · exact ⟨M, rfl⟩
    · rw [hr] at h1; simp at h1
    · rw [hr] at h1; simp at h1
  cases h with
  | @front k L hk =>
    by_cases hkn : k < n
    · have := List.all_eq_true.mp h2 k (List.mem_range.mpr hkn)
      rw [hk] at this
      exact APEx.well_of this
    · have := advLoop_more (k - n) hM
      rw [show n + (k - n) = k by omega, hk] at this
      simp at this
  | @exhaustive k k' L L' hk hk' =>
    exfalso
    have a1 := advLoop_more n hk
    have a2 := advLoop_more k hM
    rw [Nat.add_comm, a2] at a1
    simp at a1

theorem sq_visited {t : St ℚ} (h : Visited FUEx.env TGEx.par 0 (startStep FUEx.env.eps GNEx.sqMesh) t) :
    Resolved FUEx.env.eps t ∧ Reaching FUEx.env (startStep FUEx.env.eps GNEx.sqMesh) t :=
  visited_of 20 (by decide +kernel) (by decide +kernel) h
theorem wf_f0 : WF GNEx.f0 :=
  (work_inv (L := FNEx.Lf) FUEx.epsPos FUEx.exact FUEx.sortOK FUEx.norm_ok FNEx.sq_bare (staged_start .prepared)).mesh.wf
end TMEx

/-- The unit square: the bound is 8704 turns. -/
example : triangulate FUEx.env TGEx.par 0 8704 (fun _ => 0) GNEx.sqMesh ≠ .fuel :=
  C165_triangulate (L := FNEx.Lf) (N := 64) FUEx.epsPos FUEx.exact FUEx.sortOK FUEx.norm_ok FNEx.sq_bare .prepared
    (fun _ h => TMEx.sq_visited h) (by decide +kernel) (by decide +kernel)

/-- It needs fewer: one turn is not enough, twenty are. -/
example : triangulate FUEx.env TGEx.par 0 1 (fun _ => 0) GNEx.sqMesh = .fuel ∧
    triangulate FUEx.env TGEx.par 0 20 (fun _ => 0) GNEx.sqMesh = .ret true APEx.meshed := by
  refine ⟨?_, APEx.sq_true⟩
  have key : (match triangulate FUEx.env TGEx.par 0 1 (fun _ => 0) GNEx.sqMesh with
    | .fuel => true
    | _ => false) = true := by decide +kernel
  rcases h : triangulate FUEx.env TGEx.par 0 1 (fun _ => 0) GNEx.sqMesh with ⟨ok, t⟩ | _ | _
  · rw [h] at key; simp at key
  · rw [h] at key; simp at key
  · rfl

/-- The application on the square. -/
example : generateMesh FNEx.Lf 8704 APEx.job WEx.sqDom GNEx.sqMesh ≠ .fuel :=
  C165_application (N := 64) FUEx.epsPos FUEx.exact FUEx.sortOK FUEx.norm_ok FNEx.sq_bare trivial
    (fun a t ha ht => by
      obtain rfl : GNEx.sqMesh = a := by simpa [layerAll, APEx.job] using ha
      exact TMEx.sq_visited ht) (by decide +kernel)
    (fun a ha => by
      obtain rfl : GNEx.sqMesh = a := by simpa [layerAll, APEx.job] using ha
      decide +kernel)

/-- A limit of one triangle: 10 turns are enough for any parameters, also those with which no triangle is accepted. -/
example : (∃ b t c, TG.generate FUEx.env TGEx.par 1 10 GNEx.f0 = .ret b t c) ∧
    ∃ b t c, TG.generate APEx.picky TGEx.par 1 10 GNEx.f0 = .ret b t c :=
  ⟨C165_limited FUEx.epsPos (queryExact_live FUEx.exact) FUEx.sortOK _ TMEx.wf_f0 (by decide +kernel) (by decide) (by decide +kernel),
   C165_limited (env := APEx.picky) (by decide +kernel) (queryExact_live APEx.picky_exact) FUEx.sortOK _ TMEx.wf_f0 (by decide +kernel) (by decide) (by decide +kernel)⟩

/-- A limit of one triangle: half of the square is covered. -/
example : ∃ t, triangulate FUEx.env TGEx.par 1 20 (fun _ => 0) GNEx.sqMesh = .ret true t ∧
    t.area ≤ GNEx.sqMesh.area + enclosed GNEx.sqMesh.pos (pairs GNEx.sqMesh .bdry) ∧ t.area = 1 / 2 := by
  have hm : MeshedWell FUEx.env TGEx.par 1 20 GNEx.sqMesh := by
    intro ok u c hg
    have key : (match TG.generate FUEx.env TGEx.par 1 20 (MC.startStep FUEx.env.eps GNEx.sqMesh) with
      | .ret _ u _ => APEx.wellOK FUEx.env (MC.startStep FUEx.env.eps GNEx.sqMesh) u
      | _ => false) = true := by decide +kernel
    rw [hg] at key
    exact APEx.well_of key
  have key : (match triangulate FUEx.env TGEx.par 1 20 (fun _ => 0) GNEx.sqMesh with
    | .ret ok t => ok && decide (t.area = 1 / 2)
    | _ => false) = true := by decide +kernel
  rcases h : triangulate FUEx.env TGEx.par 1 20 (fun _ => 0) GNEx.sqMesh with ⟨ok, t⟩ | _ | _
  · rw [h] at key
    simp only [Bool.and_eq_true, decide_eq_true_eq] at key
    obtain ⟨rfl, ht⟩ := key
    exact ⟨t, rfl, (C166_triangulate (L := FNEx.Lf) FUEx.epsPos FUEx.exact FUEx.sortOK FUEx.norm_ok FNEx.sq_bare .prepared hm
      (by decide +kernel) h).2, ht⟩
  · rw [h] at key; simp at key
  · rw [h] at key; simp at key

/-- The walk along the lower side of the box with two layers (C150). -/
example : ∃ es ee c l, findEdges QLEx.L (QLEx.start WEx.box) ⟨0, 0⟩ ⟨1, 0⟩ = .yes es ee c ∧
    walk (QLEx.start WEx.box).nextEdge ee 100 es = .ok l := by
  have key : (match findEdges QLEx.L (QLEx.start WEx.box) ⟨0, 0⟩ ⟨1, 0⟩ with | .yes _ _ _ => true | _ => false) = true := by
    decide +kernel
  rcases h : findEdges QLEx.L (QLEx.start WEx.box) ⟨0, 0⟩ ⟨1, 0⟩ with _ | _ | ⟨es, ee, c⟩
  · rw [h] at key; simp at key
  · rw [h] at key; simp at key
  · obtain ⟨l, hl⟩ := C165_layer_walk (QLEx.wf_start WEx.built_box (by decide +kernel)) h (fuel := 100) (by decide +kernel)
    exact ⟨es, ee, c, l, rfl, hl⟩

end TQ

#print axioms TQ.C165_limited
#print axioms TQ.C165_limited_exhaustive
#print axioms TQ.C165_count
#print axioms TQ.C165_terminates
#print axioms TQ.C165_some_turns
#print axioms TQ.C165_same_result
#print axioms TQ.C165_triangulate
#print axioms TQ.C165_application
#print axioms TQ.C165_layer_walk
#print axioms TQ.C166_work
#print axioms TQ.C166_triangulate

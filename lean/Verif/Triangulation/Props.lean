import Verif.Triangulation.Lemmas
import Verif.FrontUpdate.Props

/-! # Properties C41, C42, C93-C95: the meshing loops -/

set_option linter.unusedSectionVars false

namespace TQ
open MS MeshSpec FUSpec FU MS.St TG TGSpec
variable {K : Type*} [Field K] [LinearOrder K] [IsStrictOrderedRing K]

namespace TGEx
open FUEx
/-- Default parameters of the triangulation. -/
def par : Par ℚ := ⟨1, 3 / 2, 10, 866 / 1000⟩
/-- What a run returns: success, number of triangles, front edges, corners of the triangles. -/
def result (g : GRes ℚ) : Option (Bool × Nat × List Nat × List (List Nat)) :=
  match g with
  | .ret b s n => some (b, n, s.es .front, s.tris.map fun t => (s.F (.tri t)).corners)
  | _ => none
/-- Returned value and record of a loop. -/
def record (r : Res ℚ) : Option (Bool × List Try) :=
  match r with
  | .ret b L => some (b, L.log)
  | _ => none
end TGEx

/-! ### C41: the limit of the number of elements -/

/-- **C41.** Whenever the meshing part of `generate_elements` returns: the counter is the number of new
triangles, the final state is the result of a history of front updates (so C34-C40 and C90 apply), a positive
limit is respected, the result is `true` as soon as the limit is reached, and `true` means that the front is
used up or the limit is reached. -/
theorem C41_limit {env : Env K} (he : 0 < env.eps) (hq : QueryLive env) (hs : SortOK env) (par : Par K) {s s' : St K}
    (h : WF s) (hf : s.es .front ≠ []) {nEl fuel c : Nat} {b : Bool} (hg : generate env par nEl fuel s = .ret b s' c) :
    (∃ log, Run env s log s' ∧ log.length = c) ∧ s'.tris.length = s.tris.length + c ∧
    (0 < nEl → c ≤ nEl) ∧ (0 < nEl → c = nEl → b = true) ∧
    (b = true → s'.es .front = [] ∨ (0 < nEl ∧ c = nEl)) := by
  have hx : (s.es .front).head?.isSome := by
    cases hc : s.es .front with
    | nil => exact absurd hc hf
    | cons a as => rfl
  have h1 := advLoop_res he hq hs par h hx fuel (advStart_inv (env := env) hf nEl)
  unfold generate at hg
  generalize advLoop env par nEl fuel (advStart env s) = r1 at h1 hg
  cases h1 with
  | fuel => simp at hg
  | @done L hr hl hd =>
    simp only [GRes.ret.injEq] at hg
    obtain ⟨rfl, rfl, rfl⟩ := hg
    obtain ⟨log, hr, hn⟩ := hr
    refine ⟨⟨log, hr, hn⟩, by rw [run_tris he hq hs h hr, hn], by omega, fun _ _ => rfl, fun _ => hd⟩
  | @fail L hr hl hne _ =>
    dsimp only at hg
    obtain ⟨log, hr, hn⟩ := hr
    have hwf := run_wf he hq hs h hr
    have h2 := exhLoop_res he hq hs hwf fuel (exhStart_inv (env := env) hne (nEl - L.n) L.fbase)
    generalize exhLoop env (nEl - L.n) fuel (exhStart env L.s L.fbase) = r2 at h2 hg
    have trans : ∀ {l2 : List Entry} {t : St K}, Run env L.s l2 t → ∃ l3, Run env s l3 t ∧ l3.length = L.n + l2.length := by
      intro l2 t hr2
      induction hr2 with
      | start => exact ⟨log, hr, by simp [hn]⟩
      | update _ a b c ih =>
        obtain ⟨l3, h3, e3⟩ := ih
        exact ⟨_, Run.update h3 a b c, by simp [e3]; omega⟩
      | exhaustive _ a b c ih =>
        obtain ⟨l3, h3, e3⟩ := ih
        exact ⟨_, Run.exhaustive h3 a b c, by simp [e3]; omega⟩
      | updateFail _ a b ih =>
        obtain ⟨l3, h3, e3⟩ := ih
        exact ⟨_, Run.updateFail h3 a b, e3⟩
      | exhaustiveFail _ a b c ih =>
        obtain ⟨l3, h3, e3⟩ := ih
        exact ⟨_, Run.exhaustiveFail h3 a b c, e3⟩
      | reorder _ a ih =>
        obtain ⟨l3, h3, e3⟩ := ih
        exact ⟨_, Run.reorder h3 a, e3⟩
    cases h2 with
    | fuel => simp at hg
    | @done L2 hr2 hl2 hd2 =>
      simp only [GRes.ret.injEq] at hg
      obtain ⟨rfl, rfl, rfl⟩ := hg
      obtain ⟨log2, hr2, hn2⟩ := hr2
      obtain ⟨l3, h3, e3⟩ := trans hr2
      refine ⟨⟨l3, h3, by omega⟩, by rw [run_tris he hq hs h h3]; omega, by omega, fun _ _ => rfl, fun _ => ?_⟩
      rcases hd2 with hd2 | hd2
      · exact Or.inl hd2
      · right; omega
    | @fail L2 hr2 hl2 hne2 _ =>
      simp only [GRes.ret.injEq] at hg
      obtain ⟨rfl, rfl, rfl⟩ := hg
      obtain ⟨log2, hr2, hn2⟩ := hr2
      obtain ⟨l3, h3, e3⟩ := trans hr2
      refine ⟨⟨l3, h3, by omega⟩, by rw [run_tris he hq hs h h3]; omega, by omega, fun _ _ => by omega, fun hc => by simp at hc⟩

/-- Without limit the square is meshed completely, with limit 1 the run stops after one triangle. -/
example : TGEx.result (generate FUEx.env TGEx.par 0 20 FUEx.square) = some (true, 2, [], [[0, 1, 2], [2, 3, 0]]) ∧
    TGEx.result (generate FUEx.env TGEx.par 1 20 FUEx.square) = some (true, 1, [6, 7, 10], [[0, 1, 2]]) := by
  decide +kernel

/-! ### C42: every front edge is tried before giving up -/

/-- **C42.** The advancing front loop never reads a null or dangling base edge if the front is not empty, and
when it returns `false` the last attempts were: a narrow pass of as many attempts as the front has edges, then
one wide attempt with every edge of the final front, in order; all of them failed and no element was
generated in between.  (The first attempt of the very first narrow pass uses the edge `x` that was first
before sorting, see `C93_narrow_pass_violated`.) -/
theorem C42_all_tried {env : Env K} (he : 0 < env.eps) (hq : QueryLive env) (hs : SortOK env) (par : Par K) {s : St K}
    (h : WF s) (hf : s.es .front ≠ []) (nEl fuel : Nat) :
    advLoop env par nEl fuel (advStart env s) ≠ .undef ∧
    ∀ L, advLoop env par nEl fuel (advStart env s) = .ret false L → L.s.es .front ≠ [] ∧
      ∃ pre x, Fresh pre ∧ (s.es .front).head? = some x ∧ L.log = pre ++
        (fails false (if pre = [] then x :: (L.s.es .front).tail else L.s.es .front) ++ fails true (L.s.es .front)) := by
  obtain ⟨x, xs, hx⟩ := List.exists_cons_of_ne_nil hf
  have hx' : (s.es .front).head? = some x := by rw [hx]; rfl
  have h1 := advLoop_res he hq hs par h (by rw [hx']; rfl) fuel (advStart_inv (env := env) hf nEl)
  generalize advLoop env par nEl fuel (advStart env s) = r1 at h1
  constructor
  · rintro rfl; cases h1
  · rintro L rfl
    cases h1 with
    | fail _ _ hne hl =>
      obtain ⟨pre, hp, hl⟩ := hl
      refine ⟨hne, pre, x, hp, hx', ?_⟩
      rw [hl, hx']
      rfl

/-- **C42.** While no element is generated the loop stops after at most two passes: a run that is still going
on after `2 m` attempts (`m` front edges) has generated an element, and the attempts since the last success
are always fewer than two passes. -/
theorem C42_two_passes {env : Env K} (he : 0 < env.eps) (hq : QueryLive env) (hs : SortOK env) (par : Par K) {s : St K}
    (h : WF s) (hf : s.es .front ≠ []) (nEl fuel : Nat) {L : Lp K}
    (hl : advLoop env par nEl fuel (advStart env s) = .fuel L) :
    L.log.length = fuel ∧ ∃ pre rest, Fresh pre ∧ L.log = pre ++ rest ∧ (∀ t ∈ rest, t.ok = false) ∧
      rest.length < 2 * (L.s.es .front).length := by
  have hx : (s.es .front).head?.isSome := by
    cases hc : s.es .front with
    | nil => exact absurd hc hf
    | cons a as => rfl
  have h1 := advLoop_res he hq hs par h hx fuel (advStart_inv (env := env) hf nEl)
  rw [hl] at h1
  have h00 : (advStart env s).log.length = 0 := rfl
  cases h1 with
  | fuel hi hlen =>
    obtain ⟨pre, hp, hlog⟩ := hi.log
    have hit := hi.iter
    refine ⟨by rw [hlen, h00]; omega, pre, _, hp, hlog, ?_, ?_⟩
    · intro t ht
      split_ifs at ht
      · simp only [fails, List.mem_append, List.mem_map] at ht
        rcases ht with ⟨e, _, rfl⟩ | ⟨e, _, rfl⟩ <;> rfl
      · simp only [fails, List.mem_map] at ht
        obtain ⟨e, _, rfl⟩ := ht; rfl
    · have hn := narrowPass_length hx pre (l := L.s.es .front) (by omega)
      split_ifs
      · simp only [fails, List.length_append, List.length_map, List.length_take, hn]
        omega
      · simp only [fails, List.length_map, List.length_take, hn]
        omega

/-- **C42.** The same for the exhaustive loop: it returns `false` only when every front edge, in order, failed
as base edge after the last generated element. -/
theorem C42_exhaustive {env : Env K} (he : 0 < env.eps) (hq : QueryLive env) (hs : SortOK env) {s : St K}
    (h : WF s) (hf : s.es .front ≠ []) (nEl fuel : Nat) (fb : Option Nat) :
    exhLoop env nEl fuel (exhStart env s fb) ≠ .undef ∧
    ∀ L, exhLoop env nEl fuel (exhStart env s fb) = .ret false L → L.s.es .front ≠ [] ∧
      ∃ pre, Fresh pre ∧ L.log = pre ++ fails true (L.s.es .front) := by
  have h1 := exhLoop_res he hq hs h fuel (exhStart_inv (env := env) hf nEl fb)
  generalize exhLoop env nEl fuel (exhStart env s fb) = r1 at h1
  constructor
  · rintro rfl; cases h1
  · rintro L rfl
    cases h1 with
    | fail _ _ hne hl => exact ⟨hne, hl⟩

namespace TGEx
open FUEx
/-- A limit on the quality that no triangle meets. -/
def strict : Env ℚ := { env with minQuality := 5 }
/-- A triangle with sides of different lengths (1-norm: 1, 6, 5); vertices 0-2, front edges 3-5. -/
def tri3 : St ℚ := fe (fe (fe (fv (fv (fv (St.empty 1) 0 0) 1 0) 0 5) 0 1) 1 2) 2 0
theorem wf_tri3 : WF tri3 := by
  refine wf_addEdge (wf_addEdge (wf_addEdge (wf_fv (wf_fv (wf_fv (wf_empty 1) _ _) _ _) _ _) .front _ _ ?_ ?_ ?_) .front _ _ ?_ ?_ ?_) .front _ _ ?_ ?_ ?_ <;>
    decide +kernel
end TGEx

/-! ### C93: the first narrow pass -/

/-- **C93 (violated).** The claim "before the wide search is switched on, every front edge was tried with
the narrow search" is false for the first pass: the loop starts with the edge that was first before sorting
(edge 3, the shortest) instead of the longest one (edge 4), so edge 3 is tried twice and edge 4 not at all. -/
theorem C93_narrow_pass_violated : WF TGEx.tri3 ∧ TGEx.tri3.es .front = [3, 4, 5] ∧
    (sortFront TGEx.strict false TGEx.tri3).es .front = [4, 5, 3] ∧
    TGEx.record (advLoop TGEx.strict TGEx.par 0 20 (advStart TGEx.strict TGEx.tri3)) =
      some (false, fails false [3, 5, 3] ++ fails true [4, 5, 3]) :=
  ⟨TGEx.wf_tri3, by decide +kernel, by decide +kernel, by decide +kernel⟩

/-- **C93 (partial).** In every later narrow pass (after an element was generated) all front edges are tried
in order before the wide search starts; in the first pass all but the first edge of the sorted front. -/
theorem C93_narrow_pass_partial {env : Env K} (he : 0 < env.eps) (hq : QueryLive env) (hs : SortOK env) (par : Par K)
    {s : St K} (h : WF s) (hf : s.es .front ≠ []) (nEl fuel : Nat) {L : Lp K}
    (hl : advLoop env par nEl fuel (advStart env s) = .fuel L) (hw : L.wide = true) :
    ∃ pre rest x, Fresh pre ∧ (s.es .front).head? = some x ∧
      L.log = pre ++ (fails false (if pre = [] then x :: (L.s.es .front).tail else L.s.es .front) ++ rest) ∧
      ∀ t ∈ rest, t.wide = true ∧ t.ok = false := by
  obtain ⟨x, xs, hx⟩ := List.exists_cons_of_ne_nil hf
  have hx' : (s.es .front).head? = some x := by rw [hx]; rfl
  have h1 := advLoop_res he hq hs par h (by rw [hx']; rfl) fuel (advStart_inv (env := env) hf nEl)
  rw [hl] at h1
  cases h1 with
  | fuel hi _ =>
    obtain ⟨pre, hp, hlog⟩ := hi.log
    rw [hw, hx'] at hlog
    refine ⟨pre, fails true ((L.s.es .front).take L.iter), x, hp, hx', hlog, ?_⟩
    intro t ht
    simp only [fails, List.mem_map] at ht
    obtain ⟨e, _, rfl⟩ := ht
    exact ⟨rfl, rfl⟩

/-! ### C94: meshing a complete mesh -/

/-- **C94 (violated).** If there is no front edge left (the mesh is complete), `generate_elements` dereferences
a null pointer (`ASSERT` terminates the program in debug builds). -/
theorem C94_complete_mesh_violated (env : Env K) (par : Par K) (nEl fuel : Nat) {s : St K} (hf : s.es .front = []) :
    generate env par nEl (fuel + 1) s = .undef := by
  have h1 : (baseFirst s none).1 = none := by unfold baseFirst; rw [hf]
  unfold generate advLoop
  have : advTurn env par nEl (advStart env s) = .undef := by
    unfold advTurn advStart
    dsimp only
    rw [h1]
  rw [this]

/-- **C94 (partial).** The exhaustive variant returns `true` and leaves such a mesh as it is; with front edges
left neither variant reads a null or dangling base edge. -/
theorem C94_complete_mesh_partial {env : Env K} (he : 0 < env.eps) (hq : QueryLive env) (hs : SortOK env) (par : Par K)
    (nEl fuel : Nat) {s : St K} (h : WF s) :
    (s.es .front = [] → ∃ s', generateExhaustive env nEl (fuel + 1) s = .ret true s' 0 ∧ SameMesh s s') ∧
    (s.es .front ≠ [] → generate env par nEl fuel s ≠ .undef) := by
  constructor
  · intro hf
    have e1 : (sortFront env false s).es .front = [] := by
      have := sortFront_perm env s false; rw [hf] at this; exact List.perm_nil.mp this
    have e2 : (sortFront env true (sortFront env false s)).es .front = [] := by
      have := sortFront_perm env (sortFront env false s) true; rw [e1] at this; exact List.perm_nil.mp this
    refine ⟨sortFront env true (sortFront env false s), ?_, ?_⟩
    · unfold generateExhaustive exhLoop
      have : ∀ fb, (exhStart env (sortFront env false s) fb).base = none := by
        intro fb; unfold exhStart baseFirst; dsimp only; rw [e2]
      unfold exhTurn
      rw [this]
      rfl
    · refine ⟨rfl, fun _ _ => rfl, ?_, rfl, rfl, rfl, fun _ _ => rfl, rfl⟩
      funext l
      by_cases hl : l = .front
      · subst hl; rw [e2, hf]
      · simp [sortFront, setFront, upd, hl]
  · intro hf
    have hx : (s.es .front).head?.isSome := by
      cases hc : s.es .front with
      | nil => exact absurd hc hf
      | cons a as => rfl
    have h1 := advLoop_res he hq hs par h hx fuel (advStart_inv (env := env) hf nEl)
    unfold generate
    generalize advLoop env par nEl fuel (advStart env s) = r1 at h1
    cases h1 with
    | fuel => simp
    | done => simp
    | @fail L hr hl hne _ =>
      dsimp only
      have h2 := exhLoop_res he hq hs (run_wf he hq hs h hr.choose_spec.1) fuel
        (exhStart_inv (env := env) hne (nEl - L.n) L.fbase)
      generalize exhLoop env (nEl - L.n) fuel (exhStart env L.s L.fbase) = r2 at h2
      cases h2 <;> simp

/-- The completely meshed square: nothing to do for the exhaustive variant. -/
example : FUEx.square2.es .front = [] ∧
    TGEx.result (generateExhaustive FUEx.env 0 5 FUEx.square2) = some (true, 0, [], [[0, 1, 2], [0, 2, 3]]) := by
  decide +kernel

/-! ### C95: what the exhaustive search searches -/

namespace TGEx
open FUEx
/-- A square with a square hole; vertices 0-7, outer front edges 8-11, inner ones 12-15. -/
def ring : St ℚ :=
  fe (fe (fe (fe (fe (fe (fe (fe (fv (fv (fv (fv (fv (fv (fv (fv (St.empty 1) 0 0) 3 0) 3 3) 0 3) 1 1) 1 2) 2 2) 2 1)
    0 1) 1 2) 2 3) 3 0) 4 5) 5 6) 6 7) 7 4
end TGEx

/-- **C95 (violated).** "The exhaustive search looks through all front edges for a possible triangle" is
false: the search follows the front from the base edge and never reaches another loop of the front.  On a
square with a hole it fails although the front update accepts the triangle of outer edge 8 and inner vertex
4, and the advancing front loop meshes the domain. -/
theorem C95_exhaustive_violated :
    TGEx.result (generateExhaustive FUEx.env 0 20 TGEx.ring) = some (false, 0, [12, 13, 14, 15, 8, 9, 10, 11], []) ∧
    (updateFrontExhaustive FUEx.env TGEx.ring 8 4).2 = some 16 ∧
    TGEx.result (generate FUEx.env TGEx.par 0 20 TGEx.ring) =
      some (true, 8, [], [[0, 1, 4], [1, 2, 6], [2, 3, 5], [3, 0, 4], [4, 1, 7], [1, 6, 7], [2, 5, 6], [3, 4, 5]]) := by
  refine ⟨?_, ?_, ?_⟩ <;> decide +kernel

theorem sameMesh_next {s s1 : St K} (hw : WF s) (h : SameMesh s s1) {e : Nat} (he : e ∈ s.es .front) :
    s1.nextEdge e = s.nextEdge e := by
  obtain ⟨_, _, hv, _⟩ := (hw.ends _).2 e he
  unfold nextEdge
  rw [h.edata, h.vdata _ hv]

theorem sameMesh_trans {s s1 s2 : St K} (h1 : SameMesh s s1) (h2 : SameMesh s1 s2) : SameMesh s s2 where
  verts := h2.verts.trans h1.verts
  vdata := fun v hv => (h2.vdata v (by rw [h1.verts]; exact hv)).trans (h1.vdata v hv)
  es := h2.es.trans h1.es
  edata := h2.edata.trans h1.edata
  tris := h2.tris.trans h1.tris
  quads := h2.quads.trans h1.quads
  fdata := fun f hf => (h2.fdata f (by cases f <;> simp_all [Live, h1.tris, h1.quads])).trans (h1.fdata f hf)
  area := h2.area.trans h1.area

/-- The walk from edge `o` on: every vertex on it was tried without success. -/
theorem exhWalk_tried {env : Env K} (he : 0 < env.eps) {s : St K} (h : WF s) {base : Nat} (hb : base ∈ s.es .front) :
    ∀ (k : Nat) (s1 : St K) (o : Option Nat), WF s1 → SameMesh s s1 → (∀ ne, o = some ne → ne ∈ s.es .front) →
    (exhWalk env base k s1 o).2 = false → ∀ (g : Nat → Option Nat), g 0 = o → (∀ i, g (i + 1) = (g i).bind s.nextEdge) →
    ∀ i < k, (∀ j ≤ i, g j ≠ some base) → ∀ ne, g i = some ne → (s.E ne).v2 ≠ (s.E base).v1 → (s.E ne).v2 ≠ (s.E base).v2 →
      ∃ s2, SameMesh s s2 ∧ (updateFrontExhaustive env s2 base (s.E ne).v2).2 = none
  | 0, _, _, _, _, _, _, _, _, _, i, hi, _, _, _, _, _ => absurd hi (Nat.not_lt_zero _)
  | k + 1, s1, none, _, _, _, _, g, g0, gs, i, _, _, ne, hne, _, _ => by
    have : ∀ j, g j = none := by
      intro j
      induction j with
      | zero => exact g0
      | succ j ih => rw [gs, ih]; rfl
    rw [this] at hne; simp at hne
  | k + 1, s1, some n1, hw1, hsm, hmem, hfail, g, g0, gs, i, hi, hnb, ne, hne, hv1, hv2 => by
    have hn1 := hmem n1 rfl
    have hn1b : n1 ≠ base := by
      rintro rfl; exact hnb 0 (Nat.zero_le _) g0
    have hE : s1.E = s.E := hsm.edata
    unfold exhWalk at hfail
    rw [if_neg hn1b] at hfail
    dsimp only at hfail
    have hv : (s.E n1).v2 ∈ s1.verts := by rw [hsm.verts]; exact ((h.ends _).2 n1 hn1).2.2.1
    have hb1 : base ∈ s1.es .front := by rw [hsm.es]; exact hb
    rw [hE] at hfail
    have gnext : ∀ ne', g 1 = some ne' → ne' ∈ s.es .front := by
      intro ne' h'
      rw [gs 0, g0] at h'
      exact nextEdge_mem h hn1 h'
    have g1 : g 1 = s.nextEdge n1 := by rw [gs 0, g0]; rfl
    by_cases c : (s.E n1).v2 ≠ (s.E base).v1 ∧ (s.E n1).v2 ≠ (s.E base).v2
    · rw [if_pos c] at hfail
      have ho := updateFrontExhaustive_outcome he hw1 hb1 hv
      generalize hu : updateFrontExhaustive env s1 base (s.E n1).v2 = res at ho hfail
      cases ho with
      | ok => simp at hfail
      | @fail s' same wf nx =>
        dsimp only at hfail
        have hsm' := sameMesh_trans hsm same
        match i with
        | 0 =>
          rw [g0] at hne
          obtain rfl := Option.some.inj hne
          exact ⟨s1, hsm, by rw [hu]⟩
        | i + 1 =>
          refine exhWalk_tried he h hb k s' (s'.nextEdge n1) wf hsm' ?_ hfail (fun j => g (j + 1)) ?_ (fun j => gs (j + 1)) i (by omega)
            (fun j hj => hnb (j + 1) (by omega)) ne hne hv1 hv2
          · rw [sameMesh_next h hsm' hn1]; exact fun ne' h' => gnext ne' (by rw [g1]; exact h')
          · rw [sameMesh_next h hsm' hn1]; exact g1
    · rw [if_neg c] at hfail
      match i with
      | 0 =>
        rw [g0] at hne
        obtain rfl := Option.some.inj hne
        exact absurd ⟨hv1, hv2⟩ c
      | i + 1 =>
        refine exhWalk_tried he h hb k s1 (s1.nextEdge n1) hw1 hsm ?_ hfail (fun j => g (j + 1)) ?_ (fun j => gs (j + 1)) i (by omega)
          (fun j hj => hnb (j + 1) (by omega)) ne hne hv1 hv2
        · rw [sameMesh_next h hsm hn1]; exact fun ne' h' => gnext ne' (by rw [g1]; exact h')
        · rw [sameMesh_next h hsm hn1]; exact g1

/-- **C95 (partial).** When the exhaustive search fails for a base edge, every vertex that can be reached from
it along the front (until the base edge is reached again) was tried as third vertex without success.  Missing:
the vertices of the other loops of the front. -/
theorem C95_exhaustive_partial {env : Env K} (he : 0 < env.eps) {s : St K} (h : WF s) {base : Nat}
    (hb : base ∈ s.es .front) (hf : (exhTriangle env s base).2 = false) {i : Nat} (hi : i < (s.es .front).length)
    (hn : ∀ j ≤ i, chainEdge s base j ≠ some base) {ne : Nat} (hne : chainEdge s base i = some ne)
    (h1 : (s.E ne).v2 ≠ (s.E base).v1) (h2 : (s.E ne).v2 ≠ (s.E base).v2) :
    ∃ s2, SameMesh s s2 ∧ (updateFrontExhaustive env s2 base (s.E ne).v2).2 = none :=
  exhWalk_tried he h hb _ s _ h ⟨rfl, fun _ _ => rfl, rfl, rfl, rfl, rfl, fun _ _ => rfl, rfl⟩
    (fun _ h' => nextEdge_mem h hb h') hf (chainEdge s base) rfl (fun _ => rfl) i hi hn ne hne h1 h2

/-- The base edge 8 of the ring fails; the outer vertices 2 and 3 are on its loop. -/
example : (exhTriangle FUEx.env TGEx.ring 8).2 = false ∧ chainEdge TGEx.ring 8 0 = some 9 ∧
    chainEdge TGEx.ring 8 1 = some 10 ∧ chainEdge TGEx.ring 8 2 = some 11 ∧ chainEdge TGEx.ring 8 3 = some 8 ∧
    (TGEx.ring.E 9).v2 = 2 ∧ (TGEx.ring.E 10).v2 = 3 := by decide +kernel

end TQ

#print axioms TQ.C41_limit
#print axioms TQ.C42_all_tried
#print axioms TQ.C42_two_passes
#print axioms TQ.C42_exhaustive
#print axioms TQ.C93_narrow_pass_violated
#print axioms TQ.C93_narrow_pass_partial
#print axioms TQ.C94_complete_mesh_violated
#print axioms TQ.C94_complete_mesh_partial
#print axioms TQ.C95_exhaustive_violated
#print axioms TQ.C95_exhaustive_partial

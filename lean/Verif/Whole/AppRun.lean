import Verif.Whole.AppSpec
import Verif.Whole.Counter
import Verif.Whole.FinalProps

/-! # Lemmas: whole runs of the meshing functions -/

set_option linter.unusedSectionVars false
set_option linter.unusedSimpArgs false

namespace TQ.Whole
open TQ.QL TQ.MS TQ.MeshSpec TQ.MCSpec TQ.MC TQ.MS.St TQ.FUSpec TQ.WholeSpec TQ.RefSpec TQ.CleanSpec TQ.QLSpec TQ.SmSpec TQ.Sm TQ.GN TQ.MM TQ.CK TQ.FU
  TQ.AM TQ.AppSpec
variable {K : Type*} [Field K] [LinearOrder K] [IsStrictOrderedRing K]

theorem staged_start {L : LEnv K} {s0 a : St K} (h : Staged L s0 a) : Work L s0 (startStep L.env.eps a) := by
  cases h with
  | prepared => exact .start
  | left hw hl => exact .resume hw hl

theorem generate_front {env : FU.Env K} {par : TG.Par K} {nEl fuel c : Nat} {s u : St K} {ok : Bool}
    (h : TG.generate env par nEl fuel s = .ret ok u c) : s.es .front ≠ [] := by
  intro hf
  cases fuel with
  | zero => simp [TG.generate, TG.advLoop] at h
  | succ fuel => rw [C94_complete_mesh_violated env par nEl fuel hf] at h; simp at h

/-- The state in which a triangulation ends. -/
theorem generate_work {L : LEnv K} (he : 0 < L.env.eps) (hq : QueryExact L.env) (hso : SortOK L.env)
    (hn : ∀ p, 0 ≤ L.env.norm p ∧ Pt.normSq p ≤ L.env.norm p * L.env.norm p) {s0 a : St K} (h0 : Bare s0) (h : Staged L s0 a)
    {par : TG.Par K} {nEl fuel c : Nat} {ok : Bool} {u : St K} (hm : MeshedWell L.env par nEl fuel a)
    (hg : TG.generate L.env par nEl fuel (startStep L.env.eps a) = .ret ok u c) :
    Work L s0 u ∧ Resolved L.env.eps u ∧ (ok = true → u.es .front = [] ∨ (0 < nEl ∧ c = nEl)) := by
  have hw := staged_start h
  have hwf := (work_inv he hq hso hn h0 hw).mesh.wf
  obtain ⟨⟨log, hr, -⟩, -, -, -, h5⟩ := C41_limit he (queryExact_live hq) hso par hwf (generate_front hg) hg
  obtain ⟨hres, hre⟩ := hm ok u c hg
  exact ⟨.run hw hr hres (reaching_all he (queryExact_live hq) hso hwf hr hre), hres, h5⟩

theorem generate_false {env : FU.Env K} (he : 0 < env.eps) (hq : QueryLive env) (hs : SortOK env) {par : TG.Par K} {nEl fuel c : Nat}
    {s u : St K} (h : WF s) (hg : TG.generate env par nEl fuel s = .ret false u c) : u.es .front ≠ [] := by
  have hf := generate_front hg
  obtain ⟨h1, h2⟩ := C42_all_tried he hq hs par h hf nEl fuel
  unfold TG.generate at hg
  split at hg
  · simp at hg
  · simp at hg
  · simp at hg
  · rename_i L hL
    have hne := (h2 L hL).1
    have hx : (s.es .front).head?.isSome := by
      cases hc : s.es .front with
      | nil => exact absurd hc hf
      | cons a as => rfl
    have hr := TG.advLoop_res he hq hs par h hx fuel (TG.advStart_inv (env := env) hf nEl)
    rw [hL] at hr
    have hwf : WF L.s := by
      cases hr with
      | fail hr => obtain ⟨rl, hr, -⟩ := hr; exact TG.run_wf he hq hs h hr
    obtain ⟨-, h4⟩ := C42_exhaustive he hq hs hwf hne (nEl - L.n) fuel L.fbase
    split at hg
    · simp at hg
    · simp at hg
    · rename_i b L' hL'
      simp only [TG.GRes.ret.injEq] at hg
      obtain ⟨rfl, rfl, -⟩ := hg
      exact (h4 L' hL').1

theorem area_finish (s : St K) : (finishStep s).area = s.area := by
  unfold finishStep clearFront addRemaining
  rw [area_foldl (f := removeEdge) (fun _ _ => rfl), area_foldl]
  intro s e
  unfold addRemaining1
  dsimp only
  split_ifs <;> rfl

theorem run_trans {env : FU.Env K} {s t : St K} {log : List Entry} (hr : Run env s log t) {l2 : List Entry} {u : St K} (h : Run env t l2 u) :
    ∃ l3, Run env s l3 u := by
  induction h with
  | start => exact ⟨log, hr⟩
  | update _ a b c ih => obtain ⟨l3, h3⟩ := ih; exact ⟨_, Run.update h3 a b c⟩
  | exhaustive _ a b c ih => obtain ⟨l3, h3⟩ := ih; exact ⟨_, Run.exhaustive h3 a b c⟩
  | updateFail _ a b ih => obtain ⟨l3, h3⟩ := ih; exact ⟨_, Run.updateFail h3 a b⟩
  | exhaustiveFail _ a b c ih => obtain ⟨l3, h3⟩ := ih; exact ⟨_, Run.exhaustiveFail h3 a b c⟩
  | reorder _ a ih => obtain ⟨l3, h3⟩ := ih; exact ⟨_, Run.reorder h3 a⟩

theorem exhaustive_run {env : FU.Env K} (he : 0 < env.eps) (hq : QueryLive env) (hs : SortOK env) {nEl fuel c : Nat} {ok : Bool}
    {s u : St K} (h : WF s) (hg : TG.generateExhaustive env nEl fuel s = .ret ok u c) :
    (∃ log, Run env s log u) ∧ (ok = true → u.es .front = [] ∨ (0 < nEl ∧ c = nEl)) := by
  obtain ⟨l1, r1, -⟩ := TG.sortFront_run (env := env) (s := s) (n := 0) false ⟨[], .start, rfl⟩
  have w1 := TG.run_wf he hq hs h r1
  by_cases hf : (TG.sortFront env false s).es .front = []
  · have e2 : (TG.sortFront env true (TG.sortFront env false s)).es .front = [] := by
      have := TG.sortFront_perm env (TG.sortFront env false s) true; rw [hf] at this; exact List.perm_nil.mp this
    obtain ⟨l2, r2, -⟩ := TG.sortFront_run true ⟨l1, r1, rfl⟩
    cases fuel with
    | zero => simp [TG.generateExhaustive, TG.exhLoop] at hg
    | succ fuel =>
      unfold TG.generateExhaustive TG.exhLoop at hg
      have : ∀ fb, (TG.exhStart env (TG.sortFront env false s) fb).base = none := by
        intro fb; unfold TG.exhStart TG.baseFirst; dsimp only; rw [e2]
      unfold TG.exhTurn at hg
      rw [this] at hg
      simp only [TG.GRes.ret.injEq] at hg
      obtain ⟨rfl, rfl, -⟩ := hg
      exact ⟨⟨l2, r2⟩, fun _ => Or.inl e2⟩
  · have hr := TG.exhLoop_res he hq hs w1 fuel (TG.exhStart_inv (env := env) hf nEl (TG.baseFirst s none).2)
    unfold TG.generateExhaustive at hg
    generalize TG.exhLoop env nEl fuel (TG.exhStart env (TG.sortFront env false s) (TG.baseFirst s none).2) = r at hr hg
    cases hr with
    | fuel => simp at hg
    | done hr _ hd =>
      simp only [TG.GRes.ret.injEq] at hg
      obtain ⟨rfl, rfl, rfl⟩ := hg
      obtain ⟨rl, hr, -⟩ := hr
      exact ⟨run_trans r1 hr, fun _ => hd⟩
    | fail hr _ hd =>
      simp only [TG.GRes.ret.injEq] at hg
      obtain ⟨rfl, rfl, rfl⟩ := hg
      obtain ⟨rl, hr, -⟩ := hr
      exact ⟨run_trans r1 hr, by simp⟩

theorem layerAll_staged {L : LEnv K} {fuel : Nat} {s0 : St K} : ∀ {ds : List (LayerDef K)} {s t : St K}, Staged L s0 s →
    LayersFine L fuel ds s → layerAll L fuel ds s = some t → Staged L s0 t
  | [], s, t, hs, _, h => by
    simp only [layerAll, Option.some.injEq] at h
    rw [← h]; exact hs
  | d :: ds, s, t, hs, hf, h => by
    simp only [layerAll, Option.bind_eq_some_iff] at h
    obtain ⟨r, h1, h2⟩ := h
    unfold QL.generate at h1
    unfold LayersFine at hf
    by_cases hb : (s.es .bdry).length < 1
    · rw [if_pos hb] at h1 hf
      simp only [Option.some.injEq] at h1
      rw [← h1] at h2
      exact layerAll_staged hs hf h2
    · rw [if_neg hb] at h1 hf
      simp only [Option.map_eq_some_iff] at h1
      obtain ⟨r', h3, rfl⟩ := h1
      exact layerAll_staged (.left (.layers (staged_start hs) h3 hf.1) (hf.2 _ h3).1) (hf.2 _ h3).2 h2

theorem work_counter {L : LEnv K} (he : 0 < L.env.eps) (hq : QueryExact L.env) (hso : SortOK L.env)
    (hn : ∀ p, 0 ≤ L.env.norm p ∧ Pt.normSq p ≤ L.env.norm p * L.env.norm p) {s0 u : St K} (h0 : Bare s0) (h : Work L s0 u)
    (hf : u.es .front = []) : u.area = s0.area + enclosed s0.pos (pairs s0 .bdry) := by
  have i := work_inv he hq hso hn h0 h
  have h1 := i.area
  have h2 : enclosed u.pos (pairs u .front) = 0 := by unfold pairs enclosed; rw [hf]; simp
  rw [h2, add_zero] at h1
  exact h1

/-! ### Meshes without quads -/

theorem setup_quads (eps : K) (s : St K) : (setupConnectivity eps s).quads = s.quads := by
  have fold : ∀ {f : St K → Nat → St K}, (∀ s x, (f s x).quads = s.quads) → ∀ (l : List Nat) (s : St K), (l.foldl f s).quads = s.quads := by
    intro f hf l
    induction l with
    | nil => intro s; rfl
    | cons x l ih => intro s; rw [List.foldl_cons, ih, hf]
  have side : ∀ (s : St K) e f, (setSide eps s e f).quads = s.quads := by
    intro s e f; unfold setSide; split_ifs <;> rfl
  unfold setupConnectivity
  rw [fold, fold]
  · intro s e
    unfold connIntr
    split
    · rfl
    · rw [side]; rfl
    · rw [side]
      show (setSide eps _ _ _).quads = _
      rw [side]; rfl
  · intro s e
    unfold connBdry
    split
    · rfl
    · split_ifs <;> rfl

theorem noQuads_clear (eps : K) (ix0 : FRef → Nat) {s : St K} (hq : s.quads = []) :
    clearDoubleQuads eps ix0 s = some (setupConnectivity eps (setupConnectivity eps s)) ∧
    clearDoubleTris eps ix0 s = some (setupConnectivity eps (setupConnectivity eps s)) := by
  unfold clearDoubleQuads clearDoubleTris scan
  dsimp only
  rw [setup_quads eps, hq]
  exact ⟨rfl, rfl⟩

theorem quads_removeFacet {s : St K} {f : FRef} (h : s.quads = []) : (removeFacet s f).quads = [] := by
  cases f with
  | tri t => exact h
  | quad q => show s.quads.filter _ = []; rw [h]; rfl
  | null => exact h

theorem quads_removeIntr {s : St K} {e : Nat} (h : s.quads = []) : (s.removeIntr e).quads = [] := by
  unfold removeIntr; split_ifs <;> exact h

theorem noQuads_mergeBads {eps : K} : ∀ {l : List Nat} {s t : St K}, s.quads = [] → mergeBads eps l s = some t → t.quads = []
  | [], s, t, hq, h => by simp only [mergeBads, Option.some.injEq] at h; rw [← h]; exact hq
  | v :: l, s, t, hq, h => by
    simp only [mergeBads, Option.bind_eq_some_iff] at h
    obtain ⟨u, h1, h2⟩ := h
    refine noQuads_mergeBads ?_ h2
    unfold mergeBad at h1
    split at h1
    · split at h1
      · split at h1
        · dsimp only at h1
          split_ifs at h1 <;> simp only [Option.some.injEq] at h1 <;> rw [← h1]
          all_goals
            show (removeFacet _ _).quads = _
            exact quads_removeFacet (quads_removeFacet (quads_removeFacet (quads_removeIntr (quads_removeIntr (quads_removeIntr hq)))))
        · simp at h1
      · simp at h1
    · simp at h1

theorem noQuads_improve {eps : K} {ix0 : FRef → Nat} {s t : St K} (hq : s.quads = []) (hi : improve eps ix0 s = some t) : t.quads = [] := by
  unfold improve at hi
  split_ifs at hi
  · rw [(noQuads_clear eps ix0 hq).1] at hi
    have h2 : (setupConnectivity eps (setupConnectivity eps s)).quads = [] := by rw [setup_quads, setup_quads, hq]
    simp only [Option.bind_some] at hi
    rw [(noQuads_clear eps ix0 h2).2] at hi
    simp only [Option.bind_some] at hi
    unfold mergeDegenerate at hi
    simp only [Option.map_eq_some_iff] at hi
    obtain ⟨u, h3, rfl⟩ := hi
    rw [setup_quads]
    exact noQuads_mergeBads (by rw [setup_quads, setup_quads, h2]) h3
  · simp only [Option.some.injEq] at hi; rw [← hi]; exact hq

/-- Refinements: each one is done or refused. -/
theorem refineAll_mesh {s0 : St K} : ∀ {n : Nat} {s t : St K}, MeshOf s0 s → (n = 0 ∨ ConvexElements s) → refineAll n s = some t →
    MeshOf s0 t ∧ t.area = s.area ∧ (ConvexElements s → ConvexElements t)
  | 0, s, t, h, _, hr => by
    simp only [refineAll, Option.some.injEq] at hr
    rw [← hr]; exact ⟨h, rfl, id⟩
  | n + 1, s, t, h, hc, hr => by
    have hc := hc.resolve_left (Nat.succ_ne_zero n)
    simp only [refineAll, Option.bind_eq_some_iff] at hr
    obtain ⟨⟨u, b⟩, h1, h2⟩ := hr
    by_cases ht : NoTwins s
    · obtain ⟨v, N, k1, k2, k3, k4, k5⟩ := C157_refine h ht hc
      rw [h1] at k1
      simp only [Option.some.injEq, Prod.mk.injEq] at k1
      obtain ⟨rfl, rfl⟩ := k1
      obtain ⟨m1, m2, m3⟩ := refineAll_mesh k3 (Or.inr k5) h2
      exact ⟨m1, m2.trans k2.area, fun _ => m3 k5⟩
    · have := C56_refused ht
      rw [h1] at this
      simp only [Option.some.injEq, Prod.mk.injEq] at this
      obtain ⟨rfl, rfl⟩ := this
      exact refineAll_mesh h (Or.inr hc) h2

end TQ.Whole

import Verif.Triangulation.Lemmas
import Verif.FrontUpdate.AreaPos

/-! # Counting the turns of the meshing loops -/

set_option linter.unusedSectionVars false

namespace TQ
namespace TG
open MS MeshSpec FUSpec FU MS.St TGSpec
variable {K : Type*} [Field K] [LinearOrder K] [IsStrictOrderedRing K]

/-! ### The length of the front -/

theorem keepEdge_front (s : St K) (e : Nat) : (keepEdge s e).es .front = s.es .front := by
  unfold keepEdge
  split_ifs
  · simp [addIntr, addEdge, upd]
  · rfl

theorem removeEdge_len (s : St K) (e : Nat) : ((s.removeEdge e).es .front).length ≤ (s.es .front).length := by
  simp only [removeEdge, upd]
  split_ifs with h
  · rw [h]; exact List.length_filter_le _ _
  · exact le_refl _

theorem addFront_len (s : St K) (a b : Nat) : ((addFront s a b).es .front).length = (s.es .front).length + 1 := by
  simp [addFront, addEdge, upd]

theorem advanceEdges_len (s : St K) (b1 b2 v : Nat) :
    ((advanceEdges s b1 b2 v).es .front).length ≤ (s.es .front).length + 2 := by
  unfold advanceEdges
  split
  · refine le_trans (removeEdge_len _ _) (le_trans (removeEdge_len _ _) ?_)
    rw [keepEdge_front, keepEdge_front]; omega
  · rw [addFront_len]
    rename_i e1 _ _
    have := removeEdge_len (keepEdge s e1) e1
    rw [keepEdge_front] at this; omega
  · rw [addFront_len]
    rename_i e2 _ _
    have := removeEdge_len (keepEdge s e2) e2
    rw [keepEdge_front] at this; omega
  · rw [addFront_len, addFront_len]

theorem pairs_len (s : St K) (l : EL) : (pairs s l).length = (s.es l).length := by simp [pairs]

/-- A new triangle makes the front longer by at most one edge. -/
theorem advanceFront_len {s : St K} (h : WF s) {base v : Nat} (t : Nat) (hb : base ∈ s.es .front) (hv : v ∈ s.verts)
    (h1 : v ≠ (s.E base).v1) (h2 : v ≠ (s.E base).v2) :
    ((advanceFront s base v t).es .front).length ≤ (s.es .front).length + 1 := by
  obtain ⟨w, x, bm, p1, p2, p3⟩ := beforeRemoval_spec h hb hv h1 h2
  have hl := congrArg List.length p3
  rw [pairs_len, pairs_len] at hl
  have hr := (pairs_removeEdge w.toSound bm).length_eq
  rw [pairs_len, List.length_cons, pairs_len] at hr
  have ha := advanceEdges_len s (s.E base).v1 (s.E base).v2 v
  have he : (advanceFront s base v t).es = ((beforeRemoval s base v).removeEdge base).es := by
    rw [advanceFront_eq]; rfl
  rw [he]
  omega

theorem run_front_len {env : Env K} (he : 0 < env.eps) (hq : QueryLive env) (hs : SortOK env) {s0 : St K} (h0 : WF s0)
    {log : List Entry} {s : St K} (hr : Run env s0 log s) :
    (s.es .front).length ≤ (s0.es .front).length + log.length := by
  refine (run_induct he hq hs h0 (fun log s => (s.es .front).length ≤ (s0.es .front).length + log.length) (by simp)
    ?_ ?_ ?_ hr).2
  · rintro log s s' base v t hw hb ih hd ⟨s1, prep, rfl⟩
    have hb' : base ∈ s1.es .front := by rw [prep.es]; exact hb
    have hE : s1.E base = s.E base := by rw [prep.E]
    have hn := prep.ndp
    simp only [List.nodup_cons, List.mem_cons, List.not_mem_nil, or_false, not_or] at hn
    have := advanceFront_len prep.wf t hb' prep.vmem (by rw [hE]; exact Ne.symm hn.1.2) (by rw [hE]; exact Ne.symm hn.2.1)
    rw [prep.es] at this
    simp only [List.length_append, List.length_singleton]
    omega
  · intro log s s' _ _ ih hm
    rw [hm.es]; exact ih
  · intro log s l _ ih hp
    have : (reorder s l).es .front = l := by simp [reorder, upd]
    rw [this, hp.length_eq]; exact ih

/-! ### The turns -/

/-- The counters change from `L` to `L'` in a turn: a triangle was made, or the next edge is tried, or the wide
search starts. -/
def Step (L L' : Lp K) : Prop :=
  L'.log.length = L.log.length + 1 ∧
  ((L'.n = L.n + 1 ∧ L'.iter = 0 ∧ L'.wide = false) ∨
   (L'.n = L.n ∧ (L'.s.es .front).length = (L.s.es .front).length ∧
     ((L'.iter = L.iter + 1 ∧ L'.wide = L.wide) ∨
      (L.iter + 1 = (L.s.es .front).length ∧ L.wide = false ∧ L'.wide = true ∧ L'.iter = 0))))

theorem advChecks_next {nEl : Nat} {L L' : Lp K} (h : advChecks nEl L = .next L') :
    (L.s.es .front).length ≠ 0 ∧
    ((L.iter = (L.s.es .front).length ∧ L.wide = false ∧ L' = { L with wide := true, iter := 0 }) ∨ L' = L) := by
  unfold advChecks at h
  dsimp only at h
  by_cases hm : (L.s.es .front).length = 0
  · rw [if_pos hm] at h; simp at h
  · refine ⟨hm, ?_⟩
    rw [if_neg hm] at h
    by_cases h1 : L.iter = (L.s.es .front).length ∧ L.wide = false
    · rw [if_pos h1] at h
      split_ifs at h <;> simp only [Turn.next.injEq] at h
      exact Or.inl ⟨h1.1, h1.2, h.symm⟩
    · rw [if_neg h1] at h
      split_ifs at h <;> simp only [Turn.next.injEq] at h
      exact Or.inr h.symm

theorem advTurn_step {env : Env K} (he : 0 < env.eps) (hq : QueryLive env) (hs : SortOK env) (par : Par K)
    {s0 : St K} (h0 : WF s0) {nEl : Nat} {x : Option Nat} {L L' : Lp K} (h : AInv env s0 nEl x L)
    (hn : advTurn env par nEl L = .next L') : Step L L' := by
  obtain ⟨b, hb, hbm⟩ := h.bmem
  have ha := advTriangle_attempt he hq hs par h0 h.run hbm L.wide
  unfold advTurn at hn
  rw [hb] at hn
  dsimp only at hn
  generalize advTriangle env par L.s b L.wide = r at ha hn
  obtain ⟨s', o⟩ := r
  cases o with
  | some t =>
    dsimp only at hn
    rcases advChecks_next hn with ⟨c0, ⟨c1, c2, c3⟩ | c3⟩
    · exact absurd c1.symm c0
    · subst c3
      exact ⟨by simp, Or.inl ⟨rfl, rfl, rfl⟩⟩
  | none =>
    dsimp only at ha hn
    simp only [Option.isSome_none] at ha
    cases ha with
    | fail hes hr =>
      have hfr : s'.es .front = L.s.es .front := by rw [hes]
      cases hbn : baseNext s' L.fbase with
      | none => rw [hbn] at hn; simp at hn
      | some b' =>
        rw [hbn] at hn
        dsimp only at hn
        rcases advChecks_next hn with ⟨_, ⟨c1, c2, c3⟩ | c3⟩
        · subst c3
          dsimp only at c1 c2
          exact ⟨by simp, Or.inr ⟨rfl, by dsimp only; rw [hfr], Or.inr ⟨by rw [← hfr]; exact c1, c2, rfl, rfl⟩⟩⟩
        · subst c3
          exact ⟨by simp, Or.inr ⟨rfl, by dsimp only; rw [hfr], Or.inl ⟨rfl, rfl⟩⟩⟩

theorem exhTurn_step {env : Env K} (he : 0 < env.eps) (hq : QueryLive env) (hs : SortOK env)
    {s0 : St K} (h0 : WF s0) {nEl : Nat} {L L' : Lp K} (h : EInv env s0 nEl L)
    (hn : exhTurn env nEl L = .next L') : L'.log.length = L.log.length + 1 ∧
      ((L'.n = L.n + 1 ∧ L'.iter = 0) ∨ (L'.n = L.n ∧ L'.iter = L.iter + 1)) := by
  have hb := h.base
  rw [List.getElem?_eq_getElem h.iter] at hb
  unfold exhTurn at hn
  rw [hb] at hn
  dsimp only at hn
  have hc : ∀ {M : Lp K}, exhChecks nEl M = .next L' → L' = M := by
    intro M hM
    unfold exhChecks at hM
    dsimp only at hM
    split_ifs at hM <;> simp only [Turn.next.injEq, reduceCtorEq] at hM
    exact hM.symm
  split at hn
  · have := hc hn; subst this
    exact ⟨by simp, Or.inl ⟨rfl, rfl⟩⟩
  · split at hn
    · simp at hn
    · have := hc hn; subst this
      exact ⟨by simp, Or.inr ⟨rfl, rfl⟩⟩

/-- The number of attempts is bounded by the number of triangles. -/
def ACnt (F : Nat) (L : Lp K) : Prop :=
  L.log.length ≤ 2 * L.n * (F + L.n) + (if L.wide = true then (L.s.es .front).length else 0) + L.iter

def ECnt (F : Nat) (L : Lp K) : Prop := L.log.length ≤ L.n * (F + L.n) + L.iter

theorem ainv_len {env : Env K} (he : 0 < env.eps) (hq : QueryLive env) (hs : SortOK env) {s0 : St K} (h0 : WF s0)
    {s : St K} {n : Nat} (h : ∃ rl, Run env s0 rl s ∧ rl.length = n) : (s.es .front).length ≤ (s0.es .front).length + n := by
  obtain ⟨rl, hr, rfl⟩ := h
  exact run_front_len he hq hs h0 hr

theorem acnt_step {F : Nat} {L L' : Lp K} (hc : ACnt F L) (hst : Step L L') (hi : L.iter < (L.s.es .front).length)
    (hl : (L.s.es .front).length ≤ F + L.n) : ACnt F L' := by
  unfold ACnt at *
  obtain ⟨s1, s2⟩ := hst
  rw [s1]
  rcases s2 with ⟨a1, a2, a3⟩ | ⟨a1, a2, ⟨a3, a4⟩ | ⟨a3, a4, a5, a6⟩⟩
  · rw [a1, a2, a3]
    have : (if L.wide = true then (L.s.es .front).length else 0) ≤ (L.s.es .front).length := by split_ifs <;> omega
    have e : 2 * (L.n + 1) * (F + (L.n + 1)) = 2 * L.n * (F + L.n) + 2 * (F + L.n) + 2 * L.n + 2 := by ring
    rw [e]
    simp only [Bool.false_eq_true, if_false]
    omega
  · rw [a1, a2, a3, a4]; omega
  · rw [a1, a2, a5, a6]
    rw [a4] at hc
    simp only [Bool.false_eq_true, if_false, if_true] at hc ⊢
    omega

theorem ecnt_step {F : Nat} {L L' : Lp K} (hc : ECnt F L) (hst : L'.log.length = L.log.length + 1 ∧
      ((L'.n = L.n + 1 ∧ L'.iter = 0) ∨ (L'.n = L.n ∧ L'.iter = L.iter + 1))) (hi : L.iter < (L.s.es .front).length)
    (hl : (L.s.es .front).length ≤ F + L.n) : ECnt F L' := by
  unfold ECnt at *
  obtain ⟨s1, s2⟩ := hst
  rw [s1]
  rcases s2 with ⟨a1, a2⟩ | ⟨a1, a2⟩
  · rw [a1, a2]
    have e : (L.n + 1) * (F + (L.n + 1)) = L.n * (F + L.n) + (F + L.n) + L.n + 1 := by ring
    rw [e]
    omega
  · rw [a1, a2]; omega

theorem advLoop_cnt {env : Env K} (he : 0 < env.eps) (hq : QueryLive env) (hs : SortOK env) (par : Par K)
    {s0 : St K} (h0 : WF s0) {nEl : Nat} {x : Option Nat} (hx : x.isSome) : ∀ (k : Nat) {L L' : Lp K}, AInv env s0 nEl x L →
    ACnt (s0.es .front).length L → advLoop env par nEl k L = .fuel L' → ACnt (s0.es .front).length L' ∧ AInv env s0 nEl x L'
  | 0, L, L', h, hc, hl => by
    simp only [advLoop, Res.fuel.injEq] at hl
    subst hl; exact ⟨hc, h⟩
  | k + 1, L, L', h, hc, hl => by
    have ht := advTurn_inv he hq hs par h0 hx h
    unfold advLoop at hl
    cases hn : advTurn env par nEl L with
    | next M =>
      rw [hn] at hl ht
      dsimp only at hl
      cases ht with
      | next h1 h2 =>
        exact advLoop_cnt he hq hs par h0 hx k h1
          (acnt_step hc (advTurn_step he hq hs par h0 h hn) h.iter (ainv_len he hq hs h0 h.run)) hl
    | ret b M => rw [hn] at hl; simp at hl
    | undef => rw [hn] at hl; simp at hl

theorem exhLoop_cnt {env : Env K} (he : 0 < env.eps) (hq : QueryLive env) (hs : SortOK env)
    {s0 : St K} (h0 : WF s0) {nEl : Nat} : ∀ (k : Nat) {L L' : Lp K}, EInv env s0 nEl L →
    ECnt (s0.es .front).length L → exhLoop env nEl k L = .fuel L' → ECnt (s0.es .front).length L' ∧ EInv env s0 nEl L'
  | 0, L, L', h, hc, hl => by
    simp only [exhLoop, Res.fuel.injEq] at hl
    subst hl; exact ⟨hc, h⟩
  | k + 1, L, L', h, hc, hl => by
    have ht := exhTurn_inv he hq hs h0 h
    unfold exhLoop at hl
    cases hn : exhTurn env nEl L with
    | next M =>
      rw [hn] at hl ht
      dsimp only at hl
      cases ht with
      | next h1 h2 =>
        exact exhLoop_cnt he hq hs h0 k h1
          (ecnt_step hc (exhTurn_step he hq hs h0 h hn) h.iter (ainv_len he hq hs h0 h.run)) hl
    | ret b M => rw [hn] at hl; simp at hl
    | undef => rw [hn] at hl; simp at hl

/-- A run of the advancing front loop that is still going on after `fuel` turns has made many triangles. -/
theorem adv_turns {env : Env K} (he : 0 < env.eps) (hq : QueryLive env) (hs : SortOK env) (par : Par K)
    {s : St K} (h : WF s) (hf : s.es .front ≠ []) {nEl fuel : Nat} {L : Lp K}
    (hl : advLoop env par nEl fuel (advStart env s) = .fuel L) :
    (∃ rl, Run env s rl L.s ∧ rl.length = L.n) ∧ (nEl = 0 ∨ L.n < nEl) ∧
    fuel < 2 * (L.n + 1) * ((s.es .front).length + L.n) := by
  have hx : (s.es .front).head?.isSome := by
    cases hc : s.es .front with
    | nil => exact absurd hc hf
    | cons a as => rfl
  have h1 := advLoop_res he hq hs par h hx fuel (advStart_inv (env := env) hf nEl)
  obtain ⟨hc, hi⟩ := advLoop_cnt he hq hs par h hx fuel (advStart_inv (env := env) hf nEl) (by simp [ACnt, advStart]) hl
  rw [hl] at h1
  cases h1 with
  | fuel _ hlen =>
    have h00 : (advStart env s).log.length = 0 := rfl
    have hfl := ainv_len he hq hs h hi.run
    have hit := hi.iter
    refine ⟨hi.run, hi.lim, ?_⟩
    unfold ACnt at hc
    have : (if L.wide = true then (L.s.es .front).length else 0) ≤ (L.s.es .front).length := by split_ifs <;> omega
    have e : 2 * (L.n + 1) * ((s.es .front).length + L.n) = 2 * L.n * ((s.es .front).length + L.n) + 2 * ((s.es .front).length + L.n) := by ring
    rw [e]
    omega

theorem exh_turns {env : Env K} (he : 0 < env.eps) (hq : QueryLive env) (hs : SortOK env)
    {s : St K} (h : WF s) (hf : s.es .front ≠ []) {nEl fuel : Nat} {fb : Option Nat} {L : Lp K}
    (hl : exhLoop env nEl fuel (exhStart env s fb) = .fuel L) :
    (∃ rl, Run env s rl L.s ∧ rl.length = L.n) ∧ (nEl = 0 ∨ L.n < nEl) ∧
    fuel < (L.n + 1) * ((s.es .front).length + L.n) := by
  have h1 := exhLoop_res he hq hs h fuel (exhStart_inv (env := env) hf nEl fb)
  obtain ⟨hc, hi⟩ := exhLoop_cnt he hq hs h fuel (exhStart_inv (env := env) hf nEl fb) (by simp [ECnt, exhStart]) hl
  rw [hl] at h1
  cases h1 with
  | fuel _ hlen =>
    have h00 : (exhStart env s fb).log.length = 0 := rfl
    have hfl := ainv_len he hq hs h hi.run
    have hit := hi.iter
    refine ⟨hi.run, hi.lim, ?_⟩
    unfold ECnt at hc
    have e : (L.n + 1) * ((s.es .front).length + L.n) = L.n * ((s.es .front).length + L.n) + ((s.es .front).length + L.n) := by ring
    rw [e]
    omega

/-! ### The number of triangles -/

theorem resolved_sub {eps : K} {s s' : St K} (hv : ∀ w ∈ s.verts, w ∈ s'.verts) (hp : ∀ w ∈ s.verts, s'.pos w = s.pos w)
    (h : Resolved eps s') : Resolved eps s := by
  intro a ha b hb c hc
  rw [← hp a ha, ← hp b hb, ← hp c hc]
  exact h a (hv a ha) b (hv b hb) c (hv c hc)

theorem run_area_lower {env : Env K} (he : 0 < env.eps) (hq : QueryLive env) (hs : SortOK env) {s0 : St K} (h0 : WF s0)
    {log : List Entry} {s : St K} (hr : Run env s0 log s) :
    Resolved env.eps s → s0.area ≤ s.area ∧
      (log.length : K) ^ 2 * env.eps ≤ (2 * (s.area - s0.area)) ^ 2 := by
  refine (run_induct he hq hs h0 (fun log s => Resolved env.eps s → s0.area ≤ s.area ∧
      (log.length : K) ^ 2 * env.eps ≤ (2 * (s.area - s0.area)) ^ 2) (by intro _; simp) ?_ ?_ ?_ hr).2
  · rintro log s s' base v t hw hb ih hd _ hres
    obtain ⟨i1, i2⟩ := ih (resolved_sub hd.verts hd.pos hres)
    obtain ⟨_, hb1, hb2, _, _⟩ := (hw.ends _).2 base hb
    have hx : env.eps ≤ side (s'.pos (s.E base).v1) (s'.pos (s.E base).v2) (s'.pos v) *
        side (s'.pos (s.E base).v1) (s'.pos (s.E base).v2) (s'.pos v) := by
      by_contra hc
      have := hres _ (hd.verts _ hb1) _ (hd.verts _ hb2) _ hd.vmem (not_le.mp hc)
      have ht := hd.tpos
      have e : triArea (s'.pos (s.E base).v1) (s'.pos (s.E base).v2) (s'.pos v) =
        side (s'.pos (s.E base).v1) (s'.pos (s.E base).v2) (s'.pos v) / 2 := by
        unfold triArea side Pt.cross; simp; ring
      rw [e, this] at ht
      simp at ht
    have e : triArea (s'.pos (s.E base).v1) (s'.pos (s.E base).v2) (s'.pos v) =
        side (s'.pos (s.E base).v1) (s'.pos (s.E base).v2) (s'.pos v) / 2 := by
        unfold triArea side Pt.cross; simp; ring
    have ht := hd.tpos
    have ha := hd.area
    rw [e] at ht ha
    generalize side (s'.pos (s.E base).v1) (s'.pos (s.E base).v2) (s'.pos v) = x at hx ht ha
    have hx0 : 0 < x := by linarith
    refine ⟨by rw [ha]; linarith, ?_⟩
    rw [List.length_append, List.length_singleton, Nat.cast_add, Nat.cast_one, ha]
    have hd0 : 0 ≤ s.area - s0.area := by linarith
    rw [show s.area + x / 2 - s0.area = (s.area - s0.area) + x / 2 by ring]
    generalize s.area - s0.area = d at i2 hd0 ⊢
    have hn0 : (0 : K) ≤ (log.length : K) := Nat.cast_nonneg _
    generalize (log.length : K) = n at i2 hn0 ⊢
    have hm : n * env.eps ≤ 2 * d * x := by
      apply le_of_sq_le_sq _ (by positivity)
      calc (n * env.eps) ^ 2 = (n ^ 2 * env.eps) * env.eps := by ring
        _ ≤ (2 * d) ^ 2 * (x * x) := mul_le_mul i2 hx he.le (by positivity)
        _ = (2 * d * x) ^ 2 := by ring
    nlinarith
  · intro log s s' _ _ ih hm hres
    rw [hm.area]
    refine ih (resolved_sub (by rw [hm.verts]; exact fun _ h => h) (fun w hw => ?_) hres)
    unfold pos; rw [hm.vdata w hw]
  · intro log s l _ ih _ hres
    exact ih hres

end TG
end TQ

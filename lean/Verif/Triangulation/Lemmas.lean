import Verif.Triangulation.Spec
import Verif.FrontUpdate.Best

/-! # Lemmas on the meshing loops -/

set_option linter.unusedSectionVars false

namespace TQ
namespace TG
open MS MeshSpec FUSpec FU MS.St TGSpec
variable {K : Type*} [Field K] [LinearOrder K] [IsStrictOrderedRing K]

theorem run_wf {env : Env K} (he : 0 < env.eps) (hq : QueryLive env) (hs : SortOK env) {s0 : St K} (h0 : WF s0)
    {log : List Entry} {s : St K} (hr : Run env s0 log s) : WF s :=
  (run_induct he hq hs h0 (fun _ _ => True) trivial (fun _ _ _ _ _ _ _ _ _ _ _ => trivial)
    (fun _ _ _ _ _ _ _ => trivial) (fun _ _ _ _ _ _ => trivial) hr).1

theorem run_tris {env : Env K} (he : 0 < env.eps) (hq : QueryLive env) (hs : SortOK env) {s0 : St K} (h0 : WF s0)
    {log : List Entry} {s : St K} (hr : Run env s0 log s) : s.tris.length = s0.tris.length + log.length := by
  refine (run_induct he hq hs h0 (fun log s => s.tris.length = s0.tris.length + log.length) (by simp) ?_ ?_ ?_ hr).2
  · intro log s s' base v t _ _ ih hd _
    rw [hd.tris, List.length_append, ih, List.length_append]
    simp; omega
  · intro log s s' _ _ ih hsm
    rw [hsm.tris]; exact ih
  · intro log s l _ ih _
    exact ih

/-- One attempt: the front is unchanged or a triangle was added. -/
inductive Attempt (env : Env K) (s0 : St K) (n : Nat) (s : St K) : St K → Bool → Prop
  | fail {s'} : s'.es = s.es → (∃ rl, Run env s0 rl s' ∧ rl.length = n) → Attempt env s0 n s s' false
  | ok {s'} : (∃ rl, Run env s0 rl s' ∧ rl.length = n + 1) → Attempt env s0 n s s' true

theorem advTriangle_attempt {env : Env K} (he : 0 < env.eps) (hq : QueryLive env) (hs : SortOK env) (par : Par K)
    {s0 : St K} (h0 : WF s0) {n : Nat} {s : St K} (hr : ∃ rl, Run env s0 rl s ∧ rl.length = n) {e : Nat} (hb : e ∈ s.es .front)
    (w : Bool) : Attempt env s0 n s (advTriangle env par s e w).1 (advTriangle env par s e w).2.isSome := by
  obtain ⟨rl, hr, hn⟩ := hr
  have hwf := run_wf he hq hs h0 hr
  unfold advTriangle
  dsimp only
  generalize (if w = true then par.rangeFactor * cppMIN (elen env s e * par.h * par.baseFactor) (env.rho (emid s e)) * par.wideFactor
    else par.rangeFactor * cppMIN (elen env s e * par.h * par.baseFactor) (env.rho (emid s e))) = r
  generalize (emid s e + Pt.smul (cppMIN (elen env s e * par.h * par.baseFactor) (env.rho (emid s e))) (enormal env s e)) = xy
  have ho := updateFront_outcome he hq hs hwf hb xy xy r
  obtain ⟨s', o⟩ : ∃ x, x = updateFront env s e xy xy r := ⟨_, rfl⟩
  generalize hu : updateFront env s e xy xy r = res at ho
  cases ho with
  | @fail s' same wf nx =>
    exact .fail same.es ⟨rl, Run.updateFail hr hb hu, hn⟩
  | @ok s1 v t prep =>
    have hd := prep_done hwf hb prep
    refine .ok ⟨_, Run.update (v := v) hr hb hu (by rw [hd.cor]; rfl), ?_⟩
    simp [hn]

theorem nextEdge_mem {s : St K} (h : WF s) {e f : Nat} (he : e ∈ s.es .front) (hn : s.nextEdge e = some f) :
    f ∈ s.es .front := by
  unfold nextEdge at hn
  have h1 := List.mem_of_find?_eq_some hn
  have h2 := List.find?_some hn
  simp only [Bool.and_eq_true, decide_eq_true_eq] at h2
  obtain ⟨hl, _, hv2, _⟩ := (h.ends _).2 e he
  have h3 := (((h.edges _ hv2).2 f).mp h1).1
  unfold LiveE at h3
  rw [h2.1.2, hl] at h3
  exact h3

theorem exhWalk_attempt {env : Env K} (he : 0 < env.eps) (hq : QueryLive env) (hs : SortOK env)
    {s0 : St K} (h0 : WF s0) {n : Nat} {e : Nat} : ∀ (k : Nat) (s : St K) (o : Option Nat),
    (∃ rl, Run env s0 rl s ∧ rl.length = n) → e ∈ s.es .front → (∀ ne, o = some ne → ne ∈ s.es .front) →
    Attempt env s0 n s (exhWalk env e k s o).1 (exhWalk env e k s o).2
  | 0, s, o, hr, _, _ => .fail rfl hr
  | k + 1, s, none, hr, _, _ => .fail rfl hr
  | k + 1, s, some ne, hr, hb, ho => by
    have hne := ho ne rfl
    obtain ⟨rl, hr', hn⟩ := hr
    have hwf := run_wf he hq hs h0 hr'
    obtain ⟨_, _, hv, _⟩ := (hwf.ends _).2 ne hne
    unfold exhWalk
    dsimp only
    by_cases c1 : ne = e
    · rw [if_pos c1]
      exact .fail rfl ⟨rl, hr', hn⟩
    rw [if_neg c1]
    by_cases c2 : (s.E ne).v2 ≠ (s.E e).v1 ∧ (s.E ne).v2 ≠ (s.E e).v2
    · rw [if_pos c2]
      have ho' := updateFrontExhaustive_outcome he hwf hb hv
      generalize hu : updateFrontExhaustive env s e (s.E ne).v2 = res at ho'
      cases ho' with
      | @fail s' same wf nx =>
        simp only
        have hr2 := Run.exhaustiveFail hr' hb hv hu
        have hwf2 := run_wf he hq hs h0 hr2
        have := exhWalk_attempt he hq hs h0 k s' (s'.nextEdge ne) ⟨rl, hr2, hn⟩ (by rw [same.es]; exact hb)
          (fun f hf => nextEdge_mem hwf2 (by rw [same.es]; exact hne) hf)
        generalize exhWalk env e k s' (s'.nextEdge ne) = w at this ⊢
        obtain ⟨ws, wb⟩ := w
        dsimp only at this ⊢
        cases this with
        | fail h1 h2 => exact .fail (h1.trans same.es) h2
        | ok h => exact .ok h
      | @ok s1 v t prep =>
        simp only
        refine .ok ⟨_, Run.exhaustive hr' hb hv hu, ?_⟩
        rw [List.length_append, hn]
        rfl
    · rw [if_neg c2]
      exact exhWalk_attempt he hq hs h0 k s (s.nextEdge ne) ⟨rl, hr', hn⟩ hb (fun f hf => nextEdge_mem hwf hne hf)

theorem exhTriangle_attempt {env : Env K} (he : 0 < env.eps) (hq : QueryLive env) (hs : SortOK env)
    {s0 : St K} (h0 : WF s0) {n : Nat} {s : St K} (hr : ∃ rl, Run env s0 rl s ∧ rl.length = n) {e : Nat} (hb : e ∈ s.es .front) :
    Attempt env s0 n s (exhTriangle env s e).1 (exhTriangle env s e).2 := by
  have hwf := run_wf he hq hs h0 hr.choose_spec.1
  exact exhWalk_attempt he hq hs h0 _ s _ hr hb (fun f hf => nextEdge_mem hwf hb hf)

theorem sortFront_run {env : Env K} {s0 : St K} {s : St K} {n : Nat} (asc : Bool)
    (hr : ∃ rl, Run env s0 rl s ∧ rl.length = n) : ∃ rl, Run env s0 rl (sortFront env asc s) ∧ rl.length = n := by
  obtain ⟨rl, hr, hn⟩ := hr
  exact ⟨rl, Run.reorder hr (List.perm_insertionSort _ _), hn⟩

theorem sortFront_perm (env : Env K) (s : St K) (asc : Bool) : ((sortFront env asc s).es .front).Perm (s.es .front) := by
  unfold sortFront setFront
  simp only [upd, if_true]
  exact List.perm_insertionSort _ _

theorem nextOf_get {l : List Nat} (hn : l.Nodup) {i : Nat} (hi : i < l.length) :
    nextOf l l[i] = some (l[(i + 1) % l.length]'(Nat.mod_lt _ (by omega))) := by
  have hd : l.dropWhile (· ≠ l[i]) = l.drop i := by
    obtain ⟨b, hb⟩ : ∃ b, b = l[i] := ⟨_, rfl⟩
    rw [← hb]
    conv_lhs => rw [← List.take_append_drop i l]
    rw [List.dropWhile_append_of_pos]
    · rw [List.drop_eq_getElem_cons hi, List.dropWhile_cons]
      simp [hb]
    · intro x hx
      simp only [ne_eq, decide_not, Bool.not_eq_eq_eq_not, Bool.not_true, decide_eq_false_iff_not]
      rintro rfl
      rw [hb] at hx
      obtain ⟨j, hj, hj2⟩ := List.getElem_of_mem hx
      rw [List.getElem_take] at hj2
      rw [List.length_take] at hj
      have := (List.Nodup.getElem_inj_iff hn).mp hj2
      omega
  unfold nextOf
  rw [hd, List.drop_eq_getElem_cons hi]
  by_cases h : i + 1 < l.length
  · rw [List.drop_eq_getElem_cons h]
    simp [Nat.mod_eq_of_lt h]
  · have : l.drop (i + 1) = [] := List.drop_eq_nil_of_le (by omega)
    rw [this]
    have h2 : i + 1 = l.length := by omega
    simp only [h2, Nat.mod_self]
    rw [List.head?_eq_getElem?, List.getElem?_eq_getElem]

theorem baseNext_get {s : St K} (hn : (s.es .front).Nodup) {i : Nat} (hi : i < (s.es .front).length) :
    baseNext s (s.es .front)[i]? = some ((s.es .front)[(i + 1) % (s.es .front).length]?,
      (s.es .front)[(i + 1) % (s.es .front).length]?) := by
  unfold baseNext
  generalize s.es .front = l at *
  cases l with
  | nil => simp at hi
  | cons e es =>
    have h1 : (e :: es)[i]? = some ((e :: es)[i]) := List.getElem?_eq_getElem hi
    have h2 := nextOf_get hn hi
    have h3 : (e :: es)[(i + 1) % (e :: es).length]? = some ((e :: es)[(i + 1) % (e :: es).length]'(Nat.mod_lt _ (by simp))) :=
      List.getElem?_eq_getElem _
    rw [h1, h3]
    dsimp only
    rw [h2]

/-! ### The advancing front loop -/

/-- State at the head of the advancing front loop. -/
structure AInv (env : Env K) (s0 : St K) (nEl : Nat) (x : Option Nat) (L : Lp K) : Prop where
  run : ∃ rl, Run env s0 rl L.s ∧ rl.length = L.n
  lim : nEl = 0 ∨ L.n < nEl
  iter : L.iter < (L.s.es .front).length
  fb : L.fbase = (L.s.es .front)[L.iter]?
  base : if L.log = [] then L.base = x ∧ L.iter = 0 ∧ L.wide = false else L.base = (L.s.es .front)[L.iter]?
  bmem : ∃ b, L.base = some b ∧ b ∈ L.s.es .front
  log : ∃ pre, Fresh pre ∧ L.log = pre ++
    (if L.wide then fails false (narrowPass x pre (L.s.es .front)) ++ fails true ((L.s.es .front).take L.iter)
     else fails false ((narrowPass x pre (L.s.es .front)).take L.iter))

theorem narrowPass_length {x : Option Nat} (hx : x.isSome) (pre : List Try) {l : List Nat} (hl : 0 < l.length) :
    (narrowPass x pre l).length = l.length := by
  obtain ⟨y, rfl⟩ := Option.isSome_iff_exists.mp hx
  unfold narrowPass
  split_ifs
  · simp; omega
  · rfl

theorem narrowPass_get {x : Option Nat} (pre : List Try) {l : List Nat} {i : Nat} (hi : 0 < i ∨ pre ≠ []) :
    (narrowPass x pre l)[i]? = l[i]? ∨ x = none := by
  unfold narrowPass
  split_ifs with hp
  · rcases hi with hi | hi
    · cases x with
      | none => right; rfl
      | some y =>
        left
        obtain ⟨j, rfl⟩ : ∃ j, i = j + 1 := ⟨i - 1, by omega⟩
        cases l <;> simp
    · exact absurd hp hi
  · left; rfl

theorem take_succ_get {l : List Nat} {i : Nat} {b : Nat} (h : l[i]? = some b) : l.take (i + 1) = l.take i ++ [b] := by
  rw [List.take_succ, h]; rfl

theorem advChecks_zero {nEl : Nat} {s : St K} {b fb : Option Nat} {n : Nat} {log : List Try} (hf : s.es .front ≠ []) :
    advChecks nEl ⟨s, b, fb, 0, false, n, log⟩ =
      if 0 < nEl ∧ n = nEl then .ret true ⟨s, b, fb, 0, false, n, log⟩ else .next ⟨s, b, fb, 0, false, n, log⟩ := by
  have hl := List.length_pos_of_ne_nil hf
  unfold advChecks
  dsimp only
  have h1 : ¬ (0 = (s.es .front).length ∧ false = false) := by omega
  rw [if_neg h1]
  dsimp only
  rw [if_neg (by omega)]
  have h2 : ¬ (0 = (s.es .front).length ∧ false = true) := by simp
  rw [if_neg h2]

/-- What a turn of the advancing front loop does. -/
inductive ATurn (env : Env K) (s0 : St K) (nEl : Nat) (x : Option Nat) (L : Lp K) : Turn K → Prop
  | next {L'} : AInv env s0 nEl x L' → L'.log.length = L.log.length + 1 → ATurn env s0 nEl x L (.next L')
  | done {L'} : (∃ rl, Run env s0 rl L'.s ∧ rl.length = L'.n) → (nEl = 0 ∨ L'.n ≤ nEl) →
      (L'.s.es .front = [] ∨ (0 < nEl ∧ L'.n = nEl)) → ATurn env s0 nEl x L (.ret true L')
  | fail {L'} : (∃ rl, Run env s0 rl L'.s ∧ rl.length = L'.n) → (nEl = 0 ∨ L'.n < nEl) → L'.s.es .front ≠ [] →
      (∃ pre, Fresh pre ∧ L'.log = pre ++ (fails false (narrowPass x pre (L'.s.es .front)) ++ fails true (L'.s.es .front))) →
      ATurn env s0 nEl x L (.ret false L')

theorem advTurn_inv {env : Env K} (he : 0 < env.eps) (hq : QueryLive env) (hs : SortOK env) (par : Par K)
    {s0 : St K} (h0 : WF s0) {nEl : Nat} {x : Option Nat} (hx : x.isSome) {L : Lp K} (h : AInv env s0 nEl x L) :
    ATurn env s0 nEl x L (advTurn env par nEl L) := by
  obtain ⟨b, hb, hbm⟩ := h.bmem
  have ha := advTriangle_attempt he hq hs par h0 h.run hbm L.wide
  unfold advTurn
  rw [hb]
  dsimp only
  generalize advTriangle env par L.s b L.wide = r at ha
  obtain ⟨s', o⟩ := r
  cases o with
  | some t =>
    dsimp only at ha ⊢
    simp only [Option.isSome_some] at ha
    cases ha with
    | ok hr =>
      have hr2 : ∃ rl, Run env s0 rl (if L.wide = true then sortFront env false s' else s') ∧ rl.length = L.n + 1 := by
        split_ifs
        · exact sortFront_run _ hr
        · exact hr
      generalize (if L.wide = true then sortFront env false s' else s') = s'' at hr2
      have hlim : nEl = 0 ∨ L.n + 1 ≤ nEl := by have := h.lim; omega
      cases hf : s''.es .front with
      | nil =>
        have hb1 : baseFirst s'' L.fbase = (none, L.fbase) := by unfold baseFirst; rw [hf]
        rw [hb1]
        unfold advChecks
        dsimp only
        rw [hf]
        simp only [List.length_nil, if_true]
        split_ifs
        · exact .done hr2 hlim (Or.inl hf)
        · exact .done hr2 hlim (Or.inl hf)
      | cons e es =>
        have hb1 : baseFirst s'' L.fbase = (some e, some e) := by unfold baseFirst; rw [hf]
        rw [hb1, advChecks_zero (by rw [hf]; simp)]
        split_ifs with c1
        · exact .done hr2 hlim (Or.inr c1)
        · refine .next ⟨hr2, by dsimp only; omega, by dsimp only; rw [hf]; simp, by dsimp only; rw [hf]; rfl, ?_, ⟨e, rfl, by rw [hf]; simp⟩, ?_⟩ (by simp)
          · dsimp only
            rw [if_neg (by simp), hf]; rfl
          · refine ⟨L.log ++ [⟨b, L.wide, true⟩], Or.inr ⟨_, _, _, rfl⟩, ?_⟩
            simp [fails]
  | none =>
    dsimp only at ha ⊢
    simp only [Option.isSome_none] at ha
    cases ha with
    | fail hes hr =>
      have hfr : s'.es .front = L.s.es .front := by rw [hes]
      have hwf := run_wf he hq hs h0 hr.choose_spec.1
      have hnd := (hwf.ends .front).1
      have hil : L.iter < (s'.es .front).length := by rw [hfr]; exact h.iter
      have hne : s'.es .front ≠ [] := by intro h0; rw [h0] at hil; simp at hil
      have hm : 0 < (s'.es .front).length := by omega
      have hbn : baseNext s' L.fbase = some ((s'.es .front)[(L.iter + 1) % (s'.es .front).length]?, (s'.es .front)[(L.iter + 1) % (s'.es .front).length]?) := by
        rw [h.fb, ← hfr]
        exact baseNext_get hnd hil
      rw [hbn]
      dsimp only
      obtain ⟨pre, hpre, hlog⟩ := h.log
      -- the new record
      have hnl := narrowPass_length hx pre hm
      have hstep : L.log ++ [⟨b, L.wide, false⟩] = pre ++
          (if L.wide then fails false (narrowPass x pre (s'.es .front)) ++ fails true ((s'.es .front).take (L.iter + 1))
           else fails false ((narrowPass x pre (s'.es .front)).take (L.iter + 1))) := by
        rw [hlog, hfr]
        have hb2 := h.base
        split_ifs at hb2 with hl0
        · -- first attempt of all
          have hpre0 : pre = [] := by
            rw [hl0] at hlog
            exact (List.append_eq_nil_iff.mp hlog.symm).1
          rw [hb2.2.2, hb2.2.1, hpre0]
          rw [← hb2.1, hb]
          simp [narrowPass, fails]
        · rw [hb] at hb2
          cases hw : L.wide with
          | true =>
            simp only [if_true]
            rw [take_succ_get hb2.symm]
            simp [fails]
          | false =>
            simp only [Bool.false_eq_true, if_false]
            have hcond : 0 < L.iter ∨ pre ≠ [] := by
              by_contra hc
              simp only [not_or, not_lt, Nat.le_zero, ne_eq, not_not] at hc
              apply hl0
              rw [hlog, hc.1, hc.2, hw]
              simp [fails]
            rcases narrowPass_get (x := x) pre (l := L.s.es .front) hcond with hg | hg
            · rw [take_succ_get (hg.trans hb2.symm)]
              simp [fails]
            · rw [hg] at hx; simp at hx
      have hlim := h.lim
      unfold advChecks
      dsimp only
      by_cases c0 : L.iter + 1 = (s'.es .front).length ∧ L.wide = false
      · rw [if_pos c0]
        rw [if_neg (by omega)]
        dsimp only
        rw [if_neg (by omega), if_neg (by omega)]
        refine .next ⟨hr, hlim, hm, ?_, ?_, ?_, ?_⟩ (by simp)
        · dsimp only; rw [c0.1, Nat.mod_self]
        · dsimp only
          rw [if_neg (by simp), c0.1, Nat.mod_self]
        · dsimp only
          rw [c0.1, Nat.mod_self, List.getElem?_eq_getElem hm]
          exact ⟨_, rfl, List.getElem_mem _⟩
        · refine ⟨pre, hpre, ?_⟩
          dsimp only
          rw [hstep, c0.2]
          simp only [Bool.false_eq_true, if_false, if_true, List.take_zero]
          rw [c0.1, ← hnl, List.take_length]
          simp [fails]
      · rw [if_neg c0]
        rw [if_neg (by omega), if_neg (by dsimp only; omega)]
        split_ifs with c1
        · refine .fail hr hlim hne ⟨pre, hpre, ?_⟩
          dsimp only at c1 ⊢
          rw [hstep, c1.2, c1.1, List.take_length]
          rfl
        · dsimp only at c1
          have hlt : L.iter + 1 < (s'.es .front).length := by
            have : L.iter + 1 ≠ (s'.es .front).length := by
              intro hc
              cases hw : L.wide with
              | true => exact c1 ⟨hc, hw⟩
              | false => exact c0 ⟨hc, hw⟩
            omega
          refine .next ⟨hr, hlim, hlt, ?_, ?_, ?_, ⟨pre, hpre, hstep⟩⟩ (by simp)
          · dsimp only; rw [Nat.mod_eq_of_lt hlt]
          · dsimp only
            rw [if_neg (by simp), Nat.mod_eq_of_lt hlt]
          · dsimp only
            rw [Nat.mod_eq_of_lt hlt, List.getElem?_eq_getElem hlt]
            exact ⟨_, rfl, List.getElem_mem _⟩

/-- What the advancing front loop returns. -/
inductive ARes (env : Env K) (s0 : St K) (nEl : Nat) (x : Option Nat) (len : Nat) : Res K → Prop
  | fuel {L'} : AInv env s0 nEl x L' → L'.log.length = len → ARes env s0 nEl x len (.fuel L')
  | done {L'} : (∃ rl, Run env s0 rl L'.s ∧ rl.length = L'.n) → (nEl = 0 ∨ L'.n ≤ nEl) →
      (L'.s.es .front = [] ∨ (0 < nEl ∧ L'.n = nEl)) → ARes env s0 nEl x len (.ret true L')
  | fail {L'} : (∃ rl, Run env s0 rl L'.s ∧ rl.length = L'.n) → (nEl = 0 ∨ L'.n < nEl) → L'.s.es .front ≠ [] →
      (∃ pre, Fresh pre ∧ L'.log = pre ++ (fails false (narrowPass x pre (L'.s.es .front)) ++ fails true (L'.s.es .front))) →
      ARes env s0 nEl x len (.ret false L')

theorem advLoop_res {env : Env K} (he : 0 < env.eps) (hq : QueryLive env) (hs : SortOK env) (par : Par K)
    {s0 : St K} (h0 : WF s0) {nEl : Nat} {x : Option Nat} (hx : x.isSome) : ∀ (k : Nat) {L : Lp K}, AInv env s0 nEl x L →
    ARes env s0 nEl x (L.log.length + k) (advLoop env par nEl k L)
  | 0, L, h => .fuel h rfl
  | k + 1, L, h => by
    have ht := advTurn_inv he hq hs par h0 hx h
    unfold advLoop
    generalize advTurn env par nEl L = t at ht
    cases ht with
    | next h1 h2 =>
      dsimp only
      have := advLoop_res he hq hs par h0 hx k h1
      rw [h2] at this
      rw [show L.log.length + (k + 1) = L.log.length + 1 + k by omega]
      exact this
    | done a b c => exact .done a b c
    | fail a b c d => exact .fail a b c d

theorem advStart_inv {env : Env K} {s0 : St K} (hf : s0.es .front ≠ []) (nEl : Nat) :
    AInv env s0 nEl (s0.es .front).head? (advStart env s0) := by
  have hp := sortFront_perm env s0 false
  obtain ⟨e, es, hf'⟩ := List.exists_cons_of_ne_nil hf
  have hb : baseFirst s0 none = (some e, some e) := by unfold baseFirst; rw [hf']
  have hl : 0 < ((sortFront env false s0).es .front).length := by rw [hp.length_eq, hf']; simp
  unfold advStart
  rw [hb]
  dsimp only
  refine ⟨?_, ?_, hl, ?_, ?_, ?_, ⟨[], Or.inl rfl, by simp [fails]⟩⟩
  · exact sortFront_run false ⟨[], Run.start, rfl⟩
  · dsimp only; omega
  · dsimp only
    unfold baseFirst
    cases hc : (sortFront env false s0).es .front with
    | nil => rw [hc] at hl; simp at hl
    | cons a as => rfl
  · simp [hf']
  · exact ⟨e, rfl, by dsimp only; rw [hp.mem_iff, hf']; simp⟩

/-! ### The exhaustive loop -/

/-- State at the head of the exhaustive loop. -/
structure EInv (env : Env K) (s0 : St K) (nEl : Nat) (L : Lp K) : Prop where
  run : ∃ rl, Run env s0 rl L.s ∧ rl.length = L.n
  lim : nEl = 0 ∨ L.n < nEl
  iter : L.iter < (L.s.es .front).length
  fb : L.fbase = (L.s.es .front)[L.iter]?
  base : L.base = (L.s.es .front)[L.iter]?
  wide : L.wide = true
  log : ∃ pre, Fresh pre ∧ L.log = pre ++ fails true ((L.s.es .front).take L.iter)

/-- What the exhaustive loop returns. -/
inductive ERes (env : Env K) (s0 : St K) (nEl : Nat) (len : Nat) : Res K → Prop
  | fuel {L'} : EInv env s0 nEl L' → L'.log.length = len → ERes env s0 nEl len (.fuel L')
  | done {L'} : (∃ rl, Run env s0 rl L'.s ∧ rl.length = L'.n) → (nEl = 0 ∨ L'.n ≤ nEl) →
      (L'.s.es .front = [] ∨ (0 < nEl ∧ L'.n = nEl)) → ERes env s0 nEl len (.ret true L')
  | fail {L'} : (∃ rl, Run env s0 rl L'.s ∧ rl.length = L'.n) → (nEl = 0 ∨ L'.n < nEl) → L'.s.es .front ≠ [] →
      (∃ pre, Fresh pre ∧ L'.log = pre ++ fails true (L'.s.es .front)) → ERes env s0 nEl len (.ret false L')

/-- What a turn of the exhaustive loop does. -/
inductive ETurn (env : Env K) (s0 : St K) (nEl : Nat) (L : Lp K) : Turn K → Prop
  | next {L'} : EInv env s0 nEl L' → L'.log.length = L.log.length + 1 → ETurn env s0 nEl L (.next L')
  | done {L'} : (∃ rl, Run env s0 rl L'.s ∧ rl.length = L'.n) → (nEl = 0 ∨ L'.n ≤ nEl) →
      (L'.s.es .front = [] ∨ (0 < nEl ∧ L'.n = nEl)) → ETurn env s0 nEl L (.ret true L')
  | fail {L'} : (∃ rl, Run env s0 rl L'.s ∧ rl.length = L'.n) → (nEl = 0 ∨ L'.n < nEl) → L'.s.es .front ≠ [] →
      (∃ pre, Fresh pre ∧ L'.log = pre ++ fails true (L'.s.es .front)) → ETurn env s0 nEl L (.ret false L')

theorem exhTurn_inv {env : Env K} (he : 0 < env.eps) (hq : QueryLive env) (hs : SortOK env)
    {s0 : St K} (h0 : WF s0) {nEl : Nat} {L : Lp K} (h : EInv env s0 nEl L) :
    ETurn env s0 nEl L (exhTurn env nEl L) := by
  have hb := h.base
  rw [List.getElem?_eq_getElem h.iter] at hb
  have hbm := List.getElem_mem h.iter
  have hget := List.getElem?_eq_getElem h.iter
  generalize (L.s.es .front)[L.iter]'h.iter = b at hb hbm hget
  have ha := exhTriangle_attempt he hq hs h0 h.run hbm
  unfold exhTurn
  rw [hb]
  dsimp only
  generalize exhTriangle env L.s b = r at ha
  obtain ⟨s', o⟩ := r
  cases o with
  | true =>
    dsimp only at ha ⊢
    cases ha with
    | ok hr =>
      unfold exhChecks baseFirst
      dsimp only
      have hlim : nEl = 0 ∨ L.n + 1 ≤ nEl := by have := h.lim; omega
      cases hf : s'.es .front with
      | nil =>
        simp only [List.length_nil]
        rw [if_neg (by simp), if_pos (by simp)]
        exact .done hr hlim (Or.inl hf)
      | cons e es =>
        simp only [List.length_cons]
        rw [if_neg (by omega), if_neg (by omega), if_neg (by omega)]
        split_ifs with c1
        · exact .done hr hlim (Or.inr c1)
        · refine .next ⟨hr, by dsimp only; omega, by dsimp only; rw [hf]; simp, by dsimp only; rw [hf]; rfl,
            by dsimp only; rw [hf]; rfl, h.wide, ?_⟩ (by simp)
          refine ⟨L.log ++ [⟨b, L.wide, true⟩], Or.inr ⟨_, _, _, rfl⟩, ?_⟩
          simp [fails]
  | false =>
    dsimp only at ha ⊢
    cases ha with
    | fail hes hr =>
      have hfr : s'.es .front = L.s.es .front := by rw [hes]
      have hwf := run_wf he hq hs h0 hr.choose_spec.1
      have hnd := (hwf.ends .front).1
      have hil : L.iter < (s'.es .front).length := by rw [hfr]; exact h.iter
      have hne : s'.es .front ≠ [] := by intro h0; rw [h0] at hil; simp at hil
      have hm : 0 < (s'.es .front).length := by omega
      have hbn : baseNext s' L.fbase = some ((s'.es .front)[(L.iter + 1) % (s'.es .front).length]?, (s'.es .front)[(L.iter + 1) % (s'.es .front).length]?) := by
        rw [h.fb, ← hfr]
        exact baseNext_get hnd hil
      rw [hbn]
      dsimp only
      obtain ⟨pre, hpre, hlog⟩ := h.log
      have hstep : L.log ++ [⟨b, L.wide, false⟩] = pre ++ fails true ((s'.es .front).take (L.iter + 1)) := by
        rw [hlog, hfr, take_succ_get hget, h.wide]
        simp [fails]
      have hlim := h.lim
      have hsome : ((s'.es .front)[(L.iter + 1) % (s'.es .front).length]?).isSome = true := by
        rw [List.getElem?_eq_getElem (Nat.mod_lt _ hm)]; rfl
      unfold exhChecks
      dsimp only
      by_cases c0 : L.iter + 1 = (s'.es .front).length
      · rw [if_pos ⟨hsome, c0⟩]
        refine .fail hr hlim hne ⟨pre, hpre, ?_⟩
        dsimp only
        rw [hstep, c0, List.take_length]
      · rw [if_neg (by omega), if_neg (by omega), if_neg (by omega), if_neg (by omega)]
        have hlt : L.iter + 1 < (s'.es .front).length := by omega
        refine .next ⟨hr, hlim, hlt, ?_, ?_, h.wide, ⟨pre, hpre, hstep⟩⟩ (by simp)
        · dsimp only; rw [Nat.mod_eq_of_lt hlt]
        · dsimp only; rw [Nat.mod_eq_of_lt hlt]

theorem exhLoop_res {env : Env K} (he : 0 < env.eps) (hq : QueryLive env) (hs : SortOK env)
    {s0 : St K} (h0 : WF s0) {nEl : Nat} : ∀ (k : Nat) {L : Lp K}, EInv env s0 nEl L →
    ERes env s0 nEl (L.log.length + k) (exhLoop env nEl k L)
  | 0, L, h => .fuel h rfl
  | k + 1, L, h => by
    have ht := exhTurn_inv he hq hs h0 h
    unfold exhLoop
    generalize exhTurn env nEl L = t at ht
    cases ht with
    | next h1 h2 =>
      dsimp only
      have := exhLoop_res he hq hs h0 k h1
      rw [h2] at this
      rw [show L.log.length + (k + 1) = L.log.length + 1 + k by omega]
      exact this
    | done a b c => exact .done a b c
    | fail a b c d => exact .fail a b c d

theorem exhStart_inv {env : Env K} {s0 : St K} (hf : s0.es .front ≠ []) (nEl : Nat) (fb : Option Nat) :
    EInv env s0 nEl (exhStart env s0 fb) := by
  have hp := sortFront_perm env s0 true
  have hl : 0 < ((sortFront env true s0).es .front).length := by
    rw [hp.length_eq]; exact List.length_pos_of_ne_nil hf
  have hb : baseFirst (sortFront env true s0) fb = (((sortFront env true s0).es .front)[0]?, ((sortFront env true s0).es .front)[0]?) := by
    unfold baseFirst
    cases hc : (sortFront env true s0).es .front with
    | nil => rw [hc] at hl; simp at hl
    | cons a as => rfl
  unfold exhStart
  dsimp only
  rw [hb]
  refine ⟨sortFront_run true ⟨[], Run.start, rfl⟩, by dsimp only; omega, hl, rfl, rfl, rfl, ⟨[], Or.inl rfl, by simp [fails]⟩⟩

end TG
end TQ

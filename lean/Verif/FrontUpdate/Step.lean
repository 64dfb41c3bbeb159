import Verif.FrontUpdate.Cand

/-! # Lemmas on a step of the front update -/

set_option linter.unusedSectionVars false

namespace TQ.FU
open TQ.MS TQ.MeshSpec TQ.FUSpec TQ.MS.St
variable {K : Type*} [Field K] [LinearOrder K] [IsStrictOrderedRing K]

theorem triArea_pos_of_checkValidity {env : Env K} {p q r : Pt K} (h : checkValidity env p q r = true) :
    0 < triArea p q r := by
  unfold checkValidity at h
  by_contra hc
  rw [if_pos (not_lt.mp hc)] at h
  simp at h

/-- `s1` is `s` with one more inactive triangle `t = (b1, b2, v)` and possibly the new vertex `v`. -/
structure Prep (env : Env K) (s s1 : St K) (b1 b2 v t : Nat) : Prop where
  wf : WF s1
  verts : s1.verts = s.verts ∨ (s1.verts = s.verts ++ [v] ∧ s.nxt ≤ v ∧ (s1.V v).edges = [])
  es : s1.es = s.es
  E : s1.E = s.E
  quads : s1.quads = s.quads
  area : s1.area = s.area
  tris : s1.tris = s.tris ++ [t]
  nxt : s.nxt ≤ s1.nxt
  color : s1.color = s.color
  F : ∀ f, Live s f → s1.F f = s.F f
  Ft : s1.F (.tri t) = ⟨[b1, b2, v], [.null, .null, .null], s.newColor (-1), false⟩
  V : ∀ w ∈ s.verts, (s1.V w).xy = (s.V w).xy ∧ (s1.V w).props = (s.V w).props ∧ (s1.V w).edges = (s.V w).edges
  vmem : v ∈ s1.verts
  ndp : [b1, b2, v].Nodup
  fresh : s.nxt ≤ t
  valid : checkValidity env (s1.pos b1) (s1.pos b2) (s1.pos v) = true

theorem Cand.prep {env : Env K} {s s1 : St K} {b1 b2 t : Nat} (h : Cand s s1 b1 b2 (CandP env s b1 b2) [t]) :
    ∃ v, s1.F (.tri t) = ⟨[b1, b2, v], [.null, .null, .null], s.newColor (-1), false⟩ ∧ v ∈ s.verts ∧
      CandP env s b1 b2 v ∧ Prep env s s1 b1 b2 v t := by
  obtain ⟨hge, v, hF, hv, hn, hP⟩ := h.cor t (by simp)
  refine ⟨v, hF, hv, hP, h.wf, Or.inl h.verts, h.es, h.E, h.quads, h.area, h.tris, h.nxt, h.color, h.F, hF,
    fun w _ => ⟨(h.V w).1, (h.V w).2.1, (h.V w).2.2.1⟩, by rw [h.verts]; exact hv, hn, hge, ?_⟩
  rw [h.pos, h.pos, h.pos]; exact hP.2

theorem Cand.same {s s1 : St K} {b1 b2 : Nat} {P : Nat → Prop} (h : Cand s s1 b1 b2 P []) : SameMesh s s1 where
  verts := h.verts
  vdata := fun v _ => by
    obtain ⟨a, b, c, d⟩ := h.V v
    simp only [List.filter_nil, List.map_nil, List.append_nil] at d
    cases hx : s1.V v; cases hy : s.V v
    rw [hx, hy] at a b c d
    simp only at a b c d
    subst a b c d; rfl
  es := h.es
  edata := h.E
  tris := by rw [h.tris, List.append_nil]
  quads := h.quads
  fdata := h.F
  area := h.area

/-- Adding the new vertex and the triangle with it. -/
theorem prep_new {env : Env K} {s s' : St K} {b1 b2 : Nat} {P : Nat → Prop} (h0 : WF s) (h : Cand s s' b1 b2 P [])
    (hb1 : b1 ∈ s.verts) (hb2 : b2 ∈ s.verts) (hb : b1 ≠ b2) (p : Pt K) :
    let s2 := (s'.addVertex p).addTri b1 b2 s'.nxt (-1)
    (checkValidity env (s2.pos b1) (s2.pos b2) (s2.pos s'.nxt) = true → Prep env s s2 b1 b2 s'.nxt (s'.nxt + 1)) ∧
    s2.pos s'.nxt = p ∧
    SameMesh s ((s2.removeTri (s'.nxt + 1)).removeVertex s'.nxt) ∧
    WF ((s2.removeTri (s'.nxt + 1)).removeVertex s'.nxt) := by
  intro s2
  have hb1' : b1 ∈ s'.verts := by rw [h.verts]; exact hb1
  have hb2' : b2 ∈ s'.verts := by rw [h.verts]; exact hb2
  have hnv : s'.nxt ∉ s'.verts := fun hm => lt_irrefl _ (h.wf.vlt _ hm)
  have w1 : WF (s'.addVertex p) := wf_addVertex h.wf p
  have m1 : b1 ∈ (s'.addVertex p).verts := List.mem_append_left _ hb1'
  have m2 : b2 ∈ (s'.addVertex p).verts := List.mem_append_left _ hb2'
  have m3 : s'.nxt ∈ (s'.addVertex p).verts := List.mem_append_right _ (by simp)
  have n1 : b1 ≠ s'.nxt := fun hh => hnv (hh ▸ hb1')
  have n2 : b2 ≠ s'.nxt := fun hh => hnv (hh ▸ hb2')
  have hn : [b1, b2, s'.nxt].Nodup := by simp [hb, n1, n2]
  have c1 := (Cand.nil w1 b1 b2 (fun _ => True)).add w1 m1 m2 m3 hn trivial
  have hs2 : (s'.addVertex p).nxt = s'.nxt + 1 := rfl
  rw [List.nil_append, hs2] at c1
  change Cand (s'.addVertex p) s2 b1 b2 (fun _ => True) [s'.nxt + 1] at c1
  have hVold : ∀ w ∈ s.verts, (s'.addVertex p).V w = s'.V w := by
    intro w hw
    have : w ≠ s'.nxt := fun hh => hnv (by rw [h.verts]; exact hh ▸ hw)
    simp [addVertex, upd, this]
  have hVnew : (s'.addVertex p).V s'.nxt = ⟨p, 0, [], []⟩ := by simp [addVertex]
  have hlive : ∀ f, Live s f → Live (s'.addVertex p) f := by
    intro f hf
    cases f with
    | null => exact hf
    | tri i => change i ∈ s'.tris; rw [h.tris]; exact List.mem_append_left _ hf
    | quad i => change i ∈ s'.quads; rw [h.quads]; exact hf
  have hFt : s2.F (.tri (s'.nxt + 1)) = ⟨[b1, b2, s'.nxt], [.null, .null, .null], s.newColor (-1), false⟩ := by
    have : s'.newColor (-1) = s.newColor (-1) := by unfold newColor; rw [h.color]
    rw [← this]
    simp [s2, addTri, addVertex, newColor]
  have hpv : s2.pos s'.nxt = p := by rw [c1.pos]; unfold pos; rw [hVnew]
  refine ⟨?_, hpv, ?_⟩
  · intro hval
    refine ⟨c1.wf, Or.inr ⟨?_, h.nxt, ?_⟩, c1.es.trans h.es, c1.E.trans h.E, c1.quads.trans h.quads, c1.area.trans h.area,
      ?_, le_trans h.nxt (le_trans (Nat.le_succ _) c1.nxt), c1.color.trans h.color, ?_, hFt, ?_, ?_, hn,
      le_trans h.nxt (Nat.le_succ _), hval⟩
    · rw [c1.verts]; change s'.verts ++ [s'.nxt] = _; rw [h.verts]
    · rw [(c1.V _).2.2.1, hVnew]
    · rw [c1.tris]; change s'.tris ++ _ = _; rw [h.tris, List.append_nil]
    · intro f hf
      rw [c1.F f (hlive f hf)]
      exact h.F f hf
    · intro w hw
      obtain ⟨a1, a2, a3, _⟩ := c1.V w
      obtain ⟨b1, b2, b3, _⟩ := h.V w
      rw [hVold w hw] at a1 a2 a3
      exact ⟨a1.trans b1, a2.trans b2, a3.trans b3⟩
    · rw [c1.verts]; exact m3
  · have c2 := c1.remove w1 (r := s'.nxt + 1) (by simp)
    have hts : ([s'.nxt + 1] : List Nat).filter (· ≠ s'.nxt + 1) = [] := by simp
    rw [hts] at c2
    have hw2 : WF ((s2.removeTri (s'.nxt + 1)).removeVertex s'.nxt) := by
      refine wf_removeVertex c2.wf _ ?_ ?_ ?_
      · rw [(c2.V _).2.2.1, hVnew]
      · rw [(c2.V _).2.2.2, hVnew]; simp
      · rw [c2.verts]; exact m3
    refine ⟨⟨?_, ?_, ?_, ?_, ?_, ?_, ?_, ?_⟩, hw2⟩
    · change (s2.removeTri (s'.nxt + 1)).verts.filter _ = _
      rw [c2.verts]
      change (s'.verts ++ [s'.nxt]).filter _ = _
      rw [List.filter_append, h.verts]
      simp only [ne_eq, decide_not, List.filter_cons, decide_true, Bool.not_true, List.filter_nil,
        List.append_nil, Bool.false_eq_true, if_false]
      rw [List.filter_eq_self]
      intro w hw
      have : w ≠ s'.nxt := fun hh => hnv (by rw [h.verts]; exact hh ▸ hw)
      simpa using this
    · intro v hv
      change (s2.removeTri (s'.nxt + 1)).V v = _
      have e1 := c2.same.vdata v (by change v ∈ s'.verts ++ [s'.nxt]; rw [h.verts]; exact List.mem_append_left _ hv)
      rw [e1, hVold v hv, h.same.vdata v hv]
    · exact c2.es.trans h.es
    · exact c2.E.trans h.E
    · change (s2.removeTri (s'.nxt + 1)).tris = _
      rw [c2.tris]; change s'.tris ++ _ = _; rw [h.tris]; simp
    · exact c2.quads.trans h.quads
    · intro f hf
      exact (c2.F f (hlive f hf)).trans (h.F f hf)
    · exact c2.area.trans h.area

/-- Outcome of a front update. -/
inductive Outcome (env : Env K) (s : St K) (base : Nat) : St K × Option Nat → Prop
  | fail {s' : St K} (same : SameMesh s s') (wf : WF s') (nxt : s.nxt ≤ s'.nxt) : Outcome env s base (s', none)
  | ok {s1 : St K} {v t : Nat} (prep : Prep env s s1 (s.E base).v1 (s.E base).v2 v t) :
      Outcome env s base (advanceFront s1 base v t, some t)

theorem updateFront_outcome {env : Env K} (he : 0 < env.eps) (hq : QueryLive env) (hs : SortOK env) {s : St K}
    (h : WF s) {base : Nat} (hb : base ∈ s.es .front) (np sp : Pt K) (r : K) :
    Outcome env s base (updateFront env s base np sp r) := by
  have hc := createPossible_cand he hq h hb sp r
  obtain ⟨_, hb1, hb2, hb12, _⟩ := (h.ends _).2 base hb
  unfold updateFront
  dsimp only
  cases hch : chooseBest env (createPossible env s base sp r).1 (createPossible env s base sp r).2 with
  | some x =>
    obtain ⟨s1, t⟩ := x
    obtain ⟨_, c1, _⟩ := chooseBest_some hs h hc hch
    obtain ⟨v, hF, _, _, hp⟩ := c1.prep
    dsimp only
    rw [hF]
    exact Outcome.ok hp
  | none =>
    dsimp only
    have hts := (chooseBest_none hs).mp hch
    rw [hts] at hc
    obtain ⟨q1, _, q3, q4⟩ := prep_new (env := env) h hc hb1 hb2 hb12 np
    split_ifs with hv
    · rw [Bool.and_eq_true] at hv
      exact Outcome.ok (q1 (checkValidity_of_valid hv.2))
    · exact Outcome.fail q3 q4 (le_trans hc.nxt (le_trans (Nat.le_succ _) (Nat.le_succ _)))

theorem updateFrontExhaustive_outcome {env : Env K} (he : 0 < env.eps) {s : St K}
    (h : WF s) {base v : Nat} (hb : base ∈ s.es .front) (hv : v ∈ s.verts) :
    Outcome env s base (updateFrontExhaustive env s base v) := by
  obtain ⟨_, hb1, hb2, hb12, _⟩ := (h.ends _).2 base hb
  have hself : SameMesh s s := ⟨rfl, fun _ _ => rfl, rfl, rfl, rfl, rfl, fun _ _ => rfl, rfl⟩
  unfold updateFrontExhaustive
  dsimp only
  split_ifs with c1 c2 c3
  · exact Outcome.fail hself h (le_refl _)
  · exact Outcome.fail hself h (le_refl _)
  · have hccw := not_not.mp c2
    have hncl : orientation env.eps (s.pos (s.E base).v1) (s.pos (s.E base).v2) (s.pos v) ≠ .CL := by
      rw [hccw]; decide
    have hn := notCL_nodup he hb12 hncl
    have c0 := (Cand.nil h (s.E base).v1 (s.E base).v2 (fun _ => True)).add h hb1 hb2 hv hn trivial
    rw [List.nil_append] at c0
    have hval := checkValidity_of_valid c3
    rw [c0.pos, c0.pos, c0.pos] at hval
    have c1' : Cand s (s.addTri (s.E base).v1 (s.E base).v2 v (-1)) (s.E base).v1 (s.E base).v2
        (CandP env s (s.E base).v1 (s.E base).v2) ([] ++ [s.nxt]) :=
      (Cand.nil h _ _ _).add h hb1 hb2 hv hn ⟨⟨by simpa using c1, hncl⟩, hval⟩
    obtain ⟨v', hF, _, _, hp⟩ := c1'.prep
    have : v' = v := by
      have h2 : (s.addTri (s.E base).v1 (s.E base).v2 v (-1)).F (.tri s.nxt) =
        ⟨[(s.E base).v1, (s.E base).v2, v], [.null, .null, .null], s.newColor (-1), false⟩ := by simp [addTri]
      rw [h2] at hF
      simp only [FData.mk.injEq, List.cons.injEq, true_and, and_true] at hF
      exact hF.symm
    subst this
    exact Outcome.ok hp
  · have hccw := not_not.mp c2
    have hncl : orientation env.eps (s.pos (s.E base).v1) (s.pos (s.E base).v2) (s.pos v) ≠ .CL := by
      rw [hccw]; decide
    have hn := notCL_nodup he hb12 hncl
    have c0 := (Cand.nil h (s.E base).v1 (s.E base).v2 (fun _ => True)).add h hb1 hb2 hv hn trivial
    have c1 := c0.remove h (r := s.nxt) (by simp)
    have hts : (([] : List Nat) ++ [s.nxt]).filter (· ≠ s.nxt) = [] := by simp
    rw [hts] at c1
    exact Outcome.fail c1.same c1.wf c1.nxt

end TQ.FU

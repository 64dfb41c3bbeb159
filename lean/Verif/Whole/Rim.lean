import Verif.Whole.Run
import Verif.QuadLayer.Ends

/-! # Lemmas: the edges of a partly meshed domain, one step at a time -/

set_option linter.unusedSectionVars false
set_option linter.unusedSimpArgs false

namespace TQ.Whole
open TQ.MS TQ.MeshSpec TQ.FUSpec TQ.MS.St TQ.GeoSpec TQ.FU TQ.Sm TQ.MCSpec TQ.WholeSpec TQ.RefSpec
variable {K : Type*} [Field K] [LinearOrder K] [IsStrictOrderedRing K]

/-- The conditions of `Meshing` on the edges; `sd` are the sides of the elements that the front has passed. -/
structure Rim (s : St K) (sd : List (Nat × Nat)) : Prop where
  wf : WF s
  front : SimpleFront s.pos (pairs s .front)
  bdry : SimpleFront s.pos (pairs s .bdry)
  chain : ∀ a b, chain sd a b + chain (pairs s .front) a b = chain (pairs s .bdry) a b
  count : ∀ a b, connecting sd a b + connecting (frontOf s false) a b =
    2 * connecting (pairs s .intr) a b + connecting (frontOf s true) a b + connecting (pairs s .bdry) a b
  marked : ∀ e ∈ frontOf s false, e ∈ pairs s .bdry
  ghost : NoGhost s
  plain : ∀ b ∈ s.es .bdry, s.isInterior b = false ∧ s.isGhost b = false

theorem Meshing.rim {s : St K} (h : Meshing s) : Rim s (allSides s) :=
  ⟨h.wf, h.front, h.bdry, h.chain, h.count, h.marked, h.ghost, h.plain⟩

theorem Rim.meshing {s : St K} {sd : List (Nat × Nat)} (h : Rim s sd) (hp : sd.Perm (allSides s))
    (ccw : ∀ x ∈ pieces s, 0 < side (s.pos x.2.1) (s.pos x.2.2.1) (s.pos x.2.2.2))
    (null : ∀ b ∈ s.es .bdry, (∀ f, Live s f → ¬ HasSide s f (s.E b).v1 (s.E b).v2) → (s.E b).fl = .null) : Meshing s := by
  refine ⟨h.wf, ccw, h.front, h.bdry, fun a b => ?_, fun a b => ?_, h.marked, h.ghost, h.plain, null⟩
  · rw [← chain_perm hp]; exact h.chain a b
  · rw [← connecting_perm hp]; exact h.count a b

/-- Only the edges and the positions of their ends matter. -/
theorem Rim.congr {s s' : St K} {sd : List (Nat × Nat)} (h : Rim s sd) (wf : WF s') (hp : ∀ v ∈ s.verts, s'.pos v = s.pos v)
    (es : s'.es = s.es) (eE : s'.E = s.E) : Rim s' sd := by
  have hpr : ∀ l, pairs s' l = pairs s l := fun l => by unfold pairs; rw [es, eE]
  have hfo : ∀ b, frontOf s' b = frontOf s b := fun b => by unfold frontOf isInterior; rw [es, eE]
  refine ⟨wf, ?_, ?_, fun a b => by rw [hpr, hpr]; exact h.chain a b, fun a b => ?_, ?_, ?_, ?_⟩
  · rw [hpr]
    exact simple_congr (fun e he => ⟨hp _ (pairs_verts h.wf e he).1, hp _ (pairs_verts h.wf e he).2⟩) h.front
  · rw [hpr]
    exact simple_congr (fun e he => ⟨hp _ (pairs_verts h.wf e he).1, hp _ (pairs_verts h.wf e he).2⟩) h.bdry
  · rw [hfo, hfo, hpr, hpr]; exact h.count a b
  · rw [hfo, hpr]; exact h.marked
  · unfold NoGhost isGhost; rw [es, eE]; exact h.ghost
  · unfold isInterior isGhost; rw [es, eE]; exact h.plain

theorem chain_map (es : List (Nat × Nat)) (a b : Nat) :
    chain es a b = (es.map fun e => (if e = (a, b) then (1 : Int) else 0) - (if e = (b, a) then 1 else 0)).sum := by
  unfold FUSpec.chain
  induction es with
  | nil => rfl
  | cons e es ih =>
    rw [List.count_cons, List.count_cons, List.map_cons, List.sum_cons, ← ih]
    simp only [beq_iff_eq]
    push_cast
    ring

theorem chain_replaced {old new : List (Nat × Nat)} {b1 b2 v : Nat} (h : Replaced old new b1 b2 v) (a b : Nat) :
    chain new a b + chain [(b1, b2), (b2, v), (v, b1)] a b = chain old a b := by
  have := replaced_sum (fun e => (if e = (a, b) then (1 : Int) else 0) - (if e = (b, a) then 1 else 0)) (by
    intro x y
    simp only [Prod.mk.injEq]
    have e1 : (y = a ∧ x = b) ↔ (x = b ∧ y = a) := and_comm
    have e2 : (y = b ∧ x = a) ↔ (x = a ∧ y = b) := and_comm
    simp only [e1, e2]; ring) h
  rw [chain_map, chain_map, chain_map]
  simp only [List.map_cons, List.map_nil, List.sum_cons, List.sum_nil] at this ⊢
  linarith

/-- Advancing the front by one triangle. -/
theorem Rim.advance {s : St K} {sd : List (Nat × Nat)} (h : Rim s sd) {base v : Nat} (t : Nat) (hb : base ∈ s.es .front)
    (hv : v ∈ s.verts) (n1 : v ≠ (s.E base).v1) (n2 : v ≠ (s.E base).v2)
    (hA : 0 < side (s.pos (s.E base).v1) (s.pos (s.E base).v2) (s.pos v))
    (hf : Free s.pos (pairs s .front) (s.E base).v1 (s.E base).v2 v) :
    Rim (advanceFront s base v t)
      (sd ++ [((s.E base).v1, (s.E base).v2), ((s.E base).v2, v), (v, (s.E base).v1)]) := by
  have A := advanceFront_spec h.wf t hb hv n1 n2
  obtain ⟨rest, r1, r2⟩ := advanceFront_trips h.wf t hb hv n1 n2
  have hor := free_oriented h.front (mem_pairs hb) hA hf
  have hrep := A.front hor
  have hpos : (advanceFront s base v t).pos = s.pos := funext A.pos
  have hng := (noGhost_iff s).mp h.ghost
  have hbd := advanceFront_bdry h.wf t hb hv n1 n2
  refine ⟨A.wf, ?_, ?_, ?_, ?_, ?_, ?_, ?_⟩
  · rw [hpos]; exact free_step h.front (mem_pairs hb) hA hf hrep
  · rw [hpos, A.bdry]; exact h.bdry
  · intro a b
    have h1 := chain_replaced hrep a b
    have h2 := h.chain a b
    rw [chain_append, A.bdry]
    omega
  · intro a b
    have h2 := h.count a b
    have s1' := side_balance h.wf hv (x := (s.E base).v1) (s.E base).v1 v (Or.inr ⟨rfl, rfl⟩) a b
    have s2' := side_balance h.wf hv (x := (s.E base).v2) v (s.E base).v2 (Or.inl ⟨rfl, rfl⟩) a b
    have hgb : s.isGhost base = false := h.ghost base hb
    have hbase : cc a b (s.E base).v1 (s.E base).v2 = 2 * (connecting (keptBase s base) a b : Int)
        - jw a b (trip s base) := by
      unfold keptBase
      rw [hgb, connecting_eq]
      by_cases hi : s.isInterior base = true
      · simp [hi, jw, trip]; ring
      · simp [hi, jw, trip]
    have hc3 : (connecting [((s.E base).v1, (s.E base).v2), ((s.E base).v2, v), (v, (s.E base).v1)] a b : Int) =
        cc a b (s.E base).v1 (s.E base).v2 + cc a b v (s.E base).v2 + cc a b v (s.E base).v1 := by
      rw [connecting_eq]
      simp only [List.map_cons, List.map_nil, List.sum_cons, List.sum_nil]
      rw [cc_comm a b (s.E base).v2 v]; ring
    have j1 := jsum_trips s a b
    have j2 := jsum_trips (advanceFront s base v t) a b
    rw [jsum_perm a b r1] at j1
    rw [jsum_perm a b r2] at j2
    have hcons : ∀ x xs, jsum a b (x :: xs) = jw a b x + jsum a b xs := fun x xs => by
      unfold jsum; rw [List.map_cons, List.sum_cons]
    rw [hcons, jsum_append, jsum_append] at j1
    rw [jsum_append, jsum_append] at j2
    rw [connecting_append, A.intr, connecting_append, connecting_append, connecting_append, A.bdry]
    zify at h2 ⊢
    rw [hc3]
    linarith
  · intro x hx
    rw [A.bdry]
    refine h.marked x ?_
    rw [mem_frontOf] at hx ⊢
    obtain ⟨y, hy, hyx, hyi⟩ := hx
    refine ⟨y, ?_, hyx, hyi⟩
    rw [r2.mem_iff, List.mem_append, List.mem_append] at hy
    rcases hy with (hy | hy) | hy
    · exfalso
      unfold created at hy
      split at hy
      · simp at hy
      · simp only [List.mem_singleton] at hy; rw [hy] at hyi; simp at hyi
    · exfalso
      unfold created at hy
      split at hy
      · simp at hy
      · simp only [List.mem_singleton] at hy; rw [hy] at hyi; simp at hyi
    · rw [r1.mem_iff]; simp [hy]
  · rw [noGhost_iff]
    intro x hx
    rw [r2.mem_iff, List.mem_append, List.mem_append] at hx
    rcases hx with (hx | hx) | hx
    · unfold created at hx
      split at hx
      · simp at hx
      · simp only [List.mem_singleton] at hx; subst hx; rfl
    · unfold created at hx
      split at hx
      · simp at hx
      · simp only [List.mem_singleton] at hx; subst hx; rfl
    · refine hng x (r1.mem_iff.mpr ?_)
      simp [hx]
  · intro b hb'
    rw [hbd] at hb'
    have hlt : b < s.nxt := ((h.wf.ends .bdry).2 b hb').2.2.2.2
    unfold isInterior isGhost
    rw [A.E b hlt]
    exact h.plain b hb'

/-! ### Splitting an edge -/

open TQ.QLSpec in
theorem between_facts {a b m : Pt K} (hm : Between m a b) (hab : a ≠ b) :
    OnClosed a b m ∧ a ≠ m ∧ m ≠ b ∧ ¬ OnClosed a m b ∧ ¬ OnClosed m b a ∧
      ∀ x, OnClosed a m x → OnClosed m b x → x = m := by
  obtain ⟨t, t0, t1, rfl⟩ := hm
  have key : ∀ u w : K, onSeg a b u = onSeg a b w → u = w := by
    intro u w h
    have hx := congrArg Pt.x h
    have hy := congrArg Pt.y h
    rw [onSeg_x, onSeg_x] at hx
    rw [onSeg_y, onSeg_y] at hy
    by_contra hne
    apply hab
    have hx' : (u - w) * (b.x - a.x) = 0 := by linear_combination hx
    have hy' : (u - w) * (b.y - a.y) = 0 := by linear_combination hy
    have hn : u - w ≠ 0 := sub_ne_zero.mpr hne
    apply Pt.ext'
    · rcases mul_eq_zero.mp hx' with h | h
      · exact absurd h hn
      · linarith
    · rcases mul_eq_zero.mp hy' with h | h
      · exact absurd h hn
      · linarith
  have em : a + Pt.smul t (b - a) = onSeg a b t := by
    apply Pt.ext' <;> simp [onSeg, Pt.smul]
  have ea : a = onSeg a b 0 := by apply Pt.ext' <;> simp [onSeg]
  have eb : b = onSeg a b 1 := by apply Pt.ext' <;> simp [onSeg]
  have e1 : ∀ u, onSeg a (onSeg a b t) u = onSeg a b (u * t) := by
    intro u; apply Pt.ext' <;> simp [onSeg] <;> ring
  have e2 : ∀ u, onSeg (onSeg a b t) b u = onSeg a b (t + u * (1 - t)) := by
    intro u; apply Pt.ext' <;> simp [onSeg] <;> ring
  rw [em]
  refine ⟨⟨t, t0.le, t1.le, rfl⟩, ?_, ?_, ?_, ?_, ?_⟩
  · intro h
    have := key 0 t (ea.symm.trans h)
    linarith
  · intro h
    have := key t 1 (h.trans eb)
    linarith
  · rintro ⟨u, u0, u1, h⟩
    rw [e1] at h
    have := key 1 (u * t) (eb.symm.trans h)
    nlinarith
  · rintro ⟨u, u0, u1, h⟩
    rw [e2] at h
    have := key 0 _ (ea.symm.trans h)
    nlinarith
  · rintro x ⟨u, u0, u1, hu⟩ ⟨w, w0, w1, hw⟩
    rw [e1] at hu
    rw [e2] at hw
    have := key _ _ (hu.symm.trans hw)
    have h1 : u * t ≤ t := by nlinarith
    have h2 : 0 ≤ w * (1 - t) := mul_nonneg w0 (by linarith)
    have h3 : u * t = t := by linarith
    rw [hu, h3]

/-- Splitting an edge of a simple front leaves it simple. -/
theorem simple_split {pos : Nat → Pt K} {es es' : List (Nat × Nat)} {a b n : Nat} (h : SimpleFront pos es) (hm : (a, b) ∈ es)
    (hp : ((a, b) :: es').Perm (es ++ [(a, n), (n, b)])) (hb : QLSpec.Between (pos n) (pos a) (pos b)) : SimpleFront pos es' := by
  obtain ⟨l1, l2, rfl⟩ := List.append_of_mem hm
  have q1 : (l1 ++ (a, b) :: l2).Perm ((a, b) :: (l1 ++ l2)) := List.perm_middle
  have q2 : es'.Perm ((a, n) :: (n, b) :: (l1 ++ l2)) := by
    have : ((a, b) :: es').Perm ((a, b) :: ((l1 ++ l2) ++ [(a, n), (n, b)])) :=
      hp.trans ((q1.append_right _))
    exact ((List.perm_cons _).mp this).trans List.perm_append_comm
  refine simple_perm q2.symm ?_
  have h' := simple_perm q1 h
  generalize l1 ++ l2 = rest at h'
  clear h hm hp q1 q2
  have hab : pos a ≠ pos b := h'.proper (a, b) (by simp)
  obtain ⟨f1, f2, f3, f4, f5, f6⟩ := between_facts hb hab
  have hap := h'.apart
  rw [List.pairwise_cons] at hap
  have left : ∀ x, OnClosed (pos a) (pos n) x → OnClosed (pos a) (pos b) x := fun x hx =>
    FU.onClosed_sub (onClosed_left _ _) f1 hx
  have right : ∀ x, OnClosed (pos n) (pos b) x → OnClosed (pos a) (pos b) x := fun x hx =>
    FU.onClosed_sub f1 (onClosed_right _ _) hx
  refine ⟨?_, ?_, ?_, ?_⟩
  · intro v
    have := h'.balanced v
    simp only [List.countP_cons] at this ⊢
    omega
  · intro e he
    rcases List.mem_cons.mp he with rfl | he
    · exact f2
    · rcases List.mem_cons.mp he with rfl | he
      · exact f3
      · exact h'.proper e (List.mem_cons_of_mem _ he)
  · rw [List.pairwise_cons, List.pairwise_cons]
    refine ⟨?_, ?_, hap.2⟩
    · intro e he
      rcases List.mem_cons.mp he with rfl | he
      · intro x hx hy
        have := f6 x hx hy
        exact ⟨Or.inr this, Or.inl this⟩
      · intro x hx hy
        obtain ⟨h1, h2⟩ := hap.1 e he x (left x hx) hy
        refine ⟨?_, h2⟩
        rcases h1 with h1 | h1
        · exact Or.inl h1
        · exact absurd (h1 ▸ hx) f4
    · intro e he x hx hy
      obtain ⟨h1, h2⟩ := hap.1 e he x (right x hx) hy
      refine ⟨?_, h2⟩
      rcases h1 with h1 | h1
      · exact absurd (h1 ▸ hx) f5
      · exact Or.inr h1
  · intro p
    have : winding pos ((a, n) :: (n, b) :: rest) p = winding pos ((a, b) :: rest) p := by
      rw [winding_eq, winding_eq]
      simp only [List.map_cons, List.sum_cons]
      have := TQ.crossing_between (p := p) hb
      linarith
    rw [this]
    exact h'.once p

end TQ.Whole

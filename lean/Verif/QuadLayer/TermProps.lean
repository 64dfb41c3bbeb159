import Verif.QuadLayer.TermSpec
import Verif.QuadLayer.Examples

/-! # C165: the construction of quad layers comes to an end -/

set_option linter.unusedSectionVars false

namespace TQ
open MS MS.St MeshSpec QLSpec QL
variable {K : Type*} [Field K] [LinearOrder K]

theorem reach_walk {next : Nat → Option Nat} {stop : Nat} : ∀ {n e : Nat}, reaches next stop n e = true →
    ∃ l, l.length ≤ n + 1 ∧ ∀ m, n ≤ m → walk next stop m e = .ok l
  | 0, _, h => by cases h
  | n + 1, e, h => by
    unfold reaches at h
    rcases hn : next e with _ | f
    · rw [hn] at h; cases h
    · rw [hn] at h
      dsimp only at h
      by_cases hf : f = stop
      · refine ⟨[e, stop], by simp, fun m hm => ?_⟩
        obtain ⟨m, rfl⟩ : ∃ k, m = k + 1 := ⟨m - 1, by omega⟩
        unfold walk
        simp only [hn, if_pos hf]
      · rw [if_neg hf] at h
        obtain ⟨l, hl, hw⟩ := reach_walk h
        refine ⟨e :: l, by simpa using hl, fun m hm => ?_⟩
        obtain ⟨m, rfl⟩ : ∃ k, m = k + 1 := ⟨m - 1, by omega⟩
        unfold walk
        simp only [hn, if_neg hf, hw m (by omega)]

theorem reaches_step {next : Nat → Option Nat} {stop y : Nat} (hy : next stop = some y) : ∀ {n e : Nat}, reaches next stop n e = true → reaches next y (n + 1) e = true
  | 0, _, h => by cases h
  | n + 1, e, h => by
    unfold reaches at h
    rcases hn : next e with _ | f
    · rw [hn] at h; cases h
    · rw [hn] at h
      dsimp only at h
      unfold reaches
      simp only [hn]
      by_cases hfy : f = y
      · rw [if_pos hfy]
      · rw [if_neg hfy]
        by_cases hf : f = stop
        · unfold reaches
          rw [hf]
          simp only [hy, if_true]
        · rw [if_neg hf] at h
          exact reaches_step hy h

theorem reaches_mono {next : Nat → Option Nat} {stop : Nat} : ∀ {n m e : Nat}, n ≤ m → reaches next stop n e = true → reaches next stop m e = true
  | 0, _, _, _, h => by cases h
  | n + 1, m, e, hm, h => by
    obtain ⟨m, rfl⟩ : ∃ k, m = k + 1 := ⟨m - 1, by omega⟩
    unfold reaches at h ⊢
    rcases hn : next e with _ | f
    · rw [hn] at h; cases h
    · rw [hn] at h
      dsimp only at h ⊢
      by_cases hf : f = stop
      · rw [if_pos hf]
      · rw [if_neg hf] at h ⊢
        exact reaches_mono (by omega) h

theorem find_stronger {l : List Nat} {p q : Nat → Bool} {x : Nat} (h : l.find? p = some x) (hq : q x = true) (hpq : ∀ y, q y = true → p y = true) : l.find? q = some x := by
  induction l with
  | nil => cases h
  | cons a l ih =>
    by_cases hp : p a = true
    · rw [List.find?_cons_of_pos hp] at h
      cases h
      exact List.find?_cons_of_pos hq
    · rw [List.find?_cons_of_neg hp] at h
      rw [List.find?_cons_of_neg fun hc => hp (hpq a hc)]
      exact ih h

theorem ends_back {s : St K} {a es ee : Nat} (h1 : edgeFrom s a = some es) (h2 : edgeTo s a = some ee) (hne : es ≠ ee) : s.nextEdge ee = some es := by
  have p1 := List.find?_some h1
  have p2 := List.find?_some h2
  simp only [Bool.and_eq_true, decide_eq_true_eq] at p1 p2
  unfold nextEdge
  rw [p2.2]
  refine find_stronger h1 (by simp [hne, p1.1, p1.2, p2.1]) fun y hy => ?_
  simp only [Bool.and_eq_true, decide_eq_true_eq] at hy
  simp [hy.1.2, p2.1, hy.2]

theorem found_reaches {L : LEnv K} {s : St K} {xs xe : Pt K} {es ee : Nat} {closed : Bool} (h : findEdges L s xs xe = .yes es ee closed) :
    reaches s.nextEdge ee (s.es .front).length es = true := by
  unfold findEdges at h
  rcases hc1 : closest L.far s xs with _ | a
  · rw [hc1] at h; cases h
  rcases hc2 : closest L.far s xe with _ | b
  · rw [hc1, hc2] at h; cases h
  rw [hc1, hc2] at h
  dsimp only at h
  rcases he1 : edgeFrom s a with _ | x
  · rw [he1] at h; cases h
  rcases he2 : edgeTo s b with _ | y
  · rw [he1, he2] at h; cases h
  rw [he1, he2] at h
  dsimp only at h
  rcases hr : reaches s.nextEdge y (s.es .front).length x with _ | _
  · rw [hr] at h; simp at h
  rw [hr] at h
  simp only [Bool.not_true, Bool.false_eq_true, if_false] at h
  by_cases hab : a = b
  · rw [if_pos hab] at h
    subst hab
    rcases hn : s.nextEdge x with _ | f
    · rw [hn] at h
      dsimp only at h
      cases h; exact hr
    · rw [hn] at h
      dsimp only at h
      split_ifs at h
      · cases h
        -- one edge further: the way ends at the old start edge
        rcases hlen : (s.es .front).length with _ | m
        · rw [hlen] at hr; cases hr
        · rw [hlen] at hr
          unfold reaches at hr
          rw [hn] at hr
          dsimp only at hr
          by_cases hxy : ee = y
          · by_cases hf : es = y
            · have := List.find?_some hn
              simp only [Bool.and_eq_true, decide_eq_true_eq] at this
              exact absurd (hf.trans hxy.symm) this.1.1
            · rw [if_neg hf] at hr
              rw [hxy]
              exact reaches_mono (Nat.le_succ m) hr
          · have hb := ends_back he1 he2 hxy
            by_cases hf : es = y
            · unfold reaches
              rw [hf, hb]
              simp
            · rw [if_neg hf] at hr
              exact reaches_step hb hr
      · cases h; exact hr
  · rw [if_neg hab] at h
    cases h; exact hr

/-- **C165.** Whenever a start and an end edge are found, the walk from one to the other along the front comes to its end after at most as many steps as the front has edges, and never
meets a missing edge; also at vertices where the front touches itself, for closed layers, and for layers that begin one edge later. -/
theorem C165_walk_any {L : LEnv K} {s : St K} {xs xe : Pt K} {es ee : Nat} {closed : Bool} (h : findEdges L s xs xe = .yes es ee closed) :
    ∃ base, base.length ≤ (s.es .front).length + 1 ∧ ∀ fuel, (s.es .front).length ≤ fuel → walk s.nextEdge ee fuel es = .ok base :=
  reach_walk (found_reaches h)

theorem layer_stable (L : LEnv K) {s : St K} {fuel fuel' : Nat} (h1 : (s.es .front).length ≤ fuel) (h2 : (s.es .front).length ≤ fuel') (xs xe : Pt K) (ht : K) :
    layer L fuel s xs xe ht = layer L fuel' s xs xe ht := by
  unfold layer
  rcases hf : findEdges L s xs xe with _ | _ | ⟨es, ee, closed⟩
  · rfl
  · rfl
  · obtain ⟨base, -, hw⟩ := C165_walk_any hf
    simp only [hw fuel h1, hw fuel' h2]

/-- **C165.** The construction of any number of quad layers comes to an end, on every mesh and for all arguments: with some bound all walks come to their ends, and the
result is the same for all larger bounds. -/
theorem C165_all_layers (L : LEnv K) (growth : K) : ∀ (n : Nat) (s : St K) (xs xe : Pt K) (ht : K),
    ∃ F, ∀ fuel, F ≤ fuel → AllWalked L fuel growth n s xs xe ht ∧ layers L fuel growth n s xs xe ht = layers L F growth n s xs xe ht
  | 0, s, xs, xe, ht => ⟨0, fun _ _ => ⟨trivial, rfl⟩⟩
  | n + 1, s, xs, xe, ht => by
    have walked : ∀ fuel, (s.es .front).length ≤ fuel → ∀ es ee closed, findEdges L s xs xe = .yes es ee closed → ∃ base, walk s.nextEdge ee fuel es = .ok base :=
      fun fuel hf es ee closed h => (C165_walk_any h).imp fun _ hb => hb.2 fuel hf
    rcases hl : layer L (s.es .front).length s xs xe ht with _ | s' | ⟨s', xs', xe'⟩
    · refine ⟨(s.es .front).length, fun fuel hf => ?_⟩
      have e := layer_stable L hf le_rfl xs xe ht
      refine ⟨⟨walked fuel hf, fun a b c h => ?_⟩, ?_⟩
      · rw [e, hl] at h; cases h
      · unfold layers; rw [e, hl]
    · refine ⟨(s.es .front).length, fun fuel hf => ?_⟩
      have e := layer_stable L hf le_rfl xs xe ht
      refine ⟨⟨walked fuel hf, fun a b c h => ?_⟩, ?_⟩
      · rw [e, hl] at h; cases h
      · unfold layers; rw [e, hl]
    · obtain ⟨F, hF⟩ := C165_all_layers L growth n s' xs' xe' (ht * growth)
      refine ⟨max F (s.es .front).length, fun fuel hf => ?_⟩
      have e := layer_stable L (le_trans (le_max_right _ _) hf) le_rfl xs xe ht
      have e' := layer_stable L (le_max_right F (s.es .front).length) le_rfl xs xe ht
      have g := hF fuel (le_trans (le_max_left _ _) hf)
      refine ⟨⟨walked fuel (le_trans (le_max_right _ _) hf), fun a b c h => ?_⟩, ?_⟩
      · rw [e, hl] at h
        cases h
        exact g.1
      · unfold layers
        rw [e, e', hl]
        simp only
        rw [g.2, (hF _ (le_max_left F (s.es .front).length)).2]

/-- The same for the whole of `generate_elements`. -/
theorem C165_all_generated (L : LEnv K) (growth : K) (n : Nat) (s : St K) (xs xe : Pt K) (first : K) :
    ∃ F, ∀ fuel, F ≤ fuel → AllWalked L fuel growth n (MC.startStep L.env.eps s) xs xe first ∧ generate L fuel n growth s xs xe first = generate L F n growth s xs xe first := by
  obtain ⟨F, h⟩ := C165_all_layers L growth n (MC.startStep L.env.eps s) xs xe first
  refine ⟨F, fun fuel hf => ⟨(h fuel hf).1, ?_⟩⟩
  unfold generate
  rw [(h fuel hf).2]

/-- A layer on two edges of the front of the square, and one around a whole front that begins one edge later. -/
example : findEdges QLEx.L (QLEx.start QLEx.sqr8) ⟨0, 0⟩ ⟨2, 0⟩ = .yes 16 17 false ∧ ((QLEx.start QLEx.sqr8).es .front).length = 8 ∧
    walk (QLEx.start QLEx.sqr8).nextEdge 17 8 16 = .ok [16, 17] := by decide +kernel

/-- The bound is needed: the walk around the whole front takes as many steps as it has edges. -/
example : walk (QLEx.start QLEx.sqr8).nextEdge 23 7 16 = .ok [16, 17, 18, 19, 20, 21, 22, 23] ∧ walk (QLEx.start QLEx.sqr8).nextEdge 16 8 16 ≠ .loops ∧
    walk (QLEx.start QLEx.sqr8).nextEdge 16 7 16 = .loops := by decide +kernel

end TQ

#print axioms TQ.C165_walk_any
#print axioms TQ.C165_all_layers
#print axioms TQ.C165_all_generated

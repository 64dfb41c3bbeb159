import Verif.QuadLayer.Layers

/-! # Properties of the quad layers: base edges, heights, next layer -/

set_option linter.unusedSectionVars false

namespace TQ
open MS MS.St MeshSpec FUSpec MCSpec QLSpec FU QL TG

/-! ### C44 -/

theorem walk_unique {next : Nat → Option Nat} {stop : Nat} : ∀ {f1 f2 e l1 l2}, walk next stop f1 e = .ok l1 →
    walk next stop f2 e = .ok l2 → l1 = l2 := by
  intro f1
  induction f1 with
  | zero => intro f2 e l1 l2 h; simp [walk] at h
  | succ n ih =>
    intro f2 e l1 l2 h g
    cases f2 with
    | zero => simp [walk] at g
    | succ m =>
      unfold walk at h g
      cases hn : next e with
      | none => rw [hn] at h; cases h
      | some f =>
        rw [hn] at h g
        dsimp only at h g
        by_cases hf : f = stop
        · rw [if_pos hf] at h g; cases h; cases g; rfl
        · rw [if_neg hf] at h g
          cases hw : walk next stop n f with
          | ok l =>
            cases gw : walk next stop m f with
            | ok l' => rw [hw] at h; rw [gw] at g; cases h; cases g; rw [ih hw gw]
            | null => rw [gw] at g; cases g
            | loops => rw [gw] at g; cases g
          | null => rw [hw] at h; cases h
          | loops => rw [hw] at h; cases h

theorem walk_drop {next : Nat → Option Nat} {stop : Nat} : ∀ {fuel e l}, walk next stop fuel e = .ok l →
    ∀ i x, l[i]? = some x → i + 1 < l.length → (0 < i → x ≠ stop) ∧ ∃ m, walk next stop m x = .ok (l.drop i) := by
  intro fuel
  induction fuel with
  | zero => intro e l h; simp [walk] at h
  | succ n ih =>
    intro e l h i x hx hl
    have h0 := h
    unfold walk at h
    cases hn : next e with
    | none => rw [hn] at h; cases h
    | some f =>
      rw [hn] at h
      dsimp only at h
      by_cases hf : f = stop
      · rw [if_pos hf] at h
        cases h
        simp only [List.length_cons, List.length_nil] at hl
        have : i = 0 := by omega
        subst this
        simp only [List.getElem?_cons_zero, Option.some.injEq] at hx
        subst hx
        exact ⟨by simp, n + 1, h0⟩
      · rw [if_neg hf] at h
        cases hw : walk next stop n f with
        | ok l' =>
          rw [hw] at h
          cases h
          cases i with
          | zero =>
            simp only [List.getElem?_cons_zero, Option.some.injEq] at hx
            subst hx
            exact ⟨by simp, n + 1, h0⟩
          | succ i =>
            simp only [List.getElem?_cons_succ] at hx
            simp only [List.length_cons] at hl
            obtain ⟨h1, h2⟩ := ih hw i x hx (by omega)
            refine ⟨fun _ => ?_, by simpa using h2⟩
            cases i with
            | zero =>
              have := (walk_chain hw).2.1
              rw [List.head?_eq_getElem?, hx] at this
              rw [Option.some.inj this]
              exact hf
            | succ i => exact h1 (by omega)
        | null => rw [hw] at h; cases h
        | loops => rw [hw] at h; cases h

theorem walk_nodup {next : Nat → Option Nat} {stop fuel e : Nat} {l : List Nat} (he : e ≠ stop)
    (h : walk next stop fuel e = .ok l) : l.Nodup := by
  rw [List.nodup_iff_getElem?_ne_getElem?]
  intro i j hij hj heq
  obtain ⟨-, hd, hlast, h2⟩ := walk_chain h
  have hi : i < l.length := lt_trans hij hj
  have hxi : l[i]? = some l[i] := List.getElem?_eq_getElem hi
  by_cases hj' : j + 1 < l.length
  · obtain ⟨-, m, hm⟩ := walk_drop h i l[i] hxi (by omega)
    obtain ⟨-, k, hk⟩ := walk_drop h j l[i] (by rw [← heq]; exact hxi) hj'
    have := congrArg List.length (walk_unique hm hk)
    simp only [List.length_drop] at this
    omega
  · have hjl : j = l.length - 1 := by omega
    have hs : l[j]? = some stop := by rw [hjl, ← List.getLast?_eq_getElem?]; exact hlast
    have hxs : l[i]? = some stop := by rw [heq]; exact hs
    rcases Nat.eq_zero_or_pos i with h0 | h0
    · subst h0
      rw [← List.head?_eq_getElem?, hd] at hxs
      exact he (Option.some.inj hxs)
    · exact (walk_drop h i stop hxs (by omega)).1 h0 rfl

theorem path_walk {next : Nat → Option Nat} {stop : Nat} : ∀ {fuel e} {l : List Nat}, l.head? = some e → l.getLast? = some stop →
    (∀ i x y, l[i]? = some x → l[i + 1]? = some y → next x = some y) → l.Nodup → e ≠ stop → l.length ≤ fuel + 1 →
    walk next stop fuel e = .ok l := by
  intro fuel
  induction fuel with
  | zero =>
    intro e l h1 h2 _ _ hne hl
    exfalso
    match l, h1, h2 with
    | [], h1, _ => simp at h1
    | [x], h1, h2 =>
      simp only [List.head?_cons, Option.some.injEq] at h1
      simp only [List.getLast?_singleton, Option.some.injEq] at h2
      exact hne (h1.symm.trans h2)
    | _ :: _ :: _, _, _ => simp at hl
  | succ n ih =>
    intro e l h1 h2 hk hn hne hl
    match l, h1, h2, hk, hn, hl with
    | [], h1, _, _, _, _ => simp at h1
    | [x], h1, h2, _, _, _ =>
      simp only [List.head?_cons, Option.some.injEq] at h1
      simp only [List.getLast?_singleton, Option.some.injEq] at h2
      exact absurd (h1.symm.trans h2) hne
    | x :: y :: l, h1, h2, hk, hn, hl =>
      simp only [List.head?_cons, Option.some.injEq] at h1
      subst h1
      unfold walk
      rw [hk 0 x y rfl rfl]
      dsimp only
      by_cases hy : y = stop
      · rw [if_pos hy]
        subst hy
        cases l with
        | nil => rfl
        | cons z l =>
          exfalso
          have hm : y ∈ z :: l := List.mem_of_getLast? (by simpa using h2)
          rw [List.nodup_cons, List.nodup_cons] at hn
          exact hn.2.1 hm
      · rw [if_neg hy]
        have := ih (e := y) (l := y :: l) rfl (by simpa using h2) (fun i a b ha hb => hk (i + 1) a b (by simpa using ha) (by simpa using hb))
          (List.nodup_cons.mp hn).2 hy (by simp only [List.length_cons] at hl ⊢; omega)
        rw [this]

theorem chain_link {next : Nat → Option Nat} : ∀ {l : List Nat}, l.IsChain (fun a b => next a = some b) →
    ∀ i x y, l[i]? = some x → l[i + 1]? = some y → next x = some y
  | [], _, _, _, _, h, _ => by simp at h
  | [a], _, i, _, _, _, h => by simp at h
  | a :: b :: l, hc, i, x, y, hx, hy => by
    rw [List.isChain_cons_cons] at hc
    cases i with
    | zero =>
      simp only [List.getElem?_cons_zero, Option.some.injEq, List.getElem?_cons_succ] at hx hy
      rw [← hx, ← hy]; exact hc.1
    | succ i => exact chain_link hc.2 i x y (by simpa using hx) (by simpa using hy)

/-- **C44** (partial: start and end edge are different).  The walk along the front delivers exactly the path from
the start edge to the end edge: each edge is the successor of the one before, and none occurs twice. -/
theorem C44_base_edges_partial {next : Nat → Option Nat} {es ee fuel : Nat} (hne : es ≠ ee) (l : List Nat) :
    walk next ee fuel es = .ok l ↔ IsPath next es ee l ∧ l.length ≤ fuel + 1 := by
  constructor
  · intro h
    obtain ⟨h1, h2, h3, h4⟩ := walk_chain h
    refine ⟨⟨h2, h3, chain_link h1, walk_nodup hne h⟩, ?_⟩
    clear h1 h2 h3 h4 hne
    induction fuel generalizing es l with
    | zero => simp [walk] at h
    | succ n ih =>
      unfold walk at h
      cases hn : next es with
      | none => rw [hn] at h; cases h
      | some f =>
        rw [hn] at h
        dsimp only at h
        by_cases hf : f = ee
        · rw [if_pos hf] at h; cases h; simp
        · rw [if_neg hf] at h
          cases hw : walk next ee n f with
          | ok l' => rw [hw] at h; cases h; have := ih l' hw; simp only [List.length_cons]; omega
          | null => rw [hw] at h; cases h
          | loops => rw [hw] at h; cases h
  · rintro ⟨h, hl⟩
    exact path_walk h.head h.last h.link h.once hne hl

/-- **C44** (partial).  There is at most one such path. -/
theorem C44_path_unique_partial {next : Nat → Option Nat} {es ee : Nat} (hne : es ≠ ee) {l m : List Nat}
    (hl : IsPath next es ee l) (hm : IsPath next es ee m) : l = m :=
  walk_unique ((C44_base_edges_partial hne l).mpr ⟨hl, Nat.le_succ _⟩) ((C44_base_edges_partial hne m).mpr ⟨hm, Nat.le_succ _⟩)

theorem reaches_walk {next : Nat → Option Nat} {stop : Nat} : ∀ {n e}, reaches next stop n e = true →
    ∃ l, walk next stop n e = .ok l := by
  intro n
  induction n with
  | zero => intro e h; simp [reaches] at h
  | succ n ih =>
    intro e h
    unfold reaches at h
    unfold walk
    cases hn : next e with
    | none => rw [hn] at h; cases h
    | some f =>
      rw [hn] at h
      dsimp only at h ⊢
      by_cases hf : f = stop
      · rw [if_pos hf]; exact ⟨_, rfl⟩
      · rw [if_neg hf] at h ⊢
        obtain ⟨l, hl⟩ := ih h
        rw [hl]; exact ⟨_, rfl⟩

section
variable {K : Type*} [Field K] [LinearOrder K] [IsStrictOrderedRing K]

/-- **C44** (partial: open layers whose start and end edge are different).  When the ends of a layer are found, the
walk terminates within as many steps as the front has edges, and its edges are edges of the front that lead from the
vertex closest to the start position to the vertex closest to the end position, each from the end of the one
before. -/
theorem C44_layer_partial {L : LEnv K} {s : St K} (hw : WF s) {xs xe : Pt K} {es ee : Nat}
    (h : findEdges L s xs xe = .yes es ee false) (hne : es ≠ ee) :
    ∃ base, walk s.nextEdge ee (s.es .front).length es = .ok base ∧ IsPath s.nextEdge es ee base ∧
      (∀ e ∈ base, e ∈ s.es .front) ∧
      (∀ i e f, base[i]? = some e → base[i + 1]? = some f → (s.E f).v1 = (s.E e).v2) ∧
      closest L.far s xs = some (s.E es).v1 ∧ closest L.far s xe = some (s.E ee).v2 := by
  have hf := findEdges_spec hw h
  have key : reaches s.nextEdge ee (s.es .front).length es = true ∧
      closest L.far s xs = some (s.E es).v1 ∧ closest L.far s xe = some (s.E ee).v2 := by
    unfold findEdges at h
    split at h
    · rename_i a b ha hb
      obtain ⟨x, hx, hxa⟩ := closest_mem ha
      obtain ⟨z, hz, hzb⟩ := closest_mem hb
      have ma := ((hw.ends _).2 x hx).2.1
      have mb := ((hw.ends _).2 z hz).2.1
      rw [hxa] at ma
      rw [hzb] at mb
      split at h
      · rename_i es' ee' hs' he'
        by_cases hr : (!reaches s.nextEdge ee' (s.es .front).length es') = true
        · rw [if_pos hr] at h; cases h
        · rw [if_neg hr] at h
          by_cases hab : a = b
          · rw [if_pos hab] at h
            dsimp only at h
            split at h
            · split_ifs at h <;> cases h
            · cases h
          · rw [if_neg hab] at h
            cases h
            rw [(edgeFrom_spec hw ma hs').2, (edgeTo_spec hw mb he').2]
            exact ⟨by simpa using hr, ha, hb⟩
      · cases h
    · cases h
  obtain ⟨base, hb⟩ := reaches_walk key.1
  have hp := ((C44_base_edges_partial hne base).mp hb).1
  exact ⟨base, hb, hp, walk_front hw hf.1 hb, fun i e f h1 h2 => nextEdge_join (hp.link i e f h1 h2), key.2⟩

/-! ### C45 -/

theorem smoothGo_bound {ht : K} : ∀ (l : List (K × K)) (prev : K), 0 < prev → prev ≤ ht →
    (∀ x ∈ l, 0 < x.1 ∧ x.1 ≤ ht ∧ 0 < x.2) →
    (smoothGo prev l).length = l.length ∧
    ∀ i h, (smoothGo prev l)[i]? = some h → 0 < h ∧ h ≤ ht ∧ (i + 1 < l.length → ∀ x, l[i]? = some x → h ≤ x.2) ∧
      (i + 1 = l.length → ∀ x, l[i]? = some x → h = x.1)
  | [], _, _, _, _ => ⟨rfl, fun i h hh => by simp [smoothGo] at hh⟩
  | [x], _, _, _, hl => by
    refine ⟨rfl, fun i h hh => ?_⟩
    cases i with
    | zero =>
      simp only [smoothGo, List.getElem?_cons_zero, Option.some.injEq] at hh
      subst hh
      obtain ⟨a, b, _⟩ := hl x (by simp)
      exact ⟨a, b, by simp, by simp⟩
    | succ i => simp [smoothGo] at hh
  | x :: y :: rest, prev, hp, hpt, hl => by
    obtain ⟨a, b, c⟩ := hl x (by simp)
    obtain ⟨a', b', c'⟩ := hl y (by simp)
    have h1 : 0 < cppMIN x.2 ((prev + x.1 + y.1) / 3) := by
      unfold cppMIN; split_ifs
      · exact c
      · have : (0 : K) < 3 := by norm_num
        have : 0 < prev + x.1 + y.1 := by linarith
        positivity
    have h2 : cppMIN x.2 ((prev + x.1 + y.1) / 3) ≤ ht := by
      have : (prev + x.1 + y.1) / 3 ≤ ht := by
        rw [div_le_iff₀ (by norm_num)]; linarith
      unfold cppMIN; split_ifs with hc
      · exact le_trans (le_of_lt hc) this
      · exact this
    have h3 : cppMIN x.2 ((prev + x.1 + y.1) / 3) ≤ x.2 := by
      unfold cppMIN; split_ifs with hc
      · exact le_rfl
      · exact not_lt.mp hc
    obtain ⟨il, ih⟩ := smoothGo_bound (y :: rest) (cppMIN x.2 ((prev + x.1 + y.1) / 3)) h1 h2
      fun z hz => hl z (List.mem_cons_of_mem _ hz)
    refine ⟨by simp only [smoothGo, List.length_cons] at il ⊢; rw [il], fun i h hh => ?_⟩
    cases i with
    | zero =>
      simp only [smoothGo, List.getElem?_cons_zero, Option.some.injEq] at hh
      subst hh
      refine ⟨h1, h2, fun _ z hz => ?_, by simp⟩
      simp only [List.getElem?_cons_zero, Option.some.injEq] at hz
      rw [← hz]; exact h3
    | succ i =>
      simp only [smoothGo, List.getElem?_cons_succ] at hh
      obtain ⟨j1, j2, j3, j4⟩ := ih i h hh
      refine ⟨j1, j2, fun hi z hz => ?_, fun hi z hz => ?_⟩
      · rw [List.getElem?_cons_succ] at hz
        exact j3 (by simp only [List.length_cons] at hi ⊢; omega) z hz
      · rw [List.getElem?_cons_succ] at hz
        exact j4 (by simp only [List.length_cons] at hi ⊢; omega) z hz

/-- **C45** (before smoothing).  The height of every base edge is positive and at most the requested height and the
length of the edge. -/
theorem C45_heights {L : LEnv K} {s : St K} {ht : K} {base : List Nat} (hh : 0 < ht) (hl : ∀ e ∈ base, 0 < len L s e) :
    (mkLayer L s ht base).h.length = base.length ∧
    ∀ (i e : Nat) (h : K), base[i]? = some e → (mkLayer L s ht base).h[i]? = some h → 0 < h ∧ h ≤ ht ∧ h ≤ len L s e := by
  refine ⟨by simp [mkLayer], fun i e h he hi => ?_⟩
  have hl := hl e (List.mem_of_getElem? he)
  simp only [mkLayer, List.getElem?_map, he, Option.map_some, Option.some.injEq] at hi
  rw [← hi]
  unfold height cppMIN
  split_ifs with hc
  · exact ⟨hh, le_rfl, le_of_lt hc⟩
  · exact ⟨hl, not_lt.mp hc, le_rfl⟩

/-- **C45** (after smoothing).  The heights stay positive and within the requested height; those of the inner base
edges are within the local size at the midpoint of the edge; those of the first and the last base edge are not
changed. -/
theorem C45_smooth {L : LEnv K} {s : St K} {ht : K} {base : List Nat} (hh : 0 < ht) (hl : ∀ e ∈ base, 0 < len L s e)
    (hr : ∀ p, 0 < L.env.rho p) :
    (smoothLayer L s (mkLayer L s ht base)).h.length = base.length ∧
    ∀ (i e : Nat) (h : K), base[i]? = some e → (smoothLayer L s (mkLayer L s ht base)).h[i]? = some h →
      0 < h ∧ h ≤ ht ∧ (0 < i → i + 1 < base.length → h ≤ L.env.rho (mid s e)) ∧
      (i = 0 ∨ i + 1 = base.length → h = min ht (len L s e)) := by
  have hmin : ∀ e, height L s ht e = min ht (len L s e) := by
    intro e; unfold height cppMIN
    split_ifs with hc
    · rw [min_eq_left (le_of_lt hc)]
    · rw [min_eq_right (not_lt.mp hc)]
  have hb : ∀ e ∈ base, 0 < height L s ht e ∧ height L s ht e ≤ ht := by
    intro e he
    rw [hmin]
    exact ⟨lt_min hh (hl e he), min_le_left _ _⟩
  have hz : (mkLayer L s ht base).h.zip ((mkLayer L s ht base).base.map fun e => L.env.rho (mid s e)) =
      base.map fun e => (height L s ht e, L.env.rho (mid s e)) := by
    simp only [mkLayer]
    clear hl hb hmin
    induction base with
    | nil => rfl
    | cons e base ih => simp [ih]
  unfold smoothLayer
  rw [hz]
  dsimp only
  cases base with
  | nil => exact ⟨rfl, fun i e h he => by simp at he⟩
  | cons e0 base =>
    obtain ⟨b1, b2⟩ := hb e0 (by simp)
    obtain ⟨g1, g2⟩ := smoothGo_bound (base.map fun e => (height L s ht e, L.env.rho (mid s e))) (height L s ht e0) b1 b2 (by
      intro x hx
      obtain ⟨e, he, rfl⟩ := List.mem_map.mp hx
      exact ⟨(hb e (List.mem_cons_of_mem _ he)).1, (hb e (List.mem_cons_of_mem _ he)).2, hr _⟩)
    refine ⟨by simp [QL.smooth, g1], fun i e h he hi => ?_⟩
    cases i with
    | zero =>
      simp only [List.map_cons, QL.smooth, List.getElem?_cons_zero, Option.some.injEq] at he hi
      subst he hi
      exact ⟨b1, b2, by simp, fun _ => hmin _⟩
    | succ i =>
      simp only [List.map_cons, QL.smooth, List.getElem?_cons_succ] at he hi
      obtain ⟨j1, j2, j3, j4⟩ := g2 i h hi
      have hx : (base.map fun e => (height L s ht e, L.env.rho (mid s e)))[i]? = some (height L s ht e, L.env.rho (mid s e)) := by
        rw [List.getElem?_map, he]; rfl
      refine ⟨j1, j2, fun _ hi' => j3 (by simp only [List.length_map, List.length_cons] at hi' ⊢; omega) _ hx, fun hi' => ?_⟩
      rw [j4 (by simp only [List.length_map, List.length_cons] at hi' ⊢; omega) _ hx]
      exact hmin e

/-- **C45** (growth).  Layer `i` is requested with `first * growth^i`; at most `n` layers are requested, and exactly
`n` if the generation succeeds. -/
theorem C45_growth {L : LEnv K} {fuel : Nat} {growth : K} (n : Nat) {s : St K} {xs xe : Pt K} {first : K} {r}
    (h : layers L fuel growth n s xs xe first = some r) :
    (∀ i x, r.2.2[i]? = some x → x = first * growth ^ i) ∧ r.2.2.length ≤ n ∧ (r.2.1 = true → r.2.2.length = n) := by
  induction n generalizing s xs xe first r with
  | zero =>
    unfold layers at h
    rw [← Option.some.inj h]
    exact ⟨fun i x hx => by simp at hx, le_rfl, fun _ => rfl⟩
  | succ n ih =>
    unfold layers at h
    cases h1 : layer L fuel s xs xe first with
    | undef => rw [h1] at h; cases h
    | fail s' =>
      rw [h1] at h
      rw [← Option.some.inj h]
      refine ⟨fun i x hx => ?_, by simp, by simp⟩
      cases i with
      | zero => simp only [List.getElem?_cons_zero, Option.some.injEq] at hx; rw [← hx, pow_zero, mul_one]
      | succ i => simp at hx
    | done s' a b =>
      rw [h1] at h
      dsimp only at h
      cases h2 : layers L fuel growth n s' a b (first * growth) with
      | none => rw [h2] at h; cases h
      | some q =>
        rw [h2] at h
        rw [← Option.some.inj h]
        obtain ⟨i1, i2, i3⟩ := ih h2
        refine ⟨fun i x hx => ?_, by simp only [List.length_cons]; omega, fun ht => by
          simp only [List.length_cons]; rw [i3 ht]⟩
        cases i with
        | zero => simp only [List.getElem?_cons_zero, Option.some.injEq] at hx; rw [← hx, pow_zero, mul_one]
        | succ i =>
          simp only [List.getElem?_cons_succ] at hx
          rw [i1 i x hx, pow_succ]; ring

/-! ### C46 -/

theorem lastSeen_flag {s : St K} : ∀ (l : List (Option Nat)) (v : Option Nat), (∃ w, some w ∈ l ∧ flagged s w) →
    ∃ w, lastSeen s v l = some w ∧ flagged s w
  | [], _, ⟨w, h, _⟩ => by simp at h
  | x :: rest, v, ⟨w, hw, hf⟩ => by
    cases x with
    | none =>
      unfold lastSeen
      exact lastSeen_flag rest none ⟨w, by simpa using hw, hf⟩
    | some u =>
      unfold lastSeen
      by_cases hu : Flags.has (s.V u).props Flags.vOnFront = true
      · simp only [hu, if_true]; exact ⟨u, rfl, hu⟩
      · simp only [hu]
        refine lastSeen_flag rest (some u) ⟨w, ?_, hf⟩
        rcases List.mem_cons.mp hw with h | h
        · exfalso; cases h; exact hu hf
        · exact h

/-- **C46** (partial: among the projected vertices of either side there is one on the front).  The new start and
end vertices are flagged as vertices of the front, and both are found. -/
theorem C46_next_partial {s : St K} {closed : Bool} {proj : List (Option Nat × Option Nat)}
    (h1 : ∃ w, some w ∈ proj.map (·.1) ∧ flagged s w) (h2 : closed = false → ∃ w, some w ∈ proj.map (·.2) ∧ flagged s w) :
    ∃ a b, nextEndings s closed proj = some (a, b) ∧ flagged s a ∧ flagged s b ∧ (closed = true → a = b) := by
  obtain ⟨a, ha, fa⟩ := lastSeen_flag _ none h1
  unfold nextEndings
  rw [ha]
  cases closed with
  | true => exact ⟨a, a, rfl, fa, fa, fun _ => rfl⟩
  | false =>
    obtain ⟨w, hw, hf⟩ := h2 rfl
    obtain ⟨b, hb, fb⟩ := lastSeen_flag ((proj.map (·.2)).reverse) (some a) ⟨w, by rw [List.mem_reverse]; exact hw, hf⟩
    simp only [Bool.false_eq_true, if_false]
    rw [hb]
    exact ⟨a, b, rfl, fa, fb, fun h => by cases h⟩

end
end TQ

#print axioms TQ.C44_base_edges_partial
#print axioms TQ.C44_path_unique_partial
#print axioms TQ.C44_layer_partial
#print axioms TQ.C45_heights
#print axioms TQ.C45_smooth
#print axioms TQ.C45_growth
#print axioms TQ.C46_next_partial

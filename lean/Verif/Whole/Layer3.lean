import Verif.Whole.Layer2

/-! # Lemmas: quads and splits of front edges keep a domain partly meshed -/

set_option linter.unusedSectionVars false
set_option linter.unusedSimpArgs false

namespace TQ.Whole
open TQ.MS TQ.MeshSpec TQ.FUSpec TQ.MS.St TQ.GeoSpec TQ.FU TQ.Sm TQ.MCSpec TQ.WholeSpec TQ.RefSpec TQ.QLSpec TQ.QL
variable {K : Type*} [Field K] [LinearOrder K] [IsStrictOrderedRing K]

/-! ### Two triangles become a quad -/

structure ToQuad (s s' : St K) (e t1 t2 a b q2 q1 n : Nat) (ts : List Nat) : Prop where
  wf : WF s'
  verts : s'.verts = s.verts
  pos : ∀ v, s'.pos v = s.pos v
  E : s'.E = s.E
  es : ∀ l, l ≠ .intr → s'.es l = s.es l
  intr : (pairs s .intr).Perm (((s.E e).v1, (s.E e).v2) :: pairs s' .intr)
  old : s.tris.Perm (t1 :: t2 :: ts)
  tris : s'.tris = ts
  quads : s'.quads = s.quads ++ [n]
  new : n ∉ s.quads
  F : ∀ f, f ≠ .quad n → s'.F f = s.F f
  cor : (s'.F (.quad n)).corners = [a, b, q2, q1]

theorem toQuad_spec {s : St K} (h : WF s) {e t1 t2 a b q1 q2 : Nat} (he : e ∈ s.es .intr) (h1 : t1 ∈ s.tris) (h2 : t2 ∈ s.tris)
    (hne : t1 ≠ t2) (c1 : (s.F (.tri t1)).corners = [a, b, q1]) (c2 : (s.F (.tri t2)).corners = [q1, b, q2]) (hq : q2 ≠ a) :
    ∃ n ts, ToQuad s (toQuad s e t1 t2 a b q2 q1) e t1 t2 a b q2 q1 n ts := by
  have w := (kept_toQuad h he h1 h2 hne c1 c2 hq).wf
  have hl : (s.E e).list = .intr := ((h.ends _).2 e he).1
  have hi : s.removeIntr e = s.removeEdge e := by unfold removeIntr; simp [hl]
  have hl' : LiveE s e := by unfold LiveE; rw [hl]; exact he
  have w1 : WF (((s.removeEdge e).removeTri t1).removeTri t2) := wf_removeTri (wf_removeTri (wf_removeEdge h e hl') _) _
  have pi := pairs_removeEdge h.toSound he
  unfold toQuad at w ⊢
  rw [hi] at w ⊢
  dsimp only at w ⊢
  refine ⟨(((s.removeEdge e).removeTri t1).removeTri t2).nxt, (((s.removeEdge e).removeTri t1).removeTri t2).tris,
    w, rfl, ?_, rfl, ?_, pi, ?_, rfl, rfl, ?_, ?_, ?_⟩
  · intro v
    show ((((s.removeEdge e).removeTri t1).removeTri t2).addQuad a b q2 q1 (-1)).pos v = _
    rw [addQuad_pos, removeTri_pos, removeTri_pos]
    exact ((ext_removeEdge s e).V v).1
  · intro l hne
    show (s.removeEdge e).es l = _
    simp [removeEdge, upd, hl, hne]
  · show s.tris.Perm (t1 :: t2 :: ((s.tris.filter (fun x => decide (x ≠ t1))).filter (fun x => decide (x ≠ t2))))
    refine (remove_perm h.tnd h1).trans (List.Perm.cons _ ?_)
    exact remove_perm (h.tnd.filter _) (List.mem_filter.mpr ⟨h2, by simpa using Ne.symm hne⟩)
  · intro hm
    exact absurd (w1.qlt _ hm) (lt_irrefl _)
  · intro f hf
    simp only [activate, addQuad, upd, if_neg hf]
    rfl
  · simp [activate, addQuad, upd]

theorem meshing_toQuad {s : St K} (h : Meshing s) {e t1 t2 a b q1 q2 : Nat} (he : e ∈ s.es .intr) (h1 : t1 ∈ s.tris)
    (h2 : t2 ∈ s.tris) (hne : t1 ≠ t2) (c1 : (s.F (.tri t1)).corners = [a, b, q1]) (c2 : (s.F (.tri t2)).corners = [q1, b, q2])
    (hq : q2 ≠ a) (hd : ((s.E e).v1, (s.E e).v2) = (b, q1) ∨ ((s.E e).v1, (s.E e).v2) = (q1, b)) :
    Meshing (toQuad s e t1 t2 a b q2 q1) ∧ ∀ v ∈ s.verts, v ∈ (toQuad s e t1 t2 a b q2 q1).verts := by
  obtain ⟨n, ts, T⟩ := toQuad_spec h.wf he h1 h2 hne c1 c2 hq
  generalize toQuad s e t1 t2 a b q2 q1 = s' at *
  refine ⟨?_, fun v hv => by rw [T.verts]; exact hv⟩
  have hpos : s'.pos = s.pos := funext T.pos
  have hpr : ∀ l, l ≠ .intr → pairs s' l = pairs s l := fun l hl => by unfold pairs; rw [T.es l hl, T.E]
  have hfo : ∀ i, frontOf s' i = frontOf s i := fun i => by unfold frontOf isInterior; rw [T.es _ (by decide), T.E]
  -- sides of the elements
  obtain ⟨rest, p1, p2⟩ : ∃ rest, (allSides s).Perm ([(b, q1), (q1, a), (a, b), (b, q2), (q2, q1), (q1, b)] ++ rest) ∧
      (allSides s').Perm ([(b, q2), (q2, q1), (q1, a), (a, b)] ++ rest) := by
    refine ⟨(ts.map FRef.tri).flatMap (fun f => sidesOf (s.F f).corners) ++
      (s.quads.map FRef.quad).flatMap (fun f => sidesOf (s.F f).corners), ?_, ?_⟩
    · unfold allSides facets
      rw [List.flatMap_append, ← List.append_assoc]
      refine List.Perm.append ?_ (List.Perm.refl _)
      refine ((T.old.map _).flatMap_right _).trans ?_
      rw [List.map_cons, List.map_cons, List.flatMap_cons, List.flatMap_cons, c1, c2, sides3, sides3]
      exact List.Perm.refl _
    · unfold allSides facets
      rw [List.flatMap_append, T.tris, T.quads, List.map_append, List.flatMap_append]
      have e1 : (ts.map FRef.tri).flatMap (fun f => sidesOf (s'.F f).corners) =
          (ts.map FRef.tri).flatMap (fun f => sidesOf (s.F f).corners) := by
        rw [List.flatMap_def, List.flatMap_def]
        congr 1
        refine List.map_congr_left fun f hf => ?_
        obtain ⟨t, ht, rfl⟩ := List.mem_map.mp hf
        rw [T.F (.tri t) (by simp)]
      have e2 : (s.quads.map FRef.quad).flatMap (fun f => sidesOf (s'.F f).corners) =
          (s.quads.map FRef.quad).flatMap (fun f => sidesOf (s.F f).corners) := by
        rw [List.flatMap_def, List.flatMap_def]
        congr 1
        refine List.map_congr_left fun f hf => ?_
        obtain ⟨t, ht, rfl⟩ := List.mem_map.mp hf
        rw [T.F (.quad t) ?_]
        intro hh
        rw [FRef.quad.injEq] at hh
        exact T.new (hh ▸ ht)
      have e3 : ([n].map FRef.quad).flatMap (fun f => sidesOf (s'.F f).corners) = [(b, q2), (q2, q1), (q1, a), (a, b)] := by
        rw [List.map_singleton, List.flatMap_cons, List.flatMap_nil, T.cor, sides4, List.append_nil]
      rw [e1, e2, e3, ← List.append_assoc]
      exact List.perm_append_comm
  have hlive : ∀ f, Live s f → f ≠ .tri t1 → f ≠ .tri t2 → Live s' f ∧ s'.F f = s.F f := by
    intro f hf n1 n2
    cases f with
    | null => exact absurd hf (by simp [Live])
    | tri t =>
      refine ⟨?_, T.F _ (by simp)⟩
      show t ∈ s'.tris
      rw [T.tris]
      have := T.old.mem_iff.mp hf
      simp only [List.mem_cons] at this
      rcases this with rfl | rfl | this
      · exact absurd rfl n1
      · exact absurd rfl n2
      · exact this
    | quad q =>
      refine ⟨?_, T.F _ ?_⟩
      · show q ∈ s'.quads
        rw [T.quads]; exact List.mem_append_left _ hf
      · intro hh
        rw [FRef.quad.injEq] at hh
        exact T.new (hh ▸ hf)
  have hback : ∀ f, Live s' f → f ≠ .quad n → Live s f ∧ s'.F f = s.F f := by
    intro f hf n1
    refine ⟨?_, T.F f n1⟩
    cases f with
    | null => exact absurd hf (by simp [Live])
    | tri t =>
      refine T.old.mem_iff.mpr ?_
      have : t ∈ ts := T.tris ▸ hf
      simp [this]
    | quad q =>
      have : q ∈ s.quads ++ [n] := T.quads ▸ hf
      rw [List.mem_append, List.mem_singleton] at this
      rcases this with this | rfl
      · exact this
      · exact absurd rfl n1
  have a1 : 0 < side (s.pos a) (s.pos b) (s.pos q1) := h.ccw (.tri t1, a, b, q1) (mem_pieces.mpr ⟨h1, by simp [c1, halves]⟩)
  have a2 : 0 < side (s.pos q1) (s.pos b) (s.pos q2) := h.ccw (.tri t2, q1, b, q2) (mem_pieces.mpr ⟨h2, by simp [c2, halves]⟩)
  have sd1 : HasSide s (.tri t1) b q1 := by
    have : (b, q1) ∈ sidesOf (s.F (.tri t1)).corners := by rw [c1, sides3]; simp
    exact mem_sidesOf.mp this
  have sd2 : HasSide s (.tri t2) q1 b := by
    have : (q1, b) ∈ sidesOf (s.F (.tri t2)).corners := by rw [c2, sides3]; simp
    exact mem_sidesOf.mp this
  refine ⟨T.wf, ?_, ?_, ?_, ?_, ?_, ?_, ?_, ?_, ?_⟩
  · intro x hx
    obtain ⟨hl, hm⟩ := mem_pieces.mp hx
    rw [hpos] at hm ⊢
    by_cases hxn : x.1 = .quad n
    · rw [hxn, T.cor] at hm
      unfold halves at hm
      dsimp only at hm
      split_ifs at hm with hc
      · simp only [List.mem_cons, List.not_mem_nil, or_false] at hm
        rcases hm with rfl | rfl
        · exact hc.1
        · exact hc.2
      · simp only [List.mem_cons, List.not_mem_nil, or_false] at hm
        rcases hm with rfl | rfl
        · dsimp only; rw [side_rot]; exact a2
        · dsimp only; rw [← side_rot]; exact a1
    · obtain ⟨hl', hF⟩ := hback _ hl hxn
      rw [hF] at hm
      exact h.ccw x (mem_pieces.mpr ⟨hl', hm⟩)
  · rw [hpos, hpr _ (by decide)]; exact h.front
  · rw [hpos, hpr _ (by decide)]; exact h.bdry
  · intro x y
    have h3 := h.chain x y
    rw [hpr _ (by decide), hpr _ (by decide), ← h3, chain_perm p1, chain_perm p2, chain_append, chain_append]
    have : chain [(b, q1), (q1, a), (a, b), (b, q2), (q2, q1), (q1, b)] x y = chain [(b, q2), (q2, q1), (q1, a), (a, b)] x y := by
      rw [chain_map, chain_map]
      simp only [List.map_cons, List.map_nil, List.sum_cons, List.sum_nil, Prod.mk.injEq]
      have r1 : (q1 = x ∧ b = y) ↔ (b = y ∧ q1 = x) := and_comm
      have r2 : (q1 = y ∧ b = x) ↔ (b = x ∧ q1 = y) := and_comm
      simp only [r1, r2]
      ring
    rw [this]
  · intro x y
    have h3 := h.count x y
    have h4 := connecting_perm T.intr x y
    rw [connecting_perm p1, connecting_app] at h3
    rw [hfo, hfo, hpr .bdry (by decide), connecting_perm p2, connecting_app]
    have c6 : connecting [(b, q1), (q1, a), (a, b), (b, q2), (q2, q1), (q1, b)] x y =
        connecting [(b, q2), (q2, q1), (q1, a), (a, b)] x y + 2 * connecting [((s.E e).v1, (s.E e).v2)] x y := by
      have hcc : ∀ l, (connecting l x y : Int) = _ := fun l => connecting_eq l x y
      zify
      rw [hcc, hcc, hcc]
      have hk : cc x y q1 b = cc x y b q1 := cc_comm ..
      rcases hd with hd | hd <;> rw [hd] <;>
        simp only [List.map_cons, List.map_nil, List.sum_cons, List.sum_nil, hk] <;> ring
    have h5 : connecting (((s.E e).v1, (s.E e).v2) :: pairs s' .intr) x y =
        connecting [((s.E e).v1, (s.E e).v2)] x y + connecting (pairs s' .intr) x y := connecting_app [_] _ x y
    omega
  · rw [hfo, hpr _ (by decide)]; exact h.marked
  · unfold NoGhost isGhost; rw [T.es _ (by decide), T.E]; exact h.ghost
  · unfold isInterior isGhost; rw [T.es _ (by decide), T.E]; exact h.plain
  · intro x hx hno
    rw [T.es _ (by decide)] at hx
    rw [T.E] at hno ⊢
    refine h.null x hx fun f hf hside => ?_
    have hm := mem_pairs hx
    have key : ∀ y z, (y, z) ∈ sidesOf [a, b, q2, q1] → ((s.E x).v1, (s.E x).v2) = (y, z) → False := by
      intro y z hyz hxy
      rw [Prod.mk.injEq] at hxy
      refine hno (.quad n) (by show n ∈ s'.quads; rw [T.quads]; simp) ?_
      have : (y, z) ∈ sidesOf (s'.F (.quad n)).corners := by rw [T.cor]; exact hyz
      rw [hxy.1, hxy.2]
      exact mem_sidesOf.mp this
    by_cases f1 : f = .tri t1
    · subst f1
      have hs' : ((s.E x).v1, (s.E x).v2) ∈ sidesOf (s.F (.tri t1)).corners := mem_sidesOf.mpr hside
      rw [c1, sides3] at hs'
      simp only [List.mem_cons, List.not_mem_nil, or_false] at hs'
      rcases hs' with hs' | hs' | hs'
      · rw [hs'] at hm; exact meshing_right h hm (f := .tri t2) h2 sd2
      · exact key q1 a (by rw [sides4]; simp) hs'
      · exact key a b (by rw [sides4]; simp) hs'
    · by_cases f2 : f = .tri t2
      · subst f2
        have hs' : ((s.E x).v1, (s.E x).v2) ∈ sidesOf (s.F (.tri t2)).corners := mem_sidesOf.mpr hside
        rw [c2, sides3] at hs'
        simp only [List.mem_cons, List.not_mem_nil, or_false] at hs'
        rcases hs' with hs' | hs' | hs'
        · exact key b q2 (by rw [sides4]; simp) hs'
        · exact key q2 q1 (by rw [sides4]; simp) hs'
        · rw [hs'] at hm; exact meshing_right h hm (f := .tri t1) h1 sd1
      · obtain ⟨hl, hF⟩ := hlive f hf f1 f2
        refine hno f hl ?_
        unfold HasSide at hside ⊢
        rw [hF]; exact hside

end TQ.Whole

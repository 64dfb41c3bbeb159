import Verif.Whole.Layer3

/-! # Lemmas: splits of front edges keep a domain partly meshed -/

set_option linter.unusedSectionVars false
set_option linter.unusedSimpArgs false

namespace TQ.Whole
open TQ.MS TQ.MeshSpec TQ.FUSpec TQ.MS.St TQ.GeoSpec TQ.FU TQ.Sm TQ.MCSpec TQ.WholeSpec TQ.RefSpec TQ.QLSpec TQ.QL
variable {K : Type*} [Field K] [LinearOrder K] [IsStrictOrderedRing K]

structure SplitE (s s' : St K) (e b : Nat) : Prop where
  front : s'.es .front = (s.es .front ++ [s.nxt + 1, s.nxt + 2]).filter (· ≠ e)
  bdry : s'.es .bdry = (s.es .bdry).filter (· ≠ b) ++ [s.nxt + 3, s.nxt + 4]
  intr : s'.es .intr = s.es .intr
  E : ∀ x ≤ s.nxt, s'.E x = s.E x
  e1 : s'.E (s.nxt + 1) = ⟨(s.E e).v1, s.nxt, (s.E e).color, (s.E e).props, .front, .null, .null, none⟩
  e2 : s'.E (s.nxt + 2) = ⟨s.nxt, (s.E e).v2, (s.E e).color, (s.E e).props, .front, .null, .null, none⟩
  e3 : s'.E (s.nxt + 3) = ⟨(s.E e).v1, s.nxt, (s.E e).color, (s.E e).props, .bdry, .null, .null, none⟩
  e4 : s'.E (s.nxt + 4) = ⟨s.nxt, (s.E e).v2, (s.E e).color, (s.E e).props, .bdry, .null, .null, none⟩

theorem split_edges {s s' : St K} (h : WF s) {e b n : Nat} {sf : K} (he : e ∈ s.es .front)
    (hs : QL.split s e sf = some (s', n)) (hb : s.getEdge .bdry (s.E e).v1 (s.E e).v2 = some b) : SplitE s s' e b := by
  obtain ⟨hl, m1, m2, n12, hlt⟩ := (h.ends _).2 e he
  obtain ⟨hbm, _⟩ := getEdge_some h m1 hb
  obtain ⟨hbl, _, _, _, hblt⟩ := (h.ends _).2 b hbm
  unfold QL.split at hs
  dsimp only at hs
  cases h1 : splitFront s e sf with
  | none => rw [h1] at hs; simp at hs
  | some s1 =>
    rw [h1, hb] at hs
    dsimp only at hs
    unfold splitFront at h1
    by_cases hc : 1 ≤ sf ∨ sf ≤ 0
    · rw [if_pos hc] at h1; exact absurd h1 (by simp)
    rw [if_neg hc] at h1
    dsimp only at h1
    obtain ⟨s3, hs3, es3, E3, nx3⟩ : ∃ s3 : St K, (if s.isInterior e then
      ((s.addVertex (Pt.smul sf (s.pos (s.E e).v1) + Pt.smul (1 - sf) (s.pos (s.E e).v2))).setProps s.nxt
        fun p => Flags.add (Flags.add p (s.V (s.E e).v1).props) (s.V (s.E e).v2).props).setProps s.nxt
        (Flags.remove · Flags.vOnBoundary)
      else (s.addVertex (Pt.smul sf (s.pos (s.E e).v1) + Pt.smul (1 - sf) (s.pos (s.E e).v2))).setProps s.nxt
        fun p => Flags.add (Flags.add p (s.V (s.E e).v1).props) (s.V (s.E e).v2).props) = s3 ∧
      s3.es = s.es ∧ s3.E = s.E ∧ s3.nxt = s.nxt + 1 := by
      refine ⟨_, rfl, ?_⟩
      split_ifs <;> exact ⟨rfl, rfl, rfl⟩
    rw [hs3] at h1
    simp only [Option.some.injEq] at h1
    unfold QL.splitBdry at hs
    cases hn : s1.nextEdge b with
    | none => rw [hn] at hs; simp at hs
    | some x =>
      rw [hn] at hs
      simp only [Option.map_some, Option.some.injEq, Prod.mk.injEq] at hs
      obtain ⟨rfl, rfl⟩ := hs
      have c1 : ∀ x ≤ s.nxt + 2, x ≠ s.nxt + 3 := by intro x hx; omega
      have be : ((((s3.addEdge .front (s.E e).v1 s.nxt (s.E e).color (s.E e).props).addEdge .front s.nxt (s.E e).v2
        (s.E e).color (s.E e).props)).E e).list = .front := by
        simp only [addEdge, upd, nx3, E3, if_neg (show e ≠ s.nxt + 1 by omega), if_neg (show e ≠ s.nxt + 1 + 1 by omega)]
        exact hl
      have n1 : s1.nxt = s.nxt + 3 := by rw [← h1]; simp [addEdge, removeEdge, nx3]
      have E1 : s1.E = upd (upd s.E (s.nxt + 1) fun _ => ⟨(s.E e).v1, s.nxt, (s.E e).color, (s.E e).props, .front, .null, .null, none⟩)
          (s.nxt + 2) fun _ => ⟨s.nxt, (s.E e).v2, (s.E e).color, (s.E e).props, .front, .null, .null, none⟩ := by
        rw [← h1]; simp [addEdge, removeEdge, nx3, E3]
      have es1 : s1.es = upd s.es .front fun l => (l ++ [s.nxt + 1, s.nxt + 2]).filter (· ≠ e) := by
        rw [← h1]
        unfold removeEdge
        rw [be]
        funext l
        cases l <;> simp [addEdge, upd, nx3, es3]
      have bl1 : (s1.E b).list = .bdry := by
        rw [E1]; simp only [upd, if_neg (show b ≠ s.nxt + 2 by omega), if_neg (show b ≠ s.nxt + 1 by omega)]; exact hbl
      refine ⟨?_, ?_, ?_, ?_, ?_, ?_, ?_, ?_⟩
      · simp [addEdge, removeEdge, upd, bl1, es1, n1]
      · simp [addEdge, removeEdge, upd, bl1, es1, n1]
      · simp [addEdge, removeEdge, upd, bl1, es1, n1]
      · intro x hx
        simp only [addEdge, removeEdge, upd, n1, E1]
        rw [if_neg (by omega), if_neg (by omega), if_neg (by omega), if_neg (by omega)]
      · simp [addEdge, removeEdge, upd, n1, E1]
      · simp [addEdge, removeEdge, upd, n1, E1]
      · simp [addEdge, removeEdge, upd, n1, E1]
      · simp [addEdge, removeEdge, upd, n1, E1]

theorem frontOf_trips (s : St K) (i : Bool) : frontOf s i = ((trips s).filter fun y => y.2.2.1 == i).map fun y => (y.1, y.2.1) := by
  unfold frontOf trips
  rw [List.filter_map, List.map_map]
  rfl

theorem split_trips {s s' : St K} (h : WF s) {e b : Nat} (he : e ∈ s.es .front) (S : SplitE s s' e b) :
    (trip s e :: trips s').Perm (trips s ++ [((s.E e).v1, s.nxt, s.isInterior e, s.isGhost e), (s.nxt, (s.E e).v2, s.isInterior e, s.isGhost e)]) := by
  have hlt : ∀ x ∈ s.es .front, x < s.nxt := fun x hx => ((h.ends _).2 x hx).2.2.2.2
  have old : ∀ x ∈ s.es .front, trip s' x = trip s x := by
    intro x hx
    unfold trip isInterior isGhost
    rw [S.E x (hlt x hx).le]
  have hel := hlt e he
  unfold trips
  rw [S.front, List.filter_append, List.map_append, (List.filter_eq_self (l := [s.nxt + 1, s.nxt + 2])).mpr (by
    intro x hx
    simp only [List.mem_cons, List.not_mem_nil, or_false] at hx
    rw [decide_eq_true_iff]
    omega), ← List.cons_append]
  refine List.Perm.append ?_ ?_
  · have := (remove_perm (h.ends .front).1 he).map (trip s)
    rw [List.map_cons] at this
    have e1 : ((s.es .front).filter fun x => decide (x ≠ e)).map (trip s') = ((s.es .front).filter fun x => decide (x ≠ e)).map (trip s) :=
      List.map_congr_left fun x hx => old x (List.mem_filter.mp hx).1
    rw [e1]
    exact this.symm
  · have e1 : trip s' (s.nxt + 1) = ((s.E e).v1, s.nxt, s.isInterior e, s.isGhost e) := by
      unfold trip isInterior isGhost; rw [S.e1]
    have e2 : trip s' (s.nxt + 2) = (s.nxt, (s.E e).v2, s.isInterior e, s.isGhost e) := by
      unfold trip isInterior isGhost; rw [S.e2]
    rw [List.map_cons, List.map_singleton, e1, e2]

/-- A front edge that has a boundary edge with the same ends has its direction, and is marked. -/
theorem front_on_bdry {s : St K} (h : Meshing s) {e b : Nat} (he : e ∈ s.es .front)
    (hb : s.getEdge .bdry (s.E e).v1 (s.E e).v2 = some b) :
    b ∈ s.es .bdry ∧ (s.E b).v1 = (s.E e).v1 ∧ (s.E b).v2 = (s.E e).v2 ∧ s.isInterior e = false := by
  obtain ⟨hl, m1, m2, n12, hlt⟩ := (h.wf.ends _).2 e he
  obtain ⟨hbm, hd⟩ := getEdge_some h.wf m1 hb
  have N := meshing_numbers h n12
  have cf := count_pos_mem.mpr (mem_pairs_of he)
  have cb := count_pos_mem.mpr (mem_pairs_of hbm)
  have N1 := N.f1
  have N2 := N.b1
  have N3 := N.chain
  have N4 := N.count
  have N5 := N.fs
  have N6 := N.fs'
  have N7 := N.o1 cf
  have N8 := N.s2
  have dir : (s.E b).v1 = (s.E e).v1 ∧ (s.E b).v2 = (s.E e).v2 := by
    rcases hd with hd | hd
    · exact hd
    · exfalso
      rw [hd.1, hd.2] at cb
      omega
  refine ⟨hbm, dir.1, dir.2, ?_⟩
  rw [dir.1, dir.2] at cb
  by_contra hi
  rw [Bool.not_eq_false] at hi
  have : 1 ≤ (frontOf s true).count ((s.E e).v1, (s.E e).v2) := by
    refine count_pos_mem.mpr ?_
    unfold frontOf
    exact List.mem_map.mpr ⟨e, List.mem_filter.mpr ⟨he, by simp [hi]⟩, rfl⟩
  omega

theorem meshing_split {s s' : St K} (h : Meshing s) {e n : Nat} {sf : K} (he : e ∈ s.es .front)
    (hs : QL.split s e sf = some (s', n)) (hbd : (s.getEdge .bdry (s.E e).v1 (s.E e).v2).isSome = true) :
    Meshing s' ∧ ∀ v ∈ s.verts, v ∈ s'.verts := by
  obtain ⟨b, hb⟩ := Option.isSome_iff_exists.mp hbd
  obtain ⟨hbm, d1, d2, hni⟩ := front_on_bdry h he hb
  have S := split_edges h.wf he hs hb
  obtain ⟨hnx, k, hv, hpn, s0, s1, pf, ht, hq, hF, pb⟩ := split_spec h.wf he hs
  rw [hb] at pb
  dsimp only at pb
  rw [d1, d2] at pb
  obtain ⟨hl, m1, m2, n12, hlt⟩ := (h.wf.ends _).2 e he
  have hbt : Between (s'.pos n) (s'.pos (s.E e).v1) (s'.pos (s.E e).v2) := by
    rw [hpn, k.pos _ m1, k.pos _ m2]
    exact between_of s0 s1 _ _
  have hlive : ∀ f, Live s' f ↔ Live s f := by
    intro f
    cases f with
    | null => simp [Live]
    | tri t => show t ∈ _ ↔ t ∈ _; rw [ht]
    | quad t => show t ∈ _ ↔ t ∈ _; rw [hq]
  have hal : allSides s' = allSides s := by unfold allSides facets; rw [ht, hq, hF]
  have hT := split_trips h.wf he S
  rw [← hnx] at hT
  have hpi : pairs s' .intr = pairs s .intr := by
    unfold pairs
    rw [S.intr]
    refine List.map_congr_left fun x hx => ?_
    rw [S.E x ((h.wf.ends _).2 x hx).2.2.2.2.le]
  have hgh : s.isGhost e = false := h.ghost e he
  rw [hni, hgh] at hT
  have fo : ∀ i, ((if i = false then [((s.E e).v1, (s.E e).v2)] else []) ++ frontOf s' i).Perm
      (frontOf s i ++ if i = false then [((s.E e).v1, n), (n, (s.E e).v2)] else []) := by
    intro i
    have := (hT.filter fun y => y.2.2.1 == i).map fun y : Nat × Nat × Bool × Bool => (y.1, y.2.1)
    rw [List.filter_append, List.map_append, ← frontOf_trips] at this
    rw [frontOf_trips s' i]
    cases i
    · simpa [trip, hni] using this
    · simpa [trip, hni] using this
  have f0 := fo false
  have f1 := fo true
  simp only [if_true, Bool.true_eq_false, if_false, List.nil_append, List.append_nil] at f0 f1
  refine ⟨⟨k.wf, ?_, ?_, ?_, ?_, ?_, ?_, ?_, ?_, ?_⟩, k.verts⟩
  · intro x hx
    obtain ⟨hl, hm⟩ := mem_pieces.mp hx
    have hl' := (hlive _).mp hl
    rw [hF] at hm
    have hv : ∀ y ∈ (s.F x.1).corners, s'.pos y = s.pos y := fun y hy => k.pos y ((h.wf.cor _ hl').2 y hy)
    have hin := halves_mem hm
    rw [halves_congr hv] at hm
    have := h.ccw _ (mem_pieces.mpr ⟨hl', hm⟩)
    rw [hv _ hin.1, hv _ hin.2.1, hv _ hin.2.2]
    exact this
  · refine simple_split (es := pairs s .front) ?_ (mem_pairs he) pf hbt
    exact simple_congr (fun x hx => ⟨k.pos _ (pairs_verts h.wf x hx).1, k.pos _ (pairs_verts h.wf x hx).2⟩) h.front
  · refine simple_split (es := pairs s .bdry) ?_ ?_ pb hbt
    · exact simple_congr (fun x hx => ⟨k.pos _ (pairs_verts h.wf x hx).1, k.pos _ (pairs_verts h.wf x hx).2⟩) h.bdry
    · have := mem_pairs hbm
      rw [d1, d2] at this
      exact this
  · intro x y
    have h1 := chain_perm pf x y
    have h2 := chain_perm pb x y
    have h3 := h.chain x y
    have e1 : ∀ l, chain (((s.E e).v1, (s.E e).v2) :: l) x y = chain [((s.E e).v1, (s.E e).v2)] x y + chain l x y :=
      fun l => chain_append [_] l x y
    rw [e1, chain_append] at h1 h2
    rw [hal]
    omega
  · intro x y
    have h1 := connecting_perm f0 x y
    have h2 := connecting_perm pb x y
    have h3 := h.count x y
    have h4 := connecting_perm f1 x y
    have e1 : ∀ l, connecting (((s.E e).v1, (s.E e).v2) :: l) x y = connecting [((s.E e).v1, (s.E e).v2)] x y + connecting l x y :=
      fun l => connecting_app [_] l x y
    rw [e1, connecting_app] at h2
    rw [connecting_app, connecting_app] at h1
    rw [hal, hpi]
    omega
  · intro x hx
    have h1 := f0.mem_iff.mp (List.mem_append_right _ hx)
    have key : x ∈ pairs s .bdry ++ [((s.E e).v1, n), (n, (s.E e).v2)] := by
      rw [List.mem_append] at h1 ⊢
      rcases h1 with h1 | h1
      · exact Or.inl (h.marked x h1)
      · exact Or.inr h1
    have h2 := pb.mem_iff.mpr key
    rcases List.mem_cons.mp h2 with h2 | h2
    · exfalso
      -- the split edge is no front edge any more
      subst h2
      have c1 := f0.count_eq ((s.E e).v1, (s.E e).v2)
      have N := (meshing_numbers h n12).f1
      have N' := (meshing_numbers h n12).fs
      have c2 := count_pos_mem.mpr hx
      rw [List.count_append, List.count_append] at c1
      have nv : n ∉ s.verts := by rw [hnx]; intro hh; exact absurd (h.wf.vlt _ hh) (lt_irrefl _)
      have e3 : List.count ((s.E e).v1, (s.E e).v2) [((s.E e).v1, n), (n, (s.E e).v2)] = 0 := by
        refine List.count_eq_zero_of_not_mem ?_
        simp only [List.mem_cons, Prod.mk.injEq, true_and, and_true, List.not_mem_nil, or_false, not_or]
        exact ⟨fun hh => nv (hh ▸ m2), fun hh => nv (hh ▸ m1)⟩
      rw [e3, List.count_singleton_self] at c1
      omega
    · exact h2
  · rw [noGhost_iff]
    intro x hx
    have h1 := hT.mem_iff.mp (List.mem_cons_of_mem _ hx)
    rw [List.mem_append] at h1
    rcases h1 with h1 | h1
    · exact (noGhost_iff s).mp h.ghost x h1
    · simp only [List.mem_cons, List.not_mem_nil, or_false] at h1
      rcases h1 with rfl | rfl <;> rfl
  · intro x hx
    rw [S.bdry, List.mem_append] at hx
    rcases hx with hx | hx
    · have hx' := (List.mem_filter.mp hx).1
      unfold isInterior isGhost
      rw [S.E x ((h.wf.ends _).2 x hx').2.2.2.2.le]
      exact h.plain x hx'
    · simp only [List.mem_cons, List.not_mem_nil, or_false] at hx
      unfold isInterior at hni
      unfold isGhost at hgh
      rcases hx with rfl | rfl
      · unfold isInterior isGhost; rw [S.e3]; exact ⟨hni, hgh⟩
      · unfold isInterior isGhost; rw [S.e4]; exact ⟨hni, hgh⟩
  · intro x hx hno
    rw [S.bdry, List.mem_append] at hx
    rcases hx with hx | hx
    · have hx' := (List.mem_filter.mp hx).1
      have hEx := S.E x ((h.wf.ends _).2 x hx').2.2.2.2.le
      rw [hEx] at hno ⊢
      refine h.null x hx' fun f hf hside => hno f ((hlive f).mpr hf) ?_
      unfold HasSide at hside ⊢
      rw [hF]; exact hside
    · simp only [List.mem_cons, List.not_mem_nil, or_false] at hx
      rcases hx with rfl | rfl
      · rw [S.e3]
      · rw [S.e4]

end TQ.Whole

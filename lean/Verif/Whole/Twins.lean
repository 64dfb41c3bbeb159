import Verif.Whole.Fan
import Verif.Whole.Converse
import Verif.Cleanup.Doubles
import Verif.Cleanup.DegreeProps
import Verif.Merger.Transfer

/-! # Lemmas: elements with two common edges -/

set_option linter.unusedSectionVars false
set_option linter.unusedSimpArgs false
set_option linter.unusedVariables false

namespace TQ.MC
open TQ TQ.MS TQ.MeshSpec TQ.MCSpec MS.St TQ.RefSpec
variable {K : Type*} [Field K] [LinearOrder K]

/-- A list of corners is a rotation of `[a, b, c, d]`. -/
def Rot4 (cs : List Nat) (a b c d : Nat) : Prop := cs = [a, b, c, d] ∨ cs = [b, c, d, a] ∨ cs = [c, d, a, b] ∨ cs = [d, a, b, c]

theorem rot4_side {s : St K} {f : FRef} {a b c d : Nat} (h : Rot4 (s.F f).corners a b c d) (x y : Nat) :
    HasSide s f x y ↔ (x, y) = (a, b) ∨ (x, y) = (b, c) ∨ (x, y) = (c, d) ∨ (x, y) = (d, a) := by
  rcases h with h | h | h | h <;> rw [quad_side h] <;> tauto

theorem rot4_nodup {cs : List Nat} {a b c d : Nat} (h : Rot4 cs a b c d) (hn : cs.Nodup) : [a, b, c, d].Nodup := by
  rcases h with h | h | h | h <;> rw [h] at hn <;> simp at hn ⊢ <;> omega

theorem rot4_mem {cs : List Nat} {a b c d : Nat} (h : Rot4 cs a b c d) (x : Nat) : x ∈ cs ↔ x = a ∨ x = b ∨ x = c ∨ x = d := by
  rcases h with h | h | h | h <;> rw [h] <;> simp <;> tauto

theorem rot4_area {s : St K} {f : FRef} {a b c d : Nat} (h : Rot4 (s.F f).corners a b c d) :
    s.fArea f = quadArea (s.pos a) (s.pos b) (s.pos c) (s.pos d) := by
  unfold fArea
  rcases h with h | h | h | h <;> rw [h] <;> dsimp only <;> unfold quadArea Pt.cross <;> simp only [Pt.sub_x, Pt.sub_y] <;> ring

/-- The elements of a merge: the quad has the corners `v1 v2 v3 o1`, its neighbour `v3 v2 v1 (o2)`. -/
structure Twin (s : St K) (isQ : Bool) (m : Merge) (v1 v3 : Nat) : Prop where
  q : m.q ∈ s.quads
  live : Live s m.nbr
  ne : m.nbr ≠ .quad m.q
  qc : Rot4 (s.F (.quad m.q)).corners v1 m.v2 v3 m.o1
  kind : ∃ n, m.nbr = ref isQ n
  nc : (isQ = true → Rot4 (s.F m.nbr).corners v3 m.v2 v1 m.o2) ∧ (isQ = false → Rot3 (s.F m.nbr).corners v3 m.v2 v1)
  e1 : m.e1 ∈ s.es .intr ∧ Connects s m.e1 v1 m.v2
  e2 : m.e2 ∈ s.es .intr ∧ Connects s m.e2 m.v2 v3

theorem quad_corner {s : St K} (w : WF s) {q i : Nat} (hq : q ∈ s.quads) (hi : i < 4) :
    ∃ a b c d, corner s q i = some a ∧ corner s q (i + 1) = some b ∧ corner s q (i + 2) = some c ∧ corner s q (i + 3) = some d ∧
      Rot4 (s.F (.quad q)).corners a b c d := by
  have hlen := w.qcor q hq
  unfold corner
  match hcs : (s.F (.quad q)).corners, hlen with
  | [x, y, z, u], _ =>
    have : i = 0 ∨ i = 1 ∨ i = 2 ∨ i = 3 := by omega
    rcases this with rfl | rfl | rfl | rfl
    · exact ⟨x, y, z, u, by simp, by simp, by simp, by simp, Or.inl rfl⟩
    · exact ⟨y, z, u, x, by simp, by simp, by simp, by simp, Or.inr (Or.inr (Or.inr rfl))⟩
    · exact ⟨z, u, x, y, by simp, by simp, by simp, by simp, Or.inr (Or.inr (Or.inl rfl))⟩
    · exact ⟨u, x, y, z, by simp, by simp, by simp, by simp, Or.inr (Or.inl rfl)⟩

theorem doubleNbr_across {s : St K} (w : WF s) {isQ : Bool} {marked : FRef → Bool} {q i : Nat} {g : FRef} (hq : q ∈ s.quads) {a b c : Nat}
    (ca : corner s q i = some a) (cb : corner s q (i + 1) = some b) (cc : corner s q (i + 2) = some c)
    (h : doubleNbr s isQ marked q i = some g) : NbrAcross s (.quad q) g a b ∧ NbrAcross s (.quad q) g b c := by
  have hlen := w.qcor q hq
  have hnd := (w.cor (.quad q) hq).1
  unfold doubleNbr at h
  rw [ca, cb, cc] at h
  dsimp only at h
  cases h1 : edgeIndex (s.F (.quad q)) a b with
  | none => rw [h1] at h; cases h
  | some i1 =>
    cases h2 : edgeIndex (s.F (.quad q)) b c with
    | none => rw [h1, h2] at h; cases h
    | some i2 =>
      rw [h1, h2] at h
      dsimp only at h
      cases h3 : (s.F (.quad q)).nbrs[i1]? with
      | none => rw [h3] at h; cases h
      | some n1 =>
        cases h4 : (s.F (.quad q)).nbrs[i2]? with
        | none => rw [h3, h4] at h; cases h
        | some n2 =>
          rw [h3, h4] at h
          dsimp only at h
          split_ifs at h with a1 a2 a3 a4 a5
          simp only [Option.some.injEq] at h
          subst h
          have : n1 = n2 := by simpa using a2
          subst this
          obtain ⟨p1, p2⟩ := (C49_edge_index (Or.inr hlen) hnd a b i1).mp h1
          obtain ⟨r1, r2⟩ := (C49_edge_index (Or.inr hlen) hnd b c i2).mp h2
          exact ⟨⟨i1, p1, p2, h3⟩, ⟨i2, r1, r2, h4⟩⟩

/-- Two consecutive sides of a quad. -/
theorem rot4_of_sides {s : St K} (w : WF s) {q a b c : Nat} (hq : q ∈ s.quads) (h1 : HasSide s (.quad q) a b) (h2 : HasSide s (.quad q) b c) :
    ∃ d, Rot4 (s.F (.quad q)).corners a b c d ∧ ∃ i, edgeIndex (s.F (.quad q)) b a = some i ∧ (s.F (.quad q)).corners[i]? = some d := by
  have hlen := w.qcor q hq
  have hn := (w.cor (.quad q) hq).1
  obtain ⟨i, hi, hs⟩ := h1
  have i1 := (C49_edge_index (Or.inr hlen) hn b a i).mpr ⟨hi, Or.inr hs⟩
  rw [i1]
  match hcs : (s.F (.quad q)).corners, hlen with
  | [x, y, z, u], _ =>
    rw [quad_side hcs] at h2
    rw [hcs] at hs hi hn
    simp at hn
    have : i = 0 ∨ i = 1 ∨ i = 2 ∨ i = 3 := by simp at hi; omega
    rcases this with rfl | rfl | rfl | rfl <;> simp [sideAt] at hs <;> obtain ⟨rfl, rfl⟩ := hs <;>
      rcases h2 with h2 | h2 | h2 | h2 <;> simp only [Prod.mk.injEq] at h2 <;> obtain ⟨k, rfl⟩ := h2 <;> first
        | (exfalso; omega)
        | exact ⟨x, Or.inr (Or.inr (Or.inr rfl)), 0, rfl, by simp⟩
        | exact ⟨y, Or.inr (Or.inr (Or.inl rfl)), 1, rfl, by simp⟩
        | exact ⟨z, Or.inr (Or.inl rfl), 2, rfl, by simp⟩
        | exact ⟨u, Or.inl rfl, 3, rfl, by simp⟩

/-- A side with elements on both sides lies on an interior edge. -/
theorem conf_intr {s : St K} (h : Conforming s) {a b : Nat} (h1 : Covered s a b) (h2 : Covered s b a) :
    ∃ e ∈ s.es .intr, Connects s e a b := by
  obtain ⟨e, he, hc⟩ := h.sides a b h1
  rcases he with he | he
  · exact ⟨e, he, hc⟩
  · exfalso
    rcases hc with ⟨rfl, rfl⟩ | ⟨rfl, rfl⟩
    · exact h.right e he h2
    · exact h.right e he h1

variable [IsStrictOrderedRing K]

/-- What the pointers say after `setup_facet_connectivity`. -/
structure Ready (s : St K) : Prop extends Conforming s where
  len : NbrLen s
  nbr : ∀ f g a b, Live s f → g ≠ .null → NbrAcross s f g a b → Live s g ∧ f ≠ g ∧ NbrAcross s g f a b

theorem touch_of {s : St K} {f g : FRef} {a b : Nat} (h : NbrAcross s f g a b) : Touches s f a b := by
  obtain ⟨i, hi, hs | hs, -⟩ := h
  · exact Or.inl ⟨i, hi, hs⟩
  · exact Or.inr ⟨i, hi, hs⟩

theorem twin_of {s : St K} (h : Ready s) {isQ : Bool} {marked : FRef → Bool} {q i : Nat} {g : FRef} (hq : q ∈ s.quads) (hi : i < 4)
    (hd : doubleNbr s isQ marked q i = some g) : ∃ m, mkMerge s isQ q i g = some m ∧ ∃ v1 v3, Twin s isQ m v1 v3 := by
  have w := h.wf
  obtain ⟨v1, v2, v3, v4, c1, c2, c3, c4, hr⟩ := quad_corner w hq hi
  obtain ⟨n1, n2⟩ := doubleNbr_across w hq c1 c2 c3 hd
  obtain ⟨-, hg, -, k1, k2⟩ := doubleNbr_some hd
  obtain ⟨lg, ne, m1⟩ := h.nbr _ _ _ _ (show Live s (.quad q) from hq) hg n1
  obtain ⟨-, -, m2⟩ := h.nbr _ _ _ _ (show Live s (.quad q) from hq) hg n2
  have s1 : HasSide s (.quad q) v1 v2 := (rot4_side hr _ _).mpr (Or.inl rfl)
  have s2 : HasSide s (.quad q) v2 v3 := (rot4_side hr _ _).mpr (Or.inr (Or.inl rfl))
  have g1 : HasSide s g v2 v1 := by
    rcases touch_of m1 with k | k
    · exact absurd (h.dir _ _ _ _ (show Live s (.quad q) from hq) lg s1 k) ne
    · exact k
  have g2 : HasSide s g v3 v2 := by
    rcases touch_of m2 with k | k
    · exact absurd (h.dir _ _ _ _ (show Live s (.quad q) from hq) lg s2 k) ne
    · exact k
  obtain ⟨x1, hx1, d1⟩ := conf_intr h.toConforming ⟨.quad q, hq, s1⟩ ⟨g, lg, g1⟩
  obtain ⟨x2, hx2, d2⟩ := conf_intr h.toConforming ⟨.quad q, hq, s2⟩ ⟨g, lg, g2⟩
  have hv := (w.cor (.quad q) hq).2
  have vm : v1 ∈ s.verts ∧ v2 ∈ s.verts :=
    ⟨hv _ ((rot4_mem hr _).mpr (Or.inl rfl)), hv _ ((rot4_mem hr _).mpr (Or.inr (Or.inl rfl)))⟩
  have ge : ∀ a b x, a ∈ s.verts → x ∈ s.es .intr → Connects s x a b → ∃ e, s.getEdge .intr a b = some e ∧ e ∈ s.es .intr ∧ Connects s e a b := by
    intro a b x ha hx hc
    cases hge : s.getEdge .intr a b with
    | none => exact absurd (hc.imp_right And.symm) (getEdge_none w ha hge x hx)
    | some e =>
      obtain ⟨p1, p2⟩ := getEdge_some w ha hge
      exact ⟨e, rfl, p1, p2.imp_right And.symm⟩
  obtain ⟨e1, he1, i1, o1⟩ := ge v1 v2 x1 vm.1 hx1 d1
  obtain ⟨e2, he2, i2, o2⟩ := ge v2 v3 x2 vm.2 hx2 d2
  unfold mkMerge
  rw [c1, c2, c3, c4]
  dsimp only
  rw [he1, he2]
  dsimp only
  cases isQ with
  | true =>
    have := k1 rfl
    cases g with
    | null => exact absurd rfl hg
    | tri x => have := w.tcor x lg; unfold nVerts at *; omega
    | quad x =>
      obtain ⟨d, hr2, j, hj, hd'⟩ := rot4_of_sides w lg g2 g1
      simp only [if_true]
      rw [hj]
      dsimp only
      rw [hd']
      exact ⟨_, rfl, v1, v3, ⟨hq, lg, ne.symm, hr, ⟨x, rfl⟩, ⟨fun _ => hr2, fun hh => absurd hh (by simp)⟩, ⟨i1, o1⟩, ⟨i2, o2⟩⟩⟩
  | false =>
    have := k2 rfl
    cases g with
    | null => exact absurd rfl hg
    | quad x => have := w.qcor x lg; unfold nVerts at *; omega
    | tri x =>
      obtain ⟨d, hr2, hn2, -⟩ := rot3_of_side w lg g2
      have hd' : d = v1 := by
        rcases (rot3_side hr2 _ _).mp g1 with k | k | k <;> simp only [Prod.mk.injEq] at k
        · simp at hn2; omega
        · exact k.2.symm
        · simp at hn2; omega
      subst hd'
      exact ⟨_, rfl, d, v3, ⟨hq, lg, ne.symm, hr, ⟨x, rfl⟩, ⟨fun hh => absurd hh (by simp), fun _ => hr2⟩, ⟨i1, o1⟩, ⟨i2, o2⟩⟩⟩

/-- The elements that a list of merges removes. -/
def removed (ms : List Merge) : List FRef := ms.flatMap fun m => [.quad m.q, m.nbr]

/-- The scan schedules proper merges, each element at most once. -/
def Good (s : St K) (isQ : Bool) (c : Scan) : Prop :=
  (∀ m ∈ c.out, ∃ v1 v3, Twin s isQ m v1 v3) ∧ (removed c.out).Nodup

theorem good_step {s : St K} (h : Ready s) {isQ : Bool} {ix : FRef → Nat} (hix : Indexed s ix) {n : Nat} {c : Scan} {q : Nat}
    (hc : ScanInv s isQ ix n c) (hg : Good s isQ c) (hq : s.quads[n]? = some q) :
    ∃ d, scanQuad s isQ ix c q = some d ∧ Good s isQ d := by
  unfold scanQuad
  by_cases hm : c.marked c.iq = true
  · rw [if_pos hm]; exact ⟨c, rfl, hg⟩
  · rw [if_neg hm]
    have hn : c.iq = n := hc.pos.resolve_right (fun k => hm k.2)
    have hqm : q ∈ s.quads := List.mem_of_getElem? hq
    have hxq : ix (.quad q) = n := hix.1 n q hq
    dsimp only
    cases hf : findDouble s isQ (fun f => c.marked (ix f)) q with
    | none => exact ⟨_, rfl, hg⟩
    | some p =>
      obtain ⟨i, g⟩ := p
      obtain ⟨hi, hd⟩ := findDouble_some hf
      obtain ⟨m, hk, v1, v3, tw⟩ := twin_of h hqm hi hd
      obtain ⟨e1, e2⟩ := mkMerge_q hk
      obtain ⟨-, -, g3, -⟩ := doubleNbr_some hd
      dsimp only
      rw [hk]
      refine ⟨_, rfl, ?_, ?_⟩
      · intro x hx
        rcases List.mem_append.mp hx with hx | hx
        · exact hg.1 x hx
        · simp at hx; subst hx; exact ⟨v1, v3, tw⟩
      · unfold removed
        simp only [List.flatMap_append, List.flatMap_cons, List.flatMap_nil, List.append_nil]
        have notin : ∀ f, c.marked (ix f) = false → f ∉ removed c.out := by
          intro f hf' hin
          obtain ⟨x, hx, hx'⟩ := List.mem_flatMap.mp hin
          have : c.marked (ix f) = true := by
            rw [hc.marks]
            refine ⟨x, hx, ?_⟩
            simp only [List.mem_cons, List.not_mem_nil, or_false] at hx'
            rcases hx' with rfl | rfl
            · exact Or.inl rfl
            · exact Or.inr rfl
          rw [hf'] at this; cases this
        rw [List.nodup_append]
        refine ⟨hg.2, ?_, ?_⟩
        · simp only [List.nodup_cons, List.mem_singleton, List.not_mem_nil, not_false_eq_true, List.nodup_nil, and_true]
          exact fun hh => tw.ne hh.symm
        · intro a ha b hb hab
          subst hab
          simp only [List.mem_cons, List.not_mem_nil, or_false] at hb
          rcases hb with rfl | rfl
          · rw [e1] at ha
            refine notin (.quad q) ?_ ha
            rw [hxq, ← hn]; simpa using hm
          · rw [e2] at ha
            exact notin g g3 ha

theorem good_fold {s : St K} (h : Ready s) {isQ : Bool} {ix : FRef → Nat} (hix : Indexed s ix) : ∀ (l : List Nat) (n : Nat) (c : Scan),
    s.quads.drop n = l → ScanInv s isQ ix n c → Good s isQ c →
    ∃ d, l.foldl (fun o q => o.bind fun c => scanQuad s isQ ix c q) (some c) = some d ∧ Good s isQ d := by
  intro l
  induction l with
  | nil => intro n c _ _ hg; exact ⟨c, rfl, hg⟩
  | cons q l ih =>
    intro n c hl hc hg
    have hq : s.quads[n]? = some q := by
      have := congrArg List.head? hl
      simpa [List.head?_drop] using this
    have hl' : s.quads.drop (n + 1) = l := by
      rw [← List.drop_drop, hl]; rfl
    obtain ⟨d, hd, gd⟩ := good_step h hix hc hg hq
    rw [List.foldl_cons, Option.bind_some, hd]
    exact ih (n + 1) d hl' (scanQuad_inv hc hq hd) gd

theorem good_scan {s : St K} (h : Ready s) (isQ : Bool) {ix : FRef → Nat} (hix : Indexed s ix) :
    ∃ c, scan s isQ ix = some c ∧ Good s isQ c :=
  good_fold h hix s.quads 0 ⟨fun _ => false, 0, [], []⟩ rfl ⟨by simp, Or.inl rfl, by simp, by simp, by simp⟩ ⟨by simp, by simp [removed]⟩

end TQ.MC

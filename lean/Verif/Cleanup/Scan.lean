import Verif.Cleanup.Conn

/-! # Lemmas: the scan for double edges -/

set_option linter.unusedSectionVars false
set_option linter.unusedSimpArgs false

namespace TQ.MC
open TQ TQ.MS TQ.MeshSpec TQ.MCSpec MS.St
variable {K : Type*} [Field K] [LinearOrder K]

/-- The facet found as double neighbour. -/
theorem doubleNbr_some {s : St K} {isQ : Bool} {marked : FRef → Bool} {q i : Nat} {g : FRef}
    (h : doubleNbr s isQ marked q i = some g) :
    g ∈ (s.F (.quad q)).nbrs ∧ g ≠ .null ∧ marked g = false ∧ (isQ = true → ¬ nVerts s g < 4) ∧ (isQ = false → ¬ nVerts s g > 3) := by
  unfold doubleNbr at h
  split at h
  · split at h
    · split at h
      · rename_i k1 k2
        split_ifs at h with a1 a2 a3 a4 a5
        simp only [Option.some.injEq] at h
        subst h
        simp only [Bool.and_eq_true, decide_eq_true_eq, not_and, Bool.not_eq_true'] at a4 a5
        exact ⟨List.mem_of_getElem? k1, fun hh => a1 (Or.inl hh), by simpa using a3, a4, a5⟩
      · cases h
    · cases h
  · cases h

theorem doubleNbr_mono {s : St K} {isQ : Bool} {m m' : FRef → Bool} (hm : ∀ f, m f = true → m' f = true) {q i : Nat}
    (h : doubleNbr s isQ m q i = none) : doubleNbr s isQ m' q i = none := by
  unfold doubleNbr at h ⊢
  cases h1 : corner s q i with
  | none => rfl
  | some v1 =>
    cases h2 : corner s q (i + 1) with
    | none => rfl
    | some v2 =>
      cases h3 : corner s q (i + 2) with
      | none => rfl
      | some v3 =>
        rw [h1, h2, h3] at h
        dsimp only at h ⊢
        cases h4 : edgeIndex (s.F (.quad q)) v1 v2 with
        | none => rfl
        | some i1 =>
          cases h5 : edgeIndex (s.F (.quad q)) v2 v3 with
          | none => rfl
          | some i2 =>
            rw [h4, h5] at h
            dsimp only at h ⊢
            cases h6 : (s.F (.quad q)).nbrs[i1]? with
            | none => rfl
            | some n1 =>
              cases h7 : (s.F (.quad q)).nbrs[i2]? with
              | none => rfl
              | some n2 =>
                rw [h6, h7] at h
                dsimp only at h ⊢
                split_ifs at h ⊢ with a1 a2 a3 b3 a4 a5 <;> try rfl
                · exact absurd (hm _ (by assumption)) (by assumption)

theorem findDouble_none {s : St K} {isQ : Bool} {m : FRef → Bool} {q : Nat} :
    findDouble s isQ m q = none ↔ ∀ i < 4, doubleNbr s isQ m q i = none := by
  unfold findDouble
  rw [List.findSome?_eq_none_iff]
  constructor
  · intro h i hi
    have := h i (by simp; omega)
    simpa using this
  · intro h i hi
    rw [h i (by simp at hi; omega)]; rfl

theorem findDouble_some {s : St K} {isQ : Bool} {m : FRef → Bool} {q i : Nat} {g : FRef}
    (h : findDouble s isQ m q = some (i, g)) : i < 4 ∧ doubleNbr s isQ m q i = some g := by
  unfold findDouble at h
  obtain ⟨l1, j, l2, e, hj, -⟩ := List.findSome?_eq_some_iff.mp h
  cases hd : doubleNbr s isQ m q j with
  | none => rw [hd] at hj; simp at hj
  | some g' =>
    rw [hd] at hj
    simp at hj
    obtain ⟨rfl, rfl⟩ := hj
    have : j ∈ [0, 1, 2, 3] := by rw [e]; simp
    exact ⟨by simp at this; omega, hd⟩

theorem mkMerge_q {s : St K} {isQ : Bool} {q i : Nat} {g : FRef} {m : Merge} (h : mkMerge s isQ q i g = some m) :
    m.q = q ∧ m.nbr = g := by
  unfold mkMerge at h
  split at h
  · split at h
    · split at h
      · split at h
        · split at h
          · simp at h; subst h; exact ⟨rfl, rfl⟩
          · cases h
        · cases h
      · simp at h; subst h; exact ⟨rfl, rfl⟩
    · cases h
  · cases h

/-- What holds after some turns of the scan. -/
structure ScanInv (s : St K) (isQ : Bool) (ix : FRef → Nat) (n : Nat) (c : Scan) : Prop where
  seen : c.seen = s.quads.take c.iq
  pos : c.iq = n ∨ (c.iq < n ∧ c.marked c.iq = true)
  marks : ∀ i, c.marked i = true ↔ ∃ m ∈ c.out, ix (.quad m.q) = i ∨ ix m.nbr = i
  out : ∀ m ∈ c.out, m.q ∈ c.seen ∧ m.nbr ∈ (s.F (.quad m.q)).nbrs ∧ m.nbr ≠ .null ∧ (isQ = true → ¬ nVerts s m.nbr < 4) ∧
    (isQ = false → ¬ nVerts s m.nbr > 3)
  done : ∀ q ∈ c.seen, (∃ m ∈ c.out, m.q = q) ∨ ∀ i < 4, doubleNbr s isQ (fun f => c.marked (ix f)) q i = none

theorem scanQuad_inv {s : St K} {isQ : Bool} {ix : FRef → Nat} {n : Nat} {c d : Scan} {q : Nat} (h : ScanInv s isQ ix n c)
    (hq : s.quads[n]? = some q) (hd : scanQuad s isQ ix c q = some d) : ScanInv s isQ ix (n + 1) d := by
  unfold scanQuad at hd
  by_cases hm : c.marked c.iq = true
  · rw [if_pos hm] at hd
    simp at hd
    subst hd
    exact { h with pos := Or.inr ⟨by rcases h.pos with k | k <;> omega, hm⟩ }
  · rw [if_neg hm] at hd
    have hn : c.iq = n := h.pos.resolve_right (fun k => hm k.2)
    have tk : c.seen ++ [q] = s.quads.take (c.iq + 1) := by
      rw [List.take_add_one, hn, hq, h.seen, hn]; rfl
    dsimp only at hd
    split at hd
    · rename_i hf
      simp at hd
      subst hd
      refine { seen := tk, pos := Or.inl (by simp [hn]), marks := h.marks, out := ?_, done := ?_ }
      · intro m hm'
        obtain ⟨k1, k2⟩ := h.out m hm'
        exact ⟨List.mem_append_left _ k1, k2⟩
      · intro x hx
        rcases List.mem_append.mp hx with hx | hx
        · exact h.done x hx
        · simp at hx; subst hx
          exact Or.inr (findDouble_none.mp hf)
    · rename_i i g hf
      split at hd
      · rename_i m hk
        simp at hd
        subst hd
        obtain ⟨hi, hg⟩ := findDouble_some hf
        obtain ⟨m1, m2⟩ := mkMerge_q hk
        obtain ⟨g1, g2, g3, g4⟩ := doubleNbr_some hg
        have mono : ∀ f, c.marked (ix f) = true →
            upd (upd c.marked (ix (.quad q)) fun _ => true) (ix g) (fun _ => true) (ix f) = true := by
          intro f hf'; simp only [upd]; split_ifs <;> simp [hf']
        refine { seen := tk, pos := Or.inl (by simp [hn]), marks := ?_, out := ?_, done := ?_ }
        · intro j
          constructor
          · intro hj
            simp only [upd] at hj
            split_ifs at hj with e1 e2
            · exact ⟨m, by simp, Or.inr (by rw [m2, e1])⟩
            · exact ⟨m, by simp, Or.inl (by rw [m1, e2])⟩
            · obtain ⟨m', k1, k2⟩ := (h.marks j).mp hj
              exact ⟨m', List.mem_append_left _ k1, k2⟩
          · rintro ⟨m', k1, k2⟩
            rcases List.mem_append.mp k1 with k1 | k1
            · have := (h.marks j).mpr ⟨m', k1, k2⟩
              simp only [upd]; split_ifs <;> simp [this]
            · simp at k1; subst k1
              rw [m1, m2] at k2
              simp only [upd]
              rcases k2 with k2 | k2
              · split_ifs with e1 e2
                · rfl
                · rfl
                · exact absurd k2.symm e2
              · rw [if_pos k2.symm]
        · intro m' k1
          rcases List.mem_append.mp k1 with k1 | k1
          · obtain ⟨p1, p2⟩ := h.out m' k1
            exact ⟨List.mem_append_left _ p1, p2⟩
          · simp at k1; subst k1
            rw [m1, m2]
            exact ⟨by simp, g1, g2, g4⟩
        · intro x hx
          rcases List.mem_append.mp hx with hx | hx
          · rcases h.done x hx with ⟨m', k1, k2⟩ | k
            · exact Or.inl ⟨m', List.mem_append_left _ k1, k2⟩
            · exact Or.inr fun j hj => doubleNbr_mono mono (k j hj)
          · simp at hx; subst hx
            exact Or.inl ⟨m, by simp, m1⟩
      · cases hd

theorem scan_fold {s : St K} {isQ : Bool} {ix : FRef → Nat} : ∀ (l : List Nat) (n : Nat) (c d : Scan), s.quads.drop n = l →
    ScanInv s isQ ix n c → l.foldl (fun o q => o.bind fun c => scanQuad s isQ ix c q) (some c) = some d →
    ScanInv s isQ ix (n + l.length) d := by
  intro l
  induction l with
  | nil => intro n c d _ h hd; simp at hd; subst hd; exact h
  | cons q l ih =>
    intro n c d hl h hd
    have hq : s.quads[n]? = some q := by
      have := congrArg List.head? hl
      simpa [List.head?_drop] using this
    have hl' : s.quads.drop (n + 1) = l := by
      rw [← List.drop_drop, hl]; rfl
    simp only [List.foldl_cons, Option.bind_some] at hd
    cases hs : scanQuad s isQ ix c q with
    | none =>
      rw [hs] at hd
      have : ∀ l : List Nat, l.foldl (fun o q => o.bind fun c => scanQuad s isQ ix c q) none = none := by
        intro l; induction l with
        | nil => rfl
        | cons a l ih => simpa using ih
      rw [this] at hd; cases hd
    | some c' =>
      rw [hs] at hd
      have := ih (n + 1) c' d hl' (scanQuad_inv h hq hs) hd
      simpa [Nat.add_assoc, Nat.add_comm 1] using this

theorem scan_inv {s : St K} {isQ : Bool} {ix : FRef → Nat} {c : Scan} (h : scan s isQ ix = some c) :
    ScanInv s isQ ix s.quads.length c := by
  have := scan_fold (s := s) (isQ := isQ) (ix := ix) s.quads 0 ⟨fun _ => false, 0, [], []⟩ c rfl
    ⟨by simp, Or.inl rfl, by simp, by simp, by simp⟩ h
  simpa using this

/-- Corners of a quad and its sides. -/
theorem sharesTwo_doubleNbr {s : St K} (w : WF s) (hl : ∀ q ∈ s.quads, (s.F (.quad q)).nbrs.length = 4) {isQ : Bool} {m : FRef → Bool}
    {q : Nat} {g : FRef} (hq : q ∈ s.quads) (hg : g ≠ .null) (hm : m g = false) (h1 : isQ = true → ¬ nVerts s g < 4)
    (h2 : isQ = false → ¬ nVerts s g > 3) (h : SharesTwo s q g) : ∃ i < 4, doubleNbr s isQ m q i = some g := by
  obtain ⟨a, b, c, s1, s2, n1, n2⟩ := h
  have hlen := w.qcor q hq
  have hnd := (w.cor (.quad q) hq).1
  -- position of `b`
  obtain ⟨j1, k1, e1⟩ := s1
  obtain ⟨j2, k2, e2⟩ := s2
  obtain ⟨p1, r1, t1, u1⟩ := n1
  obtain ⟨p2, r2, t2, u2⟩ := n2
  have i1 : edgeIndex (s.F (.quad q)) a b = some p1 := (C49_edge_index (Or.inr hlen) hnd a b p1).mpr ⟨r1, t1⟩
  have i2 : edgeIndex (s.F (.quad q)) b c = some p2 := (C49_edge_index (Or.inr hlen) hnd b c p2).mpr ⟨r2, t2⟩
  have fin : ∀ i, i < 4 → corner s q i = some a → corner s q (i + 1) = some b → corner s q (i + 2) = some c →
      ∃ i < 4, doubleNbr s isQ m q i = some g := by
    intro i hi c1 c2 c3
    refine ⟨i, hi, ?_⟩
    unfold doubleNbr
    rw [c1, c2, c3]
    dsimp only
    rw [i1, i2]
    dsimp only
    rw [u1, u2]
    dsimp only
    rw [if_neg (by simp [hg]), if_neg (by simp), if_neg (by simp [hm]), if_neg (by simpa using h1), if_neg (by simpa using h2)]
  unfold corner at fin
  match hcs : (s.F (.quad q)).corners, hlen with
  | [x, y, z, w'], _ =>
    rw [hcs] at e1 e2 hnd fin
    have hj : j1 = 0 ∨ j1 = 1 ∨ j1 = 2 ∨ j1 = 3 := by omega
    have hj2 : j2 = 0 ∨ j2 = 1 ∨ j2 = 2 ∨ j2 = 3 := by omega
    simp at hnd
    rcases hj with rfl | rfl | rfl | rfl <;> simp [sideAt] at e1 <;> obtain ⟨rfl, rfl⟩ := e1 <;>
      rcases hj2 with rfl | rfl | rfl | rfl <;> simp [sideAt] at e2 <;> try (exfalso; omega)
    · subst e2; exact fin 1 (by omega) (by simp) (by simp) (by simp)
    · subst e2; exact fin 2 (by omega) (by simp) (by simp) (by simp)
    · subst e2; exact fin 3 (by omega) (by simp) (by simp) (by simp)
    · subst e2; exact fin 0 (by omega) (by simp) (by simp) (by simp)

end TQ.MC

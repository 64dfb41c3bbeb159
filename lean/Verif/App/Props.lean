import Verif.App.Model
import Verif.Reader.Props
import Mathlib.Tactic.Linarith
import Mathlib.Tactic.Ring
import Mathlib.Algebra.Order.Field.Rat
import Mathlib.Tactic.NormNum

/-!
# C74, C135-C138: the application
-/

namespace TQ
open App PR PRSpec

set_option linter.unusedSectionVars false

/-! ### Vertex indices -/

theorem App.toSize_small {z : Int} {n : Nat} (h1 : -2 ^ 31 ≤ z) (h2 : z < 2 ^ 31) (hn : n ≤ 2 ^ 63) (h : toSize z < n) :
    0 ≤ z ∧ z = toSize z := by
  unfold toSize at *
  omega

/-- An index as the user writes it that refers to one of `n` vertices. -/
def App.Valid (n : Nat) (z : Int) : Prop := 0 ≤ z ∧ z < n

theorem App.addEdges_ok {bad : Nat → Nat → Bool} {n : Nat} (hn : n ≤ 2 ^ 63) : ∀ {rows : List (Int × Int)} {es : List (Nat × Nat)},
    (∀ r ∈ rows, (-2 ^ 31 ≤ r.1 ∧ r.1 < 2 ^ 31) ∧ -2 ^ 31 ≤ r.2 ∧ r.2 < 2 ^ 31) → addEdges bad n rows = .ok es →
    rows = es.map (fun e => ((e.1 : Int), (e.2 : Int))) ∧ ∀ r ∈ rows, Valid n r.1 ∧ Valid n r.2 := by
  intro rows
  induction rows with
  | nil => intro es _ h; simp only [addEdges, EOut.ok.injEq] at h; subst h; simp
  | cons r rows ih =>
    intro es hr h
    obtain ⟨z1, z2⟩ := r
    obtain ⟨⟨a1, a2⟩, a3, a4⟩ := hr _ List.mem_cons_self
    simp only [addEdges] at h
    split at h
    · cases h
    · split at h
      · rename_i hlt
        split at h
        · rename_i es' hes
          cases h
          obtain ⟨h1, h2⟩ := ih (fun r hr' => hr r (List.mem_cons_of_mem _ hr')) hes
          obtain ⟨b1, b2⟩ := toSize_small a1 a2 hn hlt.1
          obtain ⟨c1, c2⟩ := toSize_small a3 a4 hn hlt.2
          refine ⟨?_, ?_⟩
          · rw [List.map_cons, ← h1, ← b2, ← c2]
          · intro r hr'
            rcases List.mem_cons.1 hr' with rfl | hr'
            · refine ⟨⟨b1, ?_⟩, c1, ?_⟩
              · have := hlt.1; dsimp only at b2 ⊢; omega
              · have := hlt.2; dsimp only at c2 ⊢; omega
            · exact h2 r hr'
        · rename_i hne
          exact (hne _ h).elim
      · cases h

theorem App.addEdges_no_abort {bad : Nat → Nat → Bool} {n : Nat} (hb : ∀ i j, bad i j = false → i < n ∧ j < n) :
    ∀ rows : List (Int × Int), addEdges bad n rows ≠ .abort := by
  intro rows
  induction rows with
  | nil => simp [addEdges]
  | cons r rows ih =>
    obtain ⟨z1, z2⟩ := r
    simp only [addEdges]
    split
    · simp
    · rename_i hbad
      rw [if_pos (hb _ _ (by simpa using hbad))]
      split
      · simp
      · rename_i h; exact ih

theorem App.addEdges_valid {bad : Nat → Nat → Bool} {n : Nat} (hb : ∀ i j, i < n → j < n → bad i j = false) :
    ∀ es : List (Nat × Nat), n ≤ 2 ^ 63 → (∀ e ∈ es, e.1 < n ∧ e.2 < n) → addEdges bad n (es.map fun e => ((e.1 : Int), (e.2 : Int))) = .ok es := by
  intro es hn
  induction es with
  | nil => intro _; rfl
  | cons e es ih =>
    intro h
    obtain ⟨h1, h2⟩ := h e List.mem_cons_self
    have e1 : toSize (e.1 : Int) = e.1 := by unfold toSize; omega
    have e2 : toSize (e.2 : Int) = e.2 := by unfold toSize; omega
    simp only [List.map_cons, addEdges, e1, e2, hb _ _ h1 h2, Bool.false_eq_true, if_false]
    rw [if_pos ⟨h1, h2⟩, ih fun e he => h e (List.mem_cons_of_mem _ he)]

/-- **C74 for interior boundaries and fixed edges.** Reading the edges never reads a vertex that does not exist: either all indices are valid and the given edges are made, or an error is thrown. -/
theorem C74_interior (n : Nat) (hn : n ≤ 2 ^ 63) (rows : List (Int × Int))
    (hr : ∀ r ∈ rows, (-2 ^ 31 ≤ r.1 ∧ r.1 < 2 ^ 31) ∧ -2 ^ 31 ≤ r.2 ∧ r.2 < 2 ^ 31) :
    ∀ bad, bad = badInterior n ∨ bad = badFixed n →
      (addEdges bad n rows = .error ∧ ∃ r ∈ rows, ¬(Valid n r.1 ∧ Valid n r.2)) ∨
      ∃ es, addEdges bad n rows = .ok es ∧ rows = es.map (fun e => ((e.1 : Int), (e.2 : Int))) ∧ ∀ r ∈ rows, Valid n r.1 ∧ Valid n r.2 := by
  intro bad hbad
  have hb : ∀ i j, bad i j = false ↔ i < n ∧ j < n := by
    intro i j
    rcases hbad with rfl | rfl <;> simp [badInterior, badFixed]
  by_cases hv : ∀ r ∈ rows, Valid n r.1 ∧ Valid n r.2
  · right
    have hes := addEdges_valid (bad := bad) (n := n) (fun i j h1 h2 => (hb i j).2 ⟨h1, h2⟩) (rows.map fun r => (r.1.toNat, r.2.toNat)) hn (by
      intro e he
      obtain ⟨r, hr', rfl⟩ := List.mem_map.1 he
      obtain ⟨⟨h1, h2⟩, h3, h4⟩ := hv r hr'
      dsimp only
      omega)
    have hrows : (rows.map fun r => (r.1.toNat, r.2.toNat)).map (fun e => ((e.1 : Int), (e.2 : Int))) = rows := by
      rw [List.map_map]
      conv_rhs => rw [← List.map_id rows]
      apply List.map_congr_left
      intro r hr'
      obtain ⟨⟨h1, -⟩, h3, -⟩ := hv r hr'
      simp [Int.toNat_of_nonneg h1, Int.toNat_of_nonneg h3]
    rw [hrows] at hes
    exact ⟨_, hes, hrows.symm, hv⟩
  · left
    push Not at hv
    obtain ⟨r, hr', hv⟩ := hv
    refine ⟨?_, r, hr', fun h => hv h.1 h.2⟩
    cases h : addEdges bad n rows with
    | error => rfl
    | abort => exact (addEdges_no_abort (fun i j => (hb i j).1) rows h).elim
    | ok es => exact (hv ((addEdges_ok hn hr h).2 r hr').1 ((addEdges_ok hn hr h).2 r hr').2).elim

example : addEdges (badInterior 4) 4 [(0, 1), (1, 3)] = .ok [(0, 1), (1, 3)] ∧ addEdges (badInterior 4) 4 [(0, 4)] = .error ∧
    addEdges (badInterior 4) 4 [(0, -1)] = .error := by decide +kernel

/-- **C74 is violated for exterior boundaries:** with any number of vertices the index behind the last vertex passes the check, and a vertex that does not exist is read. -/
theorem C74_exterior_violated (n : Nat) (hn : n < 2 ^ 31) : addEdges (badExterior n) n [((n : Int), (n : Int))] = .abort := by
  have : toSize (n : Int) = n := by unfold toSize; omega
  simp [addEdges, this, badExterior]

/-- **C74, exterior boundaries:** an index behind that one is rejected, and whatever is accepted without reading a missing vertex is valid. -/
theorem C74_exterior_partial (n : Nat) (hn : n ≤ 2 ^ 63) (rows : List (Int × Int))
    (hr : ∀ r ∈ rows, (-2 ^ 31 ≤ r.1 ∧ r.1 < 2 ^ 31) ∧ -2 ^ 31 ≤ r.2 ∧ r.2 < 2 ^ 31) :
    (∀ es, addEdges (badExterior n) n rows = .ok es → rows = es.map (fun e => ((e.1 : Int), (e.2 : Int))) ∧ ∀ r ∈ rows, Valid n r.1 ∧ Valid n r.2) ∧
    (addEdges (badExterior n) n rows = .abort → ∃ r ∈ rows, r.1 = n ∨ r.2 = n) := by
  refine ⟨fun es h => addEdges_ok hn hr h, ?_⟩
  induction rows with
  | nil => simp [addEdges]
  | cons r rows ih =>
    obtain ⟨z1, z2⟩ := r
    intro h
    obtain ⟨⟨a1, a2⟩, a3, a4⟩ := hr _ List.mem_cons_self
    simp only [addEdges] at h
    split at h
    · cases h
    · rename_i hb
      split at h
      · split at h
        · cases h
        · obtain ⟨r, h1, h2⟩ := ih (fun r hr' => hr r (List.mem_cons_of_mem _ hr')) h
          exact ⟨r, List.mem_cons_of_mem _ h1, h2⟩
      · rename_i hlt
        refine ⟨_, List.mem_cons_self, ?_⟩
        simp only [badExterior, Bool.or_eq_true, decide_eq_true_eq, not_or, not_lt] at hb
        unfold toSize at hb hlt
        dsimp only at a1 a2 a3 a4 ⊢
        clear ih h hr
        omega

example : addEdges (badExterior 4) 4 [(0, 1), (1, 3)] = .ok [(0, 1), (1, 3)] ∧ addEdges (badExterior 4) 4 [(0, 4)] = .abort ∧
    addEdges (badExterior 4) 4 [(0, 5)] = .error := by decide +kernel

/-! ### Error messages -/

/-- **C135 is violated:** the error message for a mesh does not name the mesh; its first characters are lost instead, and from the length of the text on the message is undefined. -/
theorem C135_violated : message (texts[0]) 1 = some "o output file prefix defined for mesh ".toList ∧
    message (texts[0]) 3 = some "output file prefix defined for mesh ".toList ∧ message (texts[0]) 40 = none := by decide

/-- **C135, what holds:** the message is what remains of the text when one character is dropped for each earlier mesh; it is defined up to the length of the text. -/
theorem C135_partial (text : List Char) (k : Nat) (h : k ≤ text.length) :
    ∃ m, message text k = some m ∧ m <:+ text ∧ m.length + k = text.length := by
  refine ⟨text.drop k, ?_, List.drop_suffix _ _, by simp; omega⟩
  simp [message, h]

example : texts.map List.length = [39, 34, 42] := by decide

/-! ### Extent of the domain -/

section
variable {K : Type*} [Field K] [LinearOrder K] [IsStrictOrderedRing K]

theorem App.foldl_ge (vs : List (Pt K)) : ∀ e : K, e ≤ vs.foldl (fun e v => max (max e |v.x|) |v.y|) e ∧
    ∀ v ∈ vs, |v.x| ≤ vs.foldl (fun e v => max (max e |v.x|) |v.y|) e ∧ |v.y| ≤ vs.foldl (fun e v => max (max e |v.x|) |v.y|) e := by
  induction vs with
  | nil => intro e; simp
  | cons v vs ih =>
    intro e
    obtain ⟨h1, h2⟩ := ih (max (max e |v.x|) |v.y|)
    simp only [List.foldl_cons]
    have a1 := le_max_left (max e |v.x|) |v.y|
    have a2 := le_max_right (max e |v.x|) |v.y|
    have a3 := le_max_left e |v.x|
    have a4 := le_max_right e |v.x|
    refine ⟨le_trans a3 (le_trans a1 h1), fun w hw => ?_⟩
    rcases List.mem_cons.1 hw with rfl | hw
    · exact ⟨le_trans a4 (le_trans a1 h1), le_trans a2 h1⟩
    · exact h2 w hw

/-- **C136 for boundary vertices.** All vertices of the list of boundary vertices lie in the square of the domain's search tree, in its interior unless all are at the origin. -/
theorem C136_boundary_partial (big : K) (vs : List (Pt K)) :
    (∀ v ∈ vs, (domainBox (domainExtent big (some vs))).has v = true) ∧
    ((∃ v ∈ vs, v ≠ ⟨0, 0⟩) → ∀ v ∈ vs, |v.x| < domainExtent big (some vs) / 2 ∧ |v.y| < domainExtent big (some vs) / 2) := by
  set m := vs.foldl (fun e v => max (max e |v.x|) |v.y|) (0 : K) with hm
  have hext : domainExtent big (some vs) = m * (21 / 10) := rfl
  obtain ⟨h0, h1⟩ := foldl_ge vs (0 : K)
  rw [← hm] at h0
  have hlt : ∀ v ∈ vs, |v.x| ≤ m ∧ |v.y| ≤ m := h1
  have hhalf : m ≤ m * (21 / 10) / 2 := by
    have : m * (21 / 10) / 2 = m + m / 20 := by ring
    rw [this]
    have : 0 ≤ m / 20 := by positivity
    linarith
  refine ⟨fun v hv => ?_, fun ⟨w, hw, hne⟩ v hv => ?_⟩
  · obtain ⟨hx, hy⟩ := hlt v hv
    have bx := abs_le.1 (le_trans hx hhalf)
    have by' := abs_le.1 (le_trans hy hhalf)
    rw [hext]
    simp only [Box.has, inOnRect, Box.lo, Box.up, domainBox, Bool.and_eq_true, decide_eq_true_eq]
    refine ⟨⟨⟨?_, ?_⟩, ?_⟩, ?_⟩ <;> (refine decide_eq_true ?_; linarith [bx.1, bx.2, by'.1, by'.2])
  · obtain ⟨hx, hy⟩ := hlt v hv
    obtain ⟨hwx, hwy⟩ := hlt w hw
    have hpos : 0 < m := by
      rcases lt_or_eq_of_le h0 with h | h
      · exact h
      · rw [← h] at hwx hwy
        have e1 : w.x = 0 := abs_nonpos_iff.1 hwx
        have e2 : w.y = 0 := abs_nonpos_iff.1 hwy
        exact (hne (by cases w; dsimp only at e1 e2; rw [e1, e2])).elim
    have hs : m < m * (21 / 10) / 2 := by
      have : m * (21 / 10) / 2 = m + m / 20 := by ring
      rw [this]
      have : 0 < m / 20 := by positivity
      linarith
    rw [hext]
    exact ⟨lt_of_le_of_lt hx hs, lt_of_le_of_lt hy hs⟩

/-- A vertex outside of the square is not put into the tree. -/
theorem App.add_outside {α : Type*} (mi : Nat) (pos : α → Pt K) (d : Nat) (x : α) (b : Box K) (t : QT α) (h : b.has (pos x) = false) :
    (QT.add mi pos d x b t).2 = false := by
  cases d <;> cases t <;> simp [QT.add, h]
end

/-- **C136 is violated:** fixed vertices (and the vertices of boundary shapes) are not considered for the extent: here a fixed vertex is outside of the search tree of its domain and cannot be found in it. -/
theorem C136_violated : ∃ (vs : List (Pt ℚ)) (f : Pt ℚ), vs = [⟨0, 0⟩, ⟨1, 0⟩, ⟨0, 1⟩] ∧ f = ⟨2, 0⟩ ∧
    (domainBox (domainExtent 1000000 (some vs))).has f = false ∧
    ∀ (mi d : Nat) (t : QT Nat), (QT.add mi (fun _ => f) d 0 (domainBox (domainExtent 1000000 (some vs))) t).2 = false := by
  have h : (domainBox (domainExtent 1000000 (some [⟨0, 0⟩, ⟨1, 0⟩, ⟨0, 1⟩]))).has (⟨2, 0⟩ : Pt ℚ) = false := by decide +kernel
  exact ⟨_, _, rfl, rfl, h, fun mi d t => App.add_outside mi _ d 0 _ t h⟩

example : domainExtent 1000000 (some [(⟨0, 0⟩ : Pt ℚ), ⟨-3, 0⟩, ⟨0, 1⟩]) = 63 / 10 := by decide +kernel

/-! ### The exterior boundary -/

/-- **C138.** At most one exterior boundary is made, namely that of the first kind of definition that can be read. -/
theorem C138_pick {β : Type*} (ds : List (Option β)) (b : β) : pickExterior ds = some b ↔
    ∃ a c, ds = a ++ some b :: c ∧ ∀ d ∈ a, d = none := by
  induction ds with
  | nil => simp [pickExterior]
  | cons d ds ih =>
    cases d with
    | some x =>
      simp only [pickExterior, Option.some.injEq]
      constructor
      · rintro rfl
        exact ⟨[], ds, rfl, by simp⟩
      · rintro ⟨a, c, h, hn⟩
        cases a with
        | nil => simp at h; exact h.1
        | cons y a =>
          simp only [List.cons_append, List.cons.injEq] at h
          have := hn y List.mem_cons_self
          rw [← h.1] at this
          cases this
    | none =>
      simp only [pickExterior, ih]
      constructor
      · rintro ⟨a, c, rfl, hn⟩
        exact ⟨none :: a, c, rfl, by
          intro d hd
          rcases List.mem_cons.1 hd with rfl | hd
          · rfl
          · exact hn d hd⟩
      · rintro ⟨a, c, h, hn⟩
        cases a with
        | nil => simp at h
        | cons y a =>
          simp only [List.cons_append, List.cons.injEq] at h
          exact ⟨a, c, h.2, fun d hd => hn d (List.mem_cons_of_mem _ hd)⟩

/-- **C138 is violated for several definitions:** a second exterior boundary in the same mesh definition is ignored without an error, and so is a mesh definition without any. -/
theorem C138_violated : pickExterior [some "edges", none, some "rectangle"] = some "edges" ∧ pickExterior ([none, none] : List (Option String)) = none := by
  decide

/-! ### The loop over the meshes -/

theorem App.loop_spec (construct : Nat → Nat × Nat → Option Bool) (sk ek : Line) (file : List Line) : ∀ (bs : List (Nat × Nat)) (n id : Nat) (ok : Bool) (b : Block),
    b.startKey = sk → b.endKey = ek → b.cur.be ≤ file.length → Blocks sk ek file (b.pos file) bs → bs.length < n →
    (∀ (k : Nat) (r : Nat × Nat), bs[k]? = some r → ∃ v, construct (id + k) r = some v) →
    (loop construct file n id ok b).exc = false ∧
    ((loop construct file n id ok b).ret = true ↔ ok = true ∧ ∀ (k : Nat) (r : Nat × Nat), bs[k]? = some r → construct (id + k) r = some true) ∧
    (loop construct file n id ok b).calls = (bs.zipIdx id).map (fun c => (c.2, c.1)) := by
  intro bs
  induction bs with
  | nil =>
    rintro n id ok b rfl rfl hb hbs hn _
    obtain ⟨n, rfl⟩ : ∃ m, n = m + 1 := ⟨n - 1, by simp at hn; omega⟩
    cases hbs with
    | nil hno =>
      rcases queryBlock_spec file b hb with ⟨s, e, h, -⟩ | ⟨-, c, h1, -⟩
      · exact (hno s e h).elim
      · simp [loop, h1]
  | cons r bs ih =>
    rintro n id ok b rfl rfl hb hbs hn hc
    obtain ⟨n, rfl⟩ : ∃ m, n = m + 1 := ⟨n - 1, by simp at hn; omega⟩
    cases hbs with
    | @cons pos s e bs' hne ht =>
      rcases queryBlock_spec file b hb with ⟨s', e', h, hlt, ix, h1⟩ | ⟨hno, -⟩
      · obtain rfl := first_unique h.1 hne.1
        obtain rfl := first_unique h.2 hne.2
        obtain ⟨v, hv⟩ := hc 0 _ rfl
        simp only [Nat.add_zero] at hv
        have hpos : Block.pos file { b with cur := ⟨s', e', ix⟩, paras := b.paras.map fun _ => ⟨s', e', 0⟩ } = e' := by
          simp [Block.pos, hlt]
        obtain ⟨g1, g2, g3⟩ := ih n (id + 1) (ok && v) { b with cur := ⟨s', e', ix⟩, paras := b.paras.map fun _ => ⟨s', e', 0⟩ } rfl rfl hlt.le
          (by rw [hpos]; exact ht) (by simp at hn; omega) (by
            intro k r hr
            have := hc (k + 1) r (by simpa using hr)
            rwa [show id + (k + 1) = id + 1 + k by omega] at this)
        simp only [loop, h1, hv]
        refine ⟨g1, ?_, ?_⟩
        · rw [g2, Bool.and_eq_true]
          constructor
          · rintro ⟨⟨a1, a2⟩, a3⟩
            refine ⟨a1, fun k r hr => ?_⟩
            cases k with
            | zero =>
              simp only [List.getElem?_cons_zero, Option.some.injEq] at hr
              subst hr
              rw [Nat.add_zero, hv, a2]
            | succ k =>
              rw [show id + (k + 1) = id + 1 + k by omega]
              exact a3 k r (by simpa using hr)
          · rintro ⟨a1, a2⟩
            refine ⟨⟨a1, ?_⟩, fun k r hr => ?_⟩
            · have := a2 0 _ rfl
              rw [Nat.add_zero, hv] at this
              simpa using this
            · have := a2 (k + 1) r (by simpa using hr)
              rwa [show id + (k + 1) = id + 1 + k by omega] at this
        · rw [g3, List.zipIdx_cons, List.map_cons]
      · exact (hno _ _ hne).elim

theorem App.blocks_length {sk ek : Line} {file : List Line} {pos : Nat} {bs : List (Nat × Nat)} (h : Blocks sk ek file pos bs) :
    bs = [] ∨ bs.length + pos < file.length := by
  induction h with
  | nil _ => exact Or.inl rfl
  | @cons pos s e bs hn _ ih =>
    right
    have h1 := has_lt hn.2.2.1
    have h2 := hn.1.1
    have h3 := hn.2.1
    rcases ih with rfl | h
    · simp; omega
    · simp only [List.length_cons]; omega

/-- **C137.** If no mesh definition causes an exception, every definition of the file is processed once, in order, with the numbers 0, 1, …; the run is successful just if all the meshes are. -/
theorem C137_run (construct : Nat → Nat × Nat → Option Bool) (file : List Line) (bs : List (Nat × Nat))
    (hbs : Blocks "Define mesh:".toList "End mesh".toList file 0 bs) (hc : ∀ (k : Nat) (r : Nat × Nat), bs[k]? = some r → ∃ v, construct k r = some v) :
    (run construct file).exc = false ∧ (run construct file).calls = bs.zipIdx.map (fun c => (c.2, c.1)) ∧
    ((run construct file).ret = true ↔ ∀ (k : Nat) (r : Nat × Nat), bs[k]? = some r → construct k r = some true) := by
  have hlen : bs.length < file.length + 1 := by
    rcases blocks_length hbs with rfl | h
    · simp
    · omega
  obtain ⟨h1, h2, h3⟩ := loop_spec construct "Define mesh:".toList "End mesh".toList file bs (file.length + 1) 0 true
    ⟨"Define mesh:".toList, "End mesh".toList, ⟨0, file.length, 0⟩, []⟩ rfl rfl le_rfl (by simpa [Block.pos] using hbs) hlen (by simpa using hc)
  refine ⟨h1, h3, ?_⟩
  rw [run, h2]
  simp only [true_and, Nat.zero_add]

/-- The answer depends on all meshes: one that fails makes the run fail. -/
example : (run (fun k _ => some (k == 0)) demo) = ⟨false, false, [(0, 0, 3), (1, 5, 6)]⟩ := by decide +kernel

/-- **C137 is violated for definitions without end:** the run is successful although a mesh was defined and none was made. -/
theorem C137_violated (construct : Nat → Nat × Nat → Option Bool) :
    run construct ["Define mesh:".toList, "Element size: 1".toList] = ⟨false, true, []⟩ := by
  have : queryBlock ["Define mesh:".toList, "Element size: 1".toList]
      ⟨"Define mesh:".toList, "End mesh".toList, ⟨0, 2, 0⟩, []⟩ = .ret false ⟨"Define mesh:".toList, "End mesh".toList, ⟨0, 2, 1⟩, []⟩ := by decide +kernel
  simp only [run, List.length_cons, List.length_nil]
  rw [loop]
  simp only [Nat.zero_add, Nat.reduceAdd, this]

end TQ

#print axioms TQ.C74_interior
#print axioms TQ.C74_exterior_violated
#print axioms TQ.C74_exterior_partial
#print axioms TQ.C135_violated
#print axioms TQ.C135_partial
#print axioms TQ.C136_boundary_partial
#print axioms TQ.C136_violated
#print axioms TQ.C138_pick
#print axioms TQ.C138_violated
#print axioms TQ.C137_run
#print axioms TQ.C137_violated

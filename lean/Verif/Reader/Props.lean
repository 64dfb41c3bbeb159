import Verif.Reader.Lemmas

/-!
# C70, C71: queries for keys and blocks
-/

namespace TQ
open PR PRSpec

/-- The answers of `k` queries in a row for the same key: the lines reported. -/
def PR.answers (q : Line) (file : List Line) : Nat → Cur → List Hit
  | 0, _ => []
  | k + 1, c => (query q file c).1 :: answers q file k (query q file c).2

/-- The line of an answer. -/
def PR.Hit.line? : Hit → Option Nat
  | .at i _ => some i
  | _ => none

theorem PR.answers_lines (q : Line) (file : List Line) (k : Nat) : ∀ c : Cur, c.be ≤ file.length →
    (answers q file k c).map Hit.line? = ((hits q file (c.bs + c.ix) c.be).map some ++ List.replicate k none).take k := by
  induction k with
  | zero => intro c _; simp [answers]
  | succ k ih =>
    intro c hb
    rcases query_spec q file c hb with ⟨h1, h2⟩ | ⟨i, p, t, l, h1, h2, h3, h4, h5, h6, h7⟩
    · have := ih c hb
      rw [h1] at this ⊢
      simp only [answers, h2, List.map_cons, Hit.line?, this, List.map_nil, List.nil_append]
      rw [List.take_replicate, List.take_replicate]
      simp [List.replicate_succ]
    · have := ih { c with ix := i + 1 - c.bs } hb
      simp only [show c.bs + (i + 1 - c.bs) = i + 1 by omega] at this
      rw [h1, h2]
      simp only [answers, h7, List.map_cons, Hit.line?, this, List.cons_append, List.take_succ_cons, List.cons.injEq, true_and]
      rw [List.take_append, List.take_append, List.take_replicate, List.take_replicate]
      congr 2
      omega

/-- **C70.** The answers of a sequence of queries for a key in the lines `bs ≤ i < be`: the lines that contain the key, in order, each exactly once, and then failures for ever. -/
theorem C70_enumerate (q : Line) (file : List Line) (bs be k : Nat) (hb : be ≤ file.length) :
    (answers q file k ⟨bs, be, 0⟩).map Hit.line? = ((hits q file bs be).map some ++ List.replicate k none).take k :=
  answers_lines q file k ⟨bs, be, 0⟩ hb

/-- **C70.** The lines listed are exactly those inside the block that contain the key, each once. -/
theorem C70_hits (q : Line) (file : List Line) (s e : Nat) :
    (∀ i, i ∈ hits q file s e ↔ s ≤ i ∧ i < e ∧ ∃ l, file[i]? = some l ∧ q <:+: l) ∧ (hits q file s e).Pairwise (· < ·) :=
  ⟨fun _ => mem_hits, (List.pairwise_lt_range' ..).filter _⟩

theorem PR.answers_pos (q : Line) (file : List Line) (k : Nat) : ∀ c : Cur, c.be ≤ file.length → ∀ h ∈ answers q file k c,
    h = .miss ∨ ∃ i p l, h = .at i p ∧ file[i]? = some l ∧ LastAt q l p := by
  induction k with
  | zero => intro c _ h hh; cases hh
  | succ k ih =>
    intro c hb h hh
    simp only [answers, List.mem_cons] at hh
    rcases query_spec q file c hb with ⟨h1, h2⟩ | ⟨i, p, t, l, h1, h2, h3, h4, h5, h6, h7⟩
    · rw [h2] at hh
      rcases hh with rfl | hh
      · exact Or.inl rfl
      · exact ih c hb h hh
    · rw [h7] at hh
      rcases hh with rfl | hh
      · exact Or.inr ⟨i, p, l, rfl, h5, h6⟩
      · exact ih { c with ix := i + 1 - c.bs } hb h hh

/-- **C70.** The position reported in a line is that of the last occurrence of the key, and no line behind the end of the content is read. -/
theorem C70_position (q : Line) (file : List Line) (bs be k : Nat) (hb : be ≤ file.length) :
    ∀ h ∈ answers q file k ⟨bs, be, 0⟩, h = .miss ∨ ∃ i p l, h = .at i p ∧ file[i]? = some l ∧ LastAt q l p :=
  answers_pos q file k ⟨bs, be, 0⟩ hb

/-- The precondition of C70 is needed: with a block end behind the content the query reads a line that does not exist. -/
theorem C70_behind_end : answers "x".toList [] 1 ⟨0, 1, 0⟩ = [.ub] := by decide

/-- A file with two blocks. -/
def PR.demo : List Line :=
  ["Define mesh:".toList, "  Add: 1".toList, "  Add: 2 # Add: 3".toList, "End mesh".toList,
   "Add: 9".toList, "Define mesh:".toList, "End mesh".toList]

example : answers "Add:".toList demo 4 ⟨0, 3, 0⟩ = [.at 1 2, .at 2 11, .miss, .miss] := by decide +kernel

/-! ### Blocks -/

/-- The answers of `k` block queries in a row: the range of lines of the block, if one was found. -/
def PR.blockAnswers (file : List Line) : Nat → Block → List (Option (Nat × Nat))
  | 0, _ => []
  | k + 1, b => match queryBlock file b with
    | .ub => []
    | .ret true b' => some (b'.cur.bs, b'.cur.be) :: blockAnswers file k b'
    | .ret false b' => none :: blockAnswers file k b'

/-- Where the next block query starts to search. -/
def PR.Block.pos (file : List Line) (b : Block) : Nat :=
  if b.cur.be < file.length then b.cur.be else b.cur.bs + b.cur.ix

theorem PR.queryBlock_spec (file : List Line) (b : Block) (hb : b.cur.be ≤ file.length) :
    (∃ s e, Next b.startKey b.endKey file (b.pos file) s e ∧ e < file.length ∧
      ∃ ix, queryBlock file b = .ret true { b with cur := ⟨s, e, ix⟩, paras := b.paras.map fun _ => ⟨s, e, 0⟩ }) ∨
    ((∀ s e, ¬Next b.startKey b.endKey file (b.pos file) s e) ∧
      ∃ c, queryBlock file b = .ret false { b with cur := c } ∧ c.be = file.length ∧
        ∀ s e, ¬Next b.startKey b.endKey file (c.bs + c.ix) s e) := by
  set cur : Cur := if b.cur.be < file.length then ⟨b.cur.be, file.length, 0⟩ else b.cur with hcur
  have hbe : cur.be = file.length := by
    rw [hcur]; split
    · rfl
    · omega
  have hpos : cur.bs + cur.ix = b.pos file := by rw [hcur, Block.pos]; split <;> rfl
  unfold queryBlock
  simp only [← hcur]
  rcases query_spec b.startKey file cur hbe.le with ⟨h1, h2⟩ | ⟨s, p, t, l, h1, h2, h3, h4, h5, h6, h7⟩
  · right
    rw [hbe, hpos] at h1
    have hno : ∀ s e, ¬Next b.startKey b.endKey file (b.pos file) s e := fun s e hn => no_first_of_hits h1 s hn.1
    exact ⟨hno, cur, by rw [h2], hbe, by rw [hpos]; exact hno⟩
  · have hs := first_of_hits h1
    rw [hpos] at hs
    rw [h7]
    simp only
    have hadd : cur.bs + (s + 1 - cur.bs) = s + 1 := by omega
    rcases query_spec b.endKey file { cur with ix := s + 1 - cur.bs } hbe.le with ⟨g1, g2⟩ | ⟨e, p', t', l', g1, g2, g3, g4, g5, g6, g7⟩
    · right
      simp only [hadd, hbe] at g1
      refine ⟨fun s' e' hn => ?_, { cur with ix := s + 1 - cur.bs }, by rw [g2], hbe, fun s' e' hn => ?_⟩
      · obtain rfl := first_unique hn.1 hs
        exact no_first_of_hits g1 e' hn.2
      · simp only [hadd] at hn
        have : e' ∈ hits b.endKey file (s + 1) file.length :=
          mem_hits.2 ⟨by have := hn.1.1; have := hn.2.1; omega, has_lt hn.2.2.1, hn.2.2.1⟩
        rw [g1] at this
        cases this
    · left
      have he := first_of_hits g1
      simp only [hadd] at he
      refine ⟨s, e, ⟨hs, he⟩, has_lt he.2.1, e + 1 - cur.bs, ?_⟩
      rw [g7]

theorem PR.blockAnswers_none (file : List Line) (k : Nat) : ∀ b : Block, b.cur.be = file.length →
    (∀ s e, ¬Next b.startKey b.endKey file (b.cur.bs + b.cur.ix) s e) → blockAnswers file k b = List.replicate k none := by
  induction k with
  | zero => intro b _ _; rfl
  | succ k ih =>
    intro b hb hno
    have hpos : b.pos file = b.cur.bs + b.cur.ix := by simp [Block.pos, hb]
    rcases queryBlock_spec file b hb.le with ⟨s, e, hn, -⟩ | ⟨-, c, h1, h2, h3⟩
    · rw [hpos] at hn; exact (hno s e hn).elim
    · rw [blockAnswers, h1]
      simp only [List.replicate_succ, List.cons.injEq, true_and]
      exact ih { b with cur := c } h2 h3

theorem PR.blockAnswers_blocks (sk ek : Line) (file : List Line) : ∀ (n : Nat) (b : Block), b.startKey = sk → b.endKey = ek →
    file.length - b.pos file = n → b.cur.be ≤ file.length →
    ∃ bs, Blocks sk ek file (b.pos file) bs ∧
      ∀ k, blockAnswers file k b = (bs.map some ++ List.replicate k none).take k := by
  intro n
  induction n using Nat.strong_induction_on with
  | _ n ih =>
    rintro b rfl rfl hn hb
    rcases queryBlock_spec file b hb with ⟨s, e, hne, hlt, ix, h1⟩ | ⟨hno, c, h1, h2, h3⟩
    · have hpos' : Block.pos file { b with cur := ⟨s, e, ix⟩, paras := b.paras.map fun _ => ⟨s, e, 0⟩ } = e := by
        simp [Block.pos, hlt]
      obtain ⟨bs, hbs, hk⟩ := ih (file.length - e) (by have := hne.1.1; have := hne.2.1; omega)
        { b with cur := ⟨s, e, ix⟩, paras := b.paras.map fun _ => ⟨s, e, 0⟩ } rfl rfl (by rw [hpos']) hlt.le
      rw [hpos'] at hbs
      refine ⟨(s, e) :: bs, Blocks.cons hne hbs, fun k => ?_⟩
      cases k with
      | zero => rfl
      | succ k =>
        rw [blockAnswers, h1]
        simp only [hk k, List.map_cons, List.cons_append, List.take_succ_cons, List.cons.injEq, true_and]
        rw [List.take_append, List.take_append, List.take_replicate, List.take_replicate]
        congr 2
        omega
    · refine ⟨[], Blocks.nil hno, fun k => ?_⟩
      cases k with
      | zero => rfl
      | succ k =>
        rw [blockAnswers, h1]
        simp only [blockAnswers_none file k { b with cur := c } h2 h3]
        simp [List.replicate_succ, List.take_replicate]

/-- A block parameter as `new_block_parameter` makes it at the top level. -/
def PR.Block.new (file : List Line) (sk ek : Line) (n : Nat) : Block :=
  ⟨sk, ek, ⟨0, file.length, 0⟩, List.replicate n ⟨0, file.length, 0⟩⟩

/-- **C71.** Repeated block queries return all the definitions of the file, one after the other, and then fail for ever. -/
theorem C71_blocks (file : List Line) (sk ek : Line) (n : Nat) :
    ∃ bs, Blocks sk ek file 0 bs ∧
      ∀ k, blockAnswers file k (Block.new file sk ek n) = (bs.map some ++ List.replicate k none).take k := by
  have := blockAnswers_blocks sk ek file _ (Block.new file sk ek n) rfl rfl rfl le_rfl
  have hp : (Block.new file sk ek n).pos file = 0 := by simp [Block.new, Block.pos]
  rwa [hp] at this

/-- **C71.** The definitions are in order and do not overlap: each ends behind its start and the next one starts at its end at the earliest. -/
theorem C71_disjoint {sk ek : Line} {file : List Line} {pos : Nat} {bs : List (Nat × Nat)} (h : Blocks sk ek file pos bs) :
    bs.Pairwise (fun a b => a.2 ≤ b.1) ∧ ∀ b ∈ bs, pos ≤ b.1 ∧ b.1 < b.2 ∧ b.2 < file.length := by
  induction h with
  | nil _ => simp
  | cons hn _ ih =>
    obtain ⟨h1, h2⟩ := ih
    have hlt := has_lt hn.2.2.1
    have ha := hn.1.1
    have hb := hn.2.1
    refine ⟨List.pairwise_cons.2 ⟨fun b hb' => (h2 b hb').1, h1⟩, ?_⟩
    intro b hb'
    rcases List.mem_cons.1 hb' with rfl | hb'
    · exact ⟨ha, by dsimp only; omega, hlt⟩
    · exact ⟨by have := (h2 b hb').1; omega, (h2 b hb').2⟩

/-- **C71.** What `Blocks` lists is determined by the file. -/
theorem C71_unique {sk ek : Line} {file : List Line} {pos : Nat} {bs bs' : List (Nat × Nat)}
    (h : Blocks sk ek file pos bs) (h' : Blocks sk ek file pos bs') : bs = bs' := by
  induction h generalizing bs' with
  | nil hno =>
    cases h' with
    | nil _ => rfl
    | cons hn _ => exact (hno _ _ hn).elim
  | cons hn _ ih =>
    cases h' with
    | nil hno => exact (hno _ _ hn).elim
    | cons hn' ht =>
      obtain rfl := first_unique hn.1 hn'.1
      obtain rfl := first_unique hn.2 hn'.2
      rw [ih ht]

theorem PR.has_append {q : Line} {a b : List Line} {i : Nat} (h : a.length ≤ i) : Has q (a ++ b) i ↔ Has q b (i - a.length) := by
  simp only [Has, List.getElem?_append_right h]

theorem PR.blocks_layout (sk ek : Line) (tail : List Line) (ht : ∀ l ∈ tail, ¬sk <:+: l) : ∀ (segs : List Seg) (pre : List Line) (pos : Nat),
    (∀ s ∈ segs, SegOK sk ek s) → pos ≤ pre.length → (∀ j, pos ≤ j → j < pre.length → ¬Has sk pre j) →
    Blocks sk ek (pre ++ layout segs tail) pos (ranges pre.length segs) := by
  intro segs
  induction segs with
  | nil =>
    intro pre pos _ hpos hpre
    refine Blocks.nil fun s e hn => ?_
    obtain ⟨⟨h1, ⟨l, hl, hq⟩, -⟩, -⟩ := hn
    simp only [layout, List.flatMap_nil, List.nil_append] at hl
    by_cases hs : s < pre.length
    · rw [List.getElem?_append_left hs] at hl
      exact hpre s h1 hs ⟨l, hl, hq⟩
    · rw [List.getElem?_append_right (by omega)] at hl
      exact ht l (List.mem_of_getElem? hl) hq
  | cons g segs ih =>
    intro pre pos hok hpos hpre
    obtain ⟨k1, k2, k3, k4, k5⟩ := hok g List.mem_cons_self
    have hlay : layout (g :: segs) tail = g.gap ++ g.st :: (g.body ++ g.en :: layout segs tail) := by
      simp [layout]
    set A := pre ++ g.gap with hA
    set file := pre ++ layout (g :: segs) tail with hfile
    have hf1 : file = A ++ g.st :: (g.body ++ g.en :: layout segs tail) := by
      rw [hfile, hlay, hA, List.append_assoc]
    have hf2 : file = (A ++ g.st :: g.body) ++ g.en :: layout segs tail := by
      rw [hf1]; simp
    have hf3 : file = (A ++ g.st :: g.body ++ [g.en]) ++ layout segs tail := by
      rw [hf1]; simp
    have hAl : A.length = pre.length + g.gap.length := by simp [hA]
    have hst : First sk file pos A.length := by
      refine ⟨by omega, ⟨g.st, by rw [hf1]; simp, k2⟩, fun j hj1 hj2 => ?_⟩
      rintro ⟨l, hl, hq⟩
      rw [hf1, List.getElem?_append_left hj2, hA] at hl
      by_cases hs : j < pre.length
      · rw [List.getElem?_append_left hs] at hl
        exact hpre j hj1 hs ⟨l, hl, hq⟩
      · rw [List.getElem?_append_right (by omega)] at hl
        exact k1 l (List.mem_of_getElem? hl) hq
    have hBl : (A ++ g.st :: g.body).length = A.length + g.body.length + 1 := by simp; omega
    have hen : First ek file (A.length + 1) (A.length + g.body.length + 1) := by
      refine ⟨by omega, ⟨g.en, by rw [hf2, ← hBl]; simp, k4⟩, fun j hj1 hj2 => ?_⟩
      rintro ⟨l, hl, hq⟩
      rw [hf2, List.getElem?_append_left (by omega), List.getElem?_append_right (by omega)] at hl
      obtain ⟨m, hm⟩ : ∃ m, j - A.length = m + 1 := ⟨j - A.length - 1, by omega⟩
      rw [hm, List.getElem?_cons_succ] at hl
      exact k3 l (List.mem_of_getElem? hl) hq
    have hrest := ih (A ++ g.st :: g.body ++ [g.en]) (A.length + g.body.length + 1) (fun s hs => hok s (List.mem_cons_of_mem _ hs))
      (by simp; omega) (by
        intro j hj1 hj2
        have : j = A.length + g.body.length + 1 := by simp at hj2; omega
        subst this
        rintro ⟨l, hl, hq⟩
        rw [← hBl] at hl
        simp only [List.getElem?_concat_length, Option.some.injEq] at hl
        subst hl
        exact k5 hq)
    rw [← hf3] at hrest
    have hr : ranges pre.length (g :: segs) = (A.length, A.length + g.body.length + 1) :: ranges (A ++ g.st :: g.body ++ [g.en]).length segs := by
      simp only [ranges, hAl]
      congr 2
      simp; omega
    rw [hr]
    exact Blocks.cons ⟨hst, hen⟩ hrest

/-- **C71.** A file written as a sequence of definitions is read as just these definitions. -/
theorem C71_wellformed (sk ek : Line) (segs : List Seg) (tail : List Line) (hs : ∀ s ∈ segs, SegOK sk ek s) (ht : ∀ l ∈ tail, ¬sk <:+: l)
    (n k : Nat) : blockAnswers (layout segs tail) k (Block.new (layout segs tail) sk ek n) =
      ((ranges 0 segs).map some ++ List.replicate k none).take k := by
  obtain ⟨bs, h1, h2⟩ := C71_blocks (layout segs tail) sk ek n
  have h3 := blocks_layout sk ek tail ht segs [] 0 hs le_rfl (by simp)
  rw [h2 k, C71_unique h1 h3]
  rfl

/-- **C71, C70.** After a successful block query every parameter of the block is searched for from the first line of the block on and only inside of it. -/
theorem C71_parameters (file : List Line) (b b' : Block) (hb : b.cur.be ≤ file.length) (h : queryBlock file b = .ret true b') :
    ∃ s e, Next b.startKey b.endKey file (b.pos file) s e ∧ e < file.length ∧ (∀ c ∈ b'.paras, c = ⟨s, e, 0⟩) ∧
      b'.paras.length = b.paras.length ∧
      ∀ c ∈ b'.paras, ∀ q k, (answers q file k c).map Hit.line? = ((hits q file s e).map some ++ List.replicate k none).take k := by
  rcases queryBlock_spec file b hb with ⟨s, e, hn, hlt, ix, h1⟩ | ⟨-, c, h1, -⟩
  · rw [h1] at h
    cases h
    have hc : ∀ c ∈ b.paras.map (fun _ => (⟨s, e, 0⟩ : Cur)), c = ⟨s, e, 0⟩ := by
      intro c hc
      obtain ⟨_, -, rfl⟩ := List.mem_map.1 hc
      rfl
    refine ⟨s, e, hn, hlt, hc, by simp, fun c hc' q k => ?_⟩
    rw [hc c hc']
    exact C70_enumerate q file s e k hlt.le
  · rw [h1] at h; cases h

example : blockAnswers demo 4 (Block.new demo "Define mesh:".toList "End mesh".toList 1) = [some (0, 3), some (5, 6), none, none] := by
  decide +kernel

/-- The example file as a sequence of definitions. -/
def PR.demoSegs : List Seg :=
  [⟨[], "Define mesh:".toList, ["  Add: 1".toList, "  Add: 2 # Add: 3".toList], "End mesh".toList⟩,
   ⟨["Add: 9".toList], "Define mesh:".toList, [], "End mesh".toList⟩]

example : layout demoSegs [] = demo ∧ ∀ s ∈ demoSegs, SegOK "Define mesh:".toList "End mesh".toList s := by
  unfold SegOK; decide +kernel

end TQ

#print axioms TQ.C70_enumerate
#print axioms TQ.C70_hits
#print axioms TQ.C70_position
#print axioms TQ.C70_behind_end
#print axioms TQ.C71_blocks
#print axioms TQ.C71_disjoint
#print axioms TQ.C71_unique
#print axioms TQ.C71_wellformed
#print axioms TQ.C71_parameters

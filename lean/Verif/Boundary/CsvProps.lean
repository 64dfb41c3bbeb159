import Verif.Boundary.Spec
import Mathlib.Data.Rat.Defs
import Mathlib.Data.Rat.Encodable
import Mathlib.Algebra.Order.Ring.Rat

/-!
# Properties of the CSV boundary reader: C78
-/

set_option linter.unusedSectionVars false

namespace TQ
open BdSpec
variable {K : Type*} [Field K] [LinearOrder K]
variable (stod : List Char → Option K) (stoi : List Char → Option Int)

/-- cells beyond the fifth are skipped -/
theorem csvCells_skip (cs : List (List Char)) : ∀ (i : Nat) (r : CsvRow K), 5 ≤ i →
    csvCells stod stoi i r cs = some (i + cs.length, r) := by
  induction cs with
  | nil => intro i r _; rfl
  | cons c cs ih =>
    intro i r h
    rw [csvCells]
    rw [if_neg (by omega), if_neg (by omega), if_neg (by omega), if_neg (by omega),
      if_neg (by omega)]
    dsimp only
    rw [ih _ _ (by omega)]
    simp; omega

/-- C78: a line is accepted with the row `r` iff its comma separated cells say `r`: two coordinates, a
non-negative marker, optionally the two mesh properties; further cells are ignored. -/
theorem C78_line (line : List Char) (r : CsvRow K) :
    csvLine stod stoi line = .ok r ↔ RowOf stod stoi (splitLoop ',' [] line) r := by
  unfold csvLine
  generalize splitLoop ',' [] line = cells
  rcases cells with _ | ⟨a, _ | ⟨b, _ | ⟨c, _ | ⟨d, _ | ⟨e, more⟩⟩⟩⟩⟩
  · simp [csvCells]; intro h; cases h
  · simp only [csvCells, if_true]
    cases stod a <;> simp <;> (intro h; cases h)
  · simp only [csvCells, if_true]
    cases stod a <;> simp
    · intro h; cases h
    · cases stod b <;> simp <;> (intro h; cases h)
  · simp only [csvCells, if_true]
    cases ha : stod a with
    | none => simp; intro h; cases h; simp_all
    | some x =>
      cases hb : stod b with
      | none => simp; intro h; cases h; simp_all
      | some y =>
        cases hc : stoi c with
        | none => simp; intro h; cases h; simp_all
        | some m =>
          simp
          by_cases hm : m < 0
          · rw [if_pos hm]; simp; intro h; cases h; simp_all; omega
          · rw [if_neg hm]
            constructor
            · intro h; cases h; exact .three ha hb hc (by omega)
            · intro h; cases h; simp_all
  · simp only [csvCells, if_true]
    cases ha : stod a with
    | none => simp; intro h; cases h; simp_all
    | some x =>
      cases hb : stod b with
      | none => simp; intro h; cases h; simp_all
      | some y =>
        cases hc : stoi c with
        | none => simp; intro h; cases h; simp_all
        | some m =>
          cases hd : stod d with
          | none => simp; intro h; cases h; simp_all
          | some s =>
            simp
            by_cases hm : m < 0
            · rw [if_pos hm]; simp; intro h; cases h; simp_all; omega
            · rw [if_neg hm]
              constructor
              · intro h; cases h; exact .four ha hb hc (by omega) hd
              · intro h; cases h; simp_all
  · simp only [csvCells, if_true]
    cases ha : stod a with
    | none => simp; intro h; cases h; simp_all
    | some x =>
      cases hb : stod b with
      | none => simp; intro h; cases h; simp_all
      | some y =>
        cases hc : stoi c with
        | none => simp; intro h; cases h; simp_all
        | some m =>
          cases hd : stod d with
          | none => simp; intro h; cases h; simp_all
          | some s =>
            cases he : stod e with
            | none => simp; intro h; cases h; simp_all
            | some t =>
              simp [csvCells_skip]
              rw [if_neg (by omega)]
              by_cases hm : m < 0
              · rw [if_pos hm]; simp; intro h; cases h; simp_all; omega
              · rw [if_neg hm]
                constructor
                · intro h; cases h; exact .five ha hb hc (by omega) hd he
                · intro h; cases h; simp_all

theorem csvLoop_spec (ls : List (List Char)) : ∀ (i : Nat) (acc : List (CsvRow K)),
    (∀ rows, csvLoop stod stoi i acc ls = .ok rows →
      ∃ new, rows = acc ++ new ∧ new.length = ls.length ∧
        ∀ (k : Nat) (h : k < ls.length) (h' : k < new.length), csvLine stod stoi ls[k] = .ok new[k]) ∧
    (∀ e n, csvLoop stod stoi i acc ls = .error (e, n) →
      ∃ k, ∃ h : k < ls.length, n = i + k ∧ csvLine stod stoi ls[k] = .error e ∧
        ∀ (m : Nat) (hm : m < k), ∃ r, csvLine stod stoi ls[m] = .ok r) := by
  induction ls with
  | nil =>
    intro i acc
    constructor
    · intro rows h; simp [csvLoop] at h; subst h; exact ⟨[], by simp, rfl, by simp⟩
    · intro e n h; simp [csvLoop] at h
  | cons l ls ih =>
    intro i acc
    cases hl : csvLine stod stoi l with
    | error e0 =>
      constructor
      · intro rows h; rw [csvLoop, hl] at h; simp at h
      · intro e n h
        rw [csvLoop, hl] at h; simp at h
        obtain ⟨rfl, rfl⟩ := h
        exact ⟨0, by simp, rfl, hl, by intro m hm; omega⟩
    | ok r =>
      constructor
      · intro rows h
        rw [csvLoop, hl] at h; dsimp only at h
        obtain ⟨new, h1, h2, h3⟩ := (ih (i + 1) (acc ++ [r])).1 rows h
        refine ⟨r :: new, by rw [h1]; simp, by simp [h2], ?_⟩
        intro k hk hk'
        cases k with
        | zero => exact hl
        | succ k => exact h3 k (by simpa using hk) (by simpa using hk')
      · intro e n h
        rw [csvLoop, hl] at h; dsimp only at h
        obtain ⟨k, hk, h1, h2, h3⟩ := (ih (i + 1) (acc ++ [r])).2 e n h
        refine ⟨k + 1, by simpa using hk, by omega, h2, ?_⟩
        intro m hm
        cases m with
        | zero => exact ⟨r, hl⟩
        | succ m => exact h3 m (by omega)

/-- C78: reading succeeds iff every line is well formed; the rows are then those of the lines, in
order.  Otherwise the number of the first malformed line (counted from 1) is reported. -/
theorem C78_file (file : List Char) :
    (∀ rows, csvRead stod stoi file = .ok rows →
      rows.length = (splitLoop '\n' [] file).length ∧
      ∀ (k : Nat) (h : k < (splitLoop '\n' [] file).length) (h' : k < rows.length),
        RowOf stod stoi (splitLoop ',' [] (splitLoop '\n' [] file)[k]) rows[k]) ∧
    (∀ e n, csvRead stod stoi file = .error (e, n) →
      ∃ k, ∃ h : k < (splitLoop '\n' [] file).length, n = k + 1 ∧
        (¬ ∃ r, RowOf stod stoi (splitLoop ',' [] (splitLoop '\n' [] file)[k]) r) ∧
        ∀ (m : Nat) (hm : m < k), ∃ r,
          RowOf stod stoi (splitLoop ',' [] (splitLoop '\n' [] file)[m]) r) := by
  unfold csvRead
  obtain ⟨h1, h2⟩ := csvLoop_spec stod stoi (splitLoop '\n' [] file) 1 []
  constructor
  · intro rows h
    obtain ⟨new, e1, e2, e3⟩ := h1 rows h
    simp only [List.nil_append] at e1
    subst e1
    exact ⟨e2, fun k hk hk' => (C78_line stod stoi _ _).mp (e3 k hk hk')⟩
  · intro e n h
    obtain ⟨k, hk, e1, e2, e3⟩ := h2 e n h
    refine ⟨k, hk, by omega, ?_, ?_⟩
    · rintro ⟨r, hr⟩
      rw [(C78_line stod stoi _ _).mpr hr] at e2
      simp at e2
    · intro m hm
      obtain ⟨r, hr⟩ := e3 m hm
      exact ⟨r, (C78_line stod stoi _ _).mp hr⟩

/-! ### round trip -/

theorem splitLoop_append (d : Char) (a : List Char) (ha : d ∉ a) (rest : List Char) :
    ∀ cur, splitLoop d cur (a ++ d :: rest) = (cur ++ a) :: splitLoop d [] rest := by
  induction a with
  | nil => intro cur; simp [splitLoop]
  | cons c a ih =>
    intro cur
    have hc : ¬ c = d := by intro h; apply ha; simp [h]
    rw [List.cons_append, splitLoop, if_neg hc, ih (fun h => ha (List.mem_cons_of_mem _ h))]
    simp

theorem splitLoop_last (d : Char) (a : List Char) (ha : d ∉ a) :
    ∀ cur, cur ++ a ≠ [] → splitLoop d cur a = [cur ++ a] := by
  induction a with
  | nil =>
    intro cur h
    rw [splitLoop, if_neg (by simpa using h)]; simp
  | cons c a ih =>
    intro cur h
    have hc : ¬ c = d := by intro h; apply ha; simp [h]
    rw [splitLoop, if_neg hc, ih (fun h => ha (List.mem_cons_of_mem _ h)) _ (by simp)]
    simp

/-- C78: a file written line by line in the documented format is read back unchanged, for every
rendering of numbers that `stod`, `stoi` invert and that contains neither commas nor line breaks. -/
theorem C78_round_trip (shw : K → List Char) (shi : Int → List Char)
    (hd : ∀ x, stod (shw x) = some x) (hi : ∀ m, stoi (shi m) = some m)
    (hc : ∀ x, ',' ∉ shw x ∧ '\n' ∉ shw x) (hci : ∀ m, ',' ∉ shi m ∧ '\n' ∉ shi m)
    (hne : ∀ x, shw x ≠ []) (rows : List (CsvRow K)) (hpos : ∀ r ∈ rows, 0 ≤ r.color) :
    csvRead stod stoi (rows.flatMap (renderRow shw shi)) = .ok rows := by
  unfold csvRead
  have line : ∀ r : CsvRow K, ∃ l, renderRow shw shi r = l ++ ['\n'] ∧ '\n' ∉ l ∧
      (0 ≤ r.color → csvLine stod stoi l = .ok r) := by
    intro r
    refine ⟨shw r.coords.x ++ [','] ++ shw r.coords.y ++ [','] ++ shi r.color ++ [','] ++
      shw r.props.x ++ [','] ++ shw r.props.y, rfl, ?_, ?_⟩
    · simp [(hc _).2, (hci _).2]
    · intro h
      rw [C78_line]
      have : shw r.coords.x ++ [','] ++ shw r.coords.y ++ [','] ++ shi r.color ++ [','] ++
          shw r.props.x ++ [','] ++ shw r.props.y =
          shw r.coords.x ++ ',' :: (shw r.coords.y ++ ',' :: (shi r.color ++ ',' ::
            (shw r.props.x ++ ',' :: shw r.props.y))) := by simp
      rw [this, splitLoop_append _ _ (hc _).1, splitLoop_append _ _ (hc _).1,
        splitLoop_append _ _ (hci _).1, splitLoop_append _ _ (hc _).1,
        splitLoop_last _ _ (hc _).1 _ (by simpa using hne _)]
      exact .five (hd _) (hd _) (hi _) h (hd _) (hd _)
  have loop : ∀ (rows : List (CsvRow K)) (n : Nat) (acc : List (CsvRow K)),
      (∀ r ∈ rows, 0 ≤ r.color) →
      csvLoop stod stoi n acc (splitLoop '\n' [] (rows.flatMap (renderRow shw shi))) =
        .ok (acc ++ rows) := by
    intro rows
    induction rows with
    | nil => intro n acc _; simp [splitLoop, csvLoop]
    | cons r rows ih =>
      intro n acc h
      obtain ⟨l, h1, h2, h3⟩ := line r
      rw [List.flatMap_cons, h1, List.append_assoc, List.singleton_append,
        splitLoop_append _ _ h2, csvLoop, List.nil_append, h3 (h r (by simp))]
      dsimp only
      rw [ih _ _ fun r hr => h r (List.mem_cons_of_mem _ hr)]
      simp
  rw [loop rows 1 [] hpos]; simp

/-- the hypotheses of the round trip can be met: numbers in unary notation -/
example : ∃ (stod : List Char → Option ℚ) (stoi : List Char → Option Int) (shw : ℚ → List Char)
    (shi : Int → List Char), (∀ x, stod (shw x) = some x) ∧ (∀ m, stoi (shi m) = some m) ∧
    (∀ x, ',' ∉ shw x ∧ '\n' ∉ shw x) ∧ (∀ m, ',' ∉ shi m ∧ '\n' ∉ shi m) ∧ ∀ x, shw x ≠ [] := by
  refine ⟨fun s => Encodable.decode (s.length - 1), fun s => Encodable.decode s.length,
    fun x => List.replicate (Encodable.encode x + 1) '1', fun m => List.replicate (Encodable.encode m) '1',
    ?_, ?_, ?_, ?_, ?_⟩
  · intro x; simp
  · intro m; simp
  · intro x; simp [List.mem_replicate]
  · intro m; simp [List.mem_replicate]
  · intro x; simp

/-- decimal digit readers for the example -/
def stodEx (s : List Char) : Option ℚ := if s = ['1'] then some 1 else if s = ['2'] then some 2 else none
def stoiEx (s : List Char) : Option Int := if s = ['3'] then some 3 else none

example : csvRead stodEx stoiEx "1,2,3\n2,1,3,1\n".toList =
      .ok [⟨⟨1, 2⟩, ⟨0, 0⟩, 3⟩, ⟨⟨2, 1⟩, ⟨1, 0⟩, 3⟩] ∧
    csvRead stodEx stoiEx "1,2,3\n2,x,3\n1\n".toList = .error (.invalid, 2) ∧
    csvRead stodEx stoiEx "1,2,3\n1\n".toList = .error (.missing, 2) ∧
    csvRead stodEx stoiEx "1,2\n".toList = .error (.color, 1) := by
  refine ⟨?_, ?_, ?_, ?_⟩ <;> decide +kernel

end TQ

#print axioms TQ.C78_line
#print axioms TQ.C78_file
#print axioms TQ.C78_round_trip

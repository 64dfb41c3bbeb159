import Verif.Reader.MatrixLemmas
import Verif.Reader.Props
import Mathlib.Tactic.IntervalCases

/-!
# C72, C73, C127-C134: values of parameters
-/

namespace TQ
open PR PRSpec

variable {T : Type*}

/-- `operator>>` for natural numbers, for the examples: leading blanks are skipped, digits are read, something else at the beginning is a failure. -/
def PR.convN (s : Line) : Option Nat :=
  let ds := (s.dropWhile isSpace).takeWhile Char.isDigit
  if ds = [] then none else some (ds.foldl (fun n c => 10 * n + (c.toNat - 48)) 0)

/-- `query_matrix` when the definition is at the lines `s` to `e`. -/
theorem PR.queryMatrix_at (conv : Line → Option T) (zero : T) (dflt : Option T) (content : List Line) (p : Para T) (s e : Nat)
    (hn : 0 < p.ncol) (hb : p.cur.be ≤ content.length) (hs : First p.startKey content (p.cur.bs + p.cur.ix) s)
    (he : First p.endKey content (s + 1) e) (heb : e < p.cur.be) :
    queryMatrix conv zero dflt content p =
      let p1 := { p with cur := ⟨p.cur.bs, p.cur.be, e + 1 - p.cur.bs⟩ }
      let out := processMatrix conv dflt p.ncol ((content.take e).drop (s + 1))
      if out.length ≠ p.ncol * (out.length / p.ncol) then .ret false p1
      else .ret true { setRows zero out (out.length / p.ncol) 0 (p1.resize zero) with found := true } := by
  have hse := he.1
  have h0 := hs.1
  obtain ⟨p1, l1, -, -, e1⟩ := query_first hb hs (by omega)
  have hadd : p.cur.bs + (s + 1 - p.cur.bs) = s + 1 := by omega
  obtain ⟨p2, l2, -, -, e2⟩ := query_first (c := { p.cur with ix := s + 1 - p.cur.bs }) hb (by simpa only [hadd] using he) heb
  unfold queryMatrix
  rw [e1]
  simp only
  rw [e2]
  simp only
  rw [if_neg (by omega), if_neg (by omega)]

theorem PR.body_get (content : List Line) (s e j : Nat) (h : s + 1 + j < e) : ((content.take e).drop (s + 1))[j]? = content[s + 1 + j]? := by
  rw [List.getElem?_drop, List.getElem?_take_of_lt h]

theorem PR.body_length (content : List Line) (s e : Nat) (h : e ≤ content.length) : ((content.take e).drop (s + 1)).length = e - (s + 1) := by
  simp only [List.length_drop, List.length_take]; omega

/-- **C72.** A matrix definition with at least one line whose lines have no more cells than the matrix columns is read line by line: cell `i` of line `j`, or the default value. The next query continues behind the definition. -/
theorem C72_matrix (conv : Line → Option T) (zero d : T) (content : List Line) (p : Para T) (s e : Nat)
    (hk : p.kind = .matrix) (hn : 0 < p.ncol) (hb : p.cur.be ≤ content.length)
    (hs : First p.startKey content (p.cur.bs + p.cur.ix) s) (he : First p.endKey content (s + 1) e) (heb : e < p.cur.be)
    (hne : s + 1 < e) (hcells : ∀ i l, s < i → i < e → content[i]? = some l → (cells l).length ≤ p.ncol) :
    ∃ p', queryMatrix conv zero (some d) content p = .ret true p' ∧ p'.found = true ∧ p'.ncol = p.ncol ∧ p'.nrow = e - (s + 1) ∧
      p'.cur = ⟨p.cur.bs, p.cur.be, e + 1 - p.cur.bs⟩ ∧
      ∀ j l, s + 1 + j < e → content[s + 1 + j]? = some l → ∀ i, i < p.ncol → p'.value2 i j = some (cellValue conv d l i) := by
  have hec : e ≤ content.length := by omega
  have hbl := body_length content s e hec
  set body := (content.take e).drop (s + 1) with hbody
  have hcl : ∀ l ∈ body, (cells l).length ≤ p.ncol := by
    intro l hl
    obtain ⟨j, hj⟩ := List.mem_iff_getElem?.1 hl
    have hj' : j < body.length := (List.getElem?_eq_some_iff.1 hj).1
    rw [body_get content s e j (by omega)] at hj
    exact hcells _ l (by omega) (by omega) hj
  have hrow : ∀ l ∈ body, processVector conv (some d) p.ncol l = (List.range p.ncol).map fun i => cellValue conv d l i :=
    fun l hl => processVector_default conv d p.ncol l (hcl l hl)
  have hlen : ∀ l ∈ body, (processVector conv (some d) p.ncol l).length = p.ncol := fun l hl => by rw [hrow l hl]; simp
  set out := processMatrix conv (some d) p.ncol body with hout
  have hol : out.length = p.ncol * body.length := flatMap_length _ _ _ hlen
  have hdiv : out.length / p.ncol = body.length := by rw [hol, Nat.mul_div_cancel_left _ hn]
  rw [queryMatrix_at conv zero (some d) content p s e hn hb hs he heb]
  simp only [← hbody, ← hout, hdiv]
  rw [if_neg (by rw [hol]; simp)]
  rw [setRows_resize zero out body.length { p with cur := ⟨p.cur.bs, p.cur.be, e + 1 - p.cur.bs⟩ } hk (by omega) hol]
  refine ⟨_, rfl, rfl, rfl, hbl, rfl, fun j l hj hl i hi => ?_⟩
  simp only [Para.value2]
  have hjb : j < body.length := by omega
  have hbig : ¬p.ncol * body.length ≤ j * p.ncol + i := by
    have : p.ncol * (j + 1) ≤ p.ncol * body.length := Nat.mul_le_mul_left _ hjb
    rw [Nat.mul_add, Nat.mul_comm p.ncol j] at this
    omega
  rw [if_neg hbig, hout, processMatrix, flatMap_getElem _ p.ncol body hlen j i hi]
  rw [hbody, body_get content s e j hj, hl, Option.bind_some]
  rw [hrow l (by rw [List.mem_iff_getElem?]; exact ⟨j, by rw [hbody, body_get content s e j hj, hl]⟩)]
  rw [List.getElem?_map, List.getElem?_range hi]
  rfl

/-- The matrix of the examples. -/
def PR.mat (content : List Line) (n : Nat) (vals : List Nat) : Para Nat :=
  ⟨.matrix, "Def".toList, "End".toList, ⟨0, content.length, 0⟩, false, n, 1, vals⟩

/-- Flag, number of rows and values after a query. -/
def PR.Res.view : Res T → Option (Bool × Nat × List T)
  | .ub => none
  | .ret b p => some (b, p.nrow, p.vals)

/-- The flag of a result. -/
def PR.Res.flag : Res T → Option Bool
  | .ub => none
  | .ret b _ => some b

/-- The parameter of a result. -/
def PR.Res.para (p : Para T) : Res T → Para T
  | .ub => p
  | .ret _ p' => p'

theorem PR.Res.of_flag (p : Para T) {r : Res T} {b : Bool} (h : r.flag = some b) : r = .ret b (r.para p) := by
  cases r with
  | ub => cases h
  | ret b' p' => cases h; rfl

/-- An example definition: two lines, the second with a missing and an unreadable cell. -/
def PR.matFile : List Line := ["Def".toList, "(1, 2), 3".toList, "x, 5".toList, "End".toList]

example : (queryMatrix convN 0 (some 9) matFile (mat matFile 3 [0, 0, 0])).view = some (true, 2, [1, 2, 3, 9, 5, 9]) := by decide +kernel

example : First "Def".toList matFile 0 0 ∧ First "End".toList matFile 1 3 := by
  refine ⟨⟨by decide, by decide +kernel, by omega⟩, ⟨by decide, by decide +kernel, ?_⟩⟩
  intro j h1 h2
  have : j = 1 ∨ j = 2 := by omega
  rcases this with rfl | rfl <;> decide +kernel

/-! ### Empty definitions -/

/-- **C73 is violated:** a definition without lines is accepted and has one row with the values of the previous definition. -/
theorem C73_violated : ∃ (content : List Line) (p : Para Nat), p.kind = .matrix ∧ First p.startKey content 0 0 ∧ First p.endKey content 1 1 ∧
    ∃ p', queryMatrix convN 0 (some 9) content p = .ret true p' ∧ p'.nrow = 1 ∧ p'.value2 0 0 = some 7 := by
  refine ⟨["Def".toList, "End".toList], mat ["Def".toList, "End".toList] 2 [7, 8], rfl, ⟨by omega, by decide +kernel, by omega⟩,
    ⟨by omega, by decide +kernel, by omega⟩, _, Res.of_flag (mat [] 2 []) (by decide +kernel), by decide +kernel, by decide +kernel⟩

/-- **C73, what the code does:** a definition without lines always yields one row, namely the first row of the previous definition. -/
theorem C73_empty (conv : Line → Option T) (zero : T) (dflt : Option T) (content : List Line) (p : Para T) (s : Nat)
    (hn : 0 < p.ncol) (hb : p.cur.be ≤ content.length) (hv : p.ncol ≤ p.vals.length)
    (hs : First p.startKey content (p.cur.bs + p.cur.ix) s) (he : First p.endKey content (s + 1) (s + 1)) (heb : s + 1 < p.cur.be) :
    ∃ p', queryMatrix conv zero dflt content p = .ret true p' ∧ p'.found = true ∧ p'.nrow = 1 ∧ p'.vals = p.vals.take p.ncol := by
  rw [queryMatrix_at conv zero dflt content p s (s + 1) hn hb hs he heb]
  have : (content.take (s + 1)).drop (s + 1) = [] := by simp
  simp only [this, processMatrix, List.flatMap_nil, List.length_nil, Nat.zero_div]
  rw [if_neg (by simp)]
  refine ⟨_, rfl, rfl, rfl, ?_⟩
  simp [setRows, Para.resize, resizeTo, Nat.sub_eq_zero_of_le hv]

/-- **C73 for definitions with lines:** the number of rows is the number of lines. -/
theorem C73_partial (conv : Line → Option T) (zero d : T) (content : List Line) (p p' : Para T) (s e : Nat)
    (hk : p.kind = .matrix) (hn : 0 < p.ncol) (hb : p.cur.be ≤ content.length)
    (hs : First p.startKey content (p.cur.bs + p.cur.ix) s) (he : First p.endKey content (s + 1) e) (heb : e < p.cur.be)
    (hne : s + 1 < e) (hcells : ∀ i l, s < i → i < e → content[i]? = some l → (cells l).length ≤ p.ncol)
    (h : queryMatrix conv zero (some d) content p = .ret true p') : p'.nrow = e - (s + 1) := by
  obtain ⟨p'', h1, -, -, h2, -⟩ := C72_matrix conv zero d content p s e hk hn hb hs he heb hne hcells
  rw [h1] at h
  cases h
  exact h2

/-! ### Shape of matrices -/

/-- **C127 is violated without default values:** four values in the first and two in the second line are accepted for three columns, and the last value of the first line lands in the second row. -/
theorem C127_violated : ∃ (content : List Line) (p : Para Nat) (p' : Para Nat), p.kind = .matrix ∧ p.ncol = 3 ∧
    content[1]?.map (fun l => (cells l).length) = some 4 ∧ content[2]?.map (fun l => (cells l).length) = some 2 ∧
    queryMatrix convN 0 none content p = .ret true p' ∧ p'.value2 0 1 = some 4 := by
  refine ⟨["Def".toList, "1,2,3,4".toList, "5,6".toList, "End".toList],
    mat ["Def".toList, "1,2,3,4".toList, "5,6".toList, "End".toList] 3 [0, 0, 0], _, rfl, rfl, by decide +kernel, by decide +kernel,
    Res.of_flag (mat [] 2 []) (by decide +kernel), by decide +kernel⟩

/-- **C127 is violated with default values:** two lines with three values for two columns are accepted as three rows. -/
theorem C127_violated_default : (queryMatrix convN 0 (some 9) ["Def".toList, "1,2,3".toList, "4,5,6".toList, "End".toList]
    (mat ["Def".toList, "1,2,3".toList, "4,5,6".toList, "End".toList] 2 [0, 0])).view = some (true, 3, [1, 2, 3, 4, 5, 6]) := by decide +kernel

/-- **C127, what holds:** without default values, if every line has as many cells as the matrix columns and all cells can be read, then cell `i` of line `j` is read to the place `(i,j)`. -/
theorem C127_partial (conv : Line → Option T) (zero : T) (content : List Line) (p : Para T) (s e : Nat)
    (hk : p.kind = .matrix) (hn : 0 < p.ncol) (hb : p.cur.be ≤ content.length)
    (hs : First p.startKey content (p.cur.bs + p.cur.ix) s) (he : First p.endKey content (s + 1) e) (heb : e < p.cur.be)
    (hne : s + 1 < e) (hcells : ∀ i l, s < i → i < e → content[i]? = some l →
      (cells l).length = p.ncol ∧ ∀ c ∈ cells l, ∃ v, conv (bare c) = some v) :
    ∃ p', queryMatrix conv zero none content p = .ret true p' ∧ p'.nrow = e - (s + 1) ∧
      ∀ j l, s + 1 + j < e → content[s + 1 + j]? = some l → ∀ i c, (cells l)[i]? = some c → p'.value2 i j = conv (bare c) := by
  have hec : e ≤ content.length := by omega
  have hbl := body_length content s e hec
  set body := (content.take e).drop (s + 1) with hbody
  have hcl : ∀ l ∈ body, (cells l).length = p.ncol ∧ ∀ c ∈ cells l, ∃ v, conv (bare c) = some v := by
    intro l hl
    obtain ⟨j, hj⟩ := List.mem_iff_getElem?.1 hl
    have hj' : j < body.length := (List.getElem?_eq_some_iff.1 hj).1
    rw [body_get content s e j (by omega)] at hj
    exact hcells _ l (by omega) (by omega) hj
  have hall : ∀ cs : List Line, (∀ c ∈ cs, ∃ v, conv (bare c) = some v) →
      (cs.filterMap fun c => conv (bare c)).length = cs.length ∧ ∀ (i : Nat) (c : Line), cs[i]? = some c → (cs.filterMap fun c => conv (bare c))[i]? = conv (bare c) := by
    intro cs
    induction cs with
    | nil => intro _; simp
    | cons c cs ih =>
      intro h
      obtain ⟨v, hv⟩ := h c List.mem_cons_self
      obtain ⟨h1, h2⟩ := ih fun c hc => h c (List.mem_cons_of_mem _ hc)
      rw [List.filterMap_cons, hv]
      refine ⟨by simp [h1], fun i c' hi => ?_⟩
      cases i with
      | zero => simp at hi; subst hi; simp [hv]
      | succ i => simp at hi ⊢; exact h2 i c' hi
  have hpv : ∀ l, processVector conv none p.ncol l = (cells l).filterMap fun c => conv (bare c) := by
    intro l; simp only [processVector, fill, entries_nodefault]
  have hlen : ∀ l ∈ body, (processVector conv none p.ncol l).length = p.ncol := fun l hl => by
    rw [hpv, (hall _ (hcl l hl).2).1, (hcl l hl).1]
  set out := processMatrix conv none p.ncol body with hout
  have hol : out.length = p.ncol * body.length := flatMap_length _ _ _ hlen
  have hdiv : out.length / p.ncol = body.length := by rw [hol, Nat.mul_div_cancel_left _ hn]
  rw [queryMatrix_at conv zero none content p s e hn hb hs he heb]
  simp only [← hbody, ← hout, hdiv]
  rw [if_neg (by rw [hol]; simp)]
  rw [setRows_resize zero out body.length { p with cur := ⟨p.cur.bs, p.cur.be, e + 1 - p.cur.bs⟩ } hk (by omega) hol]
  refine ⟨_, rfl, hbl, fun j l hj hl i c hc => ?_⟩
  have hlb : l ∈ body := by rw [List.mem_iff_getElem?]; exact ⟨j, by rw [hbody, body_get content s e j hj, hl]⟩
  have hi : i < p.ncol := by rw [← (hcl l hlb).1]; exact (List.getElem?_eq_some_iff.1 hc).1
  simp only [Para.value2]
  have hjb : j < body.length := by omega
  have hbig : ¬p.ncol * body.length ≤ j * p.ncol + i := by
    have : p.ncol * (j + 1) ≤ p.ncol * body.length := Nat.mul_le_mul_left _ hjb
    rw [Nat.mul_add, Nat.mul_comm p.ncol j] at this
    omega
  rw [if_neg hbig, hout, processMatrix, flatMap_getElem _ p.ncol body hlen j i hi]
  rw [hbody, body_get content s e j hj, hl, Option.bind_some, hpv]
  exact (hall _ (hcl l hlb).2).2 i c hc

example : (queryMatrix convN 0 none ["Def".toList, "1,2".toList, "3,4".toList, "End".toList]
    (mat ["Def".toList, "1,2".toList, "3,4".toList, "End".toList] 2 [0, 0])).view = some (true, 2, [1, 2, 3, 4]) := by decide +kernel

/-! ### Comments and blank lines inside a matrix -/

/-- **C129 is violated:** a comment behind the cells of a matrix line is read as well; what stands behind a comma of the comment becomes a value. -/
theorem C129_violated : ∃ (l : Line) (p p' : Para Nat), l = "1, 2 # see page 4, 7".toList ∧ p.ncol = 3 ∧
    queryMatrix convN 0 (some 9) ["Def".toList, l, "End".toList] p = .ret true p' ∧ p'.value2 2 0 = some 7 :=
  ⟨_, mat ["Def".toList, "1, 2 # see page 4, 7".toList, "End".toList] 3 [0, 0, 0], _, rfl, rfl,
    Res.of_flag (mat [] 2 []) (by decide +kernel), by decide +kernel⟩

theorem PR.cells_nil : cells [] = [] := by decide

/-- **C130 is violated in general:** a blank line inside a matrix definition with default values is a row of default values. -/
theorem C130_violated (conv : Line → Option T) (zero d : T) (content : List Line) (p : Para T) (s e j : Nat)
    (hk : p.kind = .matrix) (hn : 0 < p.ncol) (hb : p.cur.be ≤ content.length)
    (hs : First p.startKey content (p.cur.bs + p.cur.ix) s) (he : First p.endKey content (s + 1) e) (heb : e < p.cur.be)
    (hcells : ∀ i l, s < i → i < e → content[i]? = some l → (cells l).length ≤ p.ncol)
    (hj : s + 1 + j < e) (hblank : content[s + 1 + j]? = some []) :
    ∃ p', queryMatrix conv zero (some d) content p = .ret true p' ∧ j < p'.nrow ∧ ∀ i, i < p.ncol → p'.value2 i j = some d := by
  obtain ⟨p', h1, -, -, h2, -, h3⟩ := C72_matrix conv zero d content p s e hk hn hb hs he heb (by omega) hcells
  refine ⟨p', h1, by omega, fun i hi => ?_⟩
  rw [h3 j [] hj hblank i hi]
  simp [cellValue, cells_nil]

example : (queryMatrix convN 0 (some 9) ["Def".toList, "1,2".toList, [], "3,4".toList, "End".toList]
    (mat ["Def".toList, "1,2".toList, [], "3,4".toList, "End".toList] 2 [0, 0])).view = some (true, 3, [1, 2, 9, 9, 3, 4]) := by decide +kernel

/-! ### Values out of range -/

/-- **C131 is violated:** `get_value(i,j)` with a column that does not exist answers with the value of another place, and behind the last value with the first one. -/
theorem C131_violated : ∃ p : Para Nat, p.ncol = 2 ∧ p.nrow = 2 ∧ p.value2 2 0 = p.value2 0 1 ∧ p.value2 0 1 ≠ p.value2 0 0 ∧
    p.value2 0 5 = p.value2 0 0 :=
  ⟨⟨.matrix, [], [], ⟨0, 0, 0⟩, true, 2, 2, [1, 2, 3, 4]⟩, rfl, rfl, by decide, by decide, by decide⟩

/-- **C131, what holds:** places inside the matrix are distinct cells of the stored list, none of them is out of range, and a read never leaves the list. -/
theorem C131_partial (p : Para T) (hv : p.vals.length = p.ncol * p.nrow) (h0 : 0 < p.ncol * p.nrow) :
    (∀ i j, i < p.ncol → j < p.nrow → p.value2 i j = p.vals[j * p.ncol + i]? ∧ j * p.ncol + i < p.vals.length) ∧
    (∀ i j i' j', i < p.ncol → i' < p.ncol → j * p.ncol + i = j' * p.ncol + i' → i = i' ∧ j = j') ∧
    ∀ i j, ∃ v, p.value2 i j = some v := by
  refine ⟨fun i j hi hj => ?_, fun i j i' j' hi hi' h => ?_, fun i j => ?_⟩
  · have : p.ncol * (j + 1) ≤ p.ncol * p.nrow := Nat.mul_le_mul_left _ hj
    rw [Nat.mul_add, Nat.mul_comm p.ncol j] at this
    refine ⟨?_, by omega⟩
    simp only [Para.value2]
    rw [if_neg (by omega)]
  · have hn : 0 < p.ncol := by omega
    have h1 : (j * p.ncol + i) % p.ncol = i := by rw [Nat.mul_comm, Nat.mul_add_mod]; exact Nat.mod_eq_of_lt hi
    have h2 : (j' * p.ncol + i') % p.ncol = i' := by rw [Nat.mul_comm, Nat.mul_add_mod]; exact Nat.mod_eq_of_lt hi'
    have hii : i = i' := by rw [← h1, ← h2, h]
    subst hii
    refine ⟨rfl, ?_⟩
    have : j * p.ncol = j' * p.ncol := by omega
    exact Nat.eq_of_mul_eq_mul_right hn this
  · simp only [Para.value2]
    split
    · exact ⟨p.vals[0], List.getElem?_eq_getElem (by omega)⟩
    · exact ⟨p.vals[j * p.ncol + i], List.getElem?_eq_getElem (by omega)⟩

/-! ### Scalars -/

theorem PR.valueOf_of_last {q l : Line} {pos : Nat} (h : LastAt q l pos) : ValueOf q l (strip (l.drop (pos + q.length))) := by
  obtain ⟨⟨a, b, rfl, rfl⟩, h2⟩ := h
  refine ⟨a, b, rfl, h2, ?_⟩
  have : (a ++ q ++ b).drop (a.length + q.length) = b := by
    rw [← List.length_append, List.drop_left]
  rw [this]
  rfl

theorem PR.valueOf_unique {q l t t' : Line} (h : ValueOf q l t) (h' : ValueOf q l t') : t = t' := by
  obtain ⟨a, b, e1, h1, rfl⟩ := h
  obtain ⟨a', b', e2, h2, rfl⟩ := h'
  have hl : a.length = a'.length := Nat.le_antisymm (h2 _ ⟨a, b, e1, rfl⟩) (h1 _ ⟨a', b', e2, rfl⟩)
  have : a ++ (q ++ b) = a' ++ (q ++ b') := by rw [← List.append_assoc, ← e1, e2, List.append_assoc]
  obtain ⟨-, h3⟩ := List.append_inj this hl
  rw [List.append_cancel_left h3]

/-- **C132.** A scalar query reads the value behind the last occurrence of the key in the first line with the key; it fails just if there is no such line in the block or the value cannot be read. -/
theorem C132_scalar (conv : Line → Option T) (content : List Line) (p : Para T) (hb : p.cur.be ≤ content.length)
    (hn : p.ncol = 1) (hr : p.nrow = 1) (hv : p.vals.length = 1) :
    (∀ i l t v, First p.startKey content (p.cur.bs + p.cur.ix) i → i < p.cur.be → content[i]? = some l → ValueOf p.startKey l t → conv t = some v →
      ∃ p', queryScalar conv content p = .ret true p' ∧ p'.found = true ∧ p'.value 0 = some v ∧ p'.cur = { p.cur with ix := i + 1 - p.cur.bs }) ∧
    (∀ i l t, First p.startKey content (p.cur.bs + p.cur.ix) i → i < p.cur.be → content[i]? = some l → ValueOf p.startKey l t → conv t = none →
      queryScalar conv content p = .ret false { p with cur := { p.cur with ix := i + 1 - p.cur.bs } }) ∧
    ((∀ i, p.cur.bs + p.cur.ix ≤ i → i < p.cur.be → ¬Has p.startKey content i) → queryScalar conv content p = .ret false p) := by
  have key : ∀ i l t, First p.startKey content (p.cur.bs + p.cur.ix) i → i < p.cur.be → content[i]? = some l → ValueOf p.startKey l t →
      queryScalar conv content p = match conv t with
        | some v => .ret true { ({ p with cur := { p.cur with ix := i + 1 - p.cur.bs } } : Para T).setValue 0 v with found := true }
        | none => .ret false { p with cur := { p.cur with ix := i + 1 - p.cur.bs } } := by
    intro i l t hf hi hl ht
    obtain ⟨pos, l', h1, h2, h3⟩ := query_first hb hf hi
    rw [hl] at h1; cases h1
    have := valueOf_unique ht (valueOf_of_last h2)
    unfold queryScalar
    rw [h3]
    simp only [hl, ← this]
    cases conv t <;> rfl
  refine ⟨fun i l t v hf hi hl ht hc => ?_, fun i l t hf hi hl ht hc => ?_, fun hno => ?_⟩
  · rw [key i l t hf hi hl ht, hc]
    refine ⟨_, rfl, rfl, ?_, ?_⟩
    · simp [Para.setValue, Para.value, hn, hr, hv]
    · simp [Para.setValue, hn, hr]
  · rw [key i l t hf hi hl ht, hc]
  · rcases query_spec p.startKey content p.cur hb with ⟨-, h2⟩ | ⟨i, pos, t, l, h1, h2, h3, h4, h5, h6, h7⟩
    · unfold queryScalar; rw [h2]
    · exact (hno i h3 h4 (first_of_hits h1).2.1).elim

example : ValueOf "Key:".toList "  Key: 12 # twelve".toList "12".toList := by
  refine ⟨"  ".toList, " 12 # twelve".toList, by decide, ?_, by decide⟩
  intro j hj
  obtain ⟨h1, h2⟩ := occurs_iff.1 hj
  by_contra hc
  have hlt : j < 19 := by simp at h1 ⊢; omega
  have hgt : 2 < j := by simpa using hc
  interval_cases j <;> revert h2 <;> decide

/-- **C132, strings with blanks are violated:** the blanks of a text value, for example of a file name, are lost. -/
theorem C132_blanks_violated : ∃ (content : List Line) (p p' : Para Line), content = ["Prefix: my mesh".toList] ∧
    queryScalar convS content p = .ret true p' ∧ p'.value 0 = some "mymesh".toList :=
  ⟨_, ⟨.scalar, "Prefix:".toList, [], ⟨0, 1, 0⟩, false, 1, 1, [[]]⟩, _, rfl,
    Res.of_flag ⟨.scalar, [], [], ⟨0, 1, 0⟩, false, 1, 1, [[]]⟩ (by decide +kernel), by decide +kernel⟩

/-! ### Loops over definitions -/

/-- The loop `while( query<T>(name) ) { … }` of the application for a vector parameter (src/app/TQMeshApp.h:318-339, 486-562): the values of all rounds, at most `n`. -/
def PR.collect (conv : Line → Option T) (dflt : Option T) (content : List Line) : Nat → Para T → List (List T)
  | 0, _ => []
  | n + 1, p => match queryVector conv dflt content p with
    | .ret true p' => p'.vals :: collect conv dflt content n p'
    | _ => []

/-- **C128 is violated:** a definition that cannot be read ends the loop, and all later definitions are ignored without an error. -/
theorem C128_violated : ∃ (content : List Line) (p : Para Nat), content = ["Add: 1, 2".toList, "Add: 3".toList, "Add: 4, 5".toList] ∧
    p.startKey = "Add:".toList ∧ p.ncol = 2 ∧ p.cur = ⟨0, 3, 0⟩ ∧ collect convN none content 9 p = [[1, 2]] :=
  ⟨_, ⟨.vector, "Add:".toList, [], ⟨0, 3, 0⟩, false, 2, 1, [0, 0]⟩, rfl, rfl, rfl, rfl, by decide +kernel⟩

theorem PR.processVector_take (conv : Line → Option T) (d : T) (n : Nat) (t : Line) :
    n ≤ (processVector conv (some d) n t).length ∧ (processVector conv (some d) n t).take n = rowOf conv d n t := by
  have hl : (processVector conv (some d) n t).length = (cells t).length + (n - (cells t).length) := by
    simp [processVector, fill, entries_default]
  refine ⟨by omega, ?_⟩
  apply List.ext_getElem?
  intro i
  by_cases hi : i < n
  · rw [List.getElem?_take_of_lt hi, rowOf, List.getElem?_map, List.getElem?_range hi]
    simp only [processVector, fill, entries_default]
    by_cases hc : i < (cells t).length
    · rw [List.getElem?_append_left (by simpa using hc), List.getElem?_map]
      simp [cellValue, List.getElem?_eq_getElem hc]
    · rw [List.getElem?_append_right (by simp; omega), List.length_map, List.getElem?_replicate]
      rw [if_pos (by omega)]
      simp [cellValue, List.getElem?_eq_none (Nat.le_of_not_lt hc)]
  · rw [List.getElem?_eq_none (by simp; omega), List.getElem?_eq_none (by simp [rowOf]; omega)]

/-- A vector query with default values: it fails only without a line with the key. -/
theorem PR.queryVector_default (conv : Line → Option T) (d : T) (content : List Line) (p : Para T) (hb : p.cur.be ≤ content.length)
    (hr : p.nrow = 1) (hv : p.vals.length = p.ncol) :
    (hits p.startKey content (p.cur.bs + p.cur.ix) p.cur.be = [] ∧ queryVector conv (some d) content p = .ret false p) ∨
    ∃ i l t, hits p.startKey content (p.cur.bs + p.cur.ix) p.cur.be = i :: hits p.startKey content (i + 1) p.cur.be ∧ p.cur.bs ≤ i ∧
      content[i]? = some l ∧ ValueOf p.startKey l t ∧
      queryVector conv (some d) content p =
        .ret true { p with cur := { p.cur with ix := i + 1 - p.cur.bs }, found := true, vals := rowOf conv d p.ncol t } := by
  rcases query_spec p.startKey content p.cur hb with ⟨h1, h2⟩ | ⟨i, pos, t, l, h1, h2, h3, h4, h5, h6, h7⟩
  · left
    refine ⟨h1, ?_⟩
    unfold queryVector; rw [h2]
  · right
    refine ⟨i, l, _, by rw [h1, h2], by omega, h5, valueOf_of_last h6, ?_⟩
    unfold queryVector
    rw [h7]
    simp only [h5]
    obtain ⟨g1, g2⟩ := processVector_take conv d p.ncol (strip (l.drop (pos + p.startKey.length)))
    set out := processVector conv (some d) p.ncol (strip (l.drop (pos + p.startKey.length))) with hout
    rw [if_neg (by omega)]
    obtain ⟨e1, e2, e3⟩ := setCols_spec out p.ncol 0 { p with cur := { p.cur with ix := i + 1 - p.cur.bs } }
      (by simp [hv, hr]) (by simp [hr]) (by omega) (by simp)
    rw [e1]
    have : (setCols out p.ncol 0 { p with cur := { p.cur with ix := i + 1 - p.cur.bs } }).vals = rowOf conv d p.ncol (strip (l.drop (pos + p.startKey.length))) := by
      rw [← g2]
      apply List.ext_getElem?
      intro m
      by_cases hm : m < p.ncol
      · rw [e3 m (by omega), List.getElem?_take_of_lt hm]
      · rw [List.getElem?_eq_none (by rw [e2]; simpa [hv] using hm), List.getElem?_eq_none (by simp; omega)]
    rw [this]

theorem PR.collect_default (conv : Line → Option T) (d : T) (content : List Line) : ∀ (n : Nat) (p : Para T), p.cur.be ≤ content.length →
    p.nrow = 1 → p.vals.length = p.ncol → (hits p.startKey content (p.cur.bs + p.cur.ix) p.cur.be).length < n →
    List.Forall₂ (fun i row => ∃ l t, content[i]? = some l ∧ ValueOf p.startKey l t ∧ row = rowOf conv d p.ncol t)
      (hits p.startKey content (p.cur.bs + p.cur.ix) p.cur.be) (collect conv (some d) content n p) := by
  intro n
  induction n with
  | zero => intro p _ _ _ h; omega
  | succ n ih =>
    intro p hb hr hv hlt
    rcases queryVector_default conv d content p hb hr hv with ⟨h1, h2⟩ | ⟨i, l, t, h1, h2, h3, h4, h5⟩
    · rw [h1, collect, h2]
      exact List.Forall₂.nil
    · rw [collect, h5, h1]
      simp only
      refine List.Forall₂.cons ⟨l, t, h3, h4, rfl⟩ ?_
      have hadd : p.cur.bs + (i + 1 - p.cur.bs) = i + 1 := by omega
      have := ih { p with cur := { p.cur with ix := i + 1 - p.cur.bs }, found := true, vals := rowOf conv d p.ncol t } hb hr
        (by simp [rowOf]) (by rw [h1] at hlt; simp only [hadd]; simpa using hlt)
      simpa only [hadd] using this

/-- **C128, what holds:** with default values (as for the boundary shapes) the loop makes one round for every line of the block with the key, in order, with the values of that line. -/
theorem C128_partial (conv : Line → Option T) (d : T) (content : List Line) (p : Para T) (hb : p.cur.be ≤ content.length) (h0 : p.cur.ix = 0)
    (hr : p.nrow = 1) (hv : p.vals.length = p.ncol) (n : Nat) (hn : (hits p.startKey content p.cur.bs p.cur.be).length < n) :
    List.Forall₂ (fun i row => ∃ l t, content[i]? = some l ∧ ValueOf p.startKey l t ∧ row = rowOf conv d p.ncol t)
      (hits p.startKey content p.cur.bs p.cur.be) (collect conv (some d) content n p) := by
  have := collect_default conv d content n p hb hr hv (by rw [h0]; simpa using hn)
  simpa only [h0, Nat.add_zero] using this

example : collect convN (some 9) ["Add: 1, 2".toList, "Add: 3".toList, "Add: 4, 5".toList] 9
    ⟨.vector, "Add:".toList, [], ⟨0, 3, 0⟩, false, 2, 1, [0, 0]⟩ = [[1, 2], [3, 9], [4, 5]] := by decide +kernel

/-! ### Stale values -/

/-- **C133 is violated:** in a later block without the definition, `found` is still set and the value is that of the earlier block. -/
theorem C133_violated : ∃ (content : List Line) (p p1 p2 : Para Nat), content = ["Key: 5".toList, "nothing".toList] ∧
    queryScalar convN content { p with cur := ⟨0, 1, 0⟩ } = .ret true p1 ∧
    queryScalar convN content { p1 with cur := ⟨1, 2, 0⟩ } = .ret false p2 ∧ p2.found = true ∧ p2.value 0 = some 5 :=
  ⟨_, ⟨.scalar, "Key:".toList, [], ⟨0, 2, 0⟩, false, 1, 1, [0]⟩, _, _, rfl,
    Res.of_flag (mat [] 1 []) (by decide +kernel), Res.of_flag (mat [] 1 []) (by decide +kernel), by decide +kernel, by decide +kernel⟩

/-- **C133, what holds:** the flag returned by the query tells whether the rest of the block has a definition that can be read; a query without a line with the key changes nothing. -/
theorem C133_partial (conv : Line → Option T) (zero : T) (dflt : Option T) (content : List Line) (p : Para T) (hb : p.cur.be ≤ content.length)
    (hno : ∀ i, p.cur.bs + p.cur.ix ≤ i → i < p.cur.be → ¬Has p.startKey content i) :
    queryPara conv zero dflt content p = .ret false p := by
  have hq : query p.startKey content p.cur = (.miss, p.cur) := by
    rcases query_spec p.startKey content p.cur hb with ⟨-, h2⟩ | ⟨i, pos, t, l, h1, h2, h3, h4, h5, h6, h7⟩
    · exact h2
    · exact (hno i h3 h4 (first_of_hits h1).2.1).elim
  unfold queryPara
  split
  · unfold queryScalar; rw [hq]
  · unfold queryVector; rw [hq]
  · unfold queryMatrix; rw [hq]

/-! ### Comment lines -/

/-- **C134.** Exactly the lines that are only comments are left out; all others are kept in order. -/
theorem C134_comments (file : List Line) :
    (readContent file).Sublist file ∧ ∀ l ∈ file, l ∈ readContent file ↔ ¬Comment isSpace l := by
  refine ⟨List.filter_sublist, fun l hl => ?_⟩
  simp only [readContent, List.mem_filter, hl, true_and, decide_eq_true_eq, ne_eq]
  rw [not_iff_not]
  constructor
  · intro h
    clear hl
    induction l with
    | nil => simp at h
    | cons c l ih =>
      by_cases hc : isSpace c
      · rw [List.filter_cons_of_neg (by simp [hc])] at h
        obtain ⟨ws, r, rfl, hw⟩ := ih h
        exact ⟨c :: ws, r, rfl, fun x hx => by
          rcases List.mem_cons.1 hx with rfl | hx
          · exact hc
          · exact hw x hx⟩
      · rw [List.filter_cons_of_pos (by simp [hc])] at h
        simp only [List.head?_cons, Option.some.injEq] at h
        subst h
        exact ⟨[], l, rfl, by simp⟩
  · rintro ⟨ws, r, rfl, hw⟩
    rw [List.filter_append, List.filter_eq_nil_iff.2 (by intro a ha; simp [hw a ha])]
    rw [List.nil_append, List.filter_cons_of_pos (by decide)]
    rfl

/-- **C134 on the number of lines:** each comment line is removed once for each time it stands in the file, and every other line is kept as often as it occurs. -/
theorem C134_counts (file : List Line) (l : Line) (h : ¬Comment isSpace l) : (readContent file).count l = file.count l := by
  by_cases hm : l ∈ file
  · have := ((C134_comments file).2 l hm).2 h
    simp only [readContent, List.mem_filter] at this
    exact List.count_filter this.2
  · rw [List.count_eq_zero.2 hm, List.count_eq_zero.2 fun hc => hm ((C134_comments file).1.subset hc)]

example : readContent ["a # b".toList, " \t# c".toList, [], "#".toList] = ["a # b".toList, []] := by decide +kernel

end TQ

#print axioms TQ.C72_matrix
#print axioms TQ.C73_violated
#print axioms TQ.C73_empty
#print axioms TQ.C73_partial
#print axioms TQ.C127_violated
#print axioms TQ.C127_violated_default
#print axioms TQ.C127_partial
#print axioms TQ.C129_violated
#print axioms TQ.C130_violated
#print axioms TQ.C131_violated
#print axioms TQ.C131_partial
#print axioms TQ.C132_scalar
#print axioms TQ.C132_blanks_violated
#print axioms TQ.C128_violated
#print axioms TQ.C128_partial
#print axioms TQ.C133_violated
#print axioms TQ.C133_partial
#print axioms TQ.C134_comments
#print axioms TQ.C134_counts

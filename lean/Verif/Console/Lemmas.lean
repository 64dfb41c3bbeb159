import Verif.Console.Spec
import Verif.Writer.TxtProps

/-! # Lemmas about the console output -/

set_option linter.unusedSectionVars false

namespace TQ.Con
open TQ.VT VTSpec

theorem put_fold (P : LogProps) (v : Level) (h : v.num ≤ P.level.num) (ms : List Txt) (o : Log) :
    (ms.foldl (Log.put P v) o).out = o.out ++ ms.flatten ∧ (ms.foldl (Log.put P v) o).opened = (o.opened || !ms.isEmpty) := by
  induction ms generalizing o with
  | nil => simp
  | cons m ms ih =>
    obtain ⟨a, b⟩ := ih (o.put P v m)
    simp only [List.foldl_cons, a, b]
    simp [Log.put, h]

theorem put_fold_off (P : LogProps) (v : Level) (h : ¬ v.num ≤ P.level.num) (ms : List Txt) (o : Log) :
    ms.foldl (Log.put P v) o = o := by
  induction ms generalizing o with
  | nil => rfl
  | cons m ms ih => rw [List.foldl_cons, ih]; simp [Log.put, h]

/-- A statement of a disabled level writes nothing. -/
theorem logStmt_off {P : LogProps} {v : Level} (h : ¬ v.num ≤ P.level.num) (col : Option Nat) (ms : List Txt) : logStmt P v col ms = [] := by
  unfold logStmt
  rw [put_fold_off P v h]
  simp [Log.close, Log.make, Log.put, h]

/-- A coloured statement of an enabled level. -/
theorem logStmt_on {P : LogProps} {v : Level} (h : v.num ≤ P.level.num) (hc : P.colored v = true) (hn : P.useNewline = true)
    (col : Option Nat) (ms : List Txt) :
    logStmt P v col ms = colorTxt (col.getD (P.color v)) ++ (if P.showHeader then P.header v else []) ++ ms.flatten ++ [esc, '[', '0', 'm'] ++ ['\n'] := by
  unfold logStmt
  obtain ⟨a, b⟩ := put_fold P v h ms (Log.make P v col)
  unfold Log.close
  simp only [hc, if_true]
  have e : (Log.put P v (ms.foldl (Log.put P v) (Log.make P v col)) [esc, '[', '0', 'm']) =
      ⟨true, (ms.foldl (Log.put P v) (Log.make P v col)).out ++ [esc, '[', '0', 'm']⟩ := by simp [Log.put, h]
  rw [e, a]
  simp only [hn, Bool.and_self, if_true]
  congr 3
  unfold Log.make
  cases hs : P.showHeader <;> simp [hc, Log.put, h]

/-- What has been written: finished lines, of which `txt` are not marked, and an unfinished line that is empty or marked. -/
def Inv (out part txt : Txt) : Prop :=
  ∃ ls : List Txt, (∀ l ∈ ls, '\n' ∉ l) ∧ out = (ls.map (· ++ ['\n'])).flatten ++ part ∧ '\n' ∉ part ∧
    ((ls.filter fun l => !marked l).map (· ++ ['\n'])).flatten = txt ∧ (part = [] ∨ marked part = true)

theorem unlog_inv {out part txt : Txt} (h : Inv out part txt) : unlog out = txt := by
  obtain ⟨ls, h1, rfl, h3, h4, -⟩ := h
  unfold unlog
  rw [lines_rowsN h1]
  have : lines part = [part] := by
    unfold lines
    exact split_free fun c hc => by rw [beq_eq_false_iff_ne]; rintro rfl; exact h3 hc
  rw [this, List.dropLast_concat, h4]

theorem marked_append {a : Txt} (h : marked a = true) (b : Txt) : marked (a ++ b) = true := by
  cases a with
  | nil => simp [marked] at h
  | cons c cs => exact h

/-- Finishing a line by a marked text. -/
theorem inv_line {out part txt d : Txt} (h : Inv out part txt) (hd : '\n' ∉ d) (hm : marked d = true) : Inv (out ++ (d ++ ['\n'])) [] txt := by
  obtain ⟨ls, h1, h2, h3, h4, h5⟩ := h
  have hp : marked (part ++ d) = true := by
    rcases h5 with rfl | h5
    · exact hm
    · exact marked_append h5 _
  refine ⟨ls ++ [part ++ d], ?_, ?_, by simp, ?_, Or.inl rfl⟩
  · intro l hl
    rcases List.mem_append.1 hl with hl | hl
    · exact h1 l hl
    · rw [List.mem_singleton.1 hl]; simp [h3, hd]
  · simp [h2]
  · rw [List.filter_append]; simp [hp, h4]

/-- Adding a marked text to the unfinished line. -/
theorem inv_part {out part txt d : Txt} (h : Inv out part txt) (hd : '\n' ∉ d) (hm : marked d = true) : Inv (out ++ d) (part ++ d) txt := by
  obtain ⟨ls, h1, h2, h3, h4, h5⟩ := h
  refine ⟨ls, h1, by simp [h2], by simp [h3, hd], h4, Or.inr ?_⟩
  rcases h5 with rfl | h5
  · exact hm
  · exact marked_append h5 _

/-- Writing a mesh at the begin of a line. -/
theorem inv_mesh {out txt t : Txt} (h : Inv out [] txt) (ht : Plain t) : Inv (out ++ t) [] (txt ++ t) := by
  obtain ⟨ls, h1, h2, h3, h4, -⟩ := h
  obtain ⟨rs, rfl, hr⟩ := ht
  refine ⟨ls ++ rs, ?_, by simp [h2], by simp, ?_, Or.inl rfl⟩
  · intro l hl
    rcases List.mem_append.1 hl with hl | hl
    · exact h1 l hl
    · exact (hr l hl).1
  · have : rs.filter (fun l => !marked l) = rs := List.filter_eq_self.2 fun r hr' => by simp [(hr r hr').2]
    rw [List.filter_append, this]; simp [h4]

theorem natTxt_nl (n : Nat) : '\n' ∉ natTxt n := fun h => by have := natTxt_digits n _ h; revert this; decide

theorem intTxt_nl (n : Int) : '\n' ∉ intTxt n := (clean_intTxt n).2.2.1

theorem marked_color (n : Nat) (r : Txt) : marked (colorTxt n ++ r) = true := by
  show marked (esc :: _) = true
  simp [marked, esc]

theorem color_nl (n : Nat) : '\n' ∉ colorTxt n := by
  unfold colorTxt
  have := natTxt_nl n
  simp [this, esc]

/-- A log statement finishes the line. -/
theorem inv_log {out part txt : Txt} (h : Inv out part txt) {P : LogProps} {v : Level} (hl : v.num ≤ P.level.num) (hc : P.colored v = true)
    (hn : P.useNewline = true) (hh : '\n' ∉ P.header v) (col : Option Nat) {ms : List Txt} (hm : Message ms) :
    Inv (out ++ logStmt P v col ms) [] txt := by
  rw [logStmt_on hl hc hn]
  have hh' : '\n' ∉ (if P.showHeader then P.header v else []) := by split <;> simp [hh]
  generalize (if P.showHeader then P.header v else []) = hd at hh'
  generalize col.getD (P.color v) = n
  rcases hm with hm | hm
  · refine inv_line h ?_ ?_
    · simp [color_nl, hh', hm, esc]
    · simp only [List.append_assoc]; exact marked_color _ _
  · rw [hm]
    have a := inv_line h (d := colorTxt n ++ hd) (by simp [color_nl, hh']) (marked_color _ _)
    have b := inv_line a (d := [esc, '[', '0', 'm']) (by simp [esc]) (by simp [marked, esc])
    convert b using 1
    simp

theorem show_cases (b : Bar) : b.show = [] ∨ ('\n' ∉ b.show ∧ marked b.show = true) := by
  unfold Bar.show
  cases b.update
  · left; rfl
  · right
    have : '\n' ∉ barTxt b.width (b.width * b.progress / 100) := by
      intro h
      obtain ⟨i, -, hi⟩ := List.mem_map.1 h
      revert hi; split
      · decide
      · split <;> decide
    refine ⟨?_, rfl⟩
    simp [this, intTxt_nl]

theorem Ordered.mono {P : LogProps} : ∀ {es : List Ev}, Ordered P true es → Ordered P false es := by
  intro es
  induction es with
  | nil => exact fun _ => trivial
  | cons e es ih =>
    cases e with
    | log v col ms =>
      rintro ⟨a, b⟩
      refine ⟨a, ?_⟩
      simp only [Bool.false_and]
      revert b
      generalize (true && !(decide (P.stream v = .cout) && decide (v.num ≤ P.level.num))) = x
      cases x
      · exact id
      · exact ih
    | newBar => exact ih
    | bar p => exact id
    | mesh t => exact fun h => absurd h.1 (by simp)

theorem stdout_inv {P : LogProps} (hc : P.useColor = true) (hn : P.useNewline = true) (hh : ∀ v, '\n' ∉ P.header v) :
    ∀ (es : List Ev) (b : Bar) (o : Bool) (out part txt : Txt), Inv out part txt → (o = false → part = []) → Ordered P o es →
      ∃ part', Inv (out ++ stdout P b es) part' (txt ++ meshes es) := by
  intro es
  induction es with
  | nil => intro b o out part txt h _ _; exact ⟨part, by simpa [stdout, meshes] using h⟩
  | cons e es ih =>
    intro b o out part txt h ho hw
    cases e with
    | log v col ms =>
      obtain ⟨hm, hw⟩ := hw
      simp only [stdout, meshes]
      by_cases hs : P.stream v = .cout
      · by_cases hl : v.num ≤ P.level.num
        · have := inv_log h hl (by simp [LogProps.colored, hc, hs]) hn (hh v) col hm
          rw [if_pos hs, ← List.append_assoc]
          simp only [hs, hl] at hw
          exact ih b false _ _ _ this (fun _ => rfl) (by simpa using hw)
        · rw [if_pos hs, logStmt_off hl, List.nil_append]
          refine ih b o _ _ _ h ho ?_
          simpa [hs, hl] using hw
      · rw [if_neg hs, List.nil_append]
        refine ih b o _ _ _ h ho ?_
        simpa [hs] using hw
    | newBar => exact ih _ o _ _ _ h ho hw
    | bar p =>
      simp only [stdout, meshes]
      split
      · rcases show_cases (b.set p) with e | ⟨h1, h2⟩
        · rw [e, List.nil_append]; exact ih _ true _ _ _ h (by simp) hw
        · rw [← List.append_assoc]; exact ih _ true _ _ _ (inv_part h h1 h2) (by simp) hw
      · rw [List.nil_append]; exact ih _ true _ _ _ h (by simp) hw
    | mesh t =>
      obtain ⟨h1, h2, h3⟩ := hw
      rw [ho h1] at h
      simp only [stdout, meshes]
      rw [← List.append_assoc, ← List.append_assoc]
      exact ih b false _ _ _ (inv_mesh h h2) (fun _ => rfl) h3

/-! ### Meshes are plain -/

theorem plain_append {a b : Txt} (ha : Plain a) (hb : Plain b) : Plain (a ++ b) := by
  obtain ⟨r, rfl, hr⟩ := ha
  obtain ⟨q, rfl, hq⟩ := hb
  refine ⟨r ++ q, by simp, fun x hx => ?_⟩
  rcases List.mem_append.1 hx with h | h
  · exact hr x h
  · exact hq x h

theorem plain_line {a : Txt} (h : '\n' ∉ a) (hm : marked a = false) : Plain (a ++ ['\n']) := ⟨[a], by simp, by simpa using ⟨h, hm⟩⟩

/-- Characters of printed numbers. -/
theorem num_marked {c : Char} (h : c.isDigit = true ∨ c = '-' ∨ c = '.' ∨ c = ' ' ∨ c = ',') (r : Txt) : marked (c :: r) = false := by
  unfold marked
  have e : c.toNat ≠ 27 ∧ c ≠ '#' := by
    constructor
    · intro h0
      have : c = esc := by
        rw [← Char.ofNat_toNat c, h0]; rfl
      subst this
      rcases h with h | h | h | h | h <;> revert h <;> decide
    · rintro rfl
      rcases h with h | h | h | h | h <;> revert h <;> decide
  simp [e.1, e.2]

theorem marked_of_all {t : Txt} (h : ∀ c ∈ t, c.isDigit = true ∨ c = '-' ∨ c = '.' ∨ c = ' ' ∨ c = ',') : marked t = false := by
  cases t with
  | nil => rfl
  | cons c cs => exact num_marked (h c (by simp)) cs

theorem row_marked (l : List Int) : marked (row l) = false := by
  refine marked_of_all fun c hc => ?_
  rcases mem_intercalate hc with h | ⟨x, hx, hc⟩
  · tauto
  · obtain ⟨i, -, rfl⟩ := List.mem_map.1 hx
    rcases setw_chars i c hc with h | h | h | h <;> tauto

theorem drow_marked (l : List ℚ) : marked (drow l) = false := by
  refine marked_of_all fun c hc => ?_
  rcases mem_intercalate hc with h | ⟨x, hx, hc⟩
  · tauto
  · obtain ⟨i, -, rfl⟩ := List.mem_map.1 hx
    rcases fixed5_chars i c hc with h | h | h | h <;> tauto

theorem plain_flat {l : List Txt} (h : ∀ x ∈ l, Plain x) : Plain l.flatten := by
  induction l with
  | nil => exact ⟨[], rfl, by simp⟩
  | cons a l ih => exact plain_append (h a (by simp)) (ih fun x hx => h x (by simp [hx]))

theorem plain_nums (l : List Int) : Plain (nums l) := by
  rw [nums_row]; exact plain_line (row_nl l) (row_marked l)

theorem plain_csv (l : List ℚ) : Plain (csv (l.map fixed5)) := plain_line (drow_nl l) (drow_marked l)

theorem plain_dec (x : ℚ) : Plain (fixed5 x ++ ['\n']) := by
  have := plain_csv [x]
  simpa [csv, List.intercalate] using this

theorem plain_sect {name : Txt} (hn : '\n' ∉ name) (hne : name ≠ []) (hm : marked name = false) (n : Nat) {rs : List Txt} (h : ∀ x ∈ rs, Plain x) :
    Plain (sect name n rs) := by
  unfold sect
  have e : name ++ ' ' :: natTxt n ++ '\n' :: rs.flatten = ((name ++ ' ' :: natTxt n) ++ ['\n']) ++ rs.flatten := by simp
  rw [e]
  refine plain_append (plain_line (by simp [hn, natTxt_nl]) ?_) (plain_flat h)
  cases name with
  | nil => exact absurd rfl hne
  | cons c cs => exact hm

theorem plain_mesh (id : Int) (twin : Nat × Nat → Int × Int) (msize : Nat → ℚ) (s : MS.St ℚ) (ixV : Nat → Nat) (ixF : MS.FRef → Nat) :
    Plain (meshTxt id twin msize s ixV ixF) := by
  have m : ∀ {α : Type} (l : List α) (f : α → Txt), (∀ a, Plain (f a)) → ∀ x ∈ l.map f, Plain x := by
    intro α l f hf x hx
    obtain ⟨a, -, rfl⟩ := List.mem_map.1 hx
    exact hf a
  unfold meshTxt
  refine plain_append (plain_append (plain_append (plain_append (plain_append (plain_append (plain_append (plain_append (plain_append (plain_append ?_ ?_) ?_) ?_) ?_) ?_) ?_) ?_) ?_) ?_) ?_
  · exact plain_line (by simp [intTxt_nl]) rfl
  · exact plain_sect (by decide) (by decide) (by decide) _ (m _ _ fun v => plain_csv [_, _])
  · exact plain_sect (by decide) (by decide) (by decide) _ (m _ _ fun v => plain_nums _)
  · exact plain_sect (by decide) (by decide) (by decide) _ (m _ _ fun v => plain_nums _)
  · exact plain_sect (by decide) (by decide) (by decide) _ (m _ _ fun v => plain_nums _)
  · exact plain_sect (by decide) (by decide) (by decide) _ (m _ _ fun v => plain_nums _)
  · exact plain_sect (by decide) (by decide) (by decide) _ (m _ _ fun v => plain_nums _)
  · exact plain_sect (by decide) (by decide) (by decide) _ (m _ _ fun v => plain_nums _)
  · exact plain_sect (by decide) (by decide) (by decide) _ (m _ _ fun v => plain_nums _)
  · exact plain_sect (by decide) (by decide) (by decide) _ (m _ _ fun v => plain_nums _)
  · exact plain_sect (by decide) (by decide) (by decide) _ (m _ _ fun v => plain_dec _)

/-! ### Progress bars -/

theorem barTxt_eq (w k : Nat) (hk : k ≤ w) :
    barTxt w k = List.replicate k '=' ++ (if k < w then '>' :: List.replicate (w - k - 1) ' ' else []) := by
  apply List.ext_getElem
  · simp only [barTxt, List.length_map, List.length_range, List.length_append, List.length_replicate]
    split
    · simp; omega
    · simp; omega
  · intro i h1 h2
    simp only [barTxt, List.length_map, List.length_range] at h1
    simp only [barTxt, List.getElem_map, List.getElem_range, Nat.cast_lt, Nat.cast_inj]
    by_cases c : i < k
    · rw [if_pos c, List.getElem_append_left (by simpa using c)]; simp
    · rw [if_neg c, List.getElem_append_right (by simpa using c)]
      have hkw : k < w := by omega
      simp only [hkw, if_true, List.length_replicate]
      by_cases d : i = k
      · subst d; simp
      · rw [if_neg d]
        obtain ⟨j, hj⟩ : ∃ j, i - k = j + 1 := ⟨i - k - 1, by omega⟩
        simp [hj]

theorem show_eq {b : Bar} {p : Nat} (hu : b.update = true) (hp : b.progress = p) (h1 : p ≤ 100) : b.show = barLine b.width p := by
  have hk : b.width * p / 100 ≤ b.width := by
    apply Nat.div_le_of_le_mul
    rw [Nat.mul_comm]
    exact Nat.mul_le_mul_right _ h1
  unfold Bar.show barLine
  have e : (b.width : Int) * b.progress / 100 = ((b.width * p / 100 : Nat) : Int) := by rw [hp]; push_cast; rfl
  have e2 : intTxt b.progress = natTxt p := by rw [hp]; simp [intTxt]
  rw [e, e2, barTxt_eq _ _ hk, hu]
  simp

theorem natTxt_len {p q : Nat} (h : p ≤ q) (hq : q ≤ 100) : (natTxt p).length ≤ (natTxt q).length := by
  have : ∀ q ≤ 100, ∀ p ≤ q, (natTxt p).length ≤ (natTxt q).length := by decide +kernel
  exact this q hq p h

end TQ.Con

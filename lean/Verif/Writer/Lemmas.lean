import Verif.Writer.Model
import Verif.Writer.Spec
import Mathlib.Tactic.Linarith
import Mathlib.Tactic.FieldSimp

/-!
# Lemmas about the exported text
-/

namespace TQ
namespace VT
open VTSpec

theorem split_ne_nil (p : Char → Bool) (t : List Char) : pieces p t ≠ [] := by
  cases t with
  | nil => simp [pieces]
  | cons c cs => simp only [pieces]; split <;> [simp; (split <;> simp)]

theorem split_free {p : Char → Bool} {t : List Char} (h : ∀ c ∈ t, p c = false) : pieces p t = [t] := by
  induction t with
  | nil => rfl
  | cons c cs ih =>
    have h1 := h c (by simp)
    have h2 := ih fun d hd => h d (by simp [hd])
    simp [pieces, h1, h2]

theorem split_append {p : Char → Bool} {c : Char} (hc : p c = true) (a r : List Char) :
    pieces p (a ++ c :: r) = pieces p a ++ pieces p r := by
  induction a with
  | nil => simp [pieces, hc]
  | cons d ds ih =>
    simp only [List.cons_append, pieces]
    by_cases hd : p d
    · simp [hd, ih]
    · simp only [hd, Bool.false_eq_true, if_false, ih]
      cases h : pieces p ds with
      | nil => exact absurd h (split_ne_nil p ds)
      | cons w ws => simp

theorem mem_split {p : Char → Bool} {t w : List Char} {c : Char} (hw : w ∈ pieces p t) (hc : c ∈ w) : c ∈ t := by
  induction t generalizing w with
  | nil => simp [pieces] at hw; subst hw; simp at hc
  | cons d ds ih =>
    simp only [pieces] at hw
    split at hw
    · rcases List.mem_cons.1 hw with rfl | h
      · simp at hc
      · exact List.mem_cons_of_mem _ (ih h hc)
    · cases h : pieces p ds with
      | nil => exact absurd h (split_ne_nil p ds)
      | cons x xs =>
        rw [h] at hw
        rcases List.mem_cons.1 hw with rfl | h2
        · rcases List.mem_cons.1 hc with rfl | h3
          · simp
          · exact List.mem_cons_of_mem _ (ih (by rw [h]; simp) h3)
        · exact List.mem_cons_of_mem _ (ih (by rw [h]; simp [h2]) hc)

/-- Every text is free of `p`, or splits at its first such character. -/
theorem first_cut (p : Char → Bool) (t : List Char) :
    (∀ c ∈ t, p c = false) ∨ ∃ a c r, t = a ++ c :: r ∧ p c = true ∧ ∀ d ∈ a, p d = false := by
  induction t with
  | nil => simp
  | cons c cs ih =>
    by_cases hc : p c
    · exact Or.inr ⟨[], c, cs, rfl, hc, by simp⟩
    · rcases ih with h | ⟨a, d, r, rfl, hd, ha⟩
      · left; intro d hd
        rcases List.mem_cons.1 hd with rfl | h'
        · simpa using hc
        · exact h d h'
      · refine Or.inr ⟨c :: a, d, r, rfl, hd, ?_⟩
        intro e he
        rcases List.mem_cons.1 he with rfl | h'
        · simpa using hc
        · exact ha e h'

theorem words_append {c : Char} (hc : isSep c = true) (a r : List Char) : words (a ++ c :: r) = words a ++ words r := by
  unfold words; rw [split_append hc]; simp

theorem words_nil : words [] = [] := by simp [words, pieces]

theorem words_cons {c : Char} (hc : isSep c = true) (r : List Char) : words (c :: r) = words r := by
  have := words_append hc [] r
  simpa [words_nil] using this

theorem words_spaces (n : Nat) (r : List Char) : words (spaces n ++ r) = words r := by
  induction n with
  | zero => rfl
  | succ n ih => unfold spaces at *; rw [List.replicate_succ, List.cons_append, words_cons (by decide), ih]

theorem words_free {w : List Char} (h : ∀ c ∈ w, isSep c = false) (hn : w ≠ []) : words w = [w] := by
  simp [words, split_free h, hn]

theorem clean_free {w : List Char} (h : Clean w) : ∀ c ∈ w, isSep c = false := by
  intro c hc
  obtain ⟨-, h1, h2, -⟩ := h
  simp only [isSep, Bool.or_eq_false_iff, beq_eq_false_iff_ne]
  exact ⟨fun e => h1 (e ▸ hc), fun e => h2 (e ▸ hc)⟩

theorem words_lines (t : List Char) : words t = (lines t).flatMap words := by
  induction hn : t.length using Nat.strong_induction_on generalizing t with
  | _ n ih =>
  rcases first_cut (· == '\n') t with h | ⟨a, c, r, rfl, hc, ha⟩
  · simp [lines, split_free h]
  · have hc' : c = '\n' := by simpa using hc
    subst hc'
    unfold lines
    rw [words_append (by decide), split_append (p := (· == '\n')) (by decide), split_free ha, List.flatMap_append]
    have := ih r.length (by rw [← hn]; simp; omega) r rfl
    unfold lines at this
    rw [← this]; simp

theorem words_rowsGo (n j k : Nat) {ws : List (List Char)} (h : ∀ w ∈ ws, Clean w) :
    words (rowsGo n j (ws.map (setw k))) = ws := by
  induction ws generalizing j with
  | nil => exact words_nil
  | cons w ws ih =>
    have hw := h w (by simp)
    have e : words (setw k w ++ [' '] ++ rowsGo n (j + 1) (ws.map (setw k))) = w :: ws := by
      rw [List.append_assoc, List.singleton_append, words_append (by decide), ih _ fun x hx => h x (by simp [hx])]
      unfold setw
      rw [words_spaces, words_free (clean_free hw) hw.1]; rfl
    simp only [List.map_cons, rowsGo]
    split
    · rw [List.cons_append, List.cons_append, List.cons_append, words_cons (by decide), List.append_assoc, List.append_assoc,
        words_spaces, ← List.append_assoc]
      exact e
    · simpa using e

/-- The array text without its last line break. -/
theorem words_body0 (n k : Nat) {ws : List (List Char)} (h : ∀ w ∈ ws, Clean w) :
    words (spaces 10 ++ rowsGo n 0 (ws.map (setw k))) = ws := by
  rw [words_spaces, words_rowsGo n 0 k h]

theorem rowsGo_lt (n j k : Nat) {ws : List (List Char)} (h : ∀ w ∈ ws, Clean w) : '<' ∉ rowsGo n j (ws.map (setw k)) := by
  induction ws generalizing j with
  | nil => simp [rowsGo]
  | cons w ws ih =>
    have hw := (h w (by simp)).2.2.2
    have := ih (j + 1) fun x hx => h x (by simp [hx])
    simp only [List.map_cons, rowsGo]
    split <;> simp [setw, spaces, hw, this, List.mem_replicate]

/-! ### Scanning -/

theorem trim_spaces (n : Nat) (t : List Char) : trim (spaces n ++ t) = trim t := by
  induction n with
  | zero => rfl
  | succ n ih => unfold spaces at *; rw [List.replicate_succ, List.cons_append]; simpa [trim] using ih

theorem lines_line (n : Nat) {t : List Char} (h : '\n' ∉ t) (r : List Char) :
    lines (line n t ++ r) = (spaces n ++ t) :: lines r := by
  unfold lines line
  rw [List.append_assoc, List.singleton_append, split_append (by decide), split_free]
  · rfl
  · intro c hc
    rw [beq_eq_false_iff_ne]
    rintro rfl
    rcases List.mem_append.1 hc with h' | h'
    · simp [spaces, List.mem_replicate] at h'
    · exact h h'

theorem scan_skip (n : Nat) {t : List Char} (h : '\n' ∉ t) (h2 : "<DataArray".toList.isPrefixOf (trim t) = false) (r : List Char) :
    scan none (lines (line n t ++ r)) = scan none (lines r) := by
  rw [lines_line n h, scan, trim_spaces, h2]; rfl

theorem prefix_lt {l : List Char} (h : '<' ∉ l) : "</DataArray>".toList.isPrefixOf (trim l) = false := by
  have h1 : '<' ∉ trim l := fun hm => h ((List.dropWhile_sublist _).subset hm)
  generalize trim l = m at h1
  cases m with
  | nil => decide
  | cons c cs =>
    have : ('<' == c) = false := by
      rw [beq_eq_false_iff_ne]; rintro rfl; simp at h1
    show ("<".toList ++ "/DataArray>".toList).isPrefixOf (c :: cs) = false
    simp [List.isPrefixOf, this]

theorem scan_rows {L : List (List Char)} (h : ∀ l ∈ L, '<' ∉ l) (hd : List Char) (acc ls : List (List Char)) :
    scan (some (hd, acc)) (L ++ ls) = scan (some (hd, acc ++ L.flatMap words)) ls := by
  induction L generalizing acc with
  | nil => simp
  | cons l L ih =>
    rw [List.cons_append, scan, prefix_lt (h l (by simp))]
    simp only [Bool.false_eq_true, if_false]
    rw [ih fun x hx => h x (by simp [hx])]
    simp

/-- Reading one array. -/
theorem scan_array {hd : List Char} (h : '\n' ∉ hd) (hp : "<DataArray".toList.isPrefixOf (trim hd) = true) (ht : trim hd = hd)
    (k : Nat) {ws : List (List Char)} (hw : ∀ w ∈ ws, Clean w) (r : List Char) :
    scan none (lines (arrayTxt hd (ws.map (setw k)) ++ r)) = (hd, ws) :: scan none (lines r) := by
  unfold arrayTxt
  rw [List.append_assoc, List.append_assoc, lines_line 8 h, scan, trim_spaces, hp, if_pos rfl]
  have e : body 10 (ws.map (setw k)) ++ (line 8 "</DataArray>".toList ++ r) =
      (spaces 10 ++ rowsGo 10 0 (ws.map (setw k))) ++ '\n' :: (line 8 "</DataArray>".toList ++ r) := by
    unfold body; simp
  have e2 : lines (body 10 (ws.map (setw k)) ++ (line 8 "</DataArray>".toList ++ r)) =
      lines (spaces 10 ++ rowsGo 10 0 (ws.map (setw k))) ++ lines (line 8 "</DataArray>".toList ++ r) := by
    rw [e]; unfold lines; rw [split_append (by decide)]
  rw [e2, scan_rows, ← words_lines, words_body0 10 k hw, lines_line 8 (by decide), scan, trim_spaces]
  · rw [show "</DataArray>".toList.isPrefixOf (trim "</DataArray>".toList) = true from by decide, if_pos rfl, ht]; rfl
  · intro l hl hm
    have := mem_split hl hm
    rcases List.mem_append.1 this with h' | h'
    · simp [spaces, List.mem_replicate] at h'
    · exact rowsGo_lt 10 0 k hw h'

/-! ### Numbers -/

theorem natTxt_digits (n : Nat) : ∀ c ∈ natTxt n, c.isDigit = true := fun _ hc => Nat.isDigit_of_mem_toDigits (by decide) (by decide) hc

theorem natTxt_ne_nil (n : Nat) : natTxt n ≠ [] := Nat.toDigits_ne_nil

theorem readNat_natTxt (n : Nat) : readNat (natTxt n) = some n := by
  unfold readNat
  rw [if_pos ⟨natTxt_ne_nil n, by simpa [List.all_eq_true] using natTxt_digits n⟩]
  unfold natTxt
  rw [Nat.ofDigitChars_toDigits (by decide) (by decide)]

theorem digit_free {c d : Char} (h : c.isDigit = true) (hd : d.isDigit = false) : c ≠ d := by
  rintro rfl; rw [h] at hd; cases hd

theorem clean_of_digits {t : List Char} (h : t ≠ []) (hd : ∀ c ∈ t, c.isDigit = true ∨ c = '-' ∨ c = '.') : Clean t := by
  have key : ∀ d : Char, d.isDigit = false → d ≠ '-' → d ≠ '.' → d ∉ t := by
    intro d h1 h2 h3 hm
    rcases hd d hm with h' | h' | h'
    · rw [h1] at h'; cases h'
    · exact h2 h'
    · exact h3 h'
  exact ⟨h, key _ (by decide) (by decide) (by decide), key _ (by decide) (by decide) (by decide), key _ (by decide) (by decide) (by decide)⟩

theorem clean_natTxt (n : Nat) : Clean (natTxt n) := clean_of_digits (natTxt_ne_nil n) fun c hc => Or.inl (natTxt_digits n c hc)

theorem clean_intTxt (i : Int) : Clean (intTxt i) := by
  unfold intTxt
  split
  · exact clean_of_digits (by simp) fun c hc => by
      rcases List.mem_cons.1 hc with rfl | h
      · simp
      · exact Or.inl (natTxt_digits _ c h)
  · exact clean_natTxt _

theorem readInt_intTxt (i : Int) : readInt (intTxt i) = some i := by
  unfold intTxt
  split
  · next h => simp only [readInt, readNat_natTxt, Option.map_some, Option.some.injEq]; omega
  · next h =>
    have hn := readNat_natTxt i.natAbs
    have hd := natTxt_digits i.natAbs
    cases e : natTxt i.natAbs with
    | nil => exact absurd e (natTxt_ne_nil _)
    | cons c cs =>
      rw [e] at hn hd
      have : c ≠ '-' := digit_free (hd c (by simp)) (by decide)
      unfold readInt
      split
      · next r heq => simp only [List.cons.injEq] at heq; exact absurd heq.1 this
      · rw [hn]; simp; omega

/-- The five digits behind the point. -/
def frac5 (n : Nat) : Txt := List.replicate (5 - (natTxt n).length) '0' ++ natTxt n

theorem frac5_length {n : Nat} (h : n < 100000) : (frac5 n).length = 5 := by
  have : (natTxt n).length ≤ 5 := by
    unfold natTxt; rw [Nat.length_toDigits_le_iff (by decide) (by decide)]; simpa using h
  simp [frac5]; omega

theorem frac5_digits (n : Nat) : ∀ c ∈ frac5 n, c.isDigit = true := by
  intro c hc
  rcases List.mem_append.1 hc with h | h
  · rw [(List.mem_replicate.1 h).2]; decide
  · exact natTxt_digits n c h

theorem readNat_frac5 (n : Nat) : readNat (frac5 n) = some n := by
  have hn : frac5 n ≠ [] := by unfold frac5; simp [natTxt_ne_nil]
  unfold readNat
  rw [if_pos ⟨hn, by simpa [List.all_eq_true] using frac5_digits n⟩]
  unfold frac5 natTxt
  rw [Nat.ofDigitChars_append, Nat.ofDigitChars_replicate_zero]
  simp [Nat.ofDigitChars_toDigits]

theorem roundEven_near {y : ℚ} (h : 0 ≤ y) : |(roundEven y : ℚ) - y| ≤ 1 / 2 := by
  have h1 := Nat.floor_le h
  have h2 := Nat.lt_floor_add_one y
  unfold roundEven
  dsimp only
  rw [abs_le]
  split
  · constructor <;> linarith
  · split
    · push_cast; constructor <;> linarith
    · split <;> push_cast <;> constructor <;> linarith

theorem readUDec_txt (r : Nat) : readUDec (natTxt (r / 100000) ++ '.' :: frac5 (r % 100000)) = some ((r : ℚ) / 100000) := by
  unfold readUDec
  have f1 : ∀ c ∈ natTxt (r / 100000), (c == '.') = false := fun c hc =>
    beq_eq_false_iff_ne.2 (digit_free (natTxt_digits _ c hc) (by decide))
  have f2 : ∀ c ∈ frac5 (r % 100000), (c == '.') = false := fun c hc =>
    beq_eq_false_iff_ne.2 (digit_free (frac5_digits _ c hc) (by decide))
  rw [split_append (by decide), split_free f1, split_free f2]
  simp only [List.cons_append, List.nil_append, readNat_natTxt, readNat_frac5, frac5_length (Nat.mod_lt r (by decide : 0 < 100000))]
  show some _ = some _
  congr 1
  have := Nat.div_add_mod r 100000
  have h2 : (r : ℚ) = 100000 * ((r / 100000 : Nat) : ℚ) + ((r % 100000 : Nat) : ℚ) := by exact_mod_cast this.symm
  rw [h2]
  have e5 : (10 : ℚ) ^ 5 = 100000 := by norm_num
  have a : (100000 * (r / 100000) + r % 100000) / 100000 = r / 100000 := by omega
  rw [e5]; ring

theorem fixed5_eq (x : ℚ) : fixed5 x = (if x < 0 then ['-'] else []) ++
    (natTxt (roundEven (|x| * 100000) / 100000) ++ '.' :: frac5 (roundEven (|x| * 100000) % 100000)) := by
  unfold fixed5 frac5; simp

theorem clean_fixed5 (x : ℚ) : Clean (fixed5 x) := by
  rw [fixed5_eq]
  refine clean_of_digits (by simp) fun c hc => ?_
  rcases List.mem_append.1 hc with h | h
  · split at h <;> simp at h; right; left; exact h
  · rcases List.mem_append.1 h with h | h
    · exact Or.inl (natTxt_digits _ c h)
    · rcases List.mem_cons.1 h with rfl | h
      · simp
      · exact Or.inl (frac5_digits _ c h)

/-- The number read back from the printed one. -/
def dec5 (x : ℚ) : ℚ := (if x < 0 then -1 else 1) * ((roundEven (|x| * 100000) : ℚ) / 100000)

theorem readDec_fixed5 (x : ℚ) : readDec (fixed5 x) = some (dec5 x) := by
  rw [fixed5_eq]
  unfold dec5
  by_cases hx : x < 0
  · simp only [hx, if_true, List.cons_append, List.nil_append, readDec, readUDec_txt, Option.map_some]
    congr 1; ring
  · simp only [hx, if_false, List.nil_append]
    have hr := readUDec_txt (roundEven (|x| * 100000))
    have hd := natTxt_digits (roundEven (|x| * 100000) / 100000)
    cases e : natTxt (roundEven (|x| * 100000) / 100000) with
    | nil => exact absurd e (natTxt_ne_nil _)
    | cons c cs =>
      rw [e] at hr hd
      have : c ≠ '-' := digit_free (hd c (by simp)) (by decide)
      unfold readDec
      split
      · next r heq => simp only [List.cons_append, List.cons.injEq] at heq; exact absurd heq.1 this
      · rw [hr, one_mul]

theorem dec5_near (x : ℚ) : |dec5 x - x| ≤ 1 / 200000 := by
  have h := roundEven_near (y := |x| * 100000) (by positivity)
  rw [abs_le] at h ⊢
  unfold dec5
  by_cases hx : x < 0
  · rw [if_pos hx, abs_of_neg hx] at *
    constructor <;> linarith
  · rw [if_neg hx, abs_of_nonneg (not_lt.1 hx)] at *
    constructor <;> linarith

theorem mapM_some {α β : Type} {f : α → Option β} {g : α → β} {l : List α} (h : ∀ a ∈ l, f a = some (g a)) :
    l.mapM f = some (l.map g) := by
  induction l with
  | nil => rfl
  | cons a l ih =>
    rw [List.mapM_cons, h a (by simp), ih fun b hb => h b (by simp [hb])]; rfl

theorem mapM_map_some {α β γ : Type} {f : β → Option γ} {h : α → β} {g : α → γ} {l : List α} (hh : ∀ a ∈ l, f (h a) = some (g a)) :
    (l.map h).mapM f = some (l.map g) := by
  induction l with
  | nil => rfl
  | cons a l ih =>
    rw [List.map_cons, List.mapM_cons, hh a (by simp), ih fun b hb => hh b (by simp [hb])]; rfl

end VT
end TQ

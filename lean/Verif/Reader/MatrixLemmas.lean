import Verif.Reader.Lemmas

/-!
# Lemmas about reading matrices
-/

namespace TQ
namespace PR
open PRSpec VTSpec

/-- Leave out an empty piece at the end. -/
def trimLast (ps : List Line) : List Line := if ps.getLast? = some [] then ps.dropLast else ps

theorem pieces_ne (p : Char → Bool) (l : Line) : pieces p l ≠ [] := by
  cases l with
  | nil => simp [pieces]
  | cons c l =>
    simp only [pieces]
    split
    · simp
    · split <;> simp

theorem trimLast_cons {w : Line} {ps : List Line} (h : ps ≠ []) : trimLast (w :: ps) = w :: trimLast ps := by
  obtain ⟨p, ps', rfl⟩ := List.exists_cons_of_ne_nil h
  simp only [trimLast, List.getLast?_cons_cons, List.dropLast_cons_cons]
  split <;> rfl

theorem pieces_cons_ne {d c : Char} (l : Line) (h : c ≠ d) :
    pieces (· == d) (c :: l) = match pieces (· == d) l with
      | w :: ws => (c :: w) :: ws
      | [] => [[c]] := by
  simp only [pieces, beq_iff_eq, h, if_false]
  cases pieces (fun x => x == d) l <;> rfl

theorem pieces_cons_eq {d : Char} (l : Line) : pieces (· == d) (d :: l) = [] :: pieces (· == d) l := by
  simp [pieces]

theorem getlines_eq (d : Char) : ∀ (n : Nat) (l : Line), l.length = n → getlines d l = trimLast (pieces (· == d) l) := by
  intro n
  induction n using Nat.strong_induction_on with
  | _ n ih =>
    intro l hl
    match l with
    | [] => simp [getlines, pieces, trimLast]
    | c :: l =>
      by_cases hc : c = d
      · subst hc
        rw [pieces_cons_eq, trimLast_cons (pieces_ne _ _), ← ih l.length (by simp at hl; omega) l rfl]
        conv_lhs => unfold getlines
        simp
      · match l with
        | [] => simp [getlines, hc, pieces, trimLast]
        | c' :: l' =>
          by_cases hc' : c' = d
          · subst hc'
            rw [pieces_cons_ne _ hc, pieces_cons_eq]
            simp only
            rw [trimLast_cons (pieces_ne _ _), ← ih l'.length (by simp at hl; omega) l' rfl]
            simp [getlines, hc]
          · have hrec := ih (c' :: l').length (by simp at hl ⊢; omega) (c' :: l') rfl
            have h1 : getlines d (c :: c' :: l') = match getlines d (c' :: l') with
                | w :: ws => (c :: w) :: ws
                | [] => [[c]] := by
              conv_lhs => unfold getlines
              simp only [hc, hc', if_false]
              cases getlines d (c' :: l') <;> rfl
            rw [h1, hrec, pieces_cons_ne _ hc, pieces_cons_ne _ hc']
            obtain ⟨w, ws, hw⟩ := List.exists_cons_of_ne_nil (pieces_ne (· == d) l')
            rw [hw]
            simp only
            cases ws with
            | nil => simp [trimLast]
            | cons v vs =>
              rw [trimLast_cons (w := c' :: w) (by simp), trimLast_cons (w := c :: c' :: w) (by simp)]

theorem getlines_cells (l : Line) : getlines ',' l = cells l := by
  rw [getlines_eq ',' _ l rfl]
  rfl

theorem noParens_bare (s : Line) : noParens s = bare s := by
  simp only [noParens, bare, List.filter_filter]
  apply List.filter_congr
  intro c _
  simp only [List.mem_cons, List.not_mem_nil, or_false]
  by_cases h1 : c = '(' <;> by_cases h2 : c = ')' <;> by_cases h3 : c = '[' <;> by_cases h4 : c = ']' <;> simp [h1, h2, h3, h4]

variable {T : Type*}

theorem entries_default (conv : Line → Option T) (d : T) (s : Line) :
    entries conv (some d) s = (cells s).map fun c => (conv (bare c)).getD d := by
  simp only [entries, getlines_cells, noParens_bare]
  rw [← List.filterMap_eq_map]
  congr 1
  funext e
  cases h : conv (bare e) <;> simp [h]

theorem entries_nodefault (conv : Line → Option T) (s : Line) :
    entries conv none s = (cells s).filterMap fun c => conv (bare c) := by
  simp only [entries, getlines_cells, noParens_bare]
  congr 1
  funext e
  cases h : conv (bare e) <;> simp [h]

/-- A line of a matrix with default values: one value for each column. -/
theorem processVector_default (conv : Line → Option T) (d : T) (n : Nat) (s : Line) (h : (cells s).length ≤ n) :
    processVector conv (some d) n s = (List.range n).map fun i => cellValue conv d s i := by
  simp only [processVector, fill, entries_default]
  apply List.ext_getElem?
  intro i
  by_cases hi : i < n
  · rw [List.getElem?_map, List.getElem?_range hi]
    by_cases hc : i < (cells s).length
    · rw [List.getElem?_append_left (by simpa using hc), List.getElem?_map]
      simp [cellValue, List.getElem?_eq_getElem hc]
    · rw [List.getElem?_append_right (by simp; omega), List.length_map, List.getElem?_replicate]
      rw [if_pos (by omega)]
      simp [cellValue, List.getElem?_eq_none (Nat.le_of_not_lt hc)]
  · rw [List.getElem?_eq_none (by simp; omega), List.getElem?_eq_none (by simp; omega)]

/-! ### Rows of a list -/

theorem flatMap_length {α : Type*} (f : α → List T) (n : Nat) (ls : List α) (h : ∀ s ∈ ls, (f s).length = n) :
    (ls.flatMap f).length = n * ls.length := by
  induction ls with
  | nil => simp
  | cons s ls ih =>
    rw [List.flatMap_cons, List.length_append, ih fun s hs => h s (List.mem_cons_of_mem _ hs), h s List.mem_cons_self, List.length_cons]
    ring

theorem flatMap_getElem {α : Type*} (f : α → List T) (n : Nat) : ∀ (ls : List α), (∀ s ∈ ls, (f s).length = n) → ∀ (j i : Nat), i < n →
    (ls.flatMap f)[j * n + i]? = (ls[j]?).bind fun s => (f s)[i]? := by
  intro ls
  induction ls with
  | nil => intro _ j i _; simp
  | cons s ls ih =>
    intro h j i hi
    have hs := h s List.mem_cons_self
    rw [List.flatMap_cons]
    cases j with
    | zero =>
      rw [List.getElem?_append_left (by omega)]
      simp
    | succ j =>
      rw [List.getElem?_append_right (by rw [hs, Nat.succ_mul]; omega), hs]
      rw [show (j + 1) * n + i - n = j * n + i by rw [Nat.succ_mul]; omega]
      rw [ih (fun s hs => h s (List.mem_cons_of_mem _ hs)) j i hi]
      simp

/-! ### Writing the rows -/

theorem resizeTo_length (n : Nat) (zero : T) (l : List T) : (resizeTo n zero l).length = n := by
  simp only [resizeTo, List.length_append, List.length_take, List.length_replicate]
  omega

theorem setCols_spec (out : List T) : ∀ (k i : Nat) (p : Para T), p.vals.length = p.ncol * p.nrow → i + k ≤ p.ncol * p.nrow →
    i + k ≤ out.length → (∀ m, m < i → p.vals[m]? = out[m]?) →
    (setCols out k i p) = { p with vals := (setCols out k i p).vals } ∧ (setCols out k i p).vals.length = p.vals.length ∧
      (∀ m, m < i + k → (setCols out k i p).vals[m]? = out[m]?) := by
  intro k
  induction k with
  | zero => intro i p h1 h2 h3 h4; exact ⟨rfl, rfl, h4⟩
  | succ k ih =>
    intro i p h1 h2 h3 h4
    have hi : i < out.length := by omega
    have hi' : ¬p.ncol * p.nrow ≤ i := by omega
    simp only [setCols, List.getElem?_eq_getElem hi, Para.setValue, if_neg hi']
    obtain ⟨e1, e2, e3⟩ := ih (i + 1) { p with vals := p.vals.set i out[i] } (by simp [h1]) (by dsimp only; omega) (by omega) (by
      intro m hm
      dsimp only
      by_cases hmi : m = i
      · subst hmi
        rw [List.getElem?_set_self (by omega), List.getElem?_eq_getElem hi]
      · rw [List.getElem?_set_ne (Ne.symm hmi)]
        exact h4 m (by omega))
    refine ⟨e1, by rw [e2]; simp, fun m hm => e3 m (by omega)⟩

theorem setRows_spec (zero : T) (out : List T) : ∀ (k j : Nat) (p : Para T), p.kind = .matrix → p.nrow = j + 1 →
    p.vals.length = p.ncol * p.nrow → p.ncol * (j + k) ≤ out.length → 0 < k → (∀ m, m < p.ncol * j → p.vals[m]? = out[m]?) →
    (setRows zero out k j p) = { p with nrow := j + k, vals := out.take (p.ncol * (j + k)) } := by
  intro k
  induction k with
  | zero => intro j p _ _ _ _ h; omega
  | succ k ih =>
    intro j p hm hr hl hout _ hv
    have hjn : j * p.ncol = p.ncol * j := Nat.mul_comm _ _
    have hexp : p.ncol * (j + 1) = p.ncol * j + p.ncol := by ring
    have hexp2 : p.ncol * (j + (k + 1)) = p.ncol * j + p.ncol + p.ncol * k := by ring
    rw [hr] at hl
    obtain ⟨e1, e2, e3⟩ := setCols_spec out p.ncol (j * p.ncol) p (by rw [hr]; exact hl) (by rw [hr]; omega) (by omega)
      (by rw [hjn]; exact hv)
    simp only [setRows]
    set p1 := setCols out p.ncol (j * p.ncol) p with hp1
    cases k with
    | zero =>
      simp only [if_true, setRows]
      rw [e1]
      have : p1.vals = out.take (p.ncol * (j + (0 + 1))) := by
        apply List.ext_getElem?
        intro m
        by_cases hm' : m < p.ncol * j + p.ncol
        · rw [e3 m (by omega), List.getElem?_take_of_lt (by simpa [hexp] using hm')]
        · rw [List.getElem?_eq_none (by omega), List.getElem?_eq_none (by simp; omega)]
      rw [this]
      congr 1
    | succ k =>
      have hk1 : p1.kind = .matrix := by rw [e1]; exact hm
      have hc1 : p1.ncol = p.ncol := by rw [e1]
      have hr1 : p1.nrow = p.nrow := by rw [e1]
      have hne : ¬(k + 1 = 0) := by omega
      rw [if_neg hne]
      have hadd : p1.addRow zero = { p1 with nrow := p1.nrow + 1, vals := p1.vals ++ List.replicate p1.ncol zero } := by
        simp [Para.addRow, hk1]
      rw [ih (j + 1) (p1.addRow zero) (by rw [hadd]; exact hk1) (by rw [hadd]; dsimp only; omega)
        (by rw [hadd]; simp only [List.length_append, List.length_replicate, e2, hl, hc1, hr1, hr]; ring)
        (by rw [hadd]; dsimp only; rw [hc1, show j + 1 + (k + 1) = j + (k + 1 + 1) by omega]; exact hout) (by omega)
        (by
          intro m hm'
          rw [hadd] at hm' ⊢
          dsimp only at hm' ⊢
          rw [hc1] at hm'
          rw [List.getElem?_append_left (by omega)]
          exact e3 m (by omega))]
      rw [hadd, e1]
      dsimp only
      congr 1
      · omega
      · rw [show j + 1 + (k + 1) = j + (k + 1 + 1) by omega]

/-- What `query_matrix` stores when there is at least one row. -/
theorem setRows_resize (zero : T) (out : List T) (rows : Nat) (p : Para T) (hk : p.kind = .matrix) (hr : 0 < rows)
    (hl : out.length = p.ncol * rows) :
    setRows zero out rows 0 (p.resize zero) = { p with nrow := rows, vals := out } := by
  rw [setRows_spec zero out rows 0 (p.resize zero) hk rfl (by simp [Para.resize, resizeTo_length]) (by simp [Para.resize, hl]) hr (by simp)]
  simp only [Para.resize, Nat.zero_add]
  rw [← hl, List.take_length]

end PR
end TQ

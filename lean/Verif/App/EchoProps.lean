import Verif.App.EchoModel
import Verif.App.EchoSpec
import Verif.Reader.MatrixProps
import Verif.Writer.Lemmas

/-!
# C193: printed parameters can be used as input
-/

set_option linter.unusedSectionVars false

namespace TQ
namespace App
open PR PRSpec EchoSpec VTSpec

variable {T : Type*}

theorem range_mapM {α : Type*} (f : Nat → Option α) : ∀ n : Nat, (∀ i : Nat, i < n → ∃ v, f i = some v) →
    ∃ r, (List.range n).mapM f = some r ∧ r.length = n ∧ ∀ i : Nat, i < n → r[i]? = f i := by
  intro n
  induction n with
  | zero => intro _; exact ⟨[], rfl, rfl, by omega⟩
  | succ n ih =>
    intro h
    obtain ⟨r, h1, h2, h3⟩ := ih fun i hi => h i (by omega)
    obtain ⟨v, hv⟩ := h n (by omega)
    refine ⟨r ++ [v], ?_, by simp [h2], fun i hi => ?_⟩
    · rw [List.range_succ, List.mapM_append, h1]
      simp [hv]
    · by_cases hin : i < n
      · rw [List.getElem?_append_left (by omega)]; exact h3 i hin
      · have : i = n := by omega
        subst this
        rw [List.getElem?_append_right (by omega)]
        simp [h2, hv]

theorem mem_echoRow (fmt : T → Line) : ∀ (vs : List T) {c : Char}, c ∈ echoRow fmt vs → c = ',' ∨ c = ' ' ∨ ∃ v ∈ vs, c ∈ fmt v
  | [], _, h => by simp [echoRow] at h
  | [v], _, h => Or.inr (Or.inr ⟨v, by simp, h⟩)
  | v :: w :: vs, c, h => by
    simp only [echoRow, List.mem_append] at h
    rcases h with (h | h) | h
    · exact Or.inr (Or.inr ⟨v, by simp, h⟩)
    · simp at h; tauto
    · rcases mem_echoRow fmt (w :: vs) h with h | h | ⟨u, hu, h⟩
      · exact Or.inl h
      · exact Or.inr (Or.inl h)
      · exact Or.inr (Or.inr ⟨u, List.mem_cons_of_mem _ hu, h⟩)

/-- The pieces between the commas. -/
theorem pieces_echoRow (fmt : T → Line) : ∀ (v : T) (vs : List T), (∀ u ∈ v :: vs, ∀ c ∈ fmt u, c ≠ ',') →
    pieces (· == ',') (echoRow fmt (v :: vs)) = fmt v :: vs.map fun u => ' ' :: fmt u
  | v, [], h => by
    simp only [echoRow, List.map_nil]
    exact VT.split_free fun c hc => by simpa using h v (by simp) c hc
  | v, w :: vs, h => by
    have ih := pieces_echoRow fmt w vs fun u hu => h u (List.mem_cons_of_mem _ hu)
    have e : echoRow fmt (v :: w :: vs) = fmt v ++ ',' :: (' ' :: echoRow fmt (w :: vs)) := by simp [echoRow]
    rw [e, VT.split_append (by simp), VT.split_free fun c hc => by simpa using h v (by simp) c hc, pieces_cons_ne _ (by decide), ih]
    rfl

/-- Without the blanks. -/
theorem pieces_stripped (fmt : T → Line) : ∀ (v : T) (vs : List T), (∀ u ∈ v :: vs, ∀ c ∈ fmt u, c ≠ ',' ∧ c ≠ ' ') →
    pieces (· == ',') ((echoRow fmt (v :: vs)).filter (· ≠ ' ')) = fmt v :: vs.map fmt
  | v, [], h => by
    have : (fmt v).filter (· ≠ ' ') = fmt v := List.filter_eq_self.2 fun c hc => by simpa using (h v (by simp) c hc).2
    simp only [echoRow, List.map_nil, this]
    exact VT.split_free fun c hc => by simpa using (h v (by simp) c hc).1
  | v, w :: vs, h => by
    have ih := pieces_stripped fmt w vs fun u hu => h u (List.mem_cons_of_mem _ hu)
    have hf : (fmt v).filter (· ≠ ' ') = fmt v := List.filter_eq_self.2 fun c hc => by simpa using (h v (by simp) c hc).2
    have e : (echoRow fmt (v :: w :: vs)).filter (· ≠ ' ') = fmt v ++ ',' :: (echoRow fmt (w :: vs)).filter (· ≠ ' ') := by
      simp only [echoRow, List.filter_append, hf]; simp
    rw [e, VT.split_append (by simp), VT.split_free fun c hc => by simpa using (h v (by simp) c hc).1, ih]
    rfl

theorem cells_of_pieces {l : Line} {ps : List Line} (h : pieces (· == ',') l = ps) (hne : ∀ w ∈ ps, w ≠ []) : cells l = ps := by
  simp only [cells, h]
  rw [if_neg]
  intro hl
  exact hne _ (List.mem_of_getLast? hl) rfl

theorem bare_self {w : Line} (h : ∀ c ∈ w, c ∉ ['(', ')', '[', ']']) : bare w = w :=
  List.filter_eq_self.2 fun c hc => by simpa using h c hc

/-- Entries that can all be read. -/
theorem processVector_all (conv : Line → Option T) (dflt : Option T) (n : Nat) (s : Line) (vs : List T)
    (h : List.Forall₂ (fun c v => conv (bare c) = some v) (cells s) vs) (hn : n ≤ vs.length) : processVector conv dflt n s = vs := by
  have key : entries conv dflt s = vs := by
    simp only [entries, getlines_cells, noParens_bare]
    clear hn
    generalize cells s = cs at h
    induction h with
    | nil => rfl
    | cons h1 _ ih => simp only [List.filterMap_cons, h1]; rw [ih]
  simp only [processVector, key]
  cases dflt with
  | none => rfl
  | some d => simp [fill, Nat.sub_eq_zero_of_le hn]

theorem row_entries {conv : Line → Option T} {fmt : T → Line} {r : T → T} {vs : List T} (hne : vs ≠ [])
    (h : ∀ v ∈ vs, Readable false conv fmt r v) :
    List.Forall₂ (fun c v => conv (bare c) = some v) (cells (echoRow fmt vs)) (vs.map r) ∧
    List.Forall₂ (fun c v => conv (bare c) = some v) (cells ((echoRow fmt vs).filter (· ≠ ' '))) (vs.map r) := by
  obtain ⟨v, vs, rfl⟩ := List.exists_cons_of_ne_nil hne
  have hb : ∀ u ∈ v :: vs, bare (fmt u) = fmt u := fun u hu => bare_self fun c hc => by
    have := ((h u hu).2.2 rfl).2.2 c hc
    simp only [List.mem_cons, not_or] at this ⊢
    tauto
  have hb' : ∀ u ∈ v :: vs, bare (' ' :: fmt u) = ' ' :: fmt u := fun u hu => by
    have := hb u hu
    unfold bare at this ⊢
    rw [List.filter_cons_of_pos (by decide), this]
  have hc : ∀ u ∈ v :: vs, ∀ c ∈ fmt u, c ≠ ',' := fun u hu c hc => by
    have := ((h u hu).2.2 rfl).2.2 c hc
    simp only [List.mem_cons, not_or] at this
    exact this.1
  constructor
  · rw [cells_of_pieces (pieces_echoRow fmt v vs hc) (by
      intro w hw
      rcases List.mem_cons.1 hw with rfl | hw
      · exact ((h v (by simp)).2.2 rfl).2.1
      · obtain ⟨u, -, rfl⟩ := List.mem_map.1 hw; simp), List.map_cons]
    refine List.Forall₂.cons (by rw [hb v (by simp)]; exact (h v (by simp)).1) ?_
    rw [List.forall₂_map_left_iff, List.forall₂_map_right_iff, List.forall₂_same]
    intro u hu
    rw [hb' u (by simp [hu])]
    exact ((h u (by simp [hu])).2.2 rfl).1
  · rw [cells_of_pieces (pieces_stripped fmt v vs fun u hu c hc' => ⟨hc u hu c hc', ((h u hu).2.1 c hc').2⟩) (by
      intro w hw
      rcases List.mem_cons.1 hw with rfl | hw
      · exact ((h v (by simp)).2.2 rfl).2.1
      · obtain ⟨u, hu, rfl⟩ := List.mem_map.1 hw; exact ((h u (by simp [hu])).2.2 rfl).2.1)]
    rw [show fmt v :: vs.map fmt = (v :: vs).map fmt from rfl, List.forall₂_map_left_iff, List.forall₂_map_right_iff, List.forall₂_same]
    intro u hu
    rw [hb u hu]
    exact (h u hu).1

/-- The text behind the key of a line whose key ends with a character that is not in the text. -/
theorem valueOf_line {k t : Line} {c : Char} (hc : c ∉ t) : ValueOf (k ++ [c]) (k ++ [c] ++ t) ((t.takeWhile (· ≠ '#')).filter (· ≠ ' ')) := by
  refine ⟨[], t, by simp, ?_, rfl⟩
  rintro j ⟨a, b, h, rfl⟩
  by_contra hj
  have hj : 0 < a.length := by simp only [List.length_nil] at hj; omega
  have h2 := congrArg (·[a.length + k.length]?) h
  have hl : (k ++ [c]).length = k.length + 1 := by simp
  rw [List.getElem?_append_right (by omega), show a ++ (k ++ [c]) ++ b = (a ++ k) ++ (c :: b) by simp,
    List.getElem?_append_right (by simp)] at h2
  simp only [List.length_append, Nat.sub_self, List.getElem?_cons_zero] at h2
  exact hc (List.mem_of_getElem? h2)

theorem takeWhile_all {α : Type*} {f : α → Bool} : ∀ {l : List α}, (∀ c ∈ l, f c = true) → l.takeWhile f = l
  | [], _ => rfl
  | c :: l, h => by rw [List.takeWhile_cons_of_pos (h c (by simp)), takeWhile_all fun d hd => h d (List.mem_cons_of_mem _ hd)]

theorem first_mid {q l : Line} {pre post : List Line} (h1 : ∀ m ∈ pre, ¬q <:+: m) (h2 : q <:+: l) : First q (pre ++ l :: post) 0 pre.length := by
  refine ⟨Nat.zero_le _, ⟨l, by simp, h2⟩, fun j _ hj => ?_⟩
  rintro ⟨m, hm, hq⟩
  rw [List.getElem?_append_left hj] at hm
  exact h1 m (List.mem_of_getElem? hm) hq

end App

open PR PRSpec EchoSpec App

variable {T : Type*}

/-- **C193.** Scalars and vectors: the printed line, anywhere behind lines without the key, is read as the printed values. -/
theorem C193_line (conv : Line → Option T) (fmt : T → Line) (r : T → T) (zero : T) (dflt : Option T) (p : Para T) (pre post : List Line)
    (hk : p.kind ≠ .matrix) (hs : p.kind = .scalar → p.ncol = 1) (hn : 0 < p.ncol) (hr : p.nrow = 1) (hv : p.vals.length = p.ncol)
    (hval : ∀ v ∈ p.vals, Readable (p.kind = .scalar) conv fmt r v) (hkey : KeyEnds fmt p.startKey p.vals) (hpre : ∀ l ∈ pre, ¬p.startKey <:+: l) :
    ∃ ls, echo fmt p = some ls ∧ ∃ q, queryPara conv zero dflt (pre ++ ls ++ post)
      (Para.new p.kind p.startKey p.endKey p.ncol zero 0 (pre ++ ls ++ post).length) = .ret true q ∧ q.found = true ∧
      q.nrow = 1 ∧ q.vals = p.vals.map r := by
  obtain ⟨vs, e1, e2, e3⟩ := range_mapM p.value p.ncol fun i hi => ⟨p.vals[i], by
    simp only [Para.value, hr, Nat.mul_one]; rw [if_neg (by omega)]; exact List.getElem?_eq_getElem (by omega)⟩
  have evs : vs = p.vals := by
    apply List.ext_getElem?
    intro i
    by_cases hi : i < p.ncol
    · rw [e3 i hi]; simp only [Para.value, hr, Nat.mul_one]; rw [if_neg (by omega)]
    · rw [List.getElem?_eq_none (by omega), List.getElem?_eq_none (by omega)]
  subst evs
  have he : echo fmt p = some [p.startKey ++ [' '] ++ echoRow fmt p.vals, []] := by
    unfold echo
    cases hkk : p.kind with
    | matrix => exact absurd hkk hk
    | scalar => simp only [e1, Option.map_some]
    | vector => simp only [e1, Option.map_some]
  refine ⟨_, he, ?_⟩
  obtain ⟨k, c, hkc, c1, c2, c3⟩ := hkey
  have hct : c ∉ [' '] ++ echoRow fmt p.vals := by
    intro h
    rcases List.mem_append.1 h with h | h
    · exact c2 (by simpa using h)
    · rcases mem_echoRow fmt _ h with h | h | ⟨v, hv, h⟩
      · exact c1 h
      · exact c2 h
      · exact c3 v hv h
  have hhash : ([' '] ++ echoRow fmt p.vals).takeWhile (· ≠ '#') = [' '] ++ echoRow fmt p.vals := by
    refine takeWhile_all fun d hd => ?_
    rcases List.mem_append.1 hd with h | h
    · have : d = ' ' := by simpa using h
      subst this; decide
    · rcases mem_echoRow fmt _ h with h | h | ⟨v, hv, h⟩
      · subst h; decide
      · subst h; decide
      · simpa using ((hval v hv).2.1 d h).1
  have hvo : ValueOf p.startKey (p.startKey ++ [' '] ++ echoRow fmt p.vals) ((echoRow fmt p.vals).filter (· ≠ ' ')) := by
    have := valueOf_line (k := k) hct
    rw [hhash, ← hkc, ← List.append_assoc] at this
    simpa using this
  set content := pre ++ [p.startKey ++ [' '] ++ echoRow fmt p.vals, []] ++ post with hcont
  have hcont' : content = pre ++ (p.startKey ++ [' '] ++ echoRow fmt p.vals) :: ([] :: post) := by simp [hcont]
  have hfirst : First p.startKey content 0 pre.length := by
    rw [hcont']
    exact first_mid hpre ⟨[], [' '] ++ echoRow fmt p.vals, by simp⟩
  have hlt : pre.length < content.length := by simp [hcont]
  have hget : content[pre.length]? = some (p.startKey ++ [' '] ++ echoRow fmt p.vals) := by rw [hcont']; simp
  obtain ⟨pos, l, g1, g2, g3⟩ := query_first (c := ⟨0, content.length, 0⟩) le_rfl hfirst hlt
  rw [hget] at g1
  cases g1
  have hst : strip ((p.startKey ++ [' '] ++ echoRow fmt p.vals).drop (pos + p.startKey.length)) = (echoRow fmt p.vals).filter (· ≠ ' ') :=
    valueOf_unique (valueOf_of_last g2) hvo
  cases hkk : p.kind with
  | matrix => exact absurd hkk hk
  | scalar =>
    have h1 := hs hkk
    obtain ⟨v, hvv⟩ := List.length_eq_one_iff.1 (hv.trans h1)
    have hv' := hval v (by rw [hvv]; simp)
    have hf : (echoRow fmt p.vals).filter (· ≠ ' ') = fmt v := by
      rw [hvv]
      exact List.filter_eq_self.2 fun c hc => by simpa using (hv'.2.1 c hc).2
    simp only [queryPara, Para.new, queryScalar, g3, hget, hst, hf, hv'.1, h1, Para.setValue, List.replicate_one]
    refine ⟨_, rfl, rfl, ?_, ?_⟩
    · simp
    · simp [hvv]
  | vector =>
    have hne : p.vals ≠ [] := by intro h; rw [h] at hv; simp at hv; omega
    have hpv := processVector_all conv dflt p.ncol _ _ (row_entries hne (by simpa [hkk] using hval)).2 (by simp [hv])
    simp only [queryPara, Para.new, queryVector, g3, hget, hst, hpv]
    rw [if_neg (by simp [hv])]
    obtain ⟨s1, s2, s3⟩ := setCols_spec (p.vals.map r) p.ncol 0
      (⟨.vector, p.startKey, p.endKey, ⟨0, content.length, pre.length + 1 - 0⟩, false, p.ncol, 1, List.replicate p.ncol zero⟩ : Para T)
      (by simp) (by simp) (by simp [hv]) (by simp)
    refine ⟨_, rfl, rfl, ?_, ?_⟩
    · rw [s1]
    · apply List.ext_getElem?
      intro m
      by_cases hm : m < p.ncol
      · exact s3 m (by omega)
      · rw [List.getElem?_eq_none (by simp only [s2, List.length_replicate]; omega), List.getElem?_eq_none (by simp; omega)]

/-- **C193.** Matrices: the printed lines, anywhere behind lines without the key, are read as the printed values. -/
theorem C193_table (conv : Line → Option T) (fmt : T → Line) (r : T → T) (zero : T) (dflt : Option T) (p : Para T) (pre post : List Line)
    (hk : p.kind = .matrix) (hn : 0 < p.ncol) (hr : 0 < p.nrow) (hv : p.vals.length = p.ncol * p.nrow)
    (hval : ∀ v ∈ p.vals, Readable false conv fmt r v) (hkey : KeyDiffers fmt p.endKey p.vals) (hpre : ∀ l ∈ pre, ¬p.startKey <:+: l) :
    ∃ ls, echo fmt p = some ls ∧ ∃ q, queryPara conv zero dflt (pre ++ ls ++ post)
      (Para.new p.kind p.startKey p.endKey p.ncol zero 0 (pre ++ ls ++ post).length) = .ret true q ∧ q.found = true ∧
      q.nrow = p.nrow ∧ ∀ i j, i < p.ncol → j < p.nrow → q.value2 i j = (p.value2 i j).map r := by
  have hix : ∀ i j, i < p.ncol → j < p.nrow → j * p.ncol + i < p.ncol * p.nrow := fun i j hi hj => by
    have : p.ncol * (j + 1) ≤ p.ncol * p.nrow := Nat.mul_le_mul_left _ hj
    rw [Nat.mul_add, Nat.mul_comm p.ncol j] at this
    omega
  have hval2 : ∀ i j, i < p.ncol → j < p.nrow → p.value2 i j = p.vals[j * p.ncol + i]? := fun i j hi hj => by
    have := hix i j hi hj
    simp only [Para.value2]; rw [if_neg (by omega)]
  have hrow := fun j hj => range_mapM (fun i => p.value2 i j) p.ncol fun i hi => ⟨p.vals[j * p.ncol + i]'(by rw [hv]; exact hix i j hi hj), by
    rw [hval2 i j hi hj]; exact List.getElem?_eq_getElem _⟩
  obtain ⟨rows, e1, e2, e3⟩ := range_mapM (fun j => (List.range p.ncol).mapM fun i => p.value2 i j) p.nrow fun j hj => by
    obtain ⟨vs, h, -⟩ := hrow j hj; exact ⟨vs, h⟩
  have erow : ∀ j vs, rows[j]? = some vs → vs.length = p.ncol ∧ (∀ i : Nat, i < p.ncol → vs[i]? = p.value2 i j) ∧ ∀ v ∈ vs, v ∈ p.vals := by
    intro j vs hvs
    have hj : j < p.nrow := by rw [← e2]; exact (List.getElem?_eq_some_iff.1 hvs).1
    obtain ⟨vs', h1, h2, h3⟩ := hrow j hj
    rw [e3 j hj, h1] at hvs
    cases hvs
    refine ⟨h2, h3, fun v hv' => ?_⟩
    obtain ⟨i, hi⟩ := List.mem_iff_getElem?.1 hv'
    have hil : i < p.ncol := by rw [← h2]; exact (List.getElem?_eq_some_iff.1 hi).1
    rw [h3 i hil, hval2 i j hil hj] at hi
    exact List.mem_of_getElem? hi
  have erow' : ∀ vs ∈ rows, vs.length = p.ncol ∧ ∀ v ∈ vs, v ∈ p.vals := fun vs h => by
    obtain ⟨j, hj⟩ := List.mem_iff_getElem?.1 h
    exact ⟨(erow j vs hj).1, (erow j vs hj).2.2⟩
  have he : echo fmt p = some (p.startKey :: rows.map (echoRow fmt) ++ [p.endKey, []]) := by
    unfold echo
    rw [hk]
    simp only [e1, Option.map_some]
  refine ⟨_, he, ?_⟩
  set content := pre ++ (p.startKey :: rows.map (echoRow fmt) ++ [p.endKey, []]) ++ post with hcont
  have hc1 : content = pre ++ p.startKey :: (rows.map (echoRow fmt) ++ p.endKey :: ([] :: post)) := by simp [hcont]
  have hc2 : content = (pre ++ p.startKey :: rows.map (echoRow fmt)) ++ p.endKey :: ([] :: post) := by simp [hcont]
  have hs : First p.startKey content 0 pre.length := by rw [hc1]; exact first_mid hpre ⟨[], [], by simp⟩
  set e := pre.length + 1 + p.nrow with hedef
  have hlen : (pre ++ p.startKey :: rows.map (echoRow fmt)).length = e := by simp [hedef, e2]; omega
  obtain ⟨c, hc, c1, c2, c3⟩ := hkey
  have hE : First p.endKey content (pre.length + 1) e := by
    refine ⟨by omega, ⟨p.endKey, ?_, List.infix_refl _⟩, fun j hj1 hj2 => ?_⟩
    · rw [hc2, ← hlen]; simp
    · rintro ⟨l, hl, hq⟩
      rw [hc2, List.getElem?_append_left (by omega), List.getElem?_append_right (by omega)] at hl
      obtain ⟨m, hm⟩ : ∃ m, j - pre.length = m + 1 := ⟨j - pre.length - 1, by omega⟩
      rw [hm, List.getElem?_cons_succ] at hl
      obtain ⟨vs, hvs, rfl⟩ := List.mem_map.1 (List.mem_of_getElem? hl)
      rcases mem_echoRow fmt _ (hq.subset hc) with h | h | ⟨v, hv', h⟩
      · exact c1 h
      · exact c2 h
      · exact c3 v ((erow' vs hvs).2 v hv') h
  have hec : e < content.length := by rw [hc2]; simp only [List.length_append, hlen]; simp
  have hbody : (content.take e).drop (pre.length + 1) = rows.map (echoRow fmt) := by
    rw [hc2, ← hlen, List.take_left, show pre ++ p.startKey :: rows.map (echoRow fmt) = (pre ++ [p.startKey]) ++ rows.map (echoRow fmt) by simp,
      show pre.length + 1 = (pre ++ [p.startKey]).length by simp, List.drop_left]
  have hout : processMatrix conv dflt p.ncol (rows.map (echoRow fmt)) = rows.flatMap (·.map r) := by
    simp only [processMatrix, List.flatMap_map]
    apply List.flatMap_congr
    intro vs hvs
    obtain ⟨h1, h2⟩ := erow' vs hvs
    exact processVector_all conv dflt p.ncol _ _ (row_entries (by intro h; rw [h] at h1; simp at h1; omega) fun v hv' => hval v (h2 v hv')).1 (by simp [h1])
  have hol : (rows.flatMap (·.map r)).length = p.ncol * p.nrow := by
    rw [flatMap_length _ p.ncol _ fun vs hvs => by simp [(erow' vs hvs).1], e2]
  have hq := queryMatrix_at conv zero dflt content (Para.new .matrix p.startKey p.endKey p.ncol zero 0 content.length) pre.length e hn le_rfl
    (by simpa [Para.new] using hs) hE hec
  rw [hk]
  simp only [queryPara, show (Para.new Kind.matrix p.startKey p.endKey p.ncol zero 0 content.length).kind = .matrix from rfl]
  rw [hq]
  simp only [hbody, show (Para.new Kind.matrix p.startKey p.endKey p.ncol zero 0 content.length).ncol = p.ncol from rfl, hout, hol,
    Nat.mul_div_cancel_left _ hn]
  rw [if_neg (by simp), setRows_resize zero _ p.nrow _ rfl hr (by simpa [Para.new] using hol)]
  refine ⟨_, rfl, rfl, rfl, fun i j hi hj => ?_⟩
  simp only [Para.value2, Para.new]
  have hlt := hix i j hi hj
  rw [if_neg (by omega), flatMap_getElem _ p.ncol rows (fun vs hvs => by simp [(erow' vs hvs).1]) j i hi]
  have hrj : j < rows.length := by omega
  rw [List.getElem?_eq_getElem hrj]
  simp only [Option.bind_some, List.getElem?_map]
  have := (erow j rows[j] (List.getElem?_eq_getElem hrj)).2.1 i hi
  rw [this, hval2 i j hi hj, if_neg (by omega)]

/-- What every parameter keeps. -/
def App.Kept (p q : Para T) : Prop :=
  q.vals.length = q.ncol * q.nrow ∧ 0 < q.nrow ∧ q.ncol = p.ncol ∧ q.kind = p.kind ∧ q.startKey = p.startKey ∧ q.endKey = p.endKey ∧
    (p.kind ≠ .matrix → q.nrow = p.nrow)

theorem App.setCols_kept (out : List T) : ∀ (k i : Nat) (p : Para T), (setCols out k i p).vals.length = p.vals.length ∧
    (setCols out k i p) = { p with vals := (setCols out k i p).vals }
  | 0, _, _ => ⟨rfl, rfl⟩
  | k + 1, i, p => by
    simp only [setCols]
    cases out[i]? with
    | none => exact ⟨rfl, rfl⟩
    | some v =>
      obtain ⟨h1, h2⟩ := App.setCols_kept out k (i + 1) (p.setValue i v)
      simp only
      have e : p.setValue i v = { p with vals := (p.setValue i v).vals } ∧ (p.setValue i v).vals.length = p.vals.length := by
        unfold Para.setValue; split <;> simp
      refine ⟨h1.trans e.2, ?_⟩
      rw [h2, e.1]

/-- **C193.** The conditions on the shape in C193_line and C193_table hold in the application: a new parameter has this shape, and every query keeps it. -/
theorem C193_shape (conv : Line → Option T) (zero : T) (dflt : Option T) :
    (∀ k sk ek n bs be, (Para.new k sk ek n zero bs be).vals.length = n * 1 ∧ (Para.new k sk ek n zero bs be).nrow = 1) ∧
    ∀ (content : List Line) (p q : Para T) (b : Bool), p.vals.length = p.ncol * p.nrow → 0 < p.nrow →
      queryPara conv zero dflt content p = .ret b q → App.Kept p q := by
  refine ⟨fun k sk ek n bs be => by simp [Para.new], fun content p q b hv hr h => ?_⟩
  unfold queryPara at h
  cases hk : p.kind with
  | scalar =>
    rw [hk] at h
    simp only [queryScalar] at h
    rcases hq : query p.startKey content p.cur with ⟨hit, c⟩
    rw [hq] at h
    cases hit with
    | ub => cases h
    | miss => cases h; exact ⟨hv, hr, rfl, rfl, rfl, rfl, fun _ => rfl⟩
    | «at» i pos =>
      simp only at h
      cases hl : content[i]? with
      | none => rw [hl] at h; cases h
      | some l =>
        rw [hl] at h
        simp only at h
        cases hcv : conv (strip (l.drop (pos + p.startKey.length))) with
        | none => rw [hcv] at h; cases h; exact ⟨hv, hr, rfl, rfl, rfl, rfl, fun _ => rfl⟩
        | some v =>
          rw [hcv] at h
          cases h
          simp only [Para.setValue]
          split <;> exact ⟨by simpa using hv, hr, rfl, rfl, rfl, rfl, fun _ => rfl⟩
  | vector =>
    rw [hk] at h
    simp only [queryVector] at h
    rcases hq : query p.startKey content p.cur with ⟨hit, c⟩
    rw [hq] at h
    cases hit with
    | ub => cases h
    | miss => cases h; exact ⟨hv, hr, rfl, rfl, rfl, rfl, fun _ => rfl⟩
    | «at» i pos =>
      simp only at h
      cases hl : content[i]? with
      | none => rw [hl] at h; cases h
      | some l =>
        rw [hl] at h
        simp only at h
        split at h
        · cases h; exact ⟨hv, hr, rfl, rfl, rfl, rfl, fun _ => rfl⟩
        · cases h
          obtain ⟨h1, h2⟩ := App.setCols_kept (processVector conv dflt p.ncol (strip (l.drop (pos + p.startKey.length)))) p.ncol 0 { p with cur := c }
          rw [h2]
          exact ⟨h1.trans hv, hr, rfl, rfl, rfl, rfl, fun _ => rfl⟩
  | matrix =>
    rw [hk] at h
    simp only [queryMatrix] at h
    rcases hq : query p.startKey content p.cur with ⟨hit, c⟩
    rw [hq] at h
    cases hit with
    | ub => cases h
    | miss => cases h; exact ⟨hv, hr, rfl, rfl, rfl, rfl, fun _ => rfl⟩
    | «at» i pos =>
      simp only at h
      rcases hq2 : query p.endKey content c with ⟨hit2, c2⟩
      rw [hq2] at h
      cases hit2 with
      | ub => cases h
      | miss => cases h; exact ⟨hv, hr, rfl, rfl, rfl, rfl, fun _ => rfl⟩
      | «at» e pos2 =>
        simp only at h
        split at h
        · cases h
        · split at h
          · cases h
          · split at h
            · cases h; exact ⟨hv, hr, rfl, rfl, rfl, rfl, fun _ => rfl⟩
            · rename_i hne hlen
              simp only [ne_eq, not_not] at hlen
              cases h
              rcases Nat.eq_zero_or_pos ((processMatrix conv dflt p.ncol ((content.take e).drop (i + 1))).length / p.ncol) with h0 | hpos
              · rw [h0]
                simp only [setRows, Para.resize]
                exact ⟨by simp [resizeTo_length], Nat.one_pos, rfl, rfl, rfl, rfl, fun h => absurd hk h⟩
              · rw [setRows_resize zero _ _ { p with cur := c2 } hk hpos hlen]
                exact ⟨hlen, hpos, rfl, rfl, rfl, rfl, fun h => absurd hk h⟩

namespace App

/-- Decimal output of natural numbers. -/
def fmtN (n : Nat) : Line := Nat.toDigits 10 n

/-- A table of two rows. -/
def echoDemo : Para Nat := ⟨.matrix, "Define vertices:".toList, "End vertices".toList, ⟨3, 9, 5⟩, true, 3, 2, [10, 0, 7, 123, 5, 66]⟩

example : echo fmtN echoDemo = some ["Define vertices:".toList, "10, 0, 7".toList, "123, 5, 66".toList, "End vertices".toList, []] := by decide +kernel

theorem echoDemo_readable : (∀ v ∈ echoDemo.vals, Readable false convN fmtN id v) ∧ KeyDiffers fmtN echoDemo.endKey echoDemo.vals := by
  refine ⟨?_, 'E', by decide +kernel, by decide, by decide, by decide +kernel⟩
  intro v hv
  simp only [echoDemo, List.mem_cons, List.not_mem_nil, or_false] at hv
  rcases hv with rfl | rfl | rfl | rfl | rfl | rfl <;>
    exact ⟨by decide +kernel, by decide +kernel, fun _ => ⟨by decide +kernel, by decide +kernel, by decide +kernel⟩⟩

example := C193_table convN fmtN id 0 none echoDemo ["Element color: 4".toList] ["End mesh".toList] rfl (by decide) (by decide) (by decide)
  echoDemo_readable.1 echoDemo_readable.2 (by decide +kernel)

/-- A vector. -/
def echoVec : Para Nat := ⟨.vector, "Add quad layers:".toList, [], ⟨3, 9, 5⟩, true, 3, 1, [10, 0, 7]⟩

example := C193_line convN fmtN id 0 (some 1) echoVec ["Element color: 4".toList] ["End mesh".toList] (by decide) (by decide) (by decide) rfl (by decide)
  (by
    intro v hv
    simp only [echoVec, List.mem_cons, List.not_mem_nil, or_false] at hv
    rcases hv with rfl | rfl | rfl <;>
      exact ⟨by decide +kernel, by decide +kernel, fun _ => ⟨by decide +kernel, by decide +kernel, by decide +kernel⟩⟩)
  ⟨"Add quad layers".toList, ':', by decide +kernel, by decide, by decide, by decide +kernel⟩ (by decide +kernel)

end App

/-- **C193 needs the condition on the key:** a value that has the key in it is not read again. -/
theorem C193_key_needed : ∃ p : Para Line, p.kind = .scalar ∧ p.vals = ["Prefix:a".toList] ∧ p.ncol = 1 ∧ p.nrow = 1 ∧ p.startKey = "Prefix:".toList ∧
    ∃ ls, echo id p = some ls ∧ ∃ q, queryPara convS [] none ls (Para.new p.kind p.startKey p.endKey p.ncol [] 0 ls.length) = .ret true q ∧
      q.vals = ["a".toList] :=
  ⟨⟨.scalar, "Prefix:".toList, [], ⟨0, 0, 0⟩, true, 1, 1, ["Prefix:a".toList]⟩, rfl, rfl, rfl, rfl, rfl, _, rfl, _, rfl, by decide +kernel⟩

end TQ

#print axioms TQ.C193_line
#print axioms TQ.C193_table
#print axioms TQ.C193_shape
#print axioms TQ.C193_key_needed

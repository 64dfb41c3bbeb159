import Verif.Config.Spec
import Verif.Reader.MatrixProps
import Verif.Reader.Props
import Mathlib.Tactic.Linarith

/-!
# Where the words of the entries occur
-/

set_option linter.unusedSectionVars false

namespace TQ
namespace Cf
open PR PRSpec CfSpec

/-- All names. -/
def names : List Name :=
  [.outPrefix, .outFormat, .vertices, .size, .color, .algorithm, .refinements, .smoothing, .smoothLayers, .layers, .fixedVerts, .fixedEdges] ++
  [BdryType.exterior, BdryType.interior].flatMap fun b => [.csv b, .edges b, .coords b, .rect b, .circ b, .square b, .triangle b]

theorem mem_names (n : Name) : n ∈ names := by
  cases n with
  | csv b | edges b | coords b | rect b | circ b | square b | triangle b => cases b <;> decide
  | _ => decide

theorem startKey_eq (n : Name) : n.startKey = keyword n := by
  have : ∀ n ∈ names, n.startKey = keyword n := by decide +kernel
  exact this n (mem_names n)

theorem endKey_eq (n : Name) : n.endKey = (closing n).getD [] := by
  have : ∀ n ∈ names, n.endKey = (closing n).getD [] := by decide +kernel
  exact this n (mem_names n)

theorem kind_eq (n : Name) : n.kind = .matrix ↔ closing n ≠ none := by
  have : ∀ n ∈ names, (n.kind = .matrix ↔ closing n ≠ none) := by decide +kernel
  exact this n (mem_names n)

theorem words_colon (n : Name) : ':' ∉ words n := by
  have : ∀ n ∈ names, ':' ∉ words n := by decide +kernel
  exact this n (mem_names n)

theorem words_suffix {n m : Name} (h : words n <:+ words m) : n = m := by
  have : ∀ n ∈ names, ∀ m ∈ names, words n <:+ words m → n = m := by decide +kernel
  exact this n (mem_names n) m (mem_names m) h

theorem words_mesh (n : Name) : ¬words n <:+ "Define mesh".toList ∧ ¬"Define mesh".toList <:+ words n := by
  have : ∀ n ∈ names, ¬words n <:+ "Define mesh".toList ∧ ¬"Define mesh".toList <:+ words n := by decide +kernel
  exact this n (mem_names n)

/-- The only colon of a line determines where a text that ends with a colon occurs. -/
theorem colon_split {a b c d : Line} (ha : ':' ∉ a) (hb : ':' ∉ b) (h : a ++ ':' :: b = c ++ ':' :: d) : a = c ∧ b = d := by
  induction a generalizing c with
  | nil =>
    cases c with
    | nil => simpa using h
    | cons x c =>
      simp only [List.nil_append, List.cons_append, List.cons.injEq] at h
      obtain ⟨-, rfl⟩ := h
      simp at hb
  | cons x a ih =>
    cases c with
    | nil =>
      simp only [List.nil_append, List.cons_append, List.cons.injEq] at h
      obtain ⟨rfl, -⟩ := h
      simp at ha
    | cons y c =>
      simp only [List.cons_append, List.cons.injEq] at h
      obtain ⟨rfl, h⟩ := h
      obtain ⟨rfl, rfl⟩ := ih (fun hx => ha (List.mem_cons_of_mem _ hx)) h
      exact ⟨rfl, rfl⟩

/-- Where a text that ends with a colon occurs in a line with only one colon. -/
theorem occurs_colon {w v pre body : Line} (hw : ':' ∉ w) (hp : ':' ∉ pre) (hb : ':' ∉ body) {c d : Line}
    (h : pre ++ (w ++ [':']) ++ body = c ++ (v ++ [':']) ++ d) : pre ++ w = c ++ v ∧ body = d := by
  have h' : (pre ++ w) ++ ':' :: body = (c ++ v) ++ ':' :: d := by simpa using h
  exact colon_split (by simp [hp, hw]) hb h'

theorem keyword_line {n m : Name} {pre body : Line} (hp : ':' ∉ pre) (hb : ':' ∉ body) (h : keyword n <:+: pre ++ keyword m ++ body) : n = m := by
  obtain ⟨c, d, h⟩ := h
  obtain ⟨h1, -⟩ := occurs_colon (words_colon m) hp hb h.symm
  have s1 : words m <:+ c ++ words n := ⟨pre, h1⟩
  have s2 : words n <:+ c ++ words n := ⟨c, rfl⟩
  rcases List.suffix_or_suffix_of_suffix s1 s2 with h | h
  · exact (words_suffix h).symm
  · exact words_suffix h

theorem mesh_line {n : Name} {pre body : Line} (hp : ':' ∉ pre) (hb : ':' ∉ body) : ¬keyword n <:+: pre ++ "Define mesh:".toList ++ body := by
  rintro ⟨c, d, h⟩
  have hm : ("Define mesh:".toList : Line) = "Define mesh".toList ++ [':'] := by decide
  rw [hm] at h
  obtain ⟨h1, -⟩ := occurs_colon (by decide) hp hb h.symm
  have s1 : "Define mesh".toList <:+ c ++ words n := ⟨pre, h1⟩
  have s2 : words n <:+ c ++ words n := ⟨c, rfl⟩
  rcases List.suffix_or_suffix_of_suffix s1 s2 with h | h
  · exact (words_mesh n).2 h
  · exact (words_mesh n).1 h

theorem keyword_value {n : Name} {pre body : Line} (hp : ':' ∉ pre) (hb : ':' ∉ body) :
    ValueOf (keyword n) (pre ++ keyword n ++ body) ((body.takeWhile (· ≠ '#')).filter (· ≠ ' ')) := by
  refine ⟨pre, body, rfl, ?_, rfl⟩
  rintro j ⟨c, d, h, rfl⟩
  obtain ⟨h1, -⟩ := occurs_colon (words_colon n) hp hb h
  have := List.append_cancel_right h1
  rw [this]

/-- A line without colon begins no entry. -/
theorem noKey_of_colon {l : Line} (h : ':' ∉ l) : NoKey l := by
  rintro n ⟨c, d, rfl⟩
  exact h (by simp [keyword])

/-! ### Cursors -/

/-- The lines that are left for a parameter are those of the entries. -/
def At (content : List Line) (c : Cur) (its : List Item) : Prop :=
  ∃ a z, content = a ++ its.flatMap Item.lines ++ z ∧ c.bs + c.ix = a.length ∧ c.be = a.length + (its.flatMap Item.lines).length

theorem At.bound {content : List Line} {c : Cur} {its : List Item} (h : At content c its) : c.be ≤ content.length := by
  obtain ⟨a, z, rfl, -, h⟩ := h
  simp only [List.length_append, h]
  omega

theorem other_lines {n : Name} {it : Item} (h : it.OK) (hn : it.name ≠ some n) : ∀ l ∈ it.lines, ¬keyword n <:+: l := by
  cases it with
  | other l => intro l' hl; simp only [Item.lines, List.mem_singleton] at hl; subst hl; exact h n
  | single m pre body =>
    intro l hl hk
    simp only [Item.lines, List.mem_singleton] at hl
    subst hl
    exact hn (by simp [Item.name, keyword_line h.2.1 h.2.2 hk])
  | table m pre body rows en =>
    obtain ⟨q, -, h1, h2, h3, h4, -⟩ := h
    intro l hl hk
    simp only [Item.lines, List.mem_cons, List.mem_append, List.not_mem_nil, or_false] at hl
    rcases hl with rfl | hl | rfl
    · exact hn (by simp [Item.name, keyword_line h1 h2 hk])
    · exact (h3 l hl).1 n hk
    · exact h4 n hk

theorem at_none {content : List Line} {c : Cur} {its : List Item} {n : Name} (h : At content c its) (hok : ∀ it ∈ its, it.OK)
    (hn : ∀ it ∈ its, it.name ≠ some n) : ∀ i, c.bs + c.ix ≤ i → i < c.be → ¬Has (keyword n) content i := by
  obtain ⟨a, z, rfl, h1, h2⟩ := h
  rintro i hi hb ⟨l, hl, hk⟩
  rw [List.append_assoc, List.getElem?_append_right (by omega), List.getElem?_append_left (by omega)] at hl
  obtain ⟨it, hit, hm⟩ := List.mem_flatMap.1 (List.mem_of_getElem? hl)
  exact other_lines (hok it hit) (hn it hit) l hm hk

/-- The next entry with a name. -/
theorem at_first {content : List Line} {c : Cur} {its1 its2 : List Item} {it : Item} {n : Name} (h : At content c (its1 ++ it :: its2))
    (hok : ∀ it' ∈ its1 ++ it :: its2, it'.OK) (hn : ∀ it' ∈ its1, it'.name ≠ some n) (hit : it.name = some n) :
    ∃ i, First (keyword n) content (c.bs + c.ix) i ∧ i + it.lines.length ≤ c.be ∧ (∀ j l, it.lines[j]? = some l → content[i + j]? = some l) ∧
      At content ⟨c.bs, c.be, i + it.lines.length - c.bs⟩ its2 := by
  obtain ⟨a, z, rfl, h1, h2⟩ := h
  have hf : (its1 ++ it :: its2).flatMap Item.lines = its1.flatMap Item.lines ++ (it.lines ++ its2.flatMap Item.lines) := by simp
  rw [hf] at h2 ⊢
  simp only [List.length_append] at h2
  have hget : ∀ j l, it.lines[j]? = some l →
      (a ++ (its1.flatMap Item.lines ++ (it.lines ++ its2.flatMap Item.lines)) ++ z)[a.length + (its1.flatMap Item.lines).length + j]? = some l := by
    intro j l hj
    have hlt : j < it.lines.length := (List.getElem?_eq_some_iff.1 hj).1
    rw [List.append_assoc, List.getElem?_append_right (by omega), List.getElem?_append_left (by simp only [List.length_append]; omega),
      List.getElem?_append_right (by omega), List.getElem?_append_left (by omega), ← hj]
    congr 1; omega
  have hfirst : ∃ l, it.lines[0]? = some l ∧ keyword n <:+: l := by
    cases it with
    | other l => simp [Item.name] at hit
    | single m pre body =>
      simp only [Item.name, Option.some.injEq] at hit; subst hit
      exact ⟨_, rfl, pre, body, rfl⟩
    | table m pre body rows en =>
      simp only [Item.name, Option.some.injEq] at hit; subst hit
      exact ⟨_, rfl, pre, body, rfl⟩
  refine ⟨a.length + (its1.flatMap Item.lines).length, ⟨by omega, ?_, ?_⟩, by omega, hget, ?_⟩
  · obtain ⟨l, h3, h4⟩ := hfirst
    exact ⟨l, hget 0 l h3, h4⟩
  · rintro j hj hj' ⟨l, hl, hk⟩
    rw [List.append_assoc, List.getElem?_append_right (by omega), List.getElem?_append_left (by simp only [List.length_append]; omega),
      List.getElem?_append_left (by omega)] at hl
    obtain ⟨it', hit', hm⟩ := List.mem_flatMap.1 (List.mem_of_getElem? hl)
    exact other_lines (hok it' (by simp [hit'])) (hn it' hit') l hm hk
  · refine ⟨a ++ (its1.flatMap Item.lines ++ it.lines), z, by simp, ?_, ?_⟩
    · simp only [List.length_append]; omega
    · simp only [List.length_append]; omega

end Cf
end TQ

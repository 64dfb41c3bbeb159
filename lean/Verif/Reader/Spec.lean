import Mathlib.Data.List.Basic
import Mathlib.Data.List.Infix
import Verif.Writer.Spec

/-!
# Specification for reading parameter files

What a definition in a parameter file means, written without reference to the reader.
-/

namespace TQ
namespace PRSpec

/-- The text `q` occurs in `l` behind `i` characters. -/
def Occurs (q l : List Char) (i : Nat) : Prop := ∃ a b, l = a ++ q ++ b ∧ a.length = i

/-- The last occurrence of `q` in `l`. -/
def LastAt (q l : List Char) (i : Nat) : Prop := Occurs q l i ∧ ∀ j, Occurs q l j → j ≤ i

/-- Line `i` of a file contains the key `q`. -/
def Has (q : List Char) (file : List (List Char)) (i : Nat) : Prop := ∃ l, file[i]? = some l ∧ q <:+: l

instance (q : List Char) (file : List (List Char)) (i : Nat) : Decidable (Has q file i) :=
  match h : file[i]? with
  | some l => if hq : q <:+: l then isTrue ⟨l, h, hq⟩
    else isFalse fun ⟨l', h', hq'⟩ => hq (by rw [h] at h'; cases h'; exact hq')
  | none => isFalse fun ⟨l', h', _⟩ => by rw [h] at h'; cases h'

/-- The lines `s ≤ i < e` that contain the key, in order. -/
def hits (q : List Char) (file : List (List Char)) (s e : Nat) : List Nat :=
  (List.range' s (e - s)).filter fun i => Has q file i

/-- `i` is the first line from `s` on with the key. -/
def First (q : List Char) (file : List (List Char)) (s i : Nat) : Prop :=
  s ≤ i ∧ Has q file i ∧ ∀ j, s ≤ j → j < i → ¬Has q file j

/-- The first definition from line `pos` on: from the first line with the start key to the next line with the end key. -/
def Next (sk ek : List Char) (file : List (List Char)) (pos s e : Nat) : Prop :=
  First sk file pos s ∧ First ek file (s + 1) e

/-- All definitions from line `pos` on. -/
inductive Blocks (sk ek : List Char) (file : List (List Char)) : Nat → List (Nat × Nat) → Prop
  | nil {pos} : (∀ s e, ¬Next sk ek file pos s e) → Blocks sk ek file pos []
  | cons {pos s e bs} : Next sk ek file pos s e → Blocks sk ek file e bs → Blocks sk ek file pos ((s, e) :: bs)

/-- A definition as the user writes it: other lines, the line with the start key, the body, the line with the end key. -/
structure Seg where
  gap : List (List Char)
  st : List Char
  body : List (List Char)
  en : List Char

/-- A file made of definitions. -/
def layout (segs : List Seg) (tail : List (List Char)) : List (List Char) :=
  segs.flatMap (fun s => s.gap ++ s.st :: s.body ++ [s.en]) ++ tail

/-- Where the definitions of such a file are. -/
def ranges : Nat → List Seg → List (Nat × Nat)
  | _, [] => []
  | o, s :: ss => (o + s.gap.length, o + s.gap.length + s.body.length + 1) ::
    ranges (o + s.gap.length + s.body.length + 2) ss

/-- Keys are only where they belong. -/
def SegOK (sk ek : List Char) (s : Seg) : Prop :=
  (∀ l ∈ s.gap, ¬sk <:+: l) ∧ sk <:+: s.st ∧ (∀ l ∈ s.body, ¬ek <:+: l) ∧ ek <:+: s.en ∧ ¬sk <:+: s.en

/-- The cells of a line: the texts between commas; nothing is behind a comma at the very end. -/
def cells (l : List Char) : List (List Char) :=
  let ps := VTSpec.pieces (· == ',') l
  if ps.getLast? = some [] then ps.dropLast else ps

/-- A cell without brackets. -/
def bare (l : List Char) : List Char := l.filter fun c => c ∉ ['(', ')', '[', ']']

/-- The value in column `i` of a line: the cell or the default value. -/
def cellValue {T : Type*} (conv : List Char → Option T) (d : T) (l : List Char) (i : Nat) : T :=
  match (cells l)[i]? with
  | some c => (conv (bare c)).getD d
  | none => d

/-- The text that belongs to a key in a line: everything behind its last occurrence up to a `#`, without blanks. -/
def ValueOf (q l t : List Char) : Prop :=
  ∃ a b, l = a ++ q ++ b ∧ (∀ j, Occurs q l j → j ≤ a.length) ∧ t = (b.takeWhile (· ≠ '#')).filter (· ≠ ' ')

/-- The values of a line for `n` columns with default values. -/
def rowOf {T : Type*} (conv : List Char → Option T) (d : T) (n : Nat) (t : List Char) : List T :=
  (List.range n).map fun i => cellValue conv d t i

/-- A line that is only a comment: blanks and then `#`. -/
def Comment (isSpace : Char → Bool) (l : List Char) : Prop := ∃ ws r, l = ws ++ '#' :: r ∧ ∀ c ∈ ws, isSpace c

end PRSpec
end TQ

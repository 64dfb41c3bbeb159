import Verif.Domain.Model
import Mathlib.Data.List.Basic

/-! # Specifications for domains -/

namespace TQ.DomSpec
open TQ.Dom
variable {K : Type*} [Field K] [LinearOrder K]

/-- `m` is the smallest entry of `l`. -/
def IsMinOf (m : K) (l : List K) : Prop := m ∈ l ∧ ∀ a ∈ l, m ≤ a
/-- `m` is the largest entry of `l`. -/
def IsMaxOf (m : K) (l : List K) : Prop := m ∈ l ∧ ∀ a ∈ l, a ≤ m

/-- A line of the file: values separated by commas. -/
def renderLine {V : Type*} (vs : List V) : List (Tok V) := (vs.map Tok.val).intersperse .comma

/-- A file: each line is followed by a line break. -/
def renderFile {V : Type*} (ls : List (List V)) : List (Tok V) :=
  ls.flatMap fun l => renderLine l ++ [.newline]

/-- Two segments coincide as sets of end points. -/
def SameSegment (a b c d : Pt K) : Prop := (a = c ∧ b = d) ∨ (a = d ∧ b = c)

end TQ.DomSpec

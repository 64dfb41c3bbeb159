import Verif.Reader.Model

/-!
# Specification for the printed parameters

When a printed value can be read again and when keys can be told from values.
-/

namespace TQ
namespace EchoSpec

variable {T : Type*}

/-- The text of a value is read as `r v`, with or without a blank in front of it, and has no character that means something to the reader. For scalars commas and brackets
are allowed. -/
def Readable (scalar : Bool) (conv : List Char → Option T) (fmt : T → List Char) (r : T → T) (v : T) : Prop :=
  conv (fmt v) = some (r v) ∧ (∀ c ∈ fmt v, c ≠ '#' ∧ c ≠ ' ') ∧
    (scalar = false → conv (' ' :: fmt v) = some (r v) ∧ fmt v ≠ [] ∧ ∀ c ∈ fmt v, c ∉ [',', '(', ')', '[', ']'])

/-- The key ends with a character that no value has. -/
def KeyEnds (fmt : T → List Char) (key : List Char) (vals : List T) : Prop :=
  ∃ k c, key = k ++ [c] ∧ c ≠ ',' ∧ c ≠ ' ' ∧ ∀ v ∈ vals, c ∉ fmt v

/-- The key has a character that no value has. -/
def KeyDiffers (fmt : T → List Char) (key : List Char) (vals : List T) : Prop :=
  ∃ c ∈ key, c ≠ ',' ∧ c ≠ ' ' ∧ ∀ v ∈ vals, c ∉ fmt v

end EchoSpec
end TQ

import Verif.Console.Model
import Verif.Writer.Spec

/-! # Specification of the console output

What a user does with the redirected output: drop the lines that begin with the escape character or with `#`. -/

namespace TQ.Con
open TQ.VT VTSpec

/-- A line of the log or of a progress bar, as seen by its first character. -/
def marked (l : Txt) : Bool := match l with
  | [] => false
  | c :: _ => c.toNat == 27 || c == '#'

/-- The finished lines of a text that are not marked. -/
def unlog (t : Txt) : Txt := (((lines t).dropLast.filter fun l => !marked l).map (· ++ ['\n'])).flatten

/-- A text of whole lines none of which is marked. -/
def Plain (t : Txt) : Prop := ∃ rs : List Txt, t = (rs.map (· ++ ['\n'])).flatten ∧ ∀ r ∈ rs, '\n' ∉ r ∧ marked r = false

/-- The meshes written. -/
def meshes : List Ev → Txt
  | [] => []
  | .mesh t :: es => t ++ meshes es
  | _ :: es => meshes es

/-- A message that is one line, or the line break that closes a progress bar. -/
def Message (ms : List Txt) : Prop := '\n' ∉ ms.flatten ∨ ms.flatten = ['\n']

/-- Between a progress bar and a mesh a line of the log is written on the same stream; all messages are lines and all meshes are plain. `o` tells whether
a bar may be unfinished. -/
def Ordered (P : LogProps) : Bool → List Ev → Prop
  | _, [] => True
  | o, .log v _ ms :: es => Message ms ∧ Ordered P (o && !(decide (P.stream v = .cout) && decide (v.num ≤ P.level.num))) es
  | o, .newBar :: es => Ordered P o es
  | _, .bar _ :: es => Ordered P true es
  | o, .mesh t :: es => o = false ∧ Plain t ∧ Ordered P false es

/-- The bar of width `w` at `p` percent. -/
def barLine (w p : Nat) : Txt :=
  let k := w * p / 100
  "# [".toList ++ List.replicate k '=' ++ (if k < w then '>' :: List.replicate (w - k - 1) ' ' else []) ++ "] ".toList ++ natTxt p ++ " %\r".toList

/-- What the updates of a bar write, one after another. -/
def shows : Bar → List Int → List Txt
  | _, [] => []
  | b, p :: ps => (b.set p).show :: shows (b.set p) ps

end TQ.Con

import Mathlib.Data.Rat.Defs
import Mathlib.Algebra.Order.Field.Rat
import Mathlib.Tactic.Ring

/-!
# Specification for the exported files

A reader of the two file formats, written without reference to the writer.
-/

namespace TQ
namespace VTSpec

/-- The pieces of a text between the characters that satisfy `p`. -/
def pieces (p : Char → Bool) : List Char → List (List Char)
  | [] => [[]]
  | c :: cs => if p c then [] :: pieces p cs else match pieces p cs with
    | w :: ws => (c :: w) :: ws
    | [] => [[c]]

/-- Separators of words. -/
def isSep (c : Char) : Bool := c == ' ' || c == '\n'

/-- The words of a text. -/
def words (t : List Char) : List (List Char) := (pieces isSep t).filter (· ≠ [])

/-- The lines of a text. -/
def lines (t : List Char) : List (List Char) := pieces (· == '\n') t

/-- A text without leading blanks. -/
def trim (t : List Char) : List Char := t.dropWhile (· == ' ')

/-- A token: what can be printed between blanks inside an array. -/
def Clean (t : List Char) : Prop := t ≠ [] ∧ ' ' ∉ t ∧ '\n' ∉ t ∧ '<' ∉ t

/-- Read the arrays of a VTU file line by line: tag and words between the tags `<DataArray …` and `</DataArray>`. -/
def scan : Option (List Char × List (List Char)) → List (List Char) → List (List Char × List (List Char))
  | _, [] => []
  | none, l :: ls => if "<DataArray".toList.isPrefixOf (trim l) then scan (some (trim l, [])) ls else scan none ls
  | some (h, ws), l :: ls =>
    if "</DataArray>".toList.isPrefixOf (trim l) then (h, ws) :: scan none ls else scan (some (h, ws ++ words l)) ls

/-- The arrays of a file. -/
def arrays (t : List Char) : List (List Char × List (List Char)) := scan none (lines t)

/-- The value of an attribute in a tag. -/
def attr (key tag : List Char) : Option (List Char) :=
  ((pieces isSep tag).find? fun w => (key ++ ['=', '"']).isPrefixOf w).map fun w => (w.drop (key.length + 2)).takeWhile (· ≠ '"')

/-- The array with a given name. -/
def named (name : Option (List Char)) (t : List Char) : Option (List (List Char)) :=
  ((arrays t).find? fun a => attr "Name".toList a.1 = name).map (·.2)

/-- Read a natural number. -/
def readNat (t : List Char) : Option Nat :=
  if t ≠ [] ∧ t.all Char.isDigit then some (Nat.ofDigitChars 10 t 0) else none

/-- Read an integer. -/
def readInt (t : List Char) : Option Int :=
  match t with
  | '-' :: r => (readNat r).map fun n : Nat => -(n : Int)
  | r => (readNat r).map fun n : Nat => (n : Int)

/-- Read an unsigned decimal number. -/
def readUDec (t : List Char) : Option ℚ :=
  match pieces (· == '.') t with
  | [a, b] => do
    let x ← readNat a
    let y ← readNat b
    return (x : ℚ) + (y : ℚ) / 10 ^ b.length
  | _ => none

/-- Read a decimal number. -/
def readDec (t : List Char) : Option ℚ :=
  match t with
  | '-' :: r => (readUDec r).map fun x => -x
  | r => readUDec r

/-- Cut the connectivity at the offsets. -/
def cellsOf : Nat → List Nat → List Nat → List Nat → Option (List (Nat × List Nat))
  | _, [], [], [] => some []
  | start, conn, o :: os, t :: ts =>
    if start ≤ o ∧ o - start ≤ conn.length then
      (cellsOf o (conn.drop (o - start)) os ts).map ((t, conn.take (o - start)) :: ·)
    else none
  | _, _, _, _ => none

/-- Group numbers in threes. -/
def triples {α : Type} : List α → Option (List (α × α × α))
  | [] => some []
  | a :: b :: c :: r => (triples r).map ((a, b, c) :: ·)
  | _ => none

/-- The points of a VTU file. -/
def readPoints (t : List Char) : Option (List (ℚ × ℚ × ℚ)) := do
  let p ← named none t
  let x ← p.mapM readDec
  triples x

/-- The cells of a VTU file: type and point numbers. -/
def readCells (t : List Char) : Option (List (Nat × List Nat)) := do
  let c ← named (some "connectivity".toList) t
  let o ← named (some "offsets".toList) t
  let y ← named (some "types".toList) t
  cellsOf 0 (← c.mapM readNat) (← o.mapM readNat) (← y.mapM readNat)

/-- An integer data array of a VTU file. -/
def readInts (name t : List Char) : Option (List Int) := do
  let a ← named (some name) t
  a.mapM readInt

/-- The announced numbers of points and cells. -/
def readCounts (t : List Char) : Option (Nat × Nat) := do
  let l ← (lines t).find? fun l => "<Piece".toList.isPrefixOf (trim l)
  let p ← attr "NumberOfPoints".toList l
  let c ← attr "NumberOfCells".toList l
  return (← readNat p, ← readNat c)

/-- Rows of at most `n` entries. -/
def chunks {α : Type} (n : Nat) : Nat → List α → List (List α)
  | 0, _ => []
  | _, [] => []
  | fuel + 1, l => l.take n :: chunks n fuel (l.drop n)

/-! ## Text format -/

/-- Entries of a comma separated row, without leading blanks. -/
def fields (l : List Char) : List (List Char) := (pieces (· == ',') l).map trim

/-- Read `k` sections: a title line `NAME n` followed by `n` rows. -/
def sections : Nat → List (List Char) → Option (List (List Char × List (List Char)))
  | 0, [[]] => some []
  | 0, _ => none
  | _ + 1, [] => none
  | k + 1, l :: ls => match words l with
    | [name, n] => do
      let m ← readNat n
      if ls.length < m then none else (sections k (ls.drop m)).map ((name, ls.take m) :: ·)
    | _ => none

/-- A text mesh: its id and its sections. -/
def readTxt (t : List Char) : Option (Int × List (List Char × List (List Char))) :=
  match lines t with
  | [] => none
  | l :: ls => match words l with
    | [m, i] => if m = "MESH".toList then do
        let id ← readInt i
        let ss ← sections 10 ls
        return (id, ss)
      else none
    | _ => none

/-- The integer rows of a section. -/
def intRows (name : List Char) (ss : List (List Char × List (List Char))) : Option (List (List Int)) := do
  let s ← ss.find? fun s => s.1 = name
  s.2.mapM fun r => (fields r).mapM readInt

/-- The decimal rows of a section. -/
def decRows (name : List Char) (ss : List (List Char × List (List Char))) : Option (List (List ℚ)) := do
  let s ← ss.find? fun s => s.1 = name
  s.2.mapM fun r => (fields r).mapM readDec

end VTSpec
end TQ

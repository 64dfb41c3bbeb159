import Verif.QuadTree.Spec
import Verif.Writer.Spec
import Mathlib.Algebra.BigOperators.Group.List.Basic

/-! # Specification: a printed tree -/

namespace TQ.QTSpec
open TQ.VTSpec
variable {K : Type*} [Field K] [LinearOrder K]

/-- Strictly inside of a square. -/
def Within (b : Box K) (p : Pt K) : Prop :=
  b.c.x - b.s / 2 < p.x ∧ p.x < b.c.x + b.s / 2 ∧ b.c.y - b.s / 2 < p.y ∧ p.y < b.c.y + b.s / 2

/-- The squares tile the square `b`. -/
structure Tiled (b : Box K) (l : List (Box K)) : Prop where
  within : ∀ c ∈ l, ∀ p, InSquare c p → InSquare b p
  cover : ∀ p, InSquare b p → ∃ c ∈ l, InSquare c p
  apart : l.Pairwise fun c d => ∀ p, ¬ (Within c p ∧ Within d p)
  area : (l.map fun c => c.s * c.s).sum = b.s * b.s

/-- Read a row: centre, side, number of items. -/
def readRow (l : List Char) : Option (Box ℚ × Nat) :=
  match fields l with
  | [x, y, s, n] => do return (⟨⟨← readDec x, ← readDec y⟩, ← readDec s⟩, ← readNat n)
  | _ => none

/-- Read a printed tree: all rows, each with its line break. -/
def readTree (t : List Char) : Option (List (Box ℚ × Nat)) :=
  if (lines t).getLast? = some [] then (lines t).dropLast.mapM readRow else none

/-- A number up to half of the fifth decimal. -/
def Near (x y : ℚ) : Prop := |x - y| ≤ 1 / 200000

/-- A row is for the square and its items. -/
def RowOf {α : Type} (r : Box ℚ × Nat) (c : Box ℚ × List α) : Prop :=
  Near r.1.c.x c.1.c.x ∧ Near r.1.c.y c.1.c.y ∧ Near r.1.s c.1.s ∧ r.2 = c.2.length

end TQ.QTSpec

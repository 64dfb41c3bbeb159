import Verif.QuadTree.Model
import Mathlib.Data.List.Perm.Basic

/-!
# Specification of the spatial index: a set of items with fixed positions
-/

namespace TQ.QTSpec
variable {α K : Type*} [Field K] [LinearOrder K]

/-- user operations -/
inductive Op (α : Type*) where
  | add (x : α)
  | remove (x : α)

/-- `p` lies in the closed square with centre `c` and side `s` -/
def InSquare (b : Box K) (p : Pt K) : Prop :=
  b.c.x - b.s / 2 ≤ p.x ∧ p.x ≤ b.c.x + b.s / 2 ∧ b.c.y - b.s / 2 ≤ p.y ∧ p.y ≤ b.c.y + b.s / 2

instance (b : Box K) (p : Pt K) : Decidable (InSquare b p) := by
  unfold InSquare; infer_instance

/-- Effect of an operation on the abstract list of stored items. -/
def step [DecidableEq α] (pos : α → Pt K) (b : Box K) (S : List α) : Op α → List α
  | .add x => if InSquare b (pos x) then x :: S else S
  | .remove x => S.erase x

/-- What a client has to respect: an item is not added while it is stored, and only stored items
(or items outside of the extent) are removed. -/
def Legal (pos : α → Pt K) (b : Box K) (S : List α) : Op α → Prop
  | .add x => x ∉ S
  | .remove x => x ∈ S ∨ ¬ InSquare b (pos x)

/-- A whole history is legal. -/
def LegalHist [DecidableEq α] (pos : α → Pt K) (b : Box K) : List α → List (Op α) → Prop
  | _, [] => True
  | S, o :: os => Legal pos b S o ∧ LegalHist pos b (step pos b S o) os

/-- abstract result of a history -/
def run [DecidableEq α] (pos : α → Pt K) (b : Box K) (S : List α) (os : List (Op α)) : List α :=
  os.foldl (step pos b) S

/-- the boolean the user should get -/
def expected (pos : α → Pt K) (b : Box K) : Op α → Bool
  | .add x => decide (InSquare b (pos x))
  | .remove x => decide (InSquare b (pos x))

/-- all items of a tree, in the order of the cells -/
def toList : QT α → List α
  | .leaf _ l => l
  | .node _ c0 c1 c2 c3 => toList c0 ++ toList c1 ++ toList c2 ++ toList c3

/-- height of the tree of cells -/
def height : QT α → Nat
  | .leaf _ _ => 0
  | .node _ c0 c1 c2 c3 => 1 + max (max (height c0) (height c1)) (max (height c2) (height c3))

/-- all cells with their depth and geometry -/
def cells (d : Nat) (b : Box K) : QT α → List (Nat × Box K × QT α)
  | .leaf n l => [(d, b, .leaf n l)]
  | .node n c0 c1 c2 c3 => (d, b, .node n c0 c1 c2 c3) ::
      (cells (d + 1) b.ch0 c0 ++ cells (d + 1) b.ch1 c1 ++ cells (d + 1) b.ch2 c2 ++
       cells (d + 1) b.ch3 c3)

end TQ.QTSpec

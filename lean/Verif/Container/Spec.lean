import Verif.Container.Model
import Verif.QuadTree.Spec

/-!
# Specification of the container: live items in order, waste, coordinates
-/

namespace TQ.ContSpec
variable {α K : Type*} [DecidableEq α] [Field K] [LinearOrder K]

/-- user operations -/
inductive Op (α K : Type*) where
  | insert (k : Nat) (x : α) (p : Pt K)
  | remove (x : α)
  | update (x : α) (p : Pt K)
  | clearWaste

/-- the abstract container -/
structure Abs (α K : Type*) where
  live : List α
  waste : List α
  xy : α → Pt K

open QTSpec in
/-- abstract effect of an operation and the boolean to be returned (`true` for the void ones) -/
def step (b : Box K) (s : Abs α K) : Op α K → Abs α K × Bool
  | .insert k x p =>
    (⟨s.live.take k ++ x :: s.live.drop k, s.waste, fun y => if y = x then p else s.xy y⟩, true)
  | .remove x =>
    if InSquare b (s.xy x) then (⟨s.live.filter (· ≠ x), s.waste ++ [x], s.xy⟩, true) else (s, false)
  | .update x p =>
    (⟨s.live, s.waste, fun y => if y = x then p else s.xy y⟩, decide (InSquare b p))
  | .clearWaste => (⟨s.live, [], s.xy⟩, true)

/-- abstract effect of a history -/
def run (b : Box K) (s : Abs α K) : List (Op α K) → Abs α K × List Bool
  | [] => (s, [])
  | o :: os => ((run b (step b s o).1 os).1, (step b s o).2 :: (run b (step b s o).1 os).2)

/-- `p` is in the open square -/
def StrictIn (b : Box K) (p : Pt K) : Prop :=
  b.c.x - b.s / 2 < p.x ∧ p.x < b.c.x + b.s / 2 ∧ b.c.y - b.s / 2 < p.y ∧ p.y < b.c.y + b.s / 2

end TQ.ContSpec

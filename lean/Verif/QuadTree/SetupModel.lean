import Verif.QuadTree.Model

/-! # Model of the setters of the quad tree -/

namespace TQ
namespace QT
variable {α K : Type*} [DecidableEq α] [Field K] [LinearOrder K]

/-- How a call ends: normally, with the end of the program (`TERMINATE`, src/utils/Helpers.h:44-48), or with a failed `ASSERT` (22-39: the program is aborted, in release
builds the call continues). -/
inductive Ends (R : Type*) where
  | done (r : R)
  | exit
  | abort
deriving DecidableEq

/-- The root of a tree with its attributes `max_item_`, `max_depth_`, `center_` and `scale_` (src/utils/QuadTree.h:568-585). It has the depth 0 and no parent. -/
structure Root (α K : Type*) where
  mi : Nat
  md : Nat
  b : Box K
  t : QT α
deriving DecidableEq

/-- `update_attributes` (src/utils/QuadTree.h:398-416). -/
def updateAttributes (r : Root α K) (scale : K) (mi md : Nat) (c : Pt K) : Ends (Root α K) :=
  if r.t.isSplit || decide (r.t.size > 0) then .exit
  else if 0 < scale then .done ⟨mi, md, ⟨c, scale⟩, r.t⟩ else .abort

/-- The calls of the interface that change the tree. -/
inductive Call (α K : Type*) where
  | scale (v : K)
  | maxItem (n : Nat)
  | maxDepth (n : Nat)
  | center (p : Pt K)
  | add (x : α)
  | remove (x : α)

/-- The setters (src/utils/QuadTree.h:135-145; src/algorithm/Domain.h:274-277 passes them on), `add` (316-347) and `remove` (352-391). The list has the value returned. -/
def call (pos : α → Pt K) (r : Root α K) : Call α K → Ends (Root α K × List Bool)
  | .scale v => match updateAttributes r v r.mi r.md r.b.c with | .done r' => .done (r', []) | .exit => .exit | .abort => .abort
  | .maxItem n => match updateAttributes r r.b.s n r.md r.b.c with | .done r' => .done (r', []) | .exit => .exit | .abort => .abort
  | .maxDepth n => match updateAttributes r r.b.s r.mi n r.b.c with | .done r' => .done (r', []) | .exit => .exit | .abort => .abort
  | .center p => match updateAttributes r r.b.s r.mi r.md p with | .done r' => .done (r', []) | .exit => .exit | .abort => .abort
  | .add x => let a := QT.add r.mi pos r.md x r.b r.t; .done ({ r with t := a.1 }, [a.2])
  | .remove x => match QT.remove r.mi pos x r.b r.t with | none => .abort | some (t, o) => .done ({ r with t := t }, [o])

/-- A sequence of calls with the values returned. -/
def calls (pos : α → Pt K) : Root α K → List (Call α K) → Ends (Root α K × List Bool)
  | r, [] => .done (r, [])
  | r, c :: cs =>
    match call pos r c with
    | .exit => .exit
    | .abort => .abort
    | .done (r1, o) =>
      match calls pos r1 cs with
      | .done (r2, os) => .done (r2, o ++ os)
      | .exit => .exit
      | .abort => .abort

end QT
end TQ

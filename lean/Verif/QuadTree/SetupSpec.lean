import Verif.QuadTree.SetupModel
import Verif.QuadTree.Spec

/-! # Specification of a search tree with settings: four settings and a list of items -/

namespace TQ.QTSpec
open QT
variable {α K : Type*} [DecidableEq α] [Field K] [LinearOrder K]

/-- What a user knows about the tree. -/
structure View (α K : Type*) where
  mi : Nat
  md : Nat
  b : Box K
  S : List α
deriving DecidableEq

/-- A setting can be changed while nothing is stored; the extent must be positive. -/
def setting (σ : View α K) (τ : View α K) : Ends (View α K × List Bool) :=
  if σ.S ≠ [] then .exit else if 0 < τ.b.s then .done (τ, []) else .abort

/-- The effect of a call. -/
def effect (pos : α → Pt K) (σ : View α K) : Call α K → Ends (View α K × List Bool)
  | .scale v => setting σ { σ with b := ⟨σ.b.c, v⟩ }
  | .maxItem n => setting σ { σ with mi := n }
  | .maxDepth n => setting σ { σ with md := n }
  | .center p => setting σ { σ with b := ⟨p, σ.b.s⟩ }
  | .add x => .done ({ σ with S := step pos σ.b σ.S (.add x) }, [expected pos σ.b (.add x)])
  | .remove x => .done ({ σ with S := step pos σ.b σ.S (.remove x) }, [expected pos σ.b (.remove x)])

/-- The effect of a sequence of calls. -/
def effects (pos : α → Pt K) : View α K → List (Call α K) → Ends (View α K × List Bool)
  | σ, [] => .done (σ, [])
  | σ, c :: cs =>
    match effect pos σ c with
    | .exit => .exit
    | .abort => .abort
    | .done (σ1, o) =>
      match effects pos σ1 cs with
      | .done (σ2, os) => .done (σ2, o ++ os)
      | .exit => .exit
      | .abort => .abort

/-- What a user has to respect before a call. -/
def MayCall (pos : α → Pt K) (σ : View α K) : Call α K → Prop
  | .add x => Legal pos σ.b σ.S (.add x)
  | .remove x => Legal pos σ.b σ.S (.remove x)
  | _ => True

/-- ... and in a sequence of calls. -/
def MayCalls (pos : α → Pt K) : View α K → List (Call α K) → Prop
  | _, [] => True
  | σ, c :: cs => MayCall pos σ c ∧
    match effect pos σ c with
    | .done (σ', _) => MayCalls pos σ' cs
    | _ => True

end TQ.QTSpec

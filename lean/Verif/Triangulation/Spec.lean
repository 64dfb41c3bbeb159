import Verif.Triangulation.Model
import Verif.FrontUpdate.Spec

/-! # Specification of the meshing loops -/

namespace TQ.TGSpec
open TQ.MS TQ.FU TQ.TG

/-- Failed attempts with the given base edges, in this order. -/
def fails (wide : Bool) (es : List Nat) : List Try := es.map fun e => ⟨e, wide, false⟩

/-- Nothing yet, or a record ending with a successful attempt. -/
def Fresh (pre : List Try) : Prop := pre = [] ∨ ∃ p e w, pre = p ++ [⟨e, w, true⟩]

/-- The base edges of the narrow pass: all front edges in order; in the very first pass the first one is
replaced by the edge `x` that was the first one before sorting. -/
def narrowPass (x : Option Nat) (pre : List Try) (front : List Nat) : List Nat :=
  if pre = [] then x.toList ++ front.tail else front

end TQ.TGSpec

namespace TQ.TGSpec
open TQ.MS TQ.FU TQ.TG
variable {K : Type*}

/-- The `k`-th edge after `e` along the front, following `get_next_edge`. -/
def chainEdge (s : St K) (e : Nat) : Nat → Option Nat
  | 0 => s.nextEdge e
  | k + 1 => (chainEdge s e k).bind s.nextEdge

end TQ.TGSpec

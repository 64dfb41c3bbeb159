import Verif.Front.Model

/-! # Specifications for the initialisation of the front -/

namespace TQ.FrSpec
open TQ.Fr
variable {K : Type*} [Field K] [LinearOrder K]

/-- Every vertex has as many outgoing as incoming edges. -/
def Balanced (es : List FEdge) : Prop :=
  ∀ v, es.countP (fun e => decide (e.v1 = v)) = es.countP (fun e => decide (e.v2 = v))

/-- `norm` is the Euclidean length. -/
def IsNorm (norm : Pt K → K) : Prop := ∀ p : Pt K, 0 ≤ norm p ∧ norm p * norm p = Pt.normSq p

/-- The point of the line through `p`, `q` with parameter `t`. -/
def onLine (p q : Pt K) (t : K) : Pt K := ⟨p.x + t * (q.x - p.x), p.y + t * (q.y - p.y)⟩

/-- The points run strictly monotonically along the segment from `p` to `q`. -/
def Partition (p q : Pt K) (xs : List (Pt K)) : Prop :=
  ∃ ts : List K, xs = ts.map (onLine p q) ∧ ts.Pairwise (· < ·) ∧ ts.head? = some 0 ∧
    ts.getLast? = some 1

/-- Closed boundary: each corner is as often the start as the end of an edge. -/
def ClosedSrc (b : List (SrcEdge K)) : Prop := (b.map (·.p2)).Perm (b.map (·.p1))

/-- The edges `ns`, each traversed backwards, lead from `p` to `q`: counted with multiplicity, the start
points together with `q` are the end points together with `p`. -/
def LeadsBack (p q : Pt K) (ns : List (SrcEdge K)) : Prop :=
  (q :: ns.map (·.p2)).Perm (p :: ns.map (·.p1))

end TQ.FrSpec

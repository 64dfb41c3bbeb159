import Verif.Whole.FinalSpec
import Verif.Merger.Spec

/-! # Specification: two finished meshes side by side -/

namespace TQ.CleanSpec
open TQ.MS TQ.MS.St TQ.MeshSpec TQ.FUSpec TQ.MCSpec TQ.WholeSpec TQ.RefSpec TQ.MM TQ.MergeSpec
variable {K : Type*} [Field K] [LinearOrder K] [IsStrictOrderedRing K]

/-- Two meshes side by side: twin edges link them (`Adjacent`), their domains have no point in common, and
boundary edges without twin in the other mesh meet at most in end points. -/
structure SideBySide (w : World K) (ri di : Nat) : Prop where
  adj : Adjacent w ri di
  disjoint : ∀ p, winding (w ri).pos (pairs (w ri) .bdry) p + winding (w di).pos (pairs (w di) .bdry) p ≤ 1
  rims : ∀ e ∈ (w ri).es .bdry, ¬ Iface w ri di e → ∀ e' ∈ (w di).es .bdry, ¬ Iface w di ri e' → ∀ x,
    OnClosed ((w ri).pos ((w ri).E e).v1) ((w ri).pos ((w ri).E e).v2) x →
    OnClosed ((w di).pos ((w di).E e').v1) ((w di).pos ((w di).E e').v2) x →
    (x = (w ri).pos ((w ri).E e).v1 ∨ x = (w ri).pos ((w ri).E e).v2) ∧
    (x = (w di).pos ((w di).E e').v1 ∨ x = (w di).pos ((w di).E e').v2)

end TQ.CleanSpec

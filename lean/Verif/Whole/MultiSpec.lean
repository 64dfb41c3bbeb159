import Verif.Whole.NextSpec
import Verif.Front.Model

/-! # Specification: links between a new mesh and the meshes beside it -/

set_option linter.unusedSectionVars false

namespace TQ.LinkSpec
open TQ.MS TQ.MS.St TQ.MM TQ.FUSpec TQ.MeshSpec TQ.MergeSpec
variable {K : Type*} [Field K] [LinearOrder K] [IsStrictOrderedRing K]

/-- Both ends of the edge `e` of the mesh `s` pass the test (with tolerance) for lying on the side `d` of the domain. -/
def LiesOn (eps : K) (d : Pt K × Pt K) (s : St K) (e : Nat) : Prop :=
  inOnSegment eps d.1 d.2 (s.pos (s.E e).v1) = true ∧ inOnSegment eps d.1 d.2 (s.pos (s.E e).v2) = true

instance (eps : K) (d : Pt K × Pt K) (s : St K) (e : Nat) : Decidable (LiesOn eps d s e) := inferInstanceAs (Decidable (_ ∧ _))

/-- The edge `e` of the mesh `a` and the edge `e'` of the mesh `m` are linked with each other and lie between the same points
in opposite direction. -/
structure Linked (w : World K) (a e m e' : Nat) : Prop where
  twin : ((w a).E e).twin = some (m, e')
  back : ((w m).E e').twin = some (a, e)
  first : (w a).pos ((w a).E e).v1 = (w m).pos ((w m).E e').v2
  second : (w a).pos ((w a).E e).v2 = (w m).pos ((w m).E e').v1

/-- The meshes `ms` beside the mesh `a` of a domain with the sides `ds`: they are different meshes that list their
boundary edges once, no boundary edge lies on two sides, and the tolerance is small compared to the sides. -/
structure Neighbours (eps : K) (w : World K) (ms : List Nat) (a : Nat) (ds : List (Pt K × Pt K)) : Prop where
  other : a ∉ ms
  distinct : ms.Nodup
  listed : ∀ m ∈ ms, ((w m).es .bdry).Nodup
  once : ds.Pairwise fun d d' => ∀ m ∈ ms, ∀ e ∈ (w m).es .bdry, LiesOn eps d (w m) e → ¬ LiesOn eps d' (w m) e
  small : ∀ d ∈ ds, eps ≤ 2 * (Pt.normSq (d.2 - d.1) * Pt.normSq (d.2 - d.1))

/-- The sides of a domain given by its boundary edges. -/
def sides (bd : List (List (Fr.SrcEdge K))) : List (Pt K × Pt K) := bd.flatten.map fun d => (d.p1, d.p2)

/-- Different ends of boundary edges lie at different points. -/
def EndsApart (s : St K) : Prop := ∀ u v, BdryEnd s u → BdryEnd s v → s.pos u = s.pos v → u = v

/-- Two boundaries meet in common end points only, apart from the linked edges. -/
def RimsApart (w : World K) (ni oi : Nat) : Prop :=
  ∀ e ∈ (w ni).es .bdry, ((w ni).E e).twin = none → ∀ e' ∈ (w oi).es .bdry, ((w oi).E e').twin = none → ∀ x,
    OnClosed ((w ni).pos ((w ni).E e).v1) ((w ni).pos ((w ni).E e).v2) x →
    OnClosed ((w oi).pos ((w oi).E e').v1) ((w oi).pos ((w oi).E e').v2) x →
    (x = (w ni).pos ((w ni).E e).v1 ∨ x = (w ni).pos ((w ni).E e).v2) ∧
    (x = (w oi).pos ((w oi).E e').v1 ∨ x = (w oi).pos ((w oi).E e').v2)

end TQ.LinkSpec

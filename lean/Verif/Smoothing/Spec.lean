import Verif.Smoothing.Model
import Verif.Refinement.Spec

/-! # Specification of the smoothing of meshes -/

namespace TQ.SmSpec
open TQ.MS TQ.MeshSpec TQ.MCSpec
variable {K : Type*}

/-- Nothing but the places of vertices and facet pointers differs. -/
structure SameButPlaces (s t : St K) : Prop where
  verts : t.verts = s.verts
  V : ∀ v, (t.V v).props = (s.V v).props ∧ (t.V v).edges = (s.V v).edges ∧ (t.V v).facets = (s.V v).facets
  es : t.es = s.es
  tris : t.tris = s.tris
  quads : t.quads = s.quads
  nxt : t.nxt = s.nxt
  area : t.area = s.area
  color : t.color = s.color
  ends : ∀ e, (t.E e).v1 = (s.E e).v1 ∧ (t.E e).v2 = (s.E e).v2 ∧ (t.E e).list = (s.E e).list ∧
    (t.E e).color = (s.E e).color ∧ (t.E e).props = (s.E e).props ∧ (t.E e).twin = (s.E e).twin
  corners : ∀ f, (t.F f).corners = (s.F f).corners ∧ (t.F f).color = (s.F f).color ∧
    (t.F f).active = (s.F f).active ∧ (t.F f).nbrs.length = (s.F f).nbrs.length

/-- The vertex must not move: it is fixed, on the boundary, or in a quad layer while layers are not smoothed. -/
def Pinned (layers : Bool) (s : St K) (v : Nat) : Prop :=
  (s.V v).props &&& Flags.vIsFixed ≠ 0 ∨ (s.V v).props &&& Flags.vOnBoundary ≠ 0 ∨
    (layers = false ∧ (s.V v).props &&& Flags.vInQuadLayer ≠ 0)

/-- The ends of all boundary edges are flagged. -/
def BdryFlagged (s : St K) : Prop :=
  ∀ e ∈ s.es .bdry, (s.V (s.E e).v1).props &&& Flags.vOnBoundary ≠ 0 ∧ (s.V (s.E e).v2).props &&& Flags.vOnBoundary ≠ 0

variable [Field K] [LinearOrder K]

/-- Two corners of every quad, those before and at its second and third vertex, turn left. -/
def QuadsHalfConvex (s : St K) : Prop :=
  ∀ q ∈ s.quads, ∀ a b c d, (s.F (.quad q)).corners = [a, b, c, d] →
    0 < area2 (s.pos a) (s.pos b) (s.pos c) ∧ 0 < area2 (s.pos b) (s.pos c) (s.pos d)

end TQ.SmSpec

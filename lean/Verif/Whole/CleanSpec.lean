import Verif.Whole.Spec

/-! # Specification: completely meshed domains and what clean-ups do to them -/

namespace TQ.CleanSpec
open TQ.MS TQ.MeshSpec TQ.FUSpec TQ.MCSpec TQ.Sm TQ.RefSpec TQ.WholeSpec
variable {K : Type*} [Field K] [LinearOrder K] [IsStrictOrderedRing K]

/-- A completely meshed simple domain: the mesh is conforming, no front is left, the boundary edges enclose a
region on their left, all elements are made up of counter-clockwise triangles, the boundary edges are marked
as such and are no ghosts. -/
structure Complete (s : St K) : Prop extends Conforming s where
  front : s.es .front = []
  bdry : SimpleFront s.pos (pairs s .bdry)
  ccw : ∀ x ∈ pieces s, 0 < side (s.pos x.2.1) (s.pos x.2.2.1) (s.pos x.2.2.2)
  plain : ∀ b ∈ s.es .bdry, s.isInterior b = false ∧ s.isGhost b = false

/-- The pieces of the elements tile the domain: every point of the plane is strictly inside at most one piece,
only points of the domain are in pieces, and a point of the domain that is on no line through a side of a piece is
inside one. -/
structure Tiled (s : St K) : Prop where
  apart : ∀ p, ∀ x ∈ pieces s, InPiece s p x → ∀ y ∈ pieces s, InPiece s p y → y = x
  within : ∀ p, ∀ x ∈ pieces s, InPiece s p x → winding s.pos (pairs s .bdry) p = 1
  full : ∀ p, winding s.pos (pairs s .bdry) p = 1 →
    (∀ x ∈ pieces s, side (s.pos x.2.1) (s.pos x.2.2.1) p ≠ 0 ∧ side (s.pos x.2.2.1) (s.pos x.2.2.2) p ≠ 0 ∧
      side (s.pos x.2.2.2) (s.pos x.2.1) p ≠ 0) → ∃ x ∈ pieces s, InPiece s p x

/-- The corners of the quad `q` are `a, b, c, d` in cyclic order. -/
def QuadIs (s : St K) (q a b c d : Nat) : Prop :=
  (s.F (.quad q)).corners = [a, b, c, d] ∨ (s.F (.quad q)).corners = [b, c, d, a] ∨
  (s.F (.quad q)).corners = [c, d, a, b] ∨ (s.F (.quad q)).corners = [d, a, b, c]

/-- `t` is the mesh `s` after every vertex of `gone` was removed: the two elements around such a vertex, a quad and
a second quad (`isQ`) or a triangle, are replaced by their union, which is an element of the kind of the second
one. -/
structure DoublesMerged (isQ : Bool) (s t : St K) (gone : List Nat) : Prop where
  /-- the vertices are different, in the mesh, and not on the boundary -/
  nodup : gone.Nodup
  inner : ∀ v ∈ gone, v ∈ s.verts ∧ ∀ b ∈ s.es .bdry, (s.E b).v1 ≠ v ∧ (s.E b).v2 ≠ v
  verts : t.verts = s.verts.filter fun v => decide (v ∉ gone)
  vdata : ∀ v, t.pos v = s.pos v ∧ (t.V v).props = (s.V v).props
  lists : ∀ l, l ≠ .intr → t.es l = s.es l
  edata : ∀ e, (t.E e).v1 = (s.E e).v1 ∧ (t.E e).v2 = (s.E e).v2 ∧ (t.E e).color = (s.E e).color ∧ (t.E e).props = (s.E e).props
  /-- exactly the edges at these vertices vanish, two for each -/
  intr : t.es .intr = (s.es .intr).filter fun e => decide ((s.E e).v1 ∉ gone ∧ (s.E e).v2 ∉ gone)
  nEdges : (t.es .intr).length + 2 * gone.length = (s.es .intr).length
  nTris : t.tris.length = s.tris.length
  nQuads : t.quads.length + gone.length = s.quads.length
  area : meshArea t = meshArea s
  /-- elements without such a corner stay as they are -/
  kept : ∀ f, Live s f → (∀ v ∈ gone, v ∉ (s.F f).corners) → Live t f ∧ (t.F f).corners = (s.F f).corners ∧
    (t.F f).color = (s.F f).color ∧ (t.F f).active = (s.F f).active
  /-- the other elements are unions of two old ones around a removed vertex, active, with the colour of the mesh -/
  fresh : ∀ f, Live t f → (Live s f ∧ ∀ v ∈ gone, v ∉ (s.F f).corners) ∨
    (∃ v ∈ gone, ∃ a b c, ∃ q ∈ s.quads, QuadIs s q c v a b ∧ (t.F f).active = true ∧ (t.F f).color = s.color ∧
      ((isQ = true ∧ ∃ d, ∃ q' ∈ s.quads, q' ≠ q ∧ QuadIs s q' a v c d ∧ (t.F f).corners = [b, c, d, a]) ∨
       (isQ = false ∧ ∃ x ∈ s.tris, TriIs s x a v c ∧ (t.F f).corners = [a, b, c])))
  sides : ∀ a b, Covered t a b ↔ Covered s a b ∧ a ∉ gone ∧ b ∉ gone

/-- `t` is a coarser mesh of the same domain: some inner vertices and edges are gone, boundary, places and data of
what is left are the same, and so are the total area and the Euler number; there are not more elements than
before and an even number of triangles less. -/
structure Coarsened (s t : St K) : Prop where
  verts : t.verts.Sublist s.verts
  vdata : ∀ v, t.pos v = s.pos v ∧ (t.V v).props = (s.V v).props
  lists : ∀ l, l ≠ .intr → t.es l = s.es l
  edata : ∀ e, (t.E e).v1 = (s.E e).v1 ∧ (t.E e).v2 = (s.E e).v2 ∧ (t.E e).color = (s.E e).color ∧ (t.E e).props = (s.E e).props
  intr : (t.es .intr).Sublist (s.es .intr)
  area : meshArea t = meshArea s
  euler : euler t = euler s
  fewer : t.tris.length + t.quads.length ≤ s.tris.length + s.quads.length
  tris : ∃ k, t.tris.length + 2 * k = s.tris.length

end TQ.CleanSpec

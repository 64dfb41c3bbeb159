import Verif.Cleanup.Model
import Verif.Mesh.Spec
import Verif.FrontUpdate.Spec

/-! # Specifications for the clean-up of meshes -/

namespace TQ.MCSpec
open TQ.MS TQ.MeshSpec
variable {K : Type*}

/-- The facet `f` has the side `a → b` in its own direction. -/
def HasSide (s : St K) (f : FRef) (a b : Nat) : Prop :=
  ∃ i < (s.F f).corners.length, sideAt (s.F f).corners i = some (a, b)

/-- `a` and `b` are the ends of a side of `f`. -/
def Touches (s : St K) (f : FRef) (a b : Nat) : Prop := HasSide s f a b ∨ HasSide s f b a

/-- Two vertices are connected by at most one interior edge. -/
def UniqueIntr (s : St K) : Prop :=
  ∀ e ∈ s.es .intr, ∀ e' ∈ s.es .intr,
    (((s.E e).v1 = (s.E e').v1 ∧ (s.E e).v2 = (s.E e').v2) ∨ ((s.E e).v1 = (s.E e').v2 ∧ (s.E e).v2 = (s.E e').v1)) → e = e'

/-- No two facets run through the same side in the same direction. -/
def DirUnique (s : St K) : Prop :=
  ∀ f g a b, Live s f → Live s g → HasSide s f a b → HasSide s g a b → f = g

/-- Every facet has one neighbour pointer per side. -/
def NbrLen (s : St K) : Prop := ∀ f, Live s f → (s.F f).nbrs.length = (s.F f).corners.length

/-- Some interior edge connects `a` and `b`. -/
def IntrEdge (s : St K) (a b : Nat) : Prop :=
  ∃ e ∈ s.es .intr, ((s.E e).v1 = a ∧ (s.E e).v2 = b) ∨ ((s.E e).v1 = b ∧ (s.E e).v2 = a)

/-- Nothing but facet pointers differs: same vertices, edge lists, elements, colours, areas; edges and
facets keep their ends, corners, colours and flags. -/
structure SameButPointers (s s' : St K) : Prop where
  verts : s'.verts = s.verts
  V : s'.V = s.V
  es : s'.es = s.es
  tris : s'.tris = s.tris
  quads : s'.quads = s.quads
  nxt : s'.nxt = s.nxt
  area : s'.area = s.area
  color : s'.color = s.color
  ends : ∀ e, (s'.E e).v1 = (s.E e).v1 ∧ (s'.E e).v2 = (s.E e).v2 ∧ (s'.E e).list = (s.E e).list ∧
    (s'.E e).color = (s.E e).color ∧ (s'.E e).props = (s.E e).props ∧ (s'.E e).twin = (s.E e).twin
  corners : ∀ f, (s'.F f).corners = (s.F f).corners ∧ (s'.F f).color = (s.F f).color ∧
    (s'.F f).active = (s.F f).active ∧ (s'.F f).nbrs.length = (s.F f).nbrs.length

variable [Field K] [LinearOrder K]

/-- The centroid of every facet is (in the sense of `is_left`) left of all its sides. -/
def LeftFacets (eps : K) (s : St K) : Prop :=
  ∀ f a b, Live s f → HasSide s f a b → isLeft eps (s.pos a) (s.pos b) (s.fCentroid f) = true

/-- Total area of the elements. -/
def meshArea (s : St K) : K :=
  ((s.tris.map fun t => s.fArea (.tri t)).sum) + (s.quads.map fun q => s.fArea (.quad q)).sum

/-- All triangles are counter-clockwise. -/
def TrisCCW (s : St K) : Prop :=
  ∀ t ∈ s.tris, ∀ a b c, (s.F (.tri t)).corners = [a, b, c] → 0 < St.triArea (s.pos a) (s.pos b) (s.pos c)

/-- The facet pointers of an interior edge: left the facet that runs along the edge, right the one that
runs against it. -/
def Linked (s : St K) (e : Nat) : Prop :=
  (Live s (s.E e).fl ∧ HasSide s (s.E e).fl (s.E e).v1 (s.E e).v2) ∧
  (Live s (s.E e).fr ∧ HasSide s (s.E e).fr (s.E e).v2 (s.E e).v1)

end TQ.MCSpec

namespace TQ.MCSpec
open TQ.MS TQ.MeshSpec TQ.FUSpec
variable {K : Type*}

/-- The edges `e` and `e'` connect the same vertices. -/
def SameEnds (s : St K) (e e' : Nat) : Prop :=
  ((s.E e).v1 = (s.E e').v1 ∧ (s.E e).v2 = (s.E e').v2) ∨ ((s.E e).v1 = (s.E e').v2 ∧ (s.E e).v2 = (s.E e').v1)

instance (s : St K) (e e' : Nat) : Decidable (SameEnds s e e') := inferInstanceAs (Decidable (_ ∨ _))

/-- The edge `e` lies on a boundary edge of the mesh. -/
def OnBdry (s : St K) (e : Nat) : Prop := ∃ b ∈ s.es .bdry, SameEnds s e b

instance (s : St K) (e : Nat) : Decidable (OnBdry s e) := inferInstanceAs (Decidable (∃ b ∈ _, _))

/-- A mesh with the front that is left after a meshing step: no two edges of the front connect the same
vertices, no facet lies left of a front edge, a front edge is no interior edge of the mesh, a boundary
edge is in the front (in its own direction) iff it has no facet; all interior edges have facets on both
sides; pointers of boundary edges without facet are null. -/
structure Remaining (s : St K) : Prop where
  wf : WF s
  dir : DirUnique s
  frontUnique : ∀ e ∈ s.es .front, ∀ e' ∈ s.es .front, SameEnds s e e' → e = e'
  frontOpen : ∀ e ∈ s.es .front, ∀ f, Live s f → ¬ HasSide s f (s.E e).v1 (s.E e).v2
  frontNotIntr : ∀ e ∈ s.es .front, ∀ i ∈ s.es .intr, ¬ SameEnds s e i
  frontBdry : ∀ e ∈ s.es .front, ∀ b ∈ s.es .bdry, SameEnds s e b → (s.E e).v1 = (s.E b).v1 ∧ (s.E e).v2 = (s.E b).v2
  bdryUnique : ∀ e ∈ s.es .bdry, ∀ e' ∈ s.es .bdry, SameEnds s e e' → e = e'
  bdryOpen : ∀ b ∈ s.es .bdry, (∃ e ∈ s.es .front, SameEnds s e b) ↔ ∀ f, Live s f → ¬ HasSide s f (s.E b).v1 (s.E b).v2
  bdryNull : ∀ b ∈ s.es .bdry, (∀ f, Live s f → ¬ HasSide s f (s.E b).v1 (s.E b).v2) → (s.E b).fl = .null
  bdryRight : ∀ b ∈ s.es .bdry, ∀ f, Live s f → ¬ HasSide s f (s.E b).v2 (s.E b).v1
  intrFull : ∀ i ∈ s.es .intr, (∃ f, Live s f ∧ HasSide s f (s.E i).v1 (s.E i).v2) ∧ ∃ f, Live s f ∧ HasSide s f (s.E i).v2 (s.E i).v1

/-- Same vertices, positions and elements. -/
structure SameElements (s t : St K) : Prop where
  verts : t.verts = s.verts
  tris : t.tris = s.tris
  quads : t.quads = s.quads
  corners : ∀ f, (t.F f).corners = (s.F f).corners ∧ (t.F f).color = (s.F f).color ∧ (t.F f).active = (s.F f).active
  pos : ∀ v, t.pos v = s.pos v
  area : t.area = s.area

end TQ.MCSpec

namespace TQ.MCSpec
open TQ.MS TQ.MeshSpec
variable {K : Type*}

/-- `g` is stored as neighbour of `f` at its side between `a` and `b`. -/
def NbrAcross (s : St K) (f g : FRef) (a b : Nat) : Prop :=
  ∃ i < (s.F f).corners.length,
    (sideAt (s.F f).corners i = some (a, b) ∨ sideAt (s.F f).corners i = some (b, a)) ∧ (s.F f).nbrs[i]? = some g

/-- The neighbour pointers of sides without interior edge are null. -/
def FreshPointers (s : St K) : Prop :=
  ∀ f a b g, Live s f → ¬ IntrEdge s a b → NbrAcross s f g a b → g = .null

/-- The triangles and quads are counter-clockwise (quads convex), and not too small for the tolerance. -/
def SoundShapes [Field K] [LinearOrder K] (eps : K) (s : St K) : Prop :=
  (∀ t ∈ s.tris, ∀ a b c, (s.F (.tri t)).corners = [a, b, c] → 0 < area2 (s.pos a) (s.pos b) (s.pos c) ∧
    9 * eps ≤ area2 (s.pos a) (s.pos b) (s.pos c) ^ 2) ∧
  (∀ q ∈ s.quads, ∀ a b c d, (s.F (.quad q)).corners = [a, b, c, d] →
    ∀ p ∈ [(a, b, c), (b, c, d), (c, d, a), (d, a, b)], 0 < area2 (s.pos p.1) (s.pos p.2.1) (s.pos p.2.2) ∧
      4 * eps ≤ area2 (s.pos p.1) (s.pos p.2.1) (s.pos p.2.2) ^ 2)

end TQ.MCSpec

namespace TQ.MCSpec
open TQ.MS TQ.MeshSpec
variable {K : Type*}

/-- The edge `e` connects `a` and `b`. -/
def Connects (s : St K) (e a b : Nat) : Prop :=
  ((s.E e).v1 = a ∧ (s.E e).v2 = b) ∨ ((s.E e).v1 = b ∧ (s.E e).v2 = a)

/-- Some element runs from `a` to `b` along one of its sides. -/
def Covered (s : St K) (a b : Nat) : Prop := ∃ f, Live s f ∧ HasSide s f a b

/-- The corners of the triangle `x` are `a, b, c` in cyclic order. -/
def TriIs (s : St K) (x a b c : Nat) : Prop :=
  (s.F (.tri x)).corners = [a, b, c] ∨ (s.F (.tri x)).corners = [b, c, a] ∨ (s.F (.tri x)).corners = [c, a, b]

/-- `t` is the mesh `s` after merging some pairs of triangles across interior edges. -/
structure PairsMerged [Field K] [LinearOrder K] (col : FData → Int) (s t : St K) : Prop where
  /-- vertices, their flags, boundary edges and all edge data are the same -/
  verts : t.verts = s.verts
  vdata : ∀ v, t.pos v = s.pos v ∧ (t.V v).props = (s.V v).props
  lists : ∀ l, l ≠ .intr → t.es l = s.es l
  edata : ∀ e, (t.E e).v1 = (s.E e).v1 ∧ (t.E e).v2 = (s.E e).v2 ∧ (t.E e).color = (s.E e).color ∧ (t.E e).props = (s.E e).props
  /-- interior edges are only removed, one for every new quad; two triangles vanish for every new quad -/
  intr : (t.es .intr).Sublist (s.es .intr)
  nEdges : (t.es .intr).length + t.quads.length = (s.es .intr).length + s.quads.length
  nElems : t.tris.length + 2 * t.quads.length = s.tris.length + 2 * s.quads.length
  area : meshArea t = meshArea s
  /-- remaining triangles and old quads are the same -/
  tris : t.tris.Sublist s.tris ∧ ∀ x ∈ t.tris, t.F (.tri x) = s.F (.tri x)
  oldQuads : ∀ q ∈ s.quads, t.F (.quad q) = s.F (.quad q)
  /-- every new quad is the union of two counter-clockwise triangles of `s`, with the colour of the first -/
  newQuads : ∃ new, t.quads = s.quads ++ new ∧ ∀ q ∈ new, ∃ a b c d x y, (t.F (.quad q)).corners = [a, b, c, d] ∧
    (t.F (.quad q)).active = true ∧ [a, b, c, d].Nodup ∧ x ∈ s.tris ∧ y ∈ s.tris ∧ x ≠ y ∧ x ∉ t.tris ∧ y ∉ t.tris ∧
    TriIs s x b d a ∧ TriIs s y d b c ∧
    0 < St.triArea (s.pos b) (s.pos d) (s.pos a) ∧ 0 < St.triArea (s.pos d) (s.pos b) (s.pos c) ∧
    (t.F (.quad q)).color = s.newColor (col (s.F (.tri x)))
  /-- exactly the sides at removed edges vanish -/
  sides : ∀ a b, Covered t a b ↔ Covered s a b ∧ ¬ ∃ e ∈ s.es .intr, e ∉ t.es .intr ∧ Connects s e a b

end TQ.MCSpec

namespace TQ.MCSpec
open TQ.MS TQ.MeshSpec
variable {K : Type*}

/-- The facet pointers of an interior edge are null where there is no facet (no stale pointers). -/
def NullWhereOpen (s : St K) : Prop := ∀ e ∈ s.es .intr,
  ((∀ f, Live s f → ¬ HasSide s f (s.E e).v1 (s.E e).v2) → (s.E e).fl = .null) ∧
  ((∀ f, Live s f → ¬ HasSide s f (s.E e).v2 (s.E e).v1) → (s.E e).fr = .null)

end TQ.MCSpec

namespace TQ.MCSpec
open TQ.MS TQ.MeshSpec
variable {K : Type*} [Field K] [LinearOrder K]

/-- All triangles are counter-clockwise, with an area that the tolerance of `orientation` does not swallow. -/
def BigTris (eps : K) (s : St K) : Prop :=
  ∀ t ∈ s.tris, ∀ a b c, (s.F (.tri t)).corners = [a, b, c] →
    0 < area2 (s.pos a) (s.pos b) (s.pos c) ∧ eps ≤ area2 (s.pos a) (s.pos b) (s.pos c) ^ 2

/-- A proper mesh: consistent, every directed side belongs to one element, every side lies on an edge of the
mesh, nothing lies on the outer side of boundary edges. -/
structure Proper (s : St K) : Prop where
  wf : WF s
  dir : DirUnique s
  sides : ∀ a b, Covered s a b → ∃ e, (e ∈ s.es .intr ∨ e ∈ s.es .bdry) ∧ Connects s e a b
  right : ∀ e ∈ s.es .bdry, ¬ Covered s (s.E e).v2 (s.E e).v1

/-- `t` is the mesh `s` after replacing the triangles around the vertices `gone`. -/
structure StarsMerged (s t : St K) (gone : List Nat) : Prop where
  verts : t.verts = s.verts.filter (fun v => v ∉ gone)
  vdata : ∀ v, t.pos v = s.pos v ∧ (t.V v).props = (s.V v).props
  lists : ∀ l, l ≠ .intr → t.es l = s.es l
  edata : t.E = s.E
  quads : t.quads = s.quads ∧ ∀ q, t.F (.quad q) = s.F (.quad q)
  intr : t.es .intr = (s.es .intr).filter fun e => decide ((s.E e).v1 ∉ gone ∧ (s.E e).v2 ∉ gone)
  nEdges : (t.es .intr).length + 3 * gone.length = (s.es .intr).length
  nTris : t.tris.length + 2 * gone.length = s.tris.length
  area : meshArea t = meshArea s
  /-- triangles without removed vertex stay as they are -/
  kept : ∀ x ∈ s.tris, (∀ v ∈ gone, v ∉ (s.F (.tri x)).corners) → x ∈ t.tris ∧ t.F (.tri x) = s.F (.tri x)
  /-- the other triangles have a removed vertex in their place -/
  fresh : ∀ x ∈ t.tris, (x ∈ s.tris ∧ t.F (.tri x) = s.F (.tri x)) ∨
    ∃ v ∈ gone, ∃ a b c, (t.F (.tri x)).corners = [a, b, c] ∧ ∃ x1 ∈ s.tris, ∃ x2 ∈ s.tris, ∃ x3 ∈ s.tris,
      TriIs s x1 v a b ∧ TriIs s x2 v b c ∧ TriIs s x3 v c a ∧
      (t.F (.tri x)).color = s.newColor (s.F (.tri x1)).color ∧
      (s.F (.tri x2)).color = (s.F (.tri x1)).color ∧ (s.F (.tri x3)).color = (s.F (.tri x1)).color
  sides : ∀ a b, Covered t a b ↔ Covered s a b ∧ a ∉ gone ∧ b ∉ gone
  color : t.color = s.color

end TQ.MCSpec

namespace TQ.MCSpec
open TQ.MS TQ.MeshSpec
variable {K : Type*}

/-- Neighbour pointers are null or refer to elements of the mesh. -/
def NbrLive (s : St K) : Prop := ∀ f, Live s f → ∀ g ∈ (s.F f).nbrs, g = .null ∨ Live s g

/-- `ix` numbers the quads in list order and the triangles after them. -/
def Indexed (s : St K) (ix : FRef → Nat) : Prop :=
  (∀ i q, s.quads[i]? = some q → ix (.quad q) = i) ∧ ∀ t ∈ s.tris, s.quads.length ≤ ix (.tri t)

/-- The facet `g` is stored as neighbour at two consecutive sides `a-b` and `b-c` of the quad `q`. -/
def SharesTwo (s : St K) (q : Nat) (g : FRef) : Prop :=
  ∃ a b c, HasSide s (.quad q) a b ∧ HasSide s (.quad q) b c ∧ NbrAcross s (.quad q) g a b ∧ NbrAcross s (.quad q) g b c

end TQ.MCSpec

import Verif.Refinement.Model
import Verif.Cleanup.Spec
import Verif.Cleanup.Check

/-! # Specification of the refinement of meshes -/

namespace TQ.RefSpec
open TQ.MS TQ.MeshSpec TQ.MCSpec
variable {K : Type*}

/-- The corners of an element, each with its predecessor and successor. -/
def around : List Nat → List (Nat × Nat × Nat)
  | [a, b, c] => [(c, a, b), (a, b, c), (b, c, a)]
  | [a, b, c, d] => [(d, a, b), (a, b, c), (b, c, d), (c, d, a)]
  | _ => []

/-- All flags of some vertices together. -/
def allProps (s : St K) (ws : List Nat) : BitVec 8 := ws.foldl (fun p w => p ||| (s.V w).props) 0

/-- The new entities: the vertex on an edge, the vertex in an element, the halves of an edge, the sub quads and
the inner edges of an element, and the edge at a side of an element. -/
structure Names where
  mid : Nat → Nat
  ctr : FRef → Nat
  half : Nat → Nat × Nat
  sub : FRef → Nat → Nat
  spoke : FRef → Nat → Nat
  edge : Nat → Nat → Nat

variable [Field K] [LinearOrder K]

/-- `t` is the mesh `s` after splitting all edges in halves and every element into one quad per corner. -/
structure Refined (s t : St K) (N : Names) : Prop where
  /-- vertices: the old ones, one per edge, one per element -/
  verts : t.verts = s.verts ++ (s.es .intr).map N.mid ++ (s.es .bdry).map N.mid ++ (facets s).map N.ctr
  old : ∀ v ∈ s.verts, t.pos v = s.pos v ∧ (t.V v).props = (s.V v).props
  midPos : ∀ l, l ≠ .front → ∀ e ∈ s.es l, 2 * (t.pos (N.mid e)).x = (s.pos (s.E e).v1).x + (s.pos (s.E e).v2).x ∧
    2 * (t.pos (N.mid e)).y = (s.pos (s.E e).v1).y + (s.pos (s.E e).v2).y
  ctrPos : ∀ f, Live s f →
    (s.F f).corners.length * (t.pos (N.ctr f)).x = ((s.F f).corners.map fun c => (s.pos c).x).sum ∧
    (s.F f).corners.length * (t.pos (N.ctr f)).y = ((s.F f).corners.map fun c => (s.pos c).y).sum
  /-- flags of the new vertices -/
  midIntr : ∀ e ∈ s.es .intr, (t.V (N.mid e)).props = allProps s [(s.E e).v1, (s.E e).v2] &&& ~~~ Flags.vOnBoundary
  midBdry : ∀ e ∈ s.es .bdry, (t.V (N.mid e)).props = allProps s [(s.E e).v1, (s.E e).v2]
  ctrProps : ∀ f, Live s f → (t.V (N.ctr f)).props = allProps s (s.F f).corners &&& ~~~ Flags.vOnBoundary
  /-- edges: the halves of the old ones and one per side of every element -/
  intr : t.es .intr = ((s.es .intr).flatMap fun e => [(N.half e).1, (N.half e).2]) ++
    (facets s).flatMap fun f => (List.range (s.F f).corners.length).map (N.spoke f)
  bdry : t.es .bdry = (s.es .bdry).flatMap fun e => [(N.half e).1, (N.half e).2]
  front : t.es .front = s.es .front
  /-- halves have the direction of the old edge; halves of boundary edges the marker and the boundary flag -/
  halves : ∀ l, l ≠ .front → ∀ e ∈ s.es l,
    ((t.E (N.half e).1).v1 = (s.E e).v1 ∧ (t.E (N.half e).1).v2 = N.mid e) ∧
    (t.E (N.half e).2).v1 = N.mid e ∧ (t.E (N.half e).2).v2 = (s.E e).v2
  markers : ∀ e ∈ s.es .bdry, ∀ h ∈ [(N.half e).1, (N.half e).2],
    (t.E h).color = (s.E e).color ∧ (t.E h).props = Flags.eOnBoundary ∧ (t.E h).twin = none
  spokes : ∀ f, Live s f → ∀ i p, (around (s.F f).corners)[i]? = some p →
    (t.E (N.spoke f i)).v1 = N.mid (N.edge p.2.1 p.2.2) ∧ (t.E (N.spoke f i)).v2 = N.ctr f
  /-- `edge` finds an edge at every side -/
  edge : ∀ a b, Covered s a b → (N.edge a b ∈ s.es .intr ∨ N.edge a b ∈ s.es .bdry) ∧ Connects s (N.edge a b) a b
  /-- elements: one quad per corner -/
  tris : t.tris = []
  quads : t.quads = (facets s).flatMap fun f => (List.range (s.F f).corners.length).map (N.sub f)
  subs : ∀ f, Live s f → ∀ i p, (around (s.F f).corners)[i]? = some p →
    (t.F (.quad (N.sub f i))).corners = [p.2.1, N.mid (N.edge p.2.1 p.2.2), N.ctr f, N.mid (N.edge p.1 p.2.1)] ∧
    (t.F (.quad (N.sub f i))).color = (s.F f).color ∧ (t.F (.quad (N.sub f i))).active = false
  area : t.area = s.area
  color : t.color = s.color

end TQ.RefSpec

namespace TQ.RefSpec
open TQ.MS TQ.MeshSpec TQ.MCSpec
variable {K : Type*} [Field K] [LinearOrder K]

/-- A conforming mesh: consistent, all sides of elements lie on edges, no two edges connect the same
vertices, interior edges have an element on each side, boundary edges exactly one on their left. -/
structure Conforming (s : St K) : Prop extends Proper s where
  unique : ∀ e, (e ∈ s.es .intr ∨ e ∈ s.es .bdry) → ∀ e', (e' ∈ s.es .intr ∨ e' ∈ s.es .bdry) → SameEnds s e e' → e = e'
  intrFull : ∀ e ∈ s.es .intr, Covered s (s.E e).v1 (s.E e).v2 ∧ Covered s (s.E e).v2 (s.E e).v1
  bdryFull : ∀ e ∈ s.es .bdry, Covered s (s.E e).v1 (s.E e).v2

/-- All triangles are counter-clockwise and all quads strictly convex and counter-clockwise. -/
def ConvexElements (s : St K) : Prop :=
  (∀ t ∈ s.tris, ∀ a b c, (s.F (.tri t)).corners = [a, b, c] → 0 < area2 (s.pos a) (s.pos b) (s.pos c)) ∧
  ∀ q ∈ s.quads, ∀ a b c d, (s.F (.quad q)).corners = [a, b, c, d] →
    0 < area2 (s.pos a) (s.pos b) (s.pos c) ∧ 0 < area2 (s.pos b) (s.pos c) (s.pos d) ∧
    0 < area2 (s.pos c) (s.pos d) (s.pos a) ∧ 0 < area2 (s.pos d) (s.pos a) (s.pos b)

/-- Vertices - edges + elements. -/
def euler (s : St K) : Int :=
  s.verts.length - ((s.es .intr).length + (s.es .bdry).length) + (s.tris.length + s.quads.length)

/-- No boundary edge is an interface to another mesh. -/
def NoTwins (s : St K) : Prop := ∀ e ∈ s.es .bdry, (s.E e).twin = none

/-- `n` refinements one after another, all successful. -/
inductive RefinedBy : Nat → St K → St K → Prop
  | zero (s : St K) : RefinedBy 0 s s
  | succ {n : Nat} {s t u : St K} : RefinedBy n s t → t.refine = some (u, true) → RefinedBy (n + 1) s u

end TQ.RefSpec

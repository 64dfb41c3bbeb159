import Verif.Mesh.Model

/-! # Specification: consistency of the mesh -/

namespace TQ.MeshSpec
open TQ.MS
variable {K : Type*}

/-- A facet that is in one of the containers. -/
def Live (s : St K) : FRef → Prop
  | .null => False
  | .tri i => i ∈ s.tris
  | .quad i => i ∈ s.quads

/-- An edge that is in one of the edge lists. -/
def LiveE (s : St K) (e : Nat) : Prop := e ∈ s.es (s.E e).list

/-- The incidence lists of the vertices are exact: the edge list of a vertex holds exactly the live edges
that have it as an end point (each once, in order of creation), its facet list exactly the live facets
that have it as a corner (each once). -/
structure Incidence (s : St K) : Prop where
  edges : ∀ v ∈ s.verts, (s.V v).edges.Pairwise (· < ·) ∧
    ∀ e, e ∈ (s.V v).edges ↔ LiveE s e ∧ ((s.E e).v1 = v ∨ (s.E e).v2 = v)
  facets : ∀ v ∈ s.verts, (s.V v).facets.Nodup ∧
    ∀ f, f ∈ (s.V v).facets ↔ Live s f ∧ v ∈ (s.F f).corners

/-- No dangling references: ends of live edges and corners of live facets are live vertices, the
two ends of an edge and the corners of a facet are different, no address is entered twice and all
addresses were handed out. -/
structure Sound (s : St K) : Prop where
  vnd : s.verts.Nodup
  vlt : ∀ v ∈ s.verts, v < s.nxt
  ends : ∀ l, (s.es l).Nodup ∧ ∀ e ∈ s.es l, (s.E e).list = l ∧ (s.E e).v1 ∈ s.verts ∧
    (s.E e).v2 ∈ s.verts ∧ (s.E e).v1 ≠ (s.E e).v2 ∧ e < s.nxt
  tnd : s.tris.Nodup
  qnd : s.quads.Nodup
  tlt : ∀ t ∈ s.tris, t < s.nxt
  qlt : ∀ t ∈ s.quads, t < s.nxt
  tcor : ∀ t ∈ s.tris, (s.F (.tri t)).corners.length = 3
  qcor : ∀ q ∈ s.quads, (s.F (.quad q)).corners.length = 4
  cor : ∀ f, Live s f → (s.F f).corners.Nodup ∧ ∀ c ∈ (s.F f).corners, c ∈ s.verts

/-- A consistent mesh. -/
structure WF (s : St K) : Prop extends Incidence s, Sound s

variable [Field K] [LinearOrder K]

/-- Meshes built by any history of additions and removals.  An edge or a facet is added between different
vertices of the mesh, an edge of the mesh is removed, a vertex is removed when nothing refers to it. -/
inductive Built (c : Int) : St K → Prop
  | empty : Built c (St.empty c)
  | addVertex {s} (p : Pt K) : Built c s → Built c (s.addVertex p)
  | addEdge {s} (l : EL) (a b : Nat) (col : Int) (pr : BitVec 8) : Built c s → a ∈ s.verts → b ∈ s.verts → a ≠ b →
      Built c (s.addEdge l a b col pr)
  | addTri {s} (x y z : Nat) (col : Int) : Built c s → x ∈ s.verts → y ∈ s.verts → z ∈ s.verts →
      [x, y, z].Nodup → Built c (s.addTri x y z col)
  | addQuad {s} (x y z w : Nat) (col : Int) : Built c s → x ∈ s.verts → y ∈ s.verts → z ∈ s.verts → w ∈ s.verts →
      [x, y, z, w].Nodup → Built c (s.addQuad x y z w col)
  | removeEdge {s} (l : EL) (e : Nat) : Built c s → e ∈ s.es l → Built c (s.removeEdge e)
  | removeIntr {s} (l : EL) (e : Nat) : Built c s → e ∈ s.es l → Built c (s.removeIntr e)
  | removeBdry {s} (l : EL) (e : Nat) : Built c s → e ∈ s.es l → Built c (s.removeBdry e)
  | removeTri {s} (t : Nat) : Built c s → t ∈ s.tris → Built c (s.removeTri t)
  | removeQuad {s} (q : Nat) : Built c s → q ∈ s.quads → Built c (s.removeQuad q)
  | removeVertex {s} (v : Nat) : Built c s → v ∈ s.verts → (s.V v).edges = [] → (s.V v).facets = [] →
      Built c (s.removeVertex v)

/-- The `i`-th side of a facet with corners `cs`: the corner at distance `i + 1` and the one after it (for a
triangle: the side opposite to corner `i`). -/
def sideAt (cs : List Nat) (i : Nat) : Option (Nat × Nat) :=
  match cs[(i + 1) % cs.length]?, cs[(i + 2) % cs.length]? with
  | some a, some b => some (a, b)
  | _, _ => none

end TQ.MeshSpec

import Verif.FrontUpdate.Spec
import Verif.Cleanup.Check
import Verif.Refinement.Spec
import Verif.Smoothing.Area

/-! # Specification: partly meshed simple domains -/

namespace TQ.WholeSpec
open TQ.MS TQ.MeshSpec TQ.FUSpec TQ.MCSpec TQ.Sm
variable {K : Type*} [Field K] [LinearOrder K] [IsStrictOrderedRing K]

/-- The triangles that make up an element: a triangle itself, the two halves of a quad.  A quad is cut along
its first diagonal if that gives two counter-clockwise triangles, along the second one otherwise (a re-entrant
corner admits one cut only). -/
def halves (x : Nat → Pt K) (f : FRef) : List Nat → List (FRef × Nat × Nat × Nat)
  | [a, b, c] => [(f, a, b, c)]
  | [a, b, c, d] => if 0 < side (x a) (x b) (x c) ∧ 0 < side (x c) (x d) (x a) then [(f, a, b, c), (f, c, d, a)]
      else [(f, b, c, d), (f, d, a, b)]
  | _ => []

/-- The triangles that make up the mesh. -/
def pieces (s : St K) : List (FRef × Nat × Nat × Nat) := (facets s).flatMap fun f => halves s.pos f (s.F f).corners

/-- `p` is strictly inside a piece. -/
def InPiece (s : St K) (p : Pt K) (x : FRef × Nat × Nat × Nat) : Prop :=
  StrictlyIn p (s.pos x.2.1) (s.pos x.2.2.1) (s.pos x.2.2.2)

instance (s : St K) (p : Pt K) (x : FRef × Nat × Nat × Nat) : Decidable (InPiece s p x) :=
  inferInstanceAs (Decidable (StrictlyIn ..))

/-- A simple domain that has been meshed in part.  The boundary edges and the front bound regions on their
left; all pieces are counter-clockwise; the boundary edges are (as a chain) the sides of the elements together
with the front; two sides of elements meet in every interior edge; a front edge that is marked as boundary
edge is one; the boundary edges are marked as such and are no ghosts; pointers of boundary edges without
element are null. -/
structure Meshing (s : St K) : Prop where
  wf : WF s
  ccw : ∀ x ∈ pieces s, 0 < side (s.pos x.2.1) (s.pos x.2.2.1) (s.pos x.2.2.2)
  front : SimpleFront s.pos (pairs s .front)
  bdry : SimpleFront s.pos (pairs s .bdry)
  chain : ∀ a b, chain (allSides s) a b + chain (pairs s .front) a b = chain (pairs s .bdry) a b
  count : ∀ a b, connecting (allSides s) a b + connecting (frontOf s false) a b =
    2 * connecting (pairs s .intr) a b + connecting (frontOf s true) a b + connecting (pairs s .bdry) a b
  marked : ∀ e ∈ frontOf s false, e ∈ pairs s .bdry
  ghost : NoGhost s
  plain : ∀ b ∈ s.es .bdry, s.isInterior b = false ∧ s.isGhost b = false
  null : ∀ b ∈ s.es .bdry, (∀ f, Live s f → ¬ HasSide s f (s.E b).v1 (s.E b).v2) → (s.E b).fl = .null

/-- Meshing steps one after another, from a mesh `s0` without elements: a step starts with the front of the
mesh, advances it (`Run`), and ends with the remaining front written back; the next step picks it up. -/
inductive Session (env : FU.Env K) (s0 : St K) : St K → Prop
  | start : Session env s0 (MC.startStep env.eps s0)
  | run {s s' : St K} {log : List Entry} : Session env s0 s → Run env s log s' → Resolved (9 * env.eps) s' →
      AllReach env s'.pos log → Session env s0 s'
  | resume {s : St K} : Session env s0 s → Resolved (9 * env.eps) s → Session env s0 (MC.startStep env.eps (MC.finishStep s))

/-- A mesh without elements, its boundary edges enclose a region on their left. -/
structure Bare (s : St K) : Prop where
  wf : WF s
  tris : s.tris = []
  quads : s.quads = []
  intr : s.es .intr = []
  front : s.es .front = []
  null : ∀ e ∈ s.es .bdry, (s.E e).fl = .null
  plain : ∀ b ∈ s.es .bdry, s.isInterior b = false ∧ s.isGhost b = false
  simple : SimpleFront s.pos (pairs s .bdry)

end TQ.WholeSpec

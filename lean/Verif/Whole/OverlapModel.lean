import Verif.FrontUpdate.Model

/-! # Model: intersection tests of quads

`QuadGeometry` in src/algorithm/FacetGeometry.h, called from src/algorithm/Quad.h:225-283.  The container search
`get_items` that selects the elements, edges and vertices in a range is an argument list. -/

set_option linter.unusedSectionVars false

namespace TQ.QG
open TQ.MS
variable {K : Type*} [Field K] [LinearOrder K]

/-- Quad with corners `p q r w` and one vertex (src/algorithm/FacetGeometry.h:507-517). Two vertices are the same
if they are the same object. -/
def hasVertex (eps : K) (s : St K) (a b c d : Nat) (v : Nat) : Bool :=
  if v = a ∨ v = b ∨ v = c ∨ v = d then false
  else inOnQuad eps (s.pos v) (s.pos a) (s.pos b) (s.pos c) (s.pos d)

/-- Quad and all vertices of a list (src/algorithm/FacetGeometry.h:637-660). -/
def hitsVertices (eps : K) (s : St K) (a b c d : Nat) (vs : List Nat) : Bool := vs.any (hasVertex eps s a b c d)

/-- Quad and domain (src/algorithm/FacetGeometry.h:522-529). -/
def leavesDomain (inside : Pt K → Bool) (p q r w : Pt K) : Bool := !(inside p && inside q && inside r && inside w)

/-- Quad with corners `p q r w` and one triangle (src/algorithm/FacetGeometry.h:534-565). -/
def hitsTri (eps : K) (s : St K) (p q r w : Pt K) (t : Nat) : Bool :=
  if !(s.F (.tri t)).active then false
  else
    match (s.F (.tri t)).corners with
    | [a, b, c] =>
      triQuadIntersection eps (s.pos a) (s.pos b) (s.pos c) p q r w ||
        (inTriangle eps (St.quadCentroid p q r w) (s.pos a) (s.pos b) (s.pos c) ||
          inQuad eps (s.fCentroid (.tri t)) p q r w)
    | _ => false

/-- Quad `quad` with corners `p q r w` and one other quad (src/algorithm/FacetGeometry.h:571-606). -/
def hitsQuad (eps : K) (s : St K) (quad : Nat) (p q r w : Pt K) (t : Nat) : Bool :=
  if t = quad then false
  else if !(s.F (.quad t)).active then false
  else
    match (s.F (.quad t)).corners with
    | [a, b, c, d] =>
      quadQuadIntersection eps p q r w (s.pos a) (s.pos b) (s.pos c) (s.pos d) ||
        (inQuad eps (s.fCentroid (.quad t)) p q r w ||
          inQuad eps (St.quadCentroid p q r w) (s.pos a) (s.pos b) (s.pos c) (s.pos d))
    | _ => false

/-- Quad and one front edge (src/algorithm/FacetGeometry.h:612-631). -/
def hitsEdge (eps : K) (s : St K) (p q r w : Pt K) (e : Nat) : Bool :=
  lineQuadIntersection eps (s.pos (s.E e).v1) (s.pos (s.E e).v2) p q r w

end TQ.QG

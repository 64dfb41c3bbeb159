import Verif.Smoothing.Model
import Mathlib.Data.List.Sort

/-!
# Model of the order in which triangles are merged: `src/algorithm/ModificationStrategy.h`, `MeshCleanup.h`

Lengths are compared by their squares, which gives the same answers: the roots themselves are not computed.
-/

set_option linter.unusedSectionVars false

namespace TQ
namespace MC
open MS MS.St
variable {K : Type*} [Field K] [LinearOrder K]

/-- Square of `min_edge_length()` (src/algorithm/Triangle.h:296, Quad.h:323; `NullFacet`: src/algorithm/Facet.h:143). -/
def minSqr (s : St K) (f : FRef) : K :=
  match s.sideSqrs f with
  | [] => 0
  | x :: l => l.foldl min x

/-- What `a_ang` and `b_ang` stand for (src/algorithm/ModificationStrategy.h:123-129, MeshCleanup.h:714-720), squared. -/
def mergeKey (s : St K) (e : Nat) : K := min (minSqr s (s.E e).fl) (minSqr s (s.E e).fr)

/-- `collect_triangle_edges` (src/algorithm/ModificationStrategy.h:105-134) and the first part of
`MeshCleanup::merge_triangles_to_quads` (src/algorithm/MeshCleanup.h:694-723): the collected edges, sorted by
`std::list::sort`, which keeps the order of elements that are not smaller than each other. -/
def orderedEdges (s : St K) : List Nat :=
  (triEdges s).insertionSort fun a b => ¬ mergeKey s b < mergeKey s a

end MC
end TQ

import Verif.Whole.CleanSpec
import Verif.Whole.CleanModel
import Verif.Smoothing.Spec

/-! # Specification: finished meshes of a domain and what is done with them -/

namespace TQ.CleanSpec
open TQ.MS TQ.MS.St TQ.MeshSpec TQ.FUSpec TQ.MCSpec TQ.WholeSpec TQ.RefSpec TQ.SmSpec
variable {K : Type*} [Field K] [LinearOrder K] [IsStrictOrderedRing K]

/-- No quad is turned over or folded: one of its diagonals cuts it into two counter-clockwise triangles. -/
def Unfolded (s : St K) : Prop :=
  ∀ q ∈ s.quads, ∀ a b c d, (s.F (.quad q)).corners = [a, b, c, d] →
    (0 < side (s.pos a) (s.pos b) (s.pos c) ∧ 0 < side (s.pos c) (s.pos d) (s.pos a)) ∨
    (0 < side (s.pos b) (s.pos c) (s.pos d) ∧ 0 < side (s.pos d) (s.pos a) (s.pos b))

/-- `t` is a complete mesh of the domain that the boundary edges of `s0` enclose: conforming, its elements tile the
domain, their areas add up to the area of the domain; its boundary edges enclose the same region and their ends are
flagged; the neighbour pointers are as `setup_facet_connectivity` needs them. -/
structure MeshOf (s0 t : St K) : Prop where
  complete : Complete t
  tiled : Tiled t
  area : meshArea t = enclosed s0.pos (pairs s0 .bdry)
  region : ∀ p, winding t.pos (pairs t .bdry) p = winding s0.pos (pairs s0 .bdry) p
  flagged : BdryFlagged t
  len : NbrLen t
  fresh : FreshPointers t

/-- The ways to process a finished mesh: the improvement at the end of a triangulation, the merging of triangles to
quads, Laplace or torsion smoothing, mixed smoothing, and refinement (which may be refused), in any order and any
number of times.  Smoothing must not fold quads, refinement needs convex elements. -/
inductive Processed (eps : K) : St K → St K → Prop
  | none (s : St K) : Processed eps s s
  | improve {s t u : St K} {ix0 : FRef → Nat} : Processed eps s t → BigTris eps t → MC.improve eps ix0 t = some u → Processed eps s u
  | merge {s t u : St K} {ix0 : FRef → Nat} {l : List Nat} : Processed eps s t → LeftFacets eps t →
      l.Perm (MC.triEdges (MC.setupConnectivity eps t)) → MC.tri2quad eps ix0 l t = some u → Processed eps s u
  | smooth {s t : St K} {nearest : St K → Pt K → Option Nat} {norm : Pt K → K} {c : SmoothCfg K} {rule : Rule K} {decay step : K}
      {n : Nat} {r : St K × K} : Processed eps s t → St.smooth nearest norm c rule decay n (t, step) = some r → Unfolded r.1 →
      Processed eps s r.1
  | mixed {s t : St K} {nearest : St K → Pt K → Option Nat} {norm : Pt K → K} {c : SmoothCfg K} {r1 r2 : Rule K} {decay step : K}
      {n : Nat} {r : St K × K} : Processed eps s t → St.smoothMixed nearest norm c r1 r2 decay n (t, step) = some r → Unfolded r.1 →
      Processed eps s r.1
  | refine {s t u : St K} {b : Bool} : Processed eps s t → ConvexElements t → t.refine = some (u, b) → Processed eps s u

end TQ.CleanSpec

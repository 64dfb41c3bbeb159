import Verif.Cleanup.Model

/-!
# Model: clean-up passes in sequence

`Tri2QuadModification::modify` (src/algorithm/ModificationStrategy.h) and the last part of
`TriangulationStrategy::generate_elements` (src/algorithm/Triangulation.h).
-/

namespace TQ.MC
open TQ TQ.MS TQ.MS.St
variable {K : Type*} [Field K] [LinearOrder K]

/-- `clear_double_triangle_edges` without `init` (src/algorithm/MeshCleanup.h:423-587): the indices `ix` and the
pointers of the mesh are those of an earlier call. -/
def doubleTris (eps : K) (ix : FRef → Nat) (s : St K) : Option (St K) :=
  match scan s false ix with
  | none => none
  | some c => (c.out.foldl (fun o m => o.bind fun s => newTri s m) (some s)).map fun s2 => setupConnectivity eps (removeOld c.out s2)

/-- `clear_double_quad_edges` without `init` (src/algorithm/MeshCleanup.h:210-389). -/
def doubleQuads (eps : K) (ix : FRef → Nat) (s : St K) : Option (St K) :=
  match scan s true ix with
  | none => none
  | some c => some (setupConnectivity eps (removeOld c.out (c.out.foldl newQuad s)))

/-- `Tri2QuadModification::modify` (src/algorithm/ModificationStrategy.h:78-96).  `l` is the list of collected
edges in the order of their lengths (the theorems hold for every order); `clear_waste` frees memory only; the
second clean-up uses the indices and the pointers left behind by the first one (`init` is false). `ix0` are the
indices before the call. -/
def tri2quad (eps : K) (ix0 : FRef → Nat) (l : List Nat) (s : St K) : Option (St K) :=
  (mergeTriangles FData.color l (setupConnectivity eps s)).bind fun u =>
    (clearDoubleQuads eps ix0 u).bind fun v => doubleTris eps (assignIndices v (fun _ => 0) ix0).2 v

/-- The improvement of the mesh at the end of `generate_elements` (src/algorithm/Triangulation.h:108-114). -/
def improve (eps : K) (ix0 : FRef → Nat) (s : St K) : Option (St K) :=
  if checkMeshValidity s then
    (clearDoubleQuads eps ix0 s).bind fun a => (clearDoubleTris eps ix0 a).bind fun b => mergeDegenerate eps b
  else some s

end TQ.MC

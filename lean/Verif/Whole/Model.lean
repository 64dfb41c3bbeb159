import Verif.Cleanup.Model
import Verif.Domain.Model

/-!
# Model: `MeshChecker` (src/algorithm/MeshChecker.h)
-/

namespace TQ.CK
open TQ.MS
variable {K : Type*} [Field K] [LinearOrder K]

/-- The comparison of the areas (src/algorithm/MeshChecker.h:63-70).  A division by zero gives infinity or NaN;
both comparisons with the threshold are false. -/
def areaAgrees (thr meshArea domArea : K) (ext : (K × K) × (K × K)) : Bool :=
  let scale := (ext.1.2 - ext.1.1) * (ext.2.2 - ext.2.1)
  if scale = 0 then false else decide (|meshArea - domArea| / scale < thr)

/-- `check_completeness` (src/algorithm/MeshChecker.h:49-73, 81-85): the mesh afterwards and the result.  The
indices assigned by `assign_mesh_indices` are not part of the state (see `MC.assignIndices`); `thr` is
`area_threshold_`. -/
def checkCompleteness (eps thr : K) (D : Dom.Domain K) (cleanup : Bool) (s : St K) : St K × Bool :=
  let t := if cleanup then MC.setupConnectivity eps s else s
  (t, (MC.frontEdges t).isEmpty && MC.checkMeshValidity t && areaAgrees thr t.area (Dom.area D) (Dom.extent D))

end TQ.CK

import Verif.Utils.Model
import Verif.QuadTree.Model

/-! # Model of `MeshBuilder::create_empty_mesh` -/

namespace TQ
namespace EM

variable {K : Type*} [Field K] [LinearOrder K]

/-- The loop over the vertices (src/algorithm/MeshBuilder.h:85-90), begun with the extent `m`. -/
def growExtent (m : K) (vs : List (Pt K)) : K := vs.foldl (fun m v => cppMAX (cppMAX m (cppABS v.x)) (cppABS v.y)) m

/-- The extent of the mesh (src/algorithm/MeshBuilder.h:80-94) for the argument `given` (0 by default) and a domain with vertices at `vs`. The factor is `domain_enlargement_` (275);
`eps` is the default relative tolerance of `EQ0` (src/utils/MathUtility.h:78-82). -/
def meshExtent (eps given : K) (vs : List (Pt K)) : K :=
  if cppEQ given 0 0 eps then growExtent given vs * (21 / 10) else given

/-- The square of the search trees of vertices and elements of the new mesh (src/algorithm/MeshBuilder.h:96-98, src/algorithm/Mesh.h:39-49): its centre is the origin
(src/utils/Container.h:51-55). -/
def meshBox (eps given : K) (vs : List (Pt K)) : Box K := ⟨⟨0, 0⟩, meshExtent eps given vs⟩

end EM
end TQ

import Verif.QuadLayer.Model
import Verif.Smoothing.PlaceSpec

/-! # Specification: the surroundings of the quad layers at another place -/

namespace TQ
namespace PlaceSpec
open MS FU QL GeoSpec
variable {K : Type*} [Field K] [LinearOrder K]

/-- `L'` are the surroundings `L` of the quad layers at another place: angles between vectors are the same, the norm is homogeneous, the squared distance with which the search for the closest vertex begins has the factor of
areas. -/
structure LayerFollows (f : Similarity K) (lam : K) (L L' : LEnv K) : Prop where
  env : Follows f lam L.env L'.env
  angle : ∀ u v, L'.angleLe (f.turn u) (f.turn v) = L.angleLe u v
  sine : ∀ u v, L'.sinHalf (f.turn u) (f.turn v) = L.sinHalf u v
  cosine : ∀ u v, L'.cosAngle (f.turn u) (f.turn v) = L.cosAngle u v
  range : L'.rangeFactor = L.rangeFactor
  far : L'.far = f.factor * L.far
  norm : ∀ (k : K) (u : Pt K), 0 < k → L.env.norm (Pt.smul k u) = k * L.env.norm u

/-- The outcome of a layer at another place. -/
def placeLRes (f : Similarity K) : LRes K → LRes K
  | .undef => .undef
  | .fail s => .fail (place f s)
  | .done s xs xe => .done (place f s) (f.at xs) (f.at xe)

end PlaceSpec
end TQ

import Verif.Smoothing.Model
import Verif.Triangulation.PlaceSpec
import Mathlib.Data.List.Rotate

/-! # Specification: the surroundings of the smoothing at another place -/

namespace TQ
namespace GeoSpec
variable {K : Type*} [Field K]

/-- The image of a difference of points. -/
def Similarity.turn (f : Similarity K) (u : Pt K) : Pt K := ⟨f.a * u.x - f.b * u.y, f.b * u.x + f.a * u.y⟩

end GeoSpec

namespace PlaceSpec
open MS MS.St GeoSpec
variable {K : Type*} [Field K] [LinearOrder K]

/-- `c'` are the surroundings `c` of the smoothing at another place, in a unit in which lengths are multiplied with `lam`: the domain is the image, the neighbours of a vertex have the same order around it, but may begin at another one
(`atan2` has its jump in a fixed direction), the nearest edge is the same, the norm has the factor. The tolerance (for squares of doubled areas) has the fourth power of the factor. -/
structure SmoothFollows (f : Similarity K) (lam : K) (c c' : SmoothCfg K) (nearest nearest' : St K → Pt K → Option Nat) (norm norm' : Pt K → K) : Prop where
  pos : 0 < lam
  factor : f.factor = lam ^ 2
  eps : c'.eps = f.factor ^ 2 * c.eps
  inside : ∀ p, c'.inside (f.at p) = c.inside p
  order : ∀ s v ns, c'.order (place f s) v ns ~r c.order s v ns
  layers : c'.layers = c.layers
  near : ∀ s p, nearest' (place f s) (f.at p) = nearest s p
  norm : ∀ u, norm' (f.turn u) = lam * norm u

/-- A rule for displacements that knows only the mesh. -/
def RuleFollows (f : Similarity K) (r r' : Rule K) : Prop := ∀ s v ns, r' (place f s) v ns = (r s v ns).map f.turn

end PlaceSpec
end TQ

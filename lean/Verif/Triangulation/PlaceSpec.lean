import Verif.Triangulation.Model
import Verif.Geometry.UnitSpec

/-! # Specification: meshes and surroundings at another place, in another direction, in another unit -/

namespace TQ
namespace PlaceSpec
open MS FU TG GeoSpec
variable {K : Type*} [Field K] [LinearOrder K]

/-- The data of a vertex at another place. -/
def placeV (f : Similarity K) (d : VData K) : VData K := { d with xy := f.at d.xy }

/-- The mesh and its front at another place: the same vertices, edges and elements, the coordinates are mapped; areas grow by the factor. -/
def place (f : Similarity K) (s : St K) : St K := { s with V := fun v => placeV f (s.V v), area := f.factor * s.area }

/-- The surroundings `env'` are those of `env` at another place, in a unit in which lengths are multiplied with `lam`: sizes, lengths and ranges have this factor, the domain is the image, the limits without
unit are the same, and the queries report the same items in the same order. The tolerance of the orientation (for squares of doubled areas) has the fourth power of the factor. -/
structure Follows (f : Similarity K) (lam : K) (env env' : Env K) : Prop where
  pos : 0 < lam
  factor : f.factor = lam ^ 2
  eps : env'.eps = f.factor ^ 2 * env.eps
  rho : ∀ p, env'.rho (f.at p) = lam * env.rho p
  inside : ∀ p, env'.inside (f.at p) = env.inside p
  bdry : ∀ p r, env'.bdryEdges (f.at p) (lam * r) = (env.bdryEdges p r).map fun e => (f.at e.1, f.at e.2)
  norm : ∀ p q, env'.norm (f.at p - f.at q) = lam * env.norm (p - q)
  angle : ∀ p q r, env'.maxAngle (f.at p) (f.at q) (f.at r) = env.maxAngle p q r
  quality : env'.minQuality = env.minQuality
  cell : env'.maxCellAngle = env.maxCellAngle
  normF : env'.normFactor = env.normFactor
  verts : ∀ s p r, env'.qVerts (place f s) (f.at p) (lam * r) = env.qVerts s p r
  tris : ∀ s p r, env'.qTris (place f s) (f.at p) (lam * r) = env.qTris s p r
  quads : ∀ s p r, env'.qQuads (place f s) (f.at p) (lam * r) = env.qQuads s p r
  front : ∀ s p r, env'.qFront (place f s) (f.at p) (lam * r) = env.qFront s p r
  sort : env'.sort = env.sort

/-- The result of the meshing at another place. -/
def placeRes (f : Similarity K) : GRes K → GRes K
  | .ret b s n => .ret b (place f s) n
  | .undef => .undef
  | .fuel => .fuel

end PlaceSpec
end TQ

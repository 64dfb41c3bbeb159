import Verif.Whole.Reach
import Verif.Whole.AppModel
import Verif.Whole.FinalSpec

/-! # Specification: whole runs of the meshing functions -/

namespace TQ.AppSpec
open TQ.MS TQ.MS.St TQ.MeshSpec TQ.FUSpec TQ.MCSpec TQ.WholeSpec TQ.QLSpec TQ.QL TQ.AM
variable {K : Type*} [Field K] [LinearOrder K] [IsStrictOrderedRing K]

/-- The meshes between two calls of meshing functions, from the prepared mesh `s0`: nothing was done yet, or layers and
triangulation steps have left the front and the mesh in order. -/
inductive Staged (L : LEnv K) (s0 : St K) : St K → Prop
  | prepared : Staged L s0 s0
  | left {u : St K} : Work L s0 u → LeftFacets L.env.eps u → Staged L s0 (MC.finishStep u)

/-- The sets of layers are made as in C150: no vertex is moved, no edge of the interior split, elements large compared
to the tolerance. -/
def LayersFine (L : LEnv K) (fuel : Nat) : List (LayerDef K) → St K → Prop
  | [], _ => True
  | d :: ds, s =>
    if (s.es .bdry).length < 1 then LayersFine L fuel ds s
    else (∀ x ∈ layersLog L fuel d.growth d.count (MC.startStep L.env.eps s) d.start d.stop d.height, Fine L.env x) ∧
      ∀ r, QL.layers L fuel d.growth d.count (MC.startStep L.env.eps s) d.start d.stop d.height = some r →
        LeftFacets L.env.eps r.1 ∧ LayersFine L fuel ds (MC.finishStep r.1)

/-- The triangles made from the mesh `a` are large compared to the tolerance, and the ranges of the checks were large
enough (conditions of C140). -/
def MeshedWell (env : FU.Env K) (par : TG.Par K) (nEl fuel : Nat) (a : St K) : Prop :=
  ∀ ok u c, TG.generate env par nEl fuel (MC.startStep env.eps a) = .ret ok u c →
    Resolved env.eps u ∧ Reaching env (MC.startStep env.eps a) u

/-- The sides of the new triangles and the edges of all fronts are at most 4/3 of the value of the size function at the
centroids of the new triangles. -/
def Sized (env : FU.Env K) (s0 s : St K) : Prop :=
  ∀ t ∈ s.tris, t ∉ s0.tris → ∀ a b c, (s.F (.tri t)).corners = [a, b, c] →
    0 < env.rho (triCentroid (s.pos a) (s.pos b) (s.pos c)) ∧
    ∀ e ∈ (a, b) :: (b, c) :: (c, a) :: usedEdges s0 s,
      env.norm (s.pos e.2 - s.pos e.1) ≤ 4 / 3 * env.rho (triCentroid (s.pos a) (s.pos b) (s.pos c))

end TQ.AppSpec

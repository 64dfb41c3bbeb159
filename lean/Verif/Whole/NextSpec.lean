import Verif.Whole.AppSpec
import Verif.Whole.UnionSpec

/-! # Specification: several mesh definitions -/

namespace TQ.AppSpec
open TQ.MS TQ.MS.St TQ.MeshSpec TQ.FUSpec TQ.MCSpec TQ.WholeSpec TQ.QLSpec TQ.QL TQ.AM TQ.MM TQ.MergeSpec TQ.CleanSpec TQ.RefSpec TQ.SmSpec
variable {K : Type*} [Field K] [LinearOrder K] [IsStrictOrderedRing K]

/-- The prepared mesh `ni` beside the mesh `oi`: edges are linked to edges between the same points in opposite
direction, the links are mutual, and vertices on the interface lie at different points; the domains have no point in
common, and boundary edges without link meet at most in end points. -/
structure Beside (w : World K) (ni oi : Nat) : Prop where
  ne : ni ≠ oi
  link : ∀ e ∈ (w ni).es .bdry, ∀ e', ((w ni).E e).twin = some (oi, e') →
    e' ∈ (w oi).es .bdry ∧ ((w oi).E e').twin = some (ni, e) ∧
    (w ni).pos ((w ni).E e).v1 = (w oi).pos ((w oi).E e').v2 ∧ (w ni).pos ((w ni).E e).v2 = (w oi).pos ((w oi).E e').v1
  back : ∀ e' ∈ (w oi).es .bdry, ∀ e, ((w oi).E e').twin = some (ni, e) →
    e ∈ (w ni).es .bdry ∧ ((w ni).E e).twin = some (oi, e')
  apartN : ∀ u v, OnIface w ni oi u → OnIface w ni oi v → (w ni).pos u = (w ni).pos v → u = v
  apartO : ∀ u v, OnIface w oi ni u → OnIface w oi ni v → (w oi).pos u = (w oi).pos v → u = v
  self : ∀ e ∈ (w oi).es .bdry, ∀ x, ((w oi).E e).twin = some x → x.1 = ni
  disjoint : ∀ p, winding (w ni).pos (pairs (w ni) .bdry) p + winding (w oi).pos (pairs (w oi) .bdry) p ≤ 1
  rims : ∀ e ∈ (w ni).es .bdry, ¬ Iface w ni oi e → ∀ e' ∈ (w oi).es .bdry, ¬ Iface w oi ni e' → ∀ x,
    OnClosed ((w ni).pos ((w ni).E e).v1) ((w ni).pos ((w ni).E e).v2) x →
    OnClosed ((w oi).pos ((w oi).E e').v1) ((w oi).pos ((w oi).E e').v2) x →
    (x = (w ni).pos ((w ni).E e).v1 ∨ x = (w ni).pos ((w ni).E e).v2) ∧
    (x = (w oi).pos ((w oi).E e').v1 ∨ x = (w oi).pos ((w oi).E e').v2)
  shared : ∃ e ∈ (w ni).es .bdry, Iface w ni oi e

/-- Boundary edges with a link are kept with their ends and links, no links are made, and boundary edges without link
are kept or cut into pieces. -/
structure RimKept (s t : St K) : Prop where
  linked : ∀ e ∈ s.es .bdry, (s.E e).twin ≠ none → e ∈ t.es .bdry ∧ (t.E e).v1 = (s.E e).v1 ∧ (t.E e).v2 = (s.E e).v2 ∧
    (t.E e).twin = (s.E e).twin ∧ t.pos (s.E e).v1 = s.pos (s.E e).v1 ∧ t.pos (s.E e).v2 = s.pos (s.E e).v2
  only : ∀ e ∈ t.es .bdry, (t.E e).twin ≠ none → e ∈ s.es .bdry ∧ (s.E e).twin = (t.E e).twin
  parts : ∀ e ∈ t.es .bdry, (t.E e).twin = none → ∃ e0 ∈ s.es .bdry, (s.E e0).twin = none ∧
    OnClosed (s.pos (s.E e0).v1) (s.pos (s.E e0).v2) (t.pos (t.E e).v1) ∧ OnClosed (s.pos (s.E e0).v1) (s.pos (s.E e0).v2) (t.pos (t.E e).v2)

/-- A change of the quad layers that cuts no boundary edge with a link. -/
def OffLinks (s : St K) : Ev K → Prop
  | .split a b _ _ => ∀ e ∈ s.es .bdry, (s.E e).twin ≠ none → ((s.E e).v1, (s.E e).v2) ≠ (a, b)
  | _ => True

/-- The sets of layers cut no boundary edge with a link. -/
def LayersOff (L : LEnv K) (fuel : Nat) : List (LayerDef K) → St K → Prop
  | [], _ => True
  | d :: ds, s =>
    if (s.es .bdry).length < 1 then LayersOff L fuel ds s
    else (∀ x ∈ layersLog L fuel d.growth d.count (MC.startStep L.env.eps s) d.start d.stop d.height, OffLinks s x) ∧
      ∀ r, QL.layers L fuel d.growth d.count (MC.startStep L.env.eps s) d.start d.stop d.height = some r →
        LayersOff L fuel ds (MC.finishStep r.1)

/-- A prepared mesh. -/
structure Prepared (s : St K) : Prop where
  bare : Bare s
  flagged : BdryFlagged s
  area : s.area = 0

/-- What is needed of a run for a mesh definition (see C161): good quad layers, a successful triangulation with triangles
large compared to the tolerance, and a permutation of the edges for the merging of triangles. -/
structure GoodRun (L : LEnv K) (fuel : Nat) (J : Job K) (s layered meshed : St K) : Prop where
  layers : LayersFine L fuel J.layers s
  well : MeshedWell L.env J.par 0 fuel layered
  ok : triangulate L.env J.par 0 fuel J.ix1 layered = .ret true meshed
  quads : J.toQuad = true → LeftFacets L.env.eps meshed ∧ (J.order meshed).Perm (MC.triEdges (MC.setupConnectivity L.env.eps meshed))

/-- Runs of the application for a list of mesh definitions (given by their prepared meshes, the last one first): the
meshes and the address of the mesh of the generator. -/
inductive Definitions (L : LEnv K) : List (St K) → World K → Nat → Prop
  | first {s0 : St K} {fuel : Nat} {J : Job K} {D : Dom.Domain K} {T : Trace K} {w : World K} {a : Nat} :
      Prepared s0 → generateMesh L fuel J D s0 = .done T → GoodRun L fuel J s0 T.layered T.meshed →
      (J.refinements = 0 ∨ ConvexElements T.modified) → Unfolded T.smoothed → w a = T.smoothed → Definitions L [s0] w a
  | next {ds : List (St K)} {w w1 w2 : World K} {oi ni fuel : Nat} {J : Job K} {D : Dom.Domain K} {T : NextTrace K} :
      Definitions L ds w oi → SameButTwins (w oi) (w1 oi) → Prepared (w1 ni) → Beside w1 ni oi → LeftFacets L.env.eps (w1 oi) →
      generateNext L fuel J D w1 ni oi = .done T → GoodRun L fuel J (w1 ni) T.layered T.meshed → RimKept (w1 ni) T.layered →
      LeftFacets L.env.eps T.modified → (J.refinements = 0 ∨ ConvexElements (T.merged ni)) → Unfolded T.smoothed →
      w2 ni = T.smoothed → Definitions L (w1 ni :: ds) w2 ni

end TQ.AppSpec

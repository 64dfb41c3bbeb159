import Verif.Whole.FileModel
import Verif.Whole.AppSpec

/-! # Specification: what a mesh definition draws

A mesh definition lists boundaries: by coordinates, as rectangle, square, circle or triangle, by a file, or as a table of
edges between numbered vertices. Here the polygon that each of them means. -/

set_option linter.unusedSectionVars false

namespace TQ.FlSpec
open TQ.Cf TQ.OutlSpec TQ.Fl TQ.Sh
variable {K : Type} [Field K] [LinearOrder K]

/-- The corners of an axis-parallel rectangle with the given centre. -/
def rectangle (c : Pt K) (w h : K) : List (Pt K) :=
  [⟨c.x - w / 2, c.y - h / 2⟩, ⟨c.x + w / 2, c.y - h / 2⟩, ⟨c.x + w / 2, c.y + h / 2⟩, ⟨c.x - w / 2, c.y + h / 2⟩]

/-- `n` points on a circle; `dir n i` is the unit vector at `i` of `n` parts of the circle. -/
def roundPoints (dir : Nat → Nat → Pt K) (c : Pt K) (r : K) (n : Nat) : List (Pt K) :=
  (List.range n).map fun i => ⟨c.x + r * (dir n i).x, c.y + r * (dir n i).y⟩

/-- The corners written in a definition with a shape. -/
inductive Written (D : DEnv K) : BDef K → List (Pt K) → Prop
  | coords (rows) : Written D (.coords rows) (rows.map (·.1))
  | rect (m c w h s) : Written D (.rect m c w h s) (rectangle c w h)
  | circ (m c r s) (n : Nat) (h3 : 3 ≤ n) (hn : n < 2 ^ 31) : Written D (.circ m c r n s) (roundPoints D.dir c r n)
  | square (m c a s) : Written D (.square m c a s) (rectangle c a a)
  | triangle (m c a s) : Written D (.triangle m c a s) (roundPoints D.dir c (a / D.root3) 3)
  | csv (f t rows) (hf : D.files f = some t) (hr : csvRead D.stod D.stoi t = .ok rows) : Written D (.csv f) (rows.map (·.coords))

/-- The definition of a boundary means the polygon with the corners `ps` in counter-clockwise order. Shapes may be written in either
order. A table joins the vertices `vs` (numbered from 0) one after the other and the last one to the first, counter-clockwise for exterior and
clockwise for interior boundaries. -/
inductive Draws (D : DEnv K) (vs : List (Pt K)) (bt : BdryType) : BDef K → List (Pt K) → Prop
  | shape {b q ps} (hw : Written D b q) (ho : Order q ps) : Draws D vs bt b ps
  | edges {rows : List (Int × Int × Int)} {ps} (idx : List Nat) (h1 : rows.map (·.1) = idx.map Nat.cast)
      (h2 : rows.map (·.2.1) = (idx.rotate 1).map Nat.cast)
      (hp : List.Forall₂ (fun i p => vs[i]? = some p) idx (if bt = .exterior then ps else ps.reverse)) : Draws D vs bt (.edges rows) ps

/-- The markers of a boundary. -/
def markers (D : DEnv K) : BDef K → List Int
  | .edges rows => rows.map (·.2.2)
  | .coords rows => rows.map (·.2.1)
  | .rect m _ _ _ _ | .circ m _ _ _ _ | .square m _ _ _ | .triangle m _ _ _ => [m]
  | .csv f => ((D.files f).bind fun t => (csvRead D.stod D.stoi t).toOption).elim [] fun rows => rows.map (·.color)

/-- The definition draws a polygon with holes: one exterior boundary `b` with corners `ps`, and interior boundaries `bs` with
corners `hs`. -/
structure Drawing (D : DEnv K) (c : Cfg K) (b : BDef K) (bs : List (BDef K)) (ps : List (Pt K)) (hs : List (List (Pt K))) : Prop where
  bdries : c.bdries = (.exterior, b) :: bs.map (Prod.mk .interior)
  outer : Draws D (c.verts.map (·.xy)) .exterior b ps
  holes : List.Forall₂ (Draws D (c.verts.map (·.xy)) .interior) bs hs
  ccw : ∀ q ∈ ps :: hs, 0 < polygonArea q
  few : c.verts.length < 2 ^ 31

/-- Three of the points are on a line or clearly not: the square of the doubled area is not below the tolerance. -/
def Sharp (eps : K) (pts : List (Pt K)) : Prop :=
  ∀ a ∈ pts, ∀ b ∈ pts, ∀ c ∈ pts, FUSpec.side a b c * FUSpec.side a b c < eps → FUSpec.side a b c = 0

/-- The tables of fixed edges join the listed vertices at the places `fs`. -/
def FixedDrawn (c : Cfg K) (fs : List (Pt K × Pt K)) : Prop :=
  List.Forall₂ (fun r s => ∃ i j : Nat, r = ((i : Int), (j : Int)) ∧ (c.verts.map (·.xy))[i]? = some s.1 ∧ (c.verts.map (·.xy))[j]? = some s.2) c.fixedEdges.flatten fs

/-- What the construction of the domain needs beyond a drawing: no corner of a polygon twice, valid markers, fixed edges with a length, and the search for
vertices is defined at the corners of all shapes. -/
structure Constructible (D : DEnv K) (c : Cfg K) (ps : List (Pt K)) (hs : List (List (Pt K))) (fs : List (Pt K × Pt K)) : Prop where
  corners : ∀ q ∈ ps :: hs, q.Nodup
  markers : ∀ b ∈ c.bdries, ∀ m ∈ markers D b.2, 0 ≤ m
  fixed : FixedDrawn c fs
  proper : ∀ s ∈ fs, s.1 ≠ s.2
  search : ∀ b ∈ c.bdries, ∀ q, Written D b.2 q → ∀ p ∈ q, ∀ st, ∃ r, D.nearest c.extent st p = .ok r

/-- Every edge that runs along one of the segments can be divided (`create_sub_vertex_coords` ends, see `TQ.C32_terminates`). -/
def Divisible (sub : List (Fr.MVert K) → Fr.FEdge → Option (List (Pt K))) (ss : List (Pt K × Pt K)) : Prop :=
  ∀ s e, (Fr.vpos s e.v1, Fr.vpos s e.v2) ∈ ss → ∃ coords, sub s e = some coords

/-- A run of the application in which nothing got in the way: the quad layers are made as in C150, the triangulation used up the front with triangles that are large compared
to the tolerance (C140), the merging of triangles saw all edges, the elements to refine are convex, and the smoothing folded no quad (C159). -/
structure GoodRun [IsStrictOrderedRing K] (L : QL.LEnv K) (fuel : Nat) (J : AM.Job K) (s0 : MS.St K) (T : AM.Trace K) : Prop where
  layers : AppSpec.LayersFine L fuel J.layers s0
  well : AppSpec.MeshedWell L.env J.par 0 fuel T.layered
  all : AM.triangulate L.env J.par 0 fuel J.ix1 T.layered = .ret true T.meshed
  merging : J.toQuad = true → MCSpec.LeftFacets L.env.eps T.meshed ∧ (J.order T.meshed).Perm (MC.triEdges (MC.setupConnectivity L.env.eps T.meshed))
  convex : J.refinements = 0 ∨ RefSpec.ConvexElements T.modified
  unfolded : CleanSpec.Unfolded T.smoothed

end TQ.FlSpec

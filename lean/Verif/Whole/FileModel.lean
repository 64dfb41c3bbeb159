import Verif.Config.Model
import Verif.App.Model
import Verif.Whole.Shapes
import Verif.Whole.AppModel
import Verif.Generator.Model

/-!
# Model: from a mesh definition to the domain and the mesh (src/app/TQMeshApp.h:94-229, 346-781)

`Cf.Cfg` is what was read from the input file. Here the calls that build the domain from it, and the
generation of the first mesh of a file.
-/

set_option linter.unusedSectionVars false

namespace TQ.Fl
open TQ.Cf TQ.PR TQ.MM
variable {K : Type} [Field K] [LinearOrder K]

/-- Failures: a thrown exception; a failed `ASSERT` (nothing is checked in release builds: undefined behaviour);
undefined behaviour. -/
inductive DFail where
  | error
  | abort
  | ub
deriving DecidableEq, Repr

/-- Outcome of the functions of a boundary. -/
def lift {A : Type} : Out A → Except DFail A
  | .ok a => .ok a
  | .abort => .error .abort
  | .ub => .error .ub

/-- What is used to build a domain: `get_nearest` of the vertices in a search tree of the given extent
(src/utils/Container.h, see `TQ.C05_nearest`, `TQ.C06_outside_ub_violated`), `{ cos(2 pi i / n), sin(2 pi i / n) }`, `sqrt(3)`, the text of the files that can be opened, and the conversions of the reader of CSV files. -/
structure DEnv (K : Type) where
  nearest : K → List (BVert K) → Pt K → Out (Option Nat)
  dir : Nat → Nat → Pt K
  root3 : K
  files : Line → Option (List Char)
  stod : List Char → Option K
  stoi : List Char → Option Int

/-- The check of the indices for a boundary (src/app/TQMeshApp.h:605, 438). -/
def badIndex : BdryType → Nat → Nat → Nat → Bool
  | .exterior => App.badExterior
  | .interior => App.badInterior

/-- The loop over the rows of an edge definition (src/app/TQMeshApp.h:598-614, 431-447); `bad` is the check of the indices. -/
def addRows (bad : Nat → Nat → Bool) (st : List (BVert K)) : List (Int × Int × Int) → EList K → Except DFail (EList K)
  | [], L => .ok L
  | (z1, z2, m) :: rows, L =>
    if bad (App.toSize z1) (App.toSize z2) then .error .error
    else if App.toSize z1 < st.length ∧ App.toSize z2 < st.length then
      match EList.bAddEdge (storePos st) L (App.toSize z1) (App.toSize z2) m with
      | none => .error .abort
      | some L' => addRows bad st rows L'
    else .error .abort

/-- A boundary as defined (src/app/TQMeshApp.h:591-757, 422-566, src/algorithm/Boundary.h:201-307): the vertices of the domain and the edges. A negative
number of corners of an exterior circle is a `double` that is converted to `size_t`, which is undefined. -/
def makeBdry (D : DEnv K) (ext : K) (bt : BdryType) (st : List (BVert K)) : BDef K → Except DFail (List (BVert K) × EList K)
  | .edges rows => do
    let L ← addRows (badIndex bt st.length) st rows emptyBoundary
    return (st, L)
  | .coords rows => lift (createShape (D.nearest ext) bt st emptyBoundary (rows.map (·.1)) (rows.map (·.2.2)) (rows.map (·.2.1)))
  | .rect m xy w h s => lift (setRectangle (D.nearest ext) bt st emptyBoundary m xy w h s.x s.y)
  | .circ m xy r n s =>
    if bt = .exterior ∧ n < 0 then .error .ub
    else lift (setCircle (D.dir (App.toSize n)) (D.nearest ext) bt st emptyBoundary m xy r (App.toSize n) s.x s.y)
  | .square m xy h s => lift (setSquare (D.nearest ext) bt st emptyBoundary m xy h s.x s.y)
  | .triangle m xy a s => lift (setCircle (D.dir 3) (D.nearest ext) bt st emptyBoundary m xy (a / D.root3) 3 s.x s.y)
  | .csv file =>
    match D.files file with
    | none => .error .error
    | some t =>
      match csvRead D.stod D.stoi t with
      | .error _ => .error .error
      | .ok rows => lift (createShape (D.nearest ext) bt st emptyBoundary (rows.map (·.coords)) (rows.map (·.props)) (rows.map (·.color)))

/-- The boundaries one after the other (`add_exterior_boundary`, `add_interior_boundary`, src/algorithm/Domain.h:306-319). -/
def makeBdries (D : DEnv K) (ext : K) : List (BdryType × BDef K) → List (BVert K) → Except DFail (List (BVert K) × List (BdryType × EList K))
  | [], st => .ok (st, [])
  | (bt, b) :: bs, st => do
    let (st1, L) ← makeBdry D ext bt st b
    let (st2, Ls) ← makeBdries D ext bs st1
    return (st2, (bt, L) :: Ls)

/-- The rows of a table of fixed edges (src/app/TQMeshApp.h:388-403, src/algorithm/Domain.h:446-453): the edges of this list need not be connected. -/
def addFixedRows (st : List (BVert K)) : List (Int × Int) → EList K → Except DFail (EList K)
  | [], L => .ok L
  | (z1, z2) :: rows, L =>
    if App.badFixed st.length (App.toSize z1) (App.toSize z2) then .error .error
    else if App.toSize z1 < st.length ∧ App.toSize z2 < st.length then
      match EList.insertEdge (storePos st) L L.edges.length ⟨App.toSize z1, App.toSize z2, -1, Flags.add 0 Flags.eIsFixed⟩ with
      | none => .error .abort
      | some L' => addFixedRows st rows L'
    else .error .abort

/-- All tables of fixed edges (src/app/TQMeshApp.h:381-404). -/
def addFixedTables (st : List (BVert K)) : List (List (Int × Int)) → EList K → Except DFail (EList K)
  | [], L => .ok L
  | t :: ts, L => do
    let L ← addFixedRows st t L
    addFixedTables st ts L

/-- A domain (src/algorithm/Domain.h:482-490): the vertices (with their flag `is_fixed`; the size function is left out), the boundaries, the fixed vertices by index, the fixed edges. -/
structure Dm (K : Type) where
  verts : List (BVert K)
  bdries : List (BdryType × EList K)
  fixedVerts : List Nat
  fixedEdges : EList K
deriving DecidableEq, Repr

/-- The vertices of the definition (src/app/TQMeshApp.h:765-781). -/
def initVerts (vs : List (VertDef K)) : List (BVert K) := vs.map fun v => ⟨v.xy, v.s.x, v.s.y⟩

/-- The domain of a mesh definition (src/app/TQMeshApp.h:104-112): vertices, exterior boundary, interior boundaries, fixed edges. -/
def makeDomain (D : DEnv K) (c : Cfg K) : Except DFail (Dm K) := do
  let (st, bs) ← makeBdries D c.extent c.bdries (initVerts c.verts)
  let fe ← addFixedTables st c.fixedEdges ⟨false, [], 0⟩
  return ⟨st, bs, (List.range c.verts.length).filter fun i => (c.verts[i]?).any (·.fixed), fe⟩

/-- A fixed vertex (src/algorithm/Domain.h:412-421). -/
def Dm.isFixed (d : Dm K) (i : Nat) : Bool := decide (i ∈ d.fixedVerts)

/-- The boundary edges as the front reads them. -/
def Dm.sources (d : Dm K) : List (List (Fr.SrcEdge K)) := Sh.sources d.isFixed d.verts d.bdries

/-- The fixed edges as the front reads them (src/algorithm/FrontInitData.h:139-142). -/
def Dm.fixedSources (d : Dm K) : List (Fr.SrcEdge K) := d.fixedEdges.edges.map (Sh.srcEdge d.isFixed d.verts)

/-- The domain in the checks of the mesh (src/algorithm/Domain.h:220-235, 468-474). -/
def Dm.dom (d : Dm K) : Dom.Domain K := ⟨storePos d.verts, List.range d.verts.length, d.bdries⟩

/-- The number of edges at a vertex of the domain (`edges()` of the vertex, src/algorithm/Vertex.h). -/
def Dm.degree (d : Dm K) (i : Nat) : Nat :=
  ((d.bdries.flatMap fun b => b.2.edges) ++ d.fixedEdges.edges).countP fun e => decide (e.v1 = i ∨ e.v2 = i)

/-- What `prepare_mesh` takes from the domain if there is no other mesh (src/algorithm/MeshBuilder.h:175-263); `sub` is the refinement of the front edges. -/
def Dm.prep (d : Dm K) (eps : K) (sub : List (Fr.MVert K) → Fr.FEdge → Option (List (Pt K))) : GN.Prep K :=
  ⟨eps, storePos d.verts, d.bdries.map fun b => (b.1 == .exterior, b.2.edges), Fr.collect (fun _ => []) d.sources d.fixedSources, sub,
   d.fixedVerts.map fun i => ⟨storePos d.verts i, true, d.degree i⟩, []⟩

/-- The settings of a definition (src/app/TQMeshApp.h:142-203): the others are those of the algorithms, given by `J`. The number of layers is an `int` passed to a function of `size_t`. -/
def jobOf (J : AM.Job K) (c : Cfg K) : AM.Job K :=
  { J with
    layers := c.layers.map fun l => ⟨l.p1, l.p2, App.toSize l.n, l.h, l.g⟩
    toQuad := c.algorithm = "Tri-to-Quad".toList
    refinements := c.refinements
    smoothing := c.smoothing
    cfg := { J.cfg with layers := c.smoothLayers } }

/-- Outcome of the run for a mesh definition: the trace, a failure, or not finished within the given number of turns. -/
inductive MRes (K : Type) where
  | done (d : Dm K) (s0 : MS.St K) (t : AM.Trace K)
  | fail (f : DFail)
  | fuel

/-- `construct_mesh` (src/app/TQMeshApp.h:94-126) for the first definition of a file, after reading it. The result of
`prepare_mesh` is ignored (src/algorithm/MeshGenerator.h:94-107). `sub` is the refinement of the front edges with the size function of the domain. The name of the algorithm is
checked after the quad layers; its failure is an exception in any case. -/
def constructFirst (D : DEnv K) (L : QL.LEnv K) (J : AM.Job K) (sub : Cfg K → Dm K → List (Fr.MVert K) → Fr.FEdge → Option (List (Pt K))) (fuel : Nat) (c : Cfg K) : MRes K :=
  match makeDomain D c with
  | .error f => .fail f
  | .ok d =>
    match GN.prepareMesh (d.prep L.env.eps (sub c d)) (fun _ => MS.St.empty c.color) 0 with
    | .undef => .fail .ub
    | .loops => .fuel
    | .ret _ w =>
      if c.algorithm ≠ "Tri-to-Quad".toList ∧ c.algorithm ≠ "Triangulation".toList then .fail .error
      else match AM.generateMesh L fuel (jobOf J c) d.dom (w 0) with
        | .undef => .fail .ub
        | .fuel => .fuel
        | .done t => .done d (w 0) t

/-- `TQMeshApp` for an input file (src/app/TQMeshApp.h:920-959) up to the first mesh. An exception or undefined behaviour while reading ends the run. `none`: there is no mesh definition. -/
def runFirst (E : Env K) (big : K) (D : DEnv K) (L : QL.LEnv K) (J : AM.Job K) (sub : Cfg K → Dm K → List (Fr.MVert K) → Fr.FEdge → Option (List (Pt K))) (fuel : Nat)
    (file : List Line) : Option (MRes K) :=
  match readFile E big file with
  | .error .error => some (.fail .error)
  | .error .ub => some (.fail .ub)
  | .ok [] => none
  | .ok (c :: _) => some (constructFirst D L J sub fuel c)

end TQ.Fl

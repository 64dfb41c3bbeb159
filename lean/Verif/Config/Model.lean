import Verif.App.Model
import Verif.Boundary.Model

/-!
# Model of the transfer of parameters in `src/app/TQMeshApp.h`

The parameters of a mesh definition as they are registered (lines 970-1080), and what
`MeshConstruction::construct_mesh` (lines 94-126) makes of them before `generate_mesh` is called: the values
that are given to the domain, to the quad layers and to the smoothing.

Simplifications. The calls at the domain (`add_vertex`, `add_edge`, `set_shape_*`) are recorded with their arguments in the
order in which they are made; what they do is modelled in `Verif/Boundary`, `Verif/Domain` and
`Verif/App`. In the code an exception of such a call ends the reading of the parameters. Printing is
left out. Conversions of text to numbers (`std::istringstream`) and from `double` to `int` are parameters.
-/

namespace TQ
namespace Cf
open PR

/-- The names of the parameters of a mesh definition (src/app/TQMeshApp.h:980-1077). -/
inductive Name where
  | outPrefix
  | outFormat
  | vertices
  | size
  | color
  | algorithm
  | refinements
  | smoothing
  | smoothLayers
  | layers
  | fixedVerts
  | fixedEdges
  | csv (b : BdryType)
  | edges (b : BdryType)
  | coords (b : BdryType)
  | rect (b : BdryType)
  | circ (b : BdryType)
  | square (b : BdryType)
  | triangle (b : BdryType)
deriving DecidableEq, Repr

/-- `new_scalar_parameter`, `new_vector_parameter` or `new_matrix_parameter` (src/app/TQMeshApp.h:980-1077). -/
def Name.kind : Name → Kind
  | .outPrefix | .outFormat | .size | .color | .algorithm | .refinements | .smoothing | .smoothLayers | .csv _ => .scalar
  | .layers | .rect _ | .circ _ | .square _ | .triangle _ => .vector
  | .vertices | .fixedVerts | .fixedEdges | .edges _ | .coords _ => .matrix

/-- The first keys (src/app/TQMeshApp.h:980-1077). -/
def Name.startKey : Name → Line
  | .outPrefix => "Output file prefix:".toList
  | .outFormat => "Output file format:".toList
  | .vertices => "Define boundary vertices:".toList
  | .size => "Element size:".toList
  | .color => "Element color:".toList
  | .algorithm => "Meshing algorithm:".toList
  | .refinements => "Number of quad refinements:".toList
  | .smoothing => "Number of smoothing iterations:".toList
  | .smoothLayers => "Smooth quad layers:".toList
  | .layers => "Add quad layers:".toList
  | .fixedVerts => "Define fixed vertices:".toList
  | .fixedEdges => "Define fixed edges:".toList
  | .csv .exterior => "Define exterior boundary from CSV file:".toList
  | .csv .interior => "Define interior boundary from CSV file:".toList
  | .edges .exterior => "Define exterior boundary edges:".toList
  | .edges .interior => "Define interior boundary edges:".toList
  | .coords .exterior => "Define exterior boundary:".toList
  | .coords .interior => "Define interior boundary:".toList
  | .rect .exterior => "Define exterior rectangular boundary:".toList
  | .rect .interior => "Define interior rectangular boundary:".toList
  | .circ .exterior => "Define exterior circular boundary:".toList
  | .circ .interior => "Define interior circular boundary:".toList
  | .square .exterior => "Define exterior squared boundary:".toList
  | .square .interior => "Define interior squared boundary:".toList
  | .triangle .exterior => "Define exterior triangular boundary:".toList
  | .triangle .interior => "Define interior triangular boundary:".toList

/-- The second keys (src/app/TQMeshApp.h:986-1055); there is none for scalars and vectors. -/
def Name.endKey : Name → Line
  | .vertices => "End boundary vertices".toList
  | .fixedVerts => "End fixed vertices".toList
  | .fixedEdges => "End fixed edges".toList
  | .edges .exterior => "End exterior boundary edges".toList
  | .edges .interior => "End interior boundary edges".toList
  | .coords .exterior => "End exterior boundary".toList
  | .coords .interior => "End interior boundary".toList
  | _ => []

/-- The number of columns (src/app/TQMeshApp.h:980-1077; 1 for scalars, src/utils/ParaReader.h:416). -/
def Name.cols : Name → Nat
  | .vertices | .fixedVerts => 4
  | .fixedEdges => 2
  | .edges _ => 3
  | .coords _ => 5
  | .layers | .rect _ | .circ _ => 7
  | .square _ | .triangle _ => 6
  | _ => 1

/-- The parameters of a reader (`para_list_` and `para_map_`, src/utils/ParaReader.h:951-952) by type and name. Only the entry of the type a name was registered with is in use. -/
structure Reader (K : Type) where
  D : Name → Para K
  I : Name → Para Int
  S : Name → Para Line
  N : Name → Para Nat
  B : Name → Para Bool

/-- Conversions: `istringstream >> x` for `double`, `int`, `size_t` and `bool`, and `static_cast<int>` of a `double` (`none`: undefined, because the number is out of range). -/
structure Env (K : Type) where
  convD : Line → Option K
  convI : Line → Option Int
  convN : Line → Option Nat
  convB : Line → Option Bool
  trunc : K → Option Int

/-- Failures: `error` is a thrown exception, `ub` undefined behaviour. -/
inductive Fail where
  | error
  | ub
deriving DecidableEq, Repr

/-- A parameter as registered (src/utils/ParaReader.h:403-473). -/
def Name.para {T : Type} (n : Name) (zero : T) : Para T := Para.new n.kind n.startKey n.endKey n.cols zero 0 0

variable {K : Type} [Field K] [LinearOrder K]

/-- `init_parameter_file_reader` (src/app/TQMeshApp.h:973-1079). The lines of the parameters are set by the query for the block. -/
def Reader.new : Reader K := ⟨fun n => n.para 0, fun n => n.para 0, fun n => n.para [], fun n => n.para 0, fun n => n.para false⟩

/-- The lines of the block for a parameter (src/utils/ParaReader.h:633-638). -/
def enterPara {T : Type} (s e : Nat) (p : Para T) : Para T := { p with cur := ⟨s, e, 0⟩ }

/-- The loop over the parameters of a block (src/utils/ParaReader.h:633-638). -/
def Reader.enter (s e : Nat) (r : Reader K) : Reader K :=
  ⟨fun n => enterPara s e (r.D n), fun n => enterPara s e (r.I n), fun n => enterPara s e (r.S n),
   fun n => enterPara s e (r.N n), fun n => enterPara s e (r.B n)⟩

/-- Replacement of a parameter. -/
def put {T : Type} (f : Name → Para T) (n : Name) (p : Para T) : Name → Para T := fun m => if m = n then p else f m

/-- The result of a query (src/utils/ParaReader.h:570-598) with the parameter afterwards. -/
def outcome {T : Type} : Res T → Except Fail (Bool × Para T)
  | .ub => .error .ub
  | .ret b p => .ok (b, p)

/-- `query<double>(name, …)` -/
def askD (E : Env K) (c : List Line) (n : Name) (d : Option K) (r : Reader K) : Except Fail (Bool × Reader K) := do
  let (b, p) ← outcome (queryPara E.convD 0 d c (r.D n))
  return (b, { r with D := put r.D n p })

/-- `query<int>(name)` -/
def askI (E : Env K) (c : List Line) (n : Name) (r : Reader K) : Except Fail (Bool × Reader K) := do
  let (b, p) ← outcome (queryPara E.convI 0 none c (r.I n))
  return (b, { r with I := put r.I n p })

/-- `query<std::string>(name)` -/
def askS (c : List Line) (n : Name) (r : Reader K) : Except Fail (Bool × Reader K) := do
  let (b, p) ← outcome (queryPara convS [] none c (r.S n))
  return (b, { r with S := put r.S n p })

/-- `query<size_t>(name)` -/
def askN (E : Env K) (c : List Line) (n : Name) (r : Reader K) : Except Fail (Bool × Reader K) := do
  let (b, p) ← outcome (queryPara E.convN 0 none c (r.N n))
  return (b, { r with N := put r.N n p })

/-- `query<bool>(name)` -/
def askB (E : Env K) (c : List Line) (n : Name) (r : Reader K) : Except Fail (Bool × Reader K) := do
  let (b, p) ← outcome (queryPara E.convB false none c (r.B n))
  return (b, { r with B := put r.B n p })

/-- `get_value(i)` of a parameter (src/utils/ParaReader.h:242-247). -/
def val {T : Type} (p : Para T) (i : Nat) : Except Fail T := match p.value i with
  | some v => .ok v
  | none => .error .ub

/-- `get_value(i,j)` of a parameter (src/utils/ParaReader.h:249-255). -/
def val2 {T : Type} (p : Para T) (i j : Nat) : Except Fail T := match p.value2 i j with
  | some v => .ok v
  | none => .error .ub

/-- `mesh_reader.get_value<T>(name)` (src/utils/ParaReader.h:519-530). -/
def getValue {T : Type} (p : Para T) : Except Fail T := if p.found then val p 0 else .error .error

/-- `static_cast<int>` -/
def toInt (E : Env K) (x : K) : Except Fail Int := match E.trunc x with
  | some z => .ok z
  | none => .error .ub

/-- A loop over the rows of a matrix. -/
def eachRow {A : Type} (g : Nat → Except Fail A) : Nat → Nat → Except Fail (List A)
  | 0, _ => .ok []
  | k + 1, i => do
    let a ← g i
    let as ← eachRow g k (i + 1)
    return a :: as

/-- The definition of a boundary: the calls at a boundary of the domain with their arguments. Markers of `edges` and `coords` belong to the rows; `w`, `h`: lengths, `s`: mesh size and its range. -/
inductive BDef (K : Type) where
  | edges (rows : List (Int × Int × Int))
  | coords (rows : List (Pt K × Int × Pt K))
  | rect (m : Int) (xy : Pt K) (w h : K) (s : Pt K)
  | circ (m : Int) (xy : Pt K) (r : K) (n : Int) (s : Pt K)
  | square (m : Int) (xy : Pt K) (h : K) (s : Pt K)
  | triangle (m : Int) (xy : Pt K) (h : K) (s : Pt K)
  | csv (file : Line)
deriving DecidableEq, Repr

/-- The arguments of a quad layer (src/app/TQMeshApp.h:322-338). -/
structure LayerDef (K : Type) where
  p1 : Pt K
  p2 : Pt K
  n : Int
  h : K
  g : K
deriving DecidableEq, Repr

/-- A vertex of the definition: place, mesh size and range, fixed or not (src/app/TQMeshApp.h:886-888). -/
structure VertDef (K : Type) where
  xy : Pt K
  s : Pt K
  fixed : Bool
deriving DecidableEq, Repr

/-- The members of `MeshConstruction` (src/app/TQMeshApp.h:878-907) and the calls at the domain. -/
structure Cfg (K : Type) where
  outPrefix : Line
  outFormat : Line
  size : Line
  extent : K
  verts : List (VertDef K)
  bdries : List (BdryType × BDef K)
  fixedEdges : List (List (Int × Int))
  layers : List (LayerDef K)
  color : Int
  algorithm : Line
  refinements : Nat
  smoothing : Nat
  smoothLayers : Bool
deriving DecidableEq, Repr

/-- `query_mandatory_parameters` (src/app/TQMeshApp.h:856-874). -/
def mandatory (c : List Line) (r : Reader K) : Except Fail ((Line × Line) × Reader K) := do
  let (b, r) ← askS c .outPrefix r
  if !b then throw .error
  let (b, r) ← askS c .outFormat r
  if !b then throw .error
  let pre ← getValue (r.S .outPrefix)
  let fmt ← getValue (r.S .outFormat)
  let (b, r) ← askS c .size r
  if !b then throw .error
  return ((pre, fmt), r)

/-- A row of `vertices` or `fixed_vertices` (src/app/TQMeshApp.h:826-834, 361-367). -/
def vertRow (fixed : Bool) (p : Para K) (i : Nat) : Except Fail (VertDef K) := do
  let x ← val2 p 0 i
  let y ← val2 p 1 i
  let s ← val2 p 2 i
  let r ← val2 p 3 i
  return ⟨⟨x, y⟩, ⟨s, r⟩, fixed⟩

/-- `init_mesh_vertices` (src/app/TQMeshApp.h:803-850): the vertices and the extent; `big` is `TQ_MAX`. -/
def initVertices (E : Env K) (big : K) (c : List Line) (r : Reader K) : Except Fail ((List (VertDef K) × K) × Reader K) := do
  let (b, r) ← askD E c .vertices (some (-1)) r
  if b then
    let vs ← eachRow (vertRow false (r.D .vertices)) (r.D .vertices).nrow 0
    return ((vs, App.domainExtent big (some (vs.map (·.xy)))), r)
  else return (([], App.domainExtent big none), r)

/-- `init_fixed_vertices` (src/app/TQMeshApp.h:346-370). -/
def initFixedVertices (E : Env K) (c : List Line) (r : Reader K) : Except Fail (List (VertDef K) × Reader K) := do
  let (b, r) ← askD E c .fixedVerts (some (-1)) r
  if b then
    let vs ← eachRow (vertRow true (r.D .fixedVerts)) (r.D .fixedVerts).nrow 0
    return (vs, r)
  else return ([], r)

/-- A row of an edge definition (src/app/TQMeshApp.h:600-602, 433-435). -/
def edgeRow (p : Para Int) (i : Nat) : Except Fail (Int × Int × Int) := do
  let i1 ← val2 p 0 i
  let i2 ← val2 p 1 i
  let m ← val2 p 2 i
  return (i1, i2, m)

/-- `extr_bdry_edges`, `intr_bdry_edges` (src/app/TQMeshApp.h:591-614, 422-447). -/
def readEdges (p : Para Int) : Except Fail (BDef K) := do
  let rows ← eachRow (edgeRow p) p.nrow 0
  return .edges rows

/-- A row of coordinates (src/app/TQMeshApp.h:635-649, 463-476). -/
def coordRow (E : Env K) (p : Para K) (i : Nat) : Except Fail (Pt K × Int × Pt K) := do
  let x ← val2 p 0 i
  let y ← val2 p 1 i
  let z ← val2 p 2 i
  let m ← toInt E z
  let s ← val2 p 3 i
  let r ← val2 p 4 i
  if m < 0 then throw .error
  return (⟨x, y⟩, m, ⟨s, r⟩)

/-- `extr_bdry_coords`, `intr_bdry_coords` (src/app/TQMeshApp.h:624-653, 452-481). -/
def readCoords (E : Env K) (p : Para K) : Except Fail (BDef K) := do
  let rows ← eachRow (coordRow E p) p.nrow 0
  return .coords rows

/-- Rectangles (src/app/TQMeshApp.h:662-680, 486-501). -/
def readRect (E : Env K) (p : Para K) : Except Fail (BDef K) := do
  let m ← toInt E (← val p 0)
  let x ← val p 1
  let y ← val p 2
  let w ← val p 3
  let h ← val p 4
  let s ← val p 5
  let r ← val p 6
  return .rect m ⟨x, y⟩ w h ⟨s, r⟩

/-- Circles (src/app/TQMeshApp.h:686-704, 506-521). -/
def readCirc (E : Env K) (p : Para K) : Except Fail (BDef K) := do
  let m ← toInt E (← val p 0)
  let x ← val p 1
  let y ← val p 2
  let r ← val p 3
  let n ← toInt E (← val p 4)
  let ms ← val p 5
  let mr ← val p 6
  return .circ m ⟨x, y⟩ r n ⟨ms, mr⟩

/-- Squares (src/app/TQMeshApp.h:710-727, 525-539). -/
def readSquare (E : Env K) (p : Para K) : Except Fail (BDef K) := do
  let m ← toInt E (← val p 0)
  let x ← val p 1
  let y ← val p 2
  let h ← val p 3
  let ms ← val p 4
  let mr ← val p 5
  return .square m ⟨x, y⟩ h ⟨ms, mr⟩

/-- Triangles (src/app/TQMeshApp.h:732-749, 543-557). -/
def readTriangle (E : Env K) (p : Para K) : Except Fail (BDef K) := do
  let m ← toInt E (← val p 0)
  let x ← val p 1
  let y ← val p 2
  let h ← val p 3
  let ms ← val p 4
  let mr ← val p 5
  return .triangle m ⟨x, y⟩ h ⟨ms, mr⟩

/-- A boundary from a file (src/app/TQMeshApp.h:753-757, 561-566): the name of the file. -/
def readCsv (p : Para Line) : Except Fail (BDef K) := do
  let f ← getValue p
  return .csv f

/-- `init_exterior_boundary` (src/app/TQMeshApp.h:580-760). -/
def initExterior (E : Env K) (c : List Line) (r : Reader K) : Except Fail (List (BDef K) × Reader K) := do
  let (b, r) ← askI E c (.edges .exterior) r
  if b then return ([← readEdges (r.I (.edges .exterior))], r)
  let (b, r) ← askD E c (.coords .exterior) (some (-1)) r
  if b then return ([← readCoords E (r.D (.coords .exterior))], r)
  let (b, r) ← askD E c (.rect .exterior) (some (-1)) r
  if b then return ([← readRect E (r.D (.rect .exterior))], r)
  let (b, r) ← askD E c (.circ .exterior) (some (-1)) r
  if b then return ([← readCirc E (r.D (.circ .exterior))], r)
  let (b, r) ← askD E c (.square .exterior) (some (-1)) r
  if b then return ([← readSquare E (r.D (.square .exterior))], r)
  let (b, r) ← askD E c (.triangle .exterior) (some (-1)) r
  if b then return ([← readTriangle E (r.D (.triangle .exterior))], r)
  let (b, r) ← askS c (.csv .exterior) r
  if b then return ([← readCsv (r.S (.csv .exterior))], r)
  return ([], r)

/-- A loop `while( query(name) ) { … }` for at most `k` rounds. Each successful query moves the parameter to a later line, so that the number of lines bounds the number of rounds. -/
def whileD {A : Type} (E : Env K) (c : List Line) (n : Name) (d : Option K) (g : Para K → Except Fail A) : Nat → Reader K → Except Fail (List A × Reader K)
  | 0, r => .ok ([], r)
  | k + 1, r => do
    let (b, r) ← askD E c n d r
    if b then
      let a ← g (r.D n)
      let (as, r) ← whileD E c n d g k r
      return (a :: as, r)
    else return ([], r)

/-- The same for `int`. -/
def whileI {A : Type} (E : Env K) (c : List Line) (n : Name) (g : Para Int → Except Fail A) : Nat → Reader K → Except Fail (List A × Reader K)
  | 0, r => .ok ([], r)
  | k + 1, r => do
    let (b, r) ← askI E c n r
    if b then
      let a ← g (r.I n)
      let (as, r) ← whileI E c n g k r
      return (a :: as, r)
    else return ([], r)

/-- The same for texts. -/
def whileS {A : Type} (c : List Line) (n : Name) (g : Para Line → Except Fail A) : Nat → Reader K → Except Fail (List A × Reader K)
  | 0, r => .ok ([], r)
  | k + 1, r => do
    let (b, r) ← askS c n r
    if b then
      let a ← g (r.S n)
      let (as, r) ← whileS c n g k r
      return (a :: as, r)
    else return ([], r)

/-- `init_interior_boundaries` (src/app/TQMeshApp.h:411-570). -/
def initInterior (E : Env K) (c : List Line) (r : Reader K) : Except Fail (List (BDef K) × Reader K) := do
  let (b1, r) ← whileI E c (.edges .interior) readEdges (c.length + 1) r
  let (b2, r) ← whileD E c (.coords .interior) (some (-1)) (readCoords E) (c.length + 1) r
  let (b3, r) ← whileD E c (.rect .interior) (some (-1)) (readRect E) (c.length + 1) r
  let (b4, r) ← whileD E c (.circ .interior) (some (-1)) (readCirc E) (c.length + 1) r
  let (b5, r) ← whileD E c (.square .interior) (some (-1)) (readSquare E) (c.length + 1) r
  let (b6, r) ← whileD E c (.triangle .interior) (some (-1)) (readTriangle E) (c.length + 1) r
  let (b7, r) ← whileS c (.csv .interior) readCsv (c.length + 1) r
  return (b1 ++ b2 ++ b3 ++ b4 ++ b5 ++ b6 ++ b7, r)

/-- A row of `fixed_edges` (src/app/TQMeshApp.h:390-391). -/
def pairRow (p : Para Int) (i : Nat) : Except Fail (Int × Int) := do
  let i1 ← val2 p 0 i
  let i2 ← val2 p 1 i
  return (i1, i2)

/-- `init_fixed_edges` (src/app/TQMeshApp.h:375-406). -/
def initFixedEdges (E : Env K) (c : List Line) (r : Reader K) : Except Fail (List (List (Int × Int)) × Reader K) :=
  whileI E c .fixedEdges (fun p => eachRow (pairRow p) p.nrow 0) (c.length + 1) r

/-- The arguments of a quad layer (src/app/TQMeshApp.h:322-338). -/
def readLayer (E : Env K) (p : Para K) : Except Fail (LayerDef K) := do
  let x1 ← val p 0
  let y1 ← val p 1
  let x2 ← val p 2
  let y2 ← val p 3
  let n ← toInt E (← val p 4)
  let h ← val p 5
  let g ← val p 6
  return ⟨⟨x1, y1⟩, ⟨x2, y2⟩, n, h, g⟩

/-- `init_quad_layers` (src/app/TQMeshApp.h:307-341). -/
def initLayers (E : Env K) (c : List Line) (r : Reader K) : Except Fail (List (LayerDef K) × Reader K) :=
  whileD E c .layers none (readLayer E) (c.length + 1) r

/-- `init_element_color` (src/app/TQMeshApp.h:291-302). -/
def initColor (E : Env K) (c : List Line) (r : Reader K) : Except Fail (Int × Reader K) := do
  let (b, r) ← askI E c .color r
  if b then return (← getValue (r.I .color), r)
  return (0, r)

/-- `init_meshing_algorithm` (src/app/TQMeshApp.h:275-286). -/
def initAlgorithm (c : List Line) (r : Reader K) : Except Fail (Line × Reader K) := do
  let (b, r) ← askS c .algorithm r
  if b then return (← getValue (r.S .algorithm), r)
  return ("Triangulation".toList, r)

/-- `init_refinement_parameters` (src/app/TQMeshApp.h:261-270). -/
def initRefinement (E : Env K) (c : List Line) (r : Reader K) : Except Fail (Nat × Reader K) := do
  let (b, r) ← askN E c .refinements r
  if b then return (← getValue (r.N .refinements), r)
  return (0, r)

/-- `init_smoothing_parameters` (src/app/TQMeshApp.h:239-256). -/
def initSmoothing (E : Env K) (c : List Line) (r : Reader K) : Except Fail ((Nat × Bool) × Reader K) := do
  let (b, r) ← askN E c .smoothing r
  let k ← if b then getValue (r.N .smoothing) else .ok 2
  let (b, r) ← askB E c .smoothLayers r
  let l ← if b then getValue (r.B .smoothLayers) else .ok false
  return ((k, l), r)

/-- `construct_mesh` (src/app/TQMeshApp.h:94-126) up to the call of `generate_mesh`. The text of the size function is read by `init_mesh_domain` (lines 784-798). -/
def construct (E : Env K) (big : K) (c : List Line) (r : Reader K) : Except Fail (Cfg K × Reader K) := do
  let ((pre, fmt), r) ← mandatory c r
  let ((vs, ext), r) ← initVertices E big c r
  let (fs, r) ← initFixedVertices E c r
  let size ← getValue (r.S .size)
  let (be, r) ← initExterior E c r
  let (bi, r) ← initInterior E c r
  let (fe, r) ← initFixedEdges E c r
  let (ql, r) ← initLayers E c r
  let (color, r) ← initColor E c r
  let (alg, r) ← initAlgorithm c r
  let (ref, r) ← initRefinement E c r
  let ((sm, sl), r) ← initSmoothing E c r
  return (⟨pre, fmt, size, ext, vs ++ fs, be.map (Prod.mk .exterior) ++ bi.map (Prod.mk .interior), fe, ql, color, alg, ref, sm, sl⟩, r)

/-- The loop of `run` (src/app/TQMeshApp.h:940-957) for at most `k` rounds: what is read for every mesh definition. The meshes are generated in between; the reader does not depend on them. -/
def readLoop (E : Env K) (big : K) (c : List Line) : Nat → Block → Reader K → Except Fail (List (Cfg K))
  | 0, _, _ => .ok []
  | k + 1, b, r => match queryBlock c b with
    | .ub => .error .ub
    | .ret false _ => .ok []
    | .ret true b' => do
      let (cfg, r) ← construct E big c (r.enter b'.cur.bs b'.cur.be)
      let cfgs ← readLoop E big c k b' r
      return cfg :: cfgs

/-- `TQMeshApp` for the text of an input file (src/app/TQMeshApp.h:920-959): comment lines are left out, and every mesh definition is read. -/
def readFile (E : Env K) (big : K) (file : List Line) : Except Fail (List (Cfg K)) :=
  let c := readContent file
  readLoop E big c (c.length + 1) ⟨"Define mesh:".toList, "End mesh".toList, ⟨0, c.length, 0⟩, []⟩ Reader.new

end Cf
end TQ

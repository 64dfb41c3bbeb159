import Verif.Config.Model
import Verif.Reader.Spec

/-!
# Specification of mesh definitions

What the text of an input file says about the meshes, written without reference to the reader: the words
that introduce the entries, the meaning of the cells, and the values that hold if nothing is written (as
explained in the files `input/*.para`).
-/

namespace TQ
namespace CfSpec
open PRSpec Cf
open PR (Line)

def sideWord : BdryType → Line
  | .exterior => "exterior".toList
  | .interior => "interior".toList

/-- The words that introduce an entry, without the colon. -/
def words : Name → Line
  | .outPrefix => "Output file prefix".toList
  | .outFormat => "Output file format".toList
  | .size => "Element size".toList
  | .color => "Element color".toList
  | .algorithm => "Meshing algorithm".toList
  | .refinements => "Number of quad refinements".toList
  | .smoothing => "Number of smoothing iterations".toList
  | .smoothLayers => "Smooth quad layers".toList
  | .layers => "Add quad layers".toList
  | .vertices => "Define boundary vertices".toList
  | .fixedVerts => "Define fixed vertices".toList
  | .fixedEdges => "Define fixed edges".toList
  | .csv b => "Define ".toList ++ sideWord b ++ " boundary from CSV file".toList
  | .edges b => "Define ".toList ++ sideWord b ++ " boundary edges".toList
  | .coords b => "Define ".toList ++ sideWord b ++ " boundary".toList
  | .rect b => "Define ".toList ++ sideWord b ++ " rectangular boundary".toList
  | .circ b => "Define ".toList ++ sideWord b ++ " circular boundary".toList
  | .square b => "Define ".toList ++ sideWord b ++ " squared boundary".toList
  | .triangle b => "Define ".toList ++ sideWord b ++ " triangular boundary".toList

def keyword (n : Name) : Line := words n ++ [':']

/-- The words behind a table; the other entries are single lines. -/
def closing : Name → Option Line
  | .vertices => some "End boundary vertices".toList
  | .fixedVerts => some "End fixed vertices".toList
  | .fixedEdges => some "End fixed edges".toList
  | .edges b => some ("End ".toList ++ sideWord b ++ " boundary edges".toList)
  | .coords b => some ("End ".toList ++ sideWord b ++ " boundary".toList)
  | _ => none

/-- An entry of a mesh definition: a line without meaning, a single line, or a table. -/
inductive Item where
  | other (l : Line)
  | single (n : Name) (pre body : Line)
  | table (n : Name) (pre body : Line) (rows : List Line) (en : Line)

def Item.lines : Item → List Line
  | .other l => [l]
  | .single n pre body => [pre ++ keyword n ++ body]
  | .table n pre body rows en => (pre ++ keyword n ++ body) :: (rows ++ [en])

def Item.name : Item → Option Name
  | .other _ => none
  | .single n _ _ => some n
  | .table n _ _ _ _ => some n

/-- The value of a single line: up to a comment, without blanks. -/
def Item.text : Item → Line
  | .single _ _ body => (body.takeWhile (· ≠ '#')).filter (· ≠ ' ')
  | _ => []

/-- The lines of a table. -/
def Item.rows : Item → List Line
  | .table _ _ _ rows _ => rows
  | _ => []

/-- No entry begins in the line. -/
def NoKey (l : Line) : Prop := ∀ n, ¬keyword n <:+: l

/-- Entries are written such that the words of an entry occur only where it begins and ends. -/
def Item.OK : Item → Prop
  | .other l => NoKey l
  | .single n pre body => closing n = none ∧ ':' ∉ pre ∧ ':' ∉ body
  | .table n pre body rows en => ∃ q, closing n = some q ∧ ':' ∉ pre ∧ ':' ∉ body ∧ (∀ l ∈ rows, NoKey l ∧ ¬q <:+: l) ∧ NoKey en ∧ q <:+: en

/-- The entries of a name. -/
def entriesOf (n : Name) (its : List Item) : List Item := its.filter fun it => it.name = some n

def singles (n : Name) (its : List Item) : List Line := (entriesOf n its).map Item.text

def tables (n : Name) (its : List Item) : List (List Line) := (entriesOf n its).map Item.rows

/-- The first word of a text. -/
def word (t : Line) : Line := (t.dropWhile PR.isSpace).takeWhile fun c => !PR.isSpace c

section
variable {K : Type} [Field K] [LinearOrder K]

/-- The number in column `i`; -1 if there is none. -/
def num (E : Env K) (l : Line) (i : Nat) : K := cellValue E.convD (-1) l i

/-- The integer part of the number in column `i`. -/
def whole (E : Env K) (l : Line) (i : Nat) : Int := (E.trunc (num E l i)).getD 0

/-- The integer in column `i`. -/
def index (E : Env K) (l : Line) (i : Nat) : Int := cellValue E.convI 0 l i

def point (E : Env K) (l : Line) (i : Nat) : Pt K := ⟨num E l i, num E l (i + 1)⟩

def vertexOf (E : Env K) (fixed : Bool) (l : Line) : VertDef K := ⟨point E l 0, point E l 2, fixed⟩

def layerOf (E : Env K) (t : Line) : LayerDef K := ⟨point E t 0, point E t 2, whole E t 4, num E t 5, num E t 6⟩

/-- The boundaries of a definition: those given by edges, by coordinates, rectangles, circles, squares, triangles, files. -/
def bdriesOf (E : Env K) (b : BdryType) (its : List Item) : List (BDef K) :=
  (tables (.edges b) its).map (fun rows => .edges (rows.map fun l => (index E l 0, index E l 1, index E l 2))) ++
  (tables (.coords b) its).map (fun rows => .coords (rows.map fun l => (point E l 0, whole E l 2, point E l 3))) ++
  (singles (.rect b) its).map (fun t => .rect (whole E t 0) (point E t 1) (num E t 3) (num E t 4) (point E t 5)) ++
  (singles (.circ b) its).map (fun t => .circ (whole E t 0) (point E t 1) (num E t 3) (whole E t 4) (point E t 5)) ++
  (singles (.square b) its).map (fun t => .square (whole E t 0) (point E t 1) (num E t 3) (point E t 4)) ++
  (singles (.triangle b) its).map (fun t => .triangle (whole E t 0) (point E t 1) (num E t 3) (point E t 4)) ++
  (singles (.csv b) its).map (fun t => .csv (word t))

/-- The value of the line that has a name, if there is one, else a given value. -/
def valueOr {T : Type} (conv : Line → Option T) (d : T) (n : Name) (its : List Item) : T :=
  ((singles n its).head?.bind conv).getD d

/-- The vertices in the tables of a name. -/
def vertsOf (E : Env K) (fixed : Bool) (n : Name) (its : List Item) : List (VertDef K) :=
  (tables n its).flatMap fun rows => rows.map (vertexOf E fixed)

/-- The domain is searched in a square around the origin that is slightly larger than needed for the boundary vertices. -/
def extentOf (E : Env K) (big : K) (its : List Item) : K :=
  if tables .vertices its = [] then big
  else (((vertsOf E false .vertices its).flatMap fun v => [|v.xy.x|, |v.xy.y|]).foldl max 0) * (21 / 10)

/-- What the entries say about the mesh. -/
def described (E : Env K) (big : K) (its : List Item) : Cfg K where
  outPrefix := valueOr (some ∘ word) [] .outPrefix its
  outFormat := valueOr (some ∘ word) [] .outFormat its
  size := valueOr (some ∘ word) [] .size its
  extent := extentOf E big its
  verts := vertsOf E false .vertices its ++ vertsOf E true .fixedVerts its
  bdries := (bdriesOf E .exterior its).map (Prod.mk .exterior) ++ (bdriesOf E .interior its).map (Prod.mk .interior)
  fixedEdges := (tables .fixedEdges its).map fun rows => rows.map fun l => (index E l 0, index E l 1)
  layers := (singles .layers its).map (layerOf E)
  color := valueOr E.convI 0 .color its
  algorithm := valueOr (some ∘ word) "Triangulation".toList .algorithm its
  refinements := valueOr E.convN 0 .refinements its
  smoothing := valueOr E.convN 2 .smoothing its
  smoothLayers := valueOr E.convB false .smoothLayers its

/-- All cells of a line with `w` cells can be read. -/
def Filled {T : Type} (conv : Line → Option T) (w : Nat) (l : Line) : Prop :=
  (cells l).length = w ∧ ∀ c ∈ cells l, ∃ v, conv (bare c) = some v

/-- Entries that can be read, and none of them twice that may be written only once. -/
structure WellWritten (E : Env K) (its : List Item) : Prop where
  ok : ∀ it ∈ its, it.OK
  once : ∀ n ∈ [.vertices, .fixedVerts, .outPrefix, .outFormat, .size, .color, .algorithm, .refinements, .smoothing, .smoothLayers], (entriesOf n its).length ≤ 1
  exterior : (bdriesOf E .exterior its).length ≤ 1
  needed : ∀ n ∈ [.outPrefix, .outFormat, .size], entriesOf n its ≠ []
  texts : ∀ n ∈ [.outPrefix, .outFormat, .size, .algorithm, .csv .exterior, .csv .interior], ∀ t ∈ singles n its, word t ≠ []
  color : ∀ t ∈ singles .color its, ∃ v, E.convI t = some v
  refinements : ∀ t ∈ singles .refinements its, ∃ v, E.convN t = some v
  smoothing : ∀ t ∈ singles .smoothing its, ∃ v, E.convN t = some v
  smoothLayers : ∀ t ∈ singles .smoothLayers its, ∃ v, E.convB t = some v
  verts : ∀ n ∈ [.vertices, .fixedVerts], ∀ rows ∈ tables n its, rows ≠ [] ∧ ∀ l ∈ rows, (cells l).length ≤ 4
  coords : ∀ b, ∀ rows ∈ tables (.coords b) its, rows ≠ [] ∧ ∀ l ∈ rows, (cells l).length ≤ 5 ∧ ∃ m, E.trunc (num E l 2) = some m ∧ 0 ≤ m
  edges : ∀ b, ∀ rows ∈ tables (.edges b) its, rows ≠ [] ∧ ∀ l ∈ rows, Filled E.convI 3 l
  fixedEdges : ∀ rows ∈ tables .fixedEdges its, rows ≠ [] ∧ ∀ l ∈ rows, Filled E.convI 2 l
  layers : ∀ t ∈ singles .layers its, Filled E.convD 7 t ∧ ∃ m, E.trunc (num E t 4) = some m
  marks : ∀ b, ∀ n ∈ [.rect b, .circ b, .square b, .triangle b], ∀ t ∈ singles n its, ∃ m, E.trunc (num E t 0) = some m
  circ : ∀ b, ∀ t ∈ singles (.circ b) its, ∃ m, E.trunc (num E t 4) = some m
end

/-- A mesh definition in a file: lines in front of it, its first line, its entries, its last line. -/
structure MeshText where
  gap : List Line
  pre : Line
  rest : Line
  items : List Item
  en : Line

def MeshText.lines (m : MeshText) : List Line :=
  m.gap ++ (m.pre ++ "Define mesh:".toList ++ m.rest) :: (m.items.flatMap Item.lines ++ [m.en])

/-- The words around mesh definitions occur only where they belong. -/
def MeshText.OK (m : MeshText) : Prop :=
  (∀ l ∈ m.gap, ¬"Define mesh:".toList <:+: l) ∧ ':' ∉ m.pre ∧ ':' ∉ m.rest ∧
  (∀ l ∈ m.items.flatMap Item.lines, ¬"End mesh".toList <:+: l) ∧ "End mesh".toList <:+: m.en ∧ ¬"Define mesh:".toList <:+: m.en

end CfSpec
end TQ

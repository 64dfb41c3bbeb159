import Verif.Cleanup.Model
import Mathlib.Data.Rat.Floor

/-!
# Model of the export: `src/utils/VtkIO.h`, `src/algorithm/MeshWriter.h`, `operator<<` of `src/algorithm/Mesh.h`

A file is the list of its characters.  Coordinates are rational numbers (every finite double is one).
-/

namespace TQ
namespace VT
open MS MS.St

/-- Text. -/
abbrev Txt := List Char

/-- `write_whitespaces` (src/utils/VtkIO.h:23-27). -/
def spaces (n : Nat) : Txt := List.replicate n ' '

/-- Output of an unsigned number. -/
def natTxt (n : Nat) : Txt := Nat.toDigits 10 n

/-- Output of an `int`. -/
def intTxt (i : Int) : Txt := if i < 0 then '-' :: natTxt i.natAbs else natTxt i.natAbs

/-- `std::setw(w)` in front of a value. -/
def setw (w : Nat) (t : Txt) : Txt := spaces (w - t.length) ++ t

/-- The nearest natural number, ties to even. -/
def roundEven (y : ℚ) : Nat :=
  let f := ⌊y⌋₊
  if y - f < 1 / 2 then f else if 1 / 2 < y - f then f + 1 else if f % 2 = 0 then f else f + 1

/-- Output of a finite double with `std::setprecision(5) << std::fixed` (src/utils/VtkIO.h:322-323). -/
def fixed5 (x : ℚ) : Txt :=
  let r := roundEven (|x| * 100000)
  let d := natTxt (r % 100000)
  (if x < 0 then ['-'] else []) ++ natTxt (r / 100000) ++ '.' :: (List.replicate (5 - d.length) '0' ++ d)

/-! ## VtuWriter -/

/-- The loop over the entries (src/utils/VtkIO.h:105-115, 314-324, 369-378, 398-407, 429-438). -/
def rowsGo (nMax : Nat) : Nat → List Txt → Txt
  | _, [] => []
  | j, t :: rest => (if j % nMax = 0 ∧ 0 < j then '\n' :: spaces 10 else []) ++ t ++ [' '] ++ rowsGo nMax (j + 1) rest

/-- The entries of an array (src/utils/VtkIO.h:101-118, 313-325, 368-379, 397-409, 428-440). -/
def body (nMax : Nat) (toks : List Txt) : Txt := spaces 10 ++ rowsGo nMax 0 toks ++ ['\n']

/-- An indented line. -/
def line (n : Nat) (t : Txt) : Txt := spaces n ++ t ++ ['\n']

/-- `VtkIOData` (src/utils/VtkIO.h:85-125): name of the type, name, dimension, printed entries. -/
structure Data where
  type : Txt
  name : Txt
  dim : Nat
  toks : List Txt

/-- The opening tag of point and cell data (src/utils/VtkIO.h:245-250, 280-285). -/
def dataHead (d : Data) : Txt :=
  "<DataArray type=\"".toList ++ d.type ++ "\" Name=\"".toList ++ d.name ++ "\" NumberOfComponents=\"".toList ++
    natTxt d.dim ++ "\" Format=\"ascii\">".toList

/-- One array with its tags. -/
def arrayTxt (head : Txt) (toks : List Txt) : Txt := line 8 head ++ body 10 toks ++ line 8 "</DataArray>".toList

/-- `write_point_data`, `write_cell_data` (src/utils/VtkIO.h:231-261, 266-296). -/
def dataTxt (open' close' : Txt) (l : List Data) : Txt :=
  if l.length < 1 then [] else line 6 open' ++ l.flatMap (fun d => arrayTxt (dataHead d) d.toks) ++ line 6 close'

/-- The arguments of `VtuWriter` (src/utils/VtkIO.h:142-177, 451-459); the points are already printed. -/
structure Vtu where
  points : List Txt
  conn : List Nat
  offsets : List Nat
  types : List Nat
  pointData : List Data
  cellData : List Data

/-- Tags of the mesh arrays (src/utils/VtkIO.h:308-310, 363-365, 392-394, 423-425). -/
def pointsHead : Txt := "<DataArray type=\"Float32\" NumberOfComponents=\"3\" Format=\"ascii\">".toList
/-- See `pointsHead`. -/
def connHead : Txt := "<DataArray type=\"Int32\" Name=\"connectivity\" Format=\"ascii\">".toList
/-- See `pointsHead`. -/
def offsetsHead : Txt := "<DataArray type=\"Int32\" Name=\"offsets\" Format=\"ascii\">".toList
/-- See `pointsHead`. -/
def typesHead : Txt := "<DataArray type=\"Int32\" Name=\"types\" Format=\"ascii\">".toList

/-- `VtuWriter::write` (src/utils/VtkIO.h:182-224, 301-445).  The loop of `write_types` runs over the number of offsets
(line 429); a missing type is undefined behaviour (`none`). -/
def file (v : Vtu) : Option Txt :=
  if v.types.length < v.offsets.length then none
  else some (
    line 0 "<VTKFile type=\"UnstructuredGrid\" version=\"0.1\" byte_order=\"LittleEndian\">".toList ++
    line 2 "<UnstructuredGrid>".toList ++
    line 4 ("<Piece NumberOfPoints=\"".toList ++ natTxt (v.points.length / 3) ++ "\" NumberOfCells=\"".toList ++
      natTxt v.offsets.length ++ "\">".toList) ++
    dataTxt "<PointData Scalars=\"scalars\">".toList "</PointData>".toList v.pointData ++
    dataTxt "<CellData Scalars=\"scalars\">".toList "</CellData>".toList v.cellData ++
    line 6 "<Points>".toList ++ arrayTxt pointsHead v.points ++ line 6 "</Points>".toList ++
    line 6 "<Cells>".toList ++
    arrayTxt connHead (v.conn.map fun n => setw 2 (natTxt n)) ++
    arrayTxt offsetsHead (v.offsets.map fun n => setw 2 (natTxt n)) ++
    arrayTxt typesHead ((v.types.take v.offsets.length).map fun n => setw 2 (natTxt n)) ++
    line 6 "</Cells>".toList ++
    line 4 "</Piece>".toList ++ line 2 "</UnstructuredGrid>".toList ++ line 0 "</VTKFile>".toList)

/-! ## MeshWriter -/

/-- What the export takes from outside: default output of a double (six significant digits), the size function of
the domain, and the element metrics (src/algorithm/MeshWriter.h:128, 148-152, 169-173). -/
structure WEnv where
  show6 : ℚ → Txt
  rho : Pt ℚ → ℚ
  maxEdge : St ℚ → FRef → ℚ
  maxAngle : St ℚ → FRef → ℚ
  quality : St ℚ → FRef → ℚ

/-- Quads first, then triangles (src/algorithm/MeshWriter.h:133-174). -/
def elements (s : St ℚ) : List FRef := s.quads.map FRef.quad ++ s.tris.map FRef.tri

/-- The running offset (src/algorithm/MeshWriter.h:120, 140-141, 161-162). -/
def offsetsFrom : Nat → List Nat → List Nat
  | _, [] => []
  | o, n :: rest => (o + n) :: offsetsFrom (o + n) rest

/-- The arrays of `write_to_vtu` (src/algorithm/MeshWriter.h:108-185); `ixV` are the vertex indices. -/
def vtuOf (W : WEnv) (s : St ℚ) (ixV : Nat → Nat) : Vtu where
  points := s.verts.flatMap fun v => [fixed5 (s.pos v).x, fixed5 (s.pos v).y, fixed5 0]
  conn := (elements s).flatMap fun f => (s.F f).corners.map ixV
  offsets := offsetsFrom 0 (s.quads.map (fun _ => 4) ++ s.tris.map fun _ => 3)
  types := s.quads.map (fun _ => 9) ++ s.tris.map fun _ => 5
  pointData := [
    ⟨"Float64".toList, "size_function".toList, 1, s.verts.map fun v => W.show6 (W.rho (s.pos v))⟩,
    ⟨"Int32".toList, "in_quad_layer".toList, 1, s.verts.map fun v => intTxt (if Flags.has (s.V v).props Flags.vInQuadLayer then 1 else 0)⟩,
    ⟨"Int32".toList, "fixed_vertices".toList, 1, s.verts.map fun v => intTxt (if Flags.has (s.V v).props Flags.vIsFixed then 1 else 0)⟩]
  cellData := [
    ⟨"Int32".toList, "element_color".toList, 1, (elements s).map fun f => intTxt (s.F f).color⟩,
    ⟨"Float64".toList, "edge_length".toList, 1, (elements s).map fun f => W.show6 (W.maxEdge s f)⟩,
    ⟨"Float64".toList, "max_angle".toList, 1, (elements s).map fun f => W.show6 (W.maxAngle s f)⟩,
    ⟨"Float64".toList, "cell_quality".toList, 1, (elements s).map fun f => W.show6 (W.quality s f)⟩]

/-- The part of `MeshWriter::write` in front of the output (src/algorithm/MeshWriter.h:53-55), with the indices;
the mesh sizes of the vertices are computed in the output. -/
def prepare (eps : ℚ) (s : St ℚ) : St ℚ × (Nat → Nat) × (FRef → Nat) :=
  (MC.setupConnectivity eps s, MC.assignIndices s (fun _ => 0) (fun _ => 0))

/-- `write` with `MeshExportType::VTU` (src/algorithm/MeshWriter.h:51-71, 100-191): the content of the file. -/
def writeVtu (W : WEnv) (eps : ℚ) (s : St ℚ) : Option Txt :=
  let r := prepare eps s
  file (vtuOf W r.1 r.2.1)

/-- `find_last_of(c)` with `substr`, `npos + 1 = 0` (src/algorithm/MeshWriter.h:82, 104): the text behind the last `c`,
or the whole text. -/
def afterLast (c : Char) (t : Txt) : Txt := (t.reverse.takeWhile (· ≠ c)).reverse

/-- The name of the file (src/algorithm/MeshWriter.h:80-83, 102-105). -/
def fullPath (ext : Txt) (p : Txt) : Txt := if afterLast '.' p ≠ ext then p ++ '.' :: ext else p

/-! ## Text format -/

/-- A row of comma separated entries. -/
def csv (l : List Txt) : Txt := List.intercalate [','] l ++ ['\n']

/-- Rows of numbers with `std::setw(4)`. -/
def nums (l : List Int) : Txt := csv (l.map fun i => setw 4 (intTxt i))

/-- A section: its name, the number of its rows, the rows. -/
def sect (name : Txt) (n : Nat) (rows : List Txt) : Txt := name ++ ' ' :: natTxt n ++ '\n' :: rows.flatten

/-- Index of a facet, -1 for the null facet (src/algorithm/Facet.h:142, src/algorithm/Mesh.h:456-459). -/
def fIdx (ixF : FRef → Nat) : FRef → Int
  | .null => -1
  | f => ixF f

/-- `get_valid_interior_edges`, `get_valid_boundary_edges`, `get_interface_edges` (src/algorithm/Mesh.h:156-198). -/
def validIntr (s : St ℚ) : List Nat := (s.es .intr).filter fun e => decide ((s.E e).fl ≠ .null) && decide ((s.E e).fr ≠ .null)
/-- See `validIntr`. -/
def validBdry (s : St ℚ) : List Nat := (s.es .bdry).filter fun e => decide ((s.E e).fl ≠ .null)
/-- See `validIntr`. -/
def interfaces (s : St ℚ) : List Nat := (s.es .bdry).filter fun e => (s.E e).twin.isSome

/-- `operator<<` of a mesh (src/algorithm/Mesh.h:380-490); `twin` gives index and colour of the left facet of a twin
edge, `msize` the size stored at a vertex, `id` the mesh id. -/
def meshTxt (id : Int) (twin : Nat × Nat → Int × Int) (msize : Nat → ℚ) (s : St ℚ) (ixV : Nat → Nat) (ixF : FRef → Nat) : Txt :=
  "MESH ".toList ++ intTxt id ++ ['\n'] ++
  sect "VERTICES".toList s.verts.length (s.verts.map fun v => csv [fixed5 (s.pos v).x, fixed5 (s.pos v).y]) ++
  sect "INTERIOREDGES".toList (validIntr s).length ((validIntr s).map fun e =>
    nums [ixV (s.E e).v1, ixV (s.E e).v2, fIdx ixF (s.E e).fl, fIdx ixF (s.E e).fr]) ++
  sect "BOUNDARYEDGES".toList (validBdry s).length ((validBdry s).map fun e =>
    nums [ixV (s.E e).v1, ixV (s.E e).v2, fIdx ixF (s.E e).fl, (s.E e).color]) ++
  sect "INTERFACEEDGES".toList (interfaces s).length ((interfaces s).map fun e =>
    nums [ixV (s.E e).v1, ixV (s.E e).v2, fIdx ixF (s.E e).fl, ((s.E e).twin.map twin).elim 0 (·.1), ((s.E e).twin.map twin).elim 0 (·.2)]) ++
  sect "FRONT".toList (MC.frontEdges s).length ((MC.frontEdges s).map fun e => nums [ixV (s.E e).v1, ixV (s.E e).v2, -1]) ++
  sect "QUADS".toList s.quads.length (s.quads.map fun q =>
    nums ((s.F (.quad q)).corners.map (fun v => (ixV v : Int)) ++ [(s.F (.quad q)).color])) ++
  sect "TRIANGLES".toList s.tris.length (s.tris.map fun t =>
    nums ((s.F (.tri t)).corners.map (fun v => (ixV v : Int)) ++ [(s.F (.tri t)).color])) ++
  sect "QUADNEIGHBORS".toList s.quads.length (s.quads.map fun q => nums ((s.F (.quad q)).nbrs.map (fIdx ixF))) ++
  sect "TRIANGLENEIGHBORS".toList s.tris.length (s.tris.map fun t => nums ((s.F (.tri t)).nbrs.map (fIdx ixF))) ++
  sect "SIZEFUNCTION".toList s.verts.length (s.verts.map fun v => fixed5 (msize v) ++ ['\n'])

/-- `write` with `MeshExportType::TXT` (src/algorithm/MeshWriter.h:51-71, 78-95): the content of the file;
`assign_size_function_to_vertices` (src/algorithm/MeshCleanup.h:83-89) stores `rho` at the vertices. -/
def writeTxt (W : WEnv) (eps : ℚ) (id : Int) (twin : Nat × Nat → Int × Int) (s : St ℚ) : Txt :=
  let r := prepare eps s
  meshTxt id twin (fun v => W.rho (s.pos v)) r.1 r.2.1 r.2.2

end VT
end TQ

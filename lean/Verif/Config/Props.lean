import Verif.Config.File
import Verif.Config.Check

/-!
# C169: a mesh definition of an input file is read as written
-/

set_option linter.unusedSectionVars false

namespace TQ
open PR PRSpec Cf CfSpec

variable {K : Type} [Field K] [LinearOrder K]

/-- **C169.** One mesh definition: whatever was read before, the values given to the mesh are those that the entries describe. -/
theorem C169_definition_partial (E : Env K) (big : K) (c : List Line) (a z : List Line) (its : List Item) (r : Reader K) (hr : Shaped r)
    (hc : c = a ++ its.flatMap Item.lines ++ z) (hw : WellWritten E its) :
    ∃ r', construct E big c (r.enter a.length (a.length + (its.flatMap Item.lines).length)) = .ok (described E big its, r') ∧ Shaped r' :=
  construct_inv big hw (inv_enter hr ⟨a, z, hc, rfl, rfl⟩)

/-- **C169.** A whole input file: every mesh definition is read as written, in order, and nothing of one definition gets into another. Partial: see `C169_unreadable_violated`, `C169_twice_violated` and
`C169_blank_violated` for what is not noticed if `WellWritten` does not hold. -/
theorem C169_file_partial (E : Env K) (big : K) (file : List Line) (ms : List MeshText) (tail : List Line)
    (hc : readContent file = ms.flatMap MeshText.lines ++ tail) (ht : ∀ l ∈ tail, ¬"Define mesh:".toList <:+: l) (hm : ∀ m ∈ ms, m.OK ∧ WellWritten E m.items) :
    readFile E big file = .ok (ms.map fun m => described E big m.items) :=
  readFile_meshes E big file ms tail hc ht hm

/-! ### Example -/

namespace Cf

/-- Digits at the beginning. -/
def demoDigits (t : Line) : Line := t.takeWhile Char.isDigit

def demoNat (t : Line) : Option Nat :=
  let d := demoDigits (t.dropWhile isSpace)
  if d = [] then none else some (d.foldl (fun n c => 10 * n + (c.toNat - 48)) 0)

def demoInt (t : Line) : Option Int := match t.dropWhile isSpace with
  | '-' :: t => (demoNat t).map fun n => -(n : Int)
  | t => (demoNat t).map fun n => (n : Int)

def demoPos (t : Line) : Option ℚ := (demoNat t).map fun n => match t.dropWhile Char.isDigit with
  | '.' :: u => (n : ℚ) + ((demoNat ('0' :: u)).getD 0 : ℚ) / 10 ^ (demoDigits u).length
  | _ => n

def demoNum (t : Line) : Option ℚ := match t.dropWhile isSpace with
  | '-' :: t => (demoPos t).map fun x => -x
  | t => demoPos t

def demoBool (t : Line) : Option Bool := match demoNat t with
  | some 0 => some false
  | some 1 => some true
  | _ => none

/-- Decimal numbers. -/
def demoEnv : Env ℚ := ⟨demoNum, demoInt, demoNat, demoBool, fun x => some (if x < 0 then -⌊-x⌋ else ⌊x⌋)⟩

/-- A shortened `input/08_thin_fracture.para` and a second definition. -/
def demoFile : List Line := [
  "#======".toList,
  "Define mesh:".toList,
  "  Element size: 4".toList,
  "  Element color: 1 # colour".toList,
  "  Meshing algorithm: Tri-to-Quad".toList,
  "  # Output formats: COUT, TXT, VTU".toList,
  "  Output file format: VTU".toList,
  "  Output file prefix: ./thin".toList,
  "  Define boundary vertices:".toList,
  "     55.00,   -140.0000".toList,
  "     90.00,   -140.0000".toList,
  "     # refined".toList,
  "     77.03125, -134.0878,  0.1, 0.035 ".toList,
  "  End boundary vertices".toList,
  "  Define exterior boundary edges:".toList,
  "    0, 1,    1".toList,
  "    1, 2,    2".toList,
  "    2, 0,    3".toList,
  "  End exterior boundary edges".toList,
  "  Define interior circular boundary: 5, 1.0, 2.5, 0.5, 16".toList,
  "  Add quad layers: 55.0, -140.0, 55.0, -140.0, 2, 0.1, 1.3".toList,
  "End mesh".toList,
  "".toList,
  "Define mesh:".toList,
  "  Element size: 0.1 + 0.5 * x".toList,
  "  Output file format: TXT".toList,
  "  Output file prefix: b".toList,
  "  Smooth quad layers: 1".toList,
  "  Define exterior boundary:".toList,
  "   0.0, 0.0, 1".toList,
  "   5.0, 0.0, 1".toList,
  "   0.0, 5.0, 2, 0.05, 0.2".toList,
  "  End exterior boundary".toList,
  "End mesh".toList]

def demoTexts : List MeshText := [
  ⟨[], [], [], [
    .single .size "  ".toList " 4".toList,
    .single .color "  ".toList " 1 # colour".toList,
    .single .algorithm "  ".toList " Tri-to-Quad".toList,
    .single .outFormat "  ".toList " VTU".toList,
    .single .outPrefix "  ".toList " ./thin".toList,
    .table .vertices "  ".toList [] ["     55.00,   -140.0000".toList, "     90.00,   -140.0000".toList, "     77.03125, -134.0878,  0.1, 0.035 ".toList]
      "  End boundary vertices".toList,
    .table (.edges .exterior) "  ".toList [] ["    0, 1,    1".toList, "    1, 2,    2".toList, "    2, 0,    3".toList] "  End exterior boundary edges".toList,
    .single (.circ .interior) "  ".toList " 5, 1.0, 2.5, 0.5, 16".toList,
    .single .layers "  ".toList " 55.0, -140.0, 55.0, -140.0, 2, 0.1, 1.3".toList], "End mesh".toList⟩,
  ⟨["".toList], [], [], [
    .single .size "  ".toList " 0.1 + 0.5 * x".toList,
    .single .outFormat "  ".toList " TXT".toList,
    .single .outPrefix "  ".toList " b".toList,
    .single .smoothLayers "  ".toList " 1".toList,
    .table (.coords .exterior) "  ".toList [] ["   0.0, 0.0, 1".toList, "   5.0, 0.0, 1".toList, "   0.0, 5.0, 2, 0.05, 0.2".toList] "  End exterior boundary".toList],
    "End mesh".toList⟩]

def demoCfgs : List (Cfg ℚ) := [
  { outPrefix := "./thin".toList, outFormat := "VTU".toList, size := "4".toList, extent := 294,
    verts := [⟨⟨55, -140⟩, ⟨-1, -1⟩, false⟩, ⟨⟨90, -140⟩, ⟨-1, -1⟩, false⟩, ⟨⟨7703125 / 100000, -1340878 / 10000⟩, ⟨1 / 10, 35 / 1000⟩, false⟩],
    bdries := [(.exterior, .edges [(0, 1, 1), (1, 2, 2), (2, 0, 3)]), (.interior, .circ 5 ⟨1, 5 / 2⟩ (1 / 2) 16 ⟨-1, -1⟩)],
    fixedEdges := [], layers := [⟨⟨55, -140⟩, ⟨55, -140⟩, 2, 1 / 10, 13 / 10⟩], color := 1, algorithm := "Tri-to-Quad".toList,
    refinements := 0, smoothing := 2, smoothLayers := false },
  { outPrefix := "b".toList, outFormat := "TXT".toList, size := "0.1+0.5*x".toList, extent := 1000, verts := [],
    bdries := [(.exterior, .coords [(⟨0, 0⟩, 1, ⟨-1, -1⟩), (⟨5, 0⟩, 1, ⟨-1, -1⟩), (⟨0, 5⟩, 2, ⟨5 / 100, 2 / 10⟩)])],
    fixedEdges := [], layers := [], color := 0, algorithm := "Triangulation".toList,
    refinements := 0, smoothing := 2, smoothLayers := true }]

end Cf

set_option maxRecDepth 4000 in
/-- What is read from the file. -/
example : (readFile demoEnv 1000 demoFile).toOption = some demoCfgs := by decide +kernel

set_option maxRecDepth 4000 in
example : readContent demoFile = demoTexts.flatMap MeshText.lines ++ [] ∧ demoTexts.map (fun m => described demoEnv 1000 m.items) = demoCfgs := by decide +kernel

set_option maxRecDepth 4000 in
/-- The file fulfils the hypotheses. -/
example : ∀ m ∈ demoTexts, m.OK ∧ WellWritten demoEnv m.items := by decide +kernel

/-! ### What is not noticed -/

namespace Cf

/-- A definition with the given further lines. -/
def demoWith (ls : List Line) : List Line :=
  ["Define mesh:".toList, "  Element size: 4".toList, "  Output file format: VTU".toList, "  Output file prefix: a".toList] ++ ls ++ ["End mesh".toList]

end Cf

set_option maxRecDepth 4000 in
/-- **C169**, negation: values that cannot be read are not noticed. Here the colour is `red` and the number of refinements is `two`; the file is accepted, with the colour 0 and no refinements. -/
theorem C169_unreadable_violated : demoEnv.convI "red".toList = none ∧ demoEnv.convN "two".toList = none ∧
    ((readFile demoEnv 1000 (demoWith ["  Element color: red".toList, "  Number of quad refinements: two".toList])).toOption.map fun cs => cs.map fun c => (c.color, c.refinements)) =
      some [(0, 0)] := by decide +kernel

set_option maxRecDepth 4000 in
/-- **C169**, negation: of two tables of boundary vertices, only the first one is read; the vertices of the second one are lost without notice. Likewise for a second definition of the exterior boundary. -/
theorem C169_twice_violated :
    ((readFile demoEnv 1000 (demoWith ["Define boundary vertices:".toList, "0, 0".toList, "1, 0".toList, "End boundary vertices".toList,
        "Define boundary vertices:".toList, "5, 5".toList, "End boundary vertices".toList])).toOption.map fun cs => cs.map fun c => c.verts.map (·.xy)) = some [[⟨0, 0⟩, ⟨1, 0⟩]] ∧
    ((readFile demoEnv 1000 (demoWith ["Define exterior squared boundary: 1, 0, 0, 1".toList,
        "Define exterior rectangular boundary: 1, 0, 0, 1, 2".toList])).toOption.map fun cs => cs.map (·.bdries)) = some [[(.exterior, .rect 1 ⟨0, 0⟩ 1 2 ⟨-1, -1⟩)]] := by decide +kernel

set_option maxRecDepth 4000 in
/-- **C169**, negation: an empty line in a table is read as a vertex at (-1,-1), with or without the line the meaning should be the same. -/
theorem C169_blank_violated :
    ((readFile demoEnv 1000 (demoWith ["Define boundary vertices:".toList, "0, 0".toList, "".toList, "1, 0".toList, "End boundary vertices".toList])).toOption.map
      fun cs => cs.map fun c => c.verts.map (·.xy)) = some [[⟨0, 0⟩, ⟨-1, -1⟩, ⟨1, 0⟩]] ∧
    ((readFile demoEnv 1000 (demoWith ["Define boundary vertices:".toList, "0, 0".toList, "1, 0".toList, "End boundary vertices".toList])).toOption.map
      fun cs => cs.map fun c => c.verts.map (·.xy)) = some [[⟨0, 0⟩, ⟨1, 0⟩]] := by decide +kernel

end TQ

#print axioms TQ.C169_definition_partial
#print axioms TQ.C169_file_partial
#print axioms TQ.C169_unreadable_violated
#print axioms TQ.C169_twice_violated
#print axioms TQ.C169_blank_violated

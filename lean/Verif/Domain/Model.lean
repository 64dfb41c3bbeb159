import Verif.Boundary.Model

/-!
# Model of `src/algorithm/Domain.h`
-/

set_option linter.unusedSectionVars false

namespace TQ
namespace Dom
variable {K : Type*} [Field K] [LinearOrder K]

/-- What the size function reads of a vertex: coordinates, `mesh_size`, `size_range`
(src/algorithm/Vertex.h:69-75, 96-97). -/
structure SVert (K : Type*) where
  xy : Pt K
  meshSize : K
  sizeRange : K
deriving DecidableEq, Repr

/-- What the size function reads of a boundary edge: end points and `length()`. The length is a field
(the square root is not modelled; the only fact used is its positivity, src/algorithm/Edge.h:110). -/
structure SEdge (K : Type*) where
  v1 : SVert K
  v2 : SVert K
  len : K
deriving DecidableEq, Repr

/-- Contribution of the end point `v` of an edge of length `el`
(src/algorithm/Domain.h:65-66 and 68-89, the same formulas for `v1` and `v2`).
`E` stands for `exp`. -/
def endSize (E : K → K) (hFun el : K) (xy : Pt K) (v : SVert K) : K :=
  let r := cppMAX (hFun / el) (el / hFun)
  let dSqr := Pt.normSq (xy - v.xy)
  let s := if v.sizeRange ≤ 0 then el else v.sizeRange
  let sInv := 1 / (r * s)
  let z := E (-dSqr * sInv * sInv)
  let h := if v.meshSize ≤ 0 then hFun else v.meshSize
  z * cppMIN h el + (1 - z) * hFun

/-- Loop over the boundary edges (src/algorithm/Domain.h:59-93). -/
def edgeLoop (E : K → K) (hFun : K) (xy : Pt K) : K → List (SEdge K) → K
  | h, [] => h
  | h, e :: es =>
    let h1 := cppMIN h (endSize E hFun e.len xy e.v1)
    let h2 := cppMIN h1 (endSize E hFun e.len xy e.v2)
    edgeLoop E hFun xy h2 es

/-- Contribution of a fixed vertex with a positive mesh size (src/algorithm/Domain.h:100-106). -/
def fixedSize (E : K → K) (hFun : K) (xy : Pt K) (v : SVert K) : K :=
  let dSqr := Pt.normSq (xy - v.xy)
  let sInv := if v.sizeRange ≤ 0 then 1 / hFun else 1 / v.sizeRange
  let z := E (-dSqr * sInv * sInv)
  z * v.meshSize + (1 - z) * hFun

/-- Loop over the fixed vertices (src/algorithm/Domain.h:96-107). -/
def fixedLoop (E : K → K) (hFun : K) (xy : Pt K) : K → List (SVert K) → K
  | h, [] => h
  | h, v :: vs =>
    if v.meshSize ≤ 0 then fixedLoop E hFun xy h vs
    else fixedLoop E hFun xy (cppMIN h (fixedSize E hFun xy v)) vs

/-- `SizeFunction::evaluate` (src/algorithm/Domain.h:47-111); `none` is `TERMINATE`. `bdries` are the
edges of the boundaries. -/
def evaluate (E : K → K) (f : Pt K → K) (bdries : List (List (SEdge K))) (fixed : List (SVert K))
    (xy : Pt K) : Option K :=
  let hFun := f xy
  if hFun ≤ 0 then none
  else some (fixedLoop E hFun xy (edgeLoop E hFun xy hFun bdries.flatten) fixed)

/-! ## export_size_function -/

/-- What is written to the stream after the header. -/
inductive Tok (V : Type*) where
  | val (v : V)
  | comma
  | newline
deriving DecidableEq, Repr

/-- The values computed (src/algorithm/Domain.h:130-140). `f i j` is the value at grid point (i,j). -/
def gridValues {V : Type*} (f : Nat → Nat → V) (nx ny : Nat) : List V :=
  (List.range ny).flatMap fun j => (List.range nx).map fun i => f i j

/-- One full row (src/algorithm/Domain.h:155-161): `none` if `values` is read out of bounds. -/
def fullRow {V : Type*} (values : List V) (index : Nat) : Option (List (Tok V)) :=
  (List.range 10).foldl (fun acc i =>
    match acc, values[index + i]? with
    | some ts, some v => some (ts ++ (.val v :: if i = 9 then [] else [.comma]))
    | _, _ => none) (some [])

/-- The rows (src/algorithm/Domain.h:153-162): `k` rows from `index` on. -/
def fullRows {V : Type*} (values : List V) : Nat → Nat → Option (List (Tok V))
  | _, 0 => some []
  | index, k + 1 =>
    match fullRow values index, fullRows values (index + 10) k with
    | some a, some b => some (a ++ .newline :: b)
    | _, _ => none

/-- The remaining values (src/algorithm/Domain.h:164-166) from `index` on, `k` of them. -/
def restRow {V : Type*} (values : List V) (n : Nat) : Nat → Nat → Option (List (Tok V))
  | _, 0 => some []
  | index, k + 1 =>
    match values[index]?, restRow values n (index + 1) k with
    | some v, some b => some (.val v :: (if index = n - 1 then [] else [.comma]) ++ b)
    | _, _ => none

/-- `export_size_function` (src/algorithm/Domain.h:117-169) without the header. `Nx`, `Ny` are 32 bit
unsigned numbers: the product `Nx*Ny` is computed modulo `2^32`, the loops over `i`, `j` are not
affected. -/
def exportSize {V : Type*} (f : Nat → Nat → V) (nx ny : Nat) : Option (List (Tok V)) :=
  let values := gridValues f nx ny
  let n := nx * ny % 2 ^ 32
  let rows := n / 10
  match fullRows values 0 rows, restRow values n (rows * 10) (n - rows * 10) with
  | some a, some b => some (a ++ b ++ [.newline])
  | _, _ => none

/-- Grid point (src/algorithm/Domain.h:122-124, 134-135). -/
def gridPoint (lo up : Pt K) (nx ny i j : Nat) : Pt K :=
  ⟨lo.x + (i : K) * ((up.x - lo.x) / (nx : K)), lo.y + (j : K) * ((up.y - lo.y) / (ny : K))⟩

/-- `export_size_function` (src/algorithm/Domain.h:117-169) with the values it computes in lines
126-141; `h` is `evaluate`. -/
def exportGrid {V : Type*} (h : Pt K → V) (lo up : Pt K) (nx ny : Nat) : Option (List (Tok V)) :=
  exportSize (fun i j => h (gridPoint lo up nx ny i j)) nx ny

/-! ## The domain -/

/-- A domain: vertices with coordinates, boundaries with their type (src/algorithm/Domain.h:482-489;
size function and fixed vertices/edges separately). -/
structure Domain (K : Type*) where
  pos : Nat → Pt K
  verts : List Nat
  bdries : List (BdryType × EList K)

/-- `extent` (src/algorithm/Domain.h:220-235): `((xmin, xmax), (ymin, ymax))`. -/
def extent (D : Domain K) : (K × K) × (K × K) :=
  D.verts.foldl (fun acc v =>
    ((cppMIN acc.1.1 (D.pos v).x, cppMAX acc.1.2 (D.pos v).x),
     (cppMIN acc.2.1 (D.pos v).y, cppMAX acc.2.2 (D.pos v).y))) ((0, 0), (0, 0))

/-- `is_inside` (src/algorithm/Domain.h:341-354). -/
def domInside (tol mn mr eps : K) (D : Domain K) (o : Pt K) : Bool :=
  D.bdries.foldl (fun inside b =>
    inside && ((b.1 == .exterior && isInside tol mn mr eps D.pos b.2.edges o) ||
      (b.1 == .interior && !isInside tol mn mr eps D.pos b.2.edges o))) true

/-- `area` (src/algorithm/Domain.h:472-478). -/
def area (D : Domain K) : K := D.bdries.foldl (fun a b => a + b.2.area) 0

/-- `get_boundary_edges` (src/algorithm/Domain.h:240-252): the lookup in the tree is the exact filter
by the distance of the centroid (`TQ.C02_queries_exact`; `get_items(center, radius)` compares squared
distances with `<`, src/utils/QuadTree.h:34-44). -/
def boundaryEdges (D : Domain K) (c : Pt K) (rSqr : K) : List BEdge :=
  D.bdries.flatMap fun b => b.2.edges.filter fun e =>
    decide (Pt.normSq (edgeCentroid D.pos e - c) < rSqr)

/-- `count_edge_overlaps` (src/algorithm/Domain.h:359-391): `(1.5 * length)^2` is
`9/4` times the squared length. `tol` is the tolerance of the vector comparison. -/
def countOverlaps (tol : K) (D E : Domain K) : Nat :=
  (D.bdries.map fun b => (b.2.edges.map fun e =>
    ((boundaryEdges E (edgeCentroid D.pos e) (9 / 4 * Pt.normSq (D.pos e.v1 - D.pos e.v2))).countP
      fun g => segmentOverlap tol (D.pos e.v1) (D.pos e.v2) (E.pos g.v1) (E.pos g.v2))).sum).sum

end Dom
end TQ

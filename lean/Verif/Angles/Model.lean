import Verif.Mesh.Model
import Mathlib.Analysis.SpecialFunctions.Trigonometric.Inverse

/-!
# Model of the measures of facets: `src/algorithm/FacetGeometry.h`, `update_metrics` of `Triangle.h`, `Quad.h`

`double` is replaced by the real numbers, `sqrt` and `acos` are the real functions.  With rounding the argument
of `acos` may leave `[-1, 1]`; in exact arithmetic it does not (Cauchy-Schwarz).
-/

namespace TQ
namespace FG
open MS

/-- `calc_edge_length` (src/algorithm/FacetGeometry.h:80-82, 404-406; `norm` src/utils/VecND.h:234-238). -/
noncomputable def len (p q : Pt ℝ) : ℝ := Real.sqrt (Pt.normSq (q - p))

/-- The numbers stored by `Triangle::update_metrics` (src/algorithm/Triangle.h:272-303) and
`Quad::update_metrics` (src/algorithm/Quad.h:299-330). -/
structure Metrics where
  area : ℝ
  lengths : List ℝ
  angles : List ℝ
  shape : ℝ

/-- `TriangleGeometry::calc_angles` (src/algorithm/FacetGeometry.h:87-104); `l1 l2 l3` are the edge lengths. -/
noncomputable def triAngles (p q r : Pt ℝ) (l1 l2 l3 : ℝ) : List ℝ :=
  [Real.arccos (Pt.dot (q - p) (r - p) / (l1 * l3)),
   Real.arccos (Pt.dot (p - q) (r - q) / (l1 * l2)),
   Real.arccos (Pt.dot (p - r) (q - r) / (l2 * l3))]

/-- `QuadGeometry::calc_angles` (src/algorithm/FacetGeometry.h:411-432). -/
noncomputable def quadAngles (p q r s : Pt ℝ) (l1 l2 l3 l4 : ℝ) : List ℝ :=
  [Real.arccos (Pt.dot (q - p) (s - p) / (l4 * l1)),
   Real.arccos (Pt.dot (p - q) (r - q) / (l1 * l2)),
   Real.arccos (Pt.dot (s - r) (q - r) / (l2 * l3)),
   Real.arccos (Pt.dot (r - s) (p - s) / (l3 * l4))]

/-- `norm_factor` (src/algorithm/FacetGeometry.h:116, 445). -/
noncomputable def normFactor : ℝ := 34641016151377544 / 10 ^ 16

/-- `calc_shape_factor` (src/algorithm/FacetGeometry.h:109-125, 437-455). -/
noncomputable def shapeFactor (lengths : List ℝ) (area : ℝ) : ℝ :=
  let s := (lengths.map fun l => l * l).sum
  if 0 < s then normFactor * area / s else 0

/-- `calc_quality` (src/algorithm/FacetGeometry.h:130-147, 460-480). -/
noncomputable def quality (lengths : List ℝ) (shape h : ℝ) : ℝ :=
  lengths.foldl (fun acc l => acc * (if l / h < h / l then l / h else h / l)) shape

/-- `Triangle::update_metrics` (src/algorithm/Triangle.h:272-303) without the centre and the circumcircle. -/
noncomputable def triMetrics (p q r : Pt ℝ) : Metrics :=
  let l1 := len p q
  let l2 := len q r
  let l3 := len r p
  let area := St.triArea p q r
  ⟨area, [l1, l2, l3], triAngles p q r l1 l2 l3, shapeFactor [l1, l2, l3] area⟩

/-- `Quad::update_metrics` (src/algorithm/Quad.h:299-330) without the centre. -/
noncomputable def quadMetrics (p q r s : Pt ℝ) : Metrics :=
  let l1 := len p q
  let l2 := len q r
  let l3 := len r s
  let l4 := len s p
  let area := St.quadArea p q r s
  ⟨area, [l1, l2, l3, l4], quadAngles p q r s l1 l2 l3 l4, shapeFactor [l1, l2, l3, l4] area⟩

/-- `VecND::max` (src/utils/VecND.h:314), `std::max_element`; the vectors here are never empty. -/
noncomputable def vmax : List ℝ → ℝ
  | [] => 0
  | a :: l => l.foldl (fun m x => if m < x then x else m) a

/-- `VecND::min` (src/utils/VecND.h:313), `std::min_element`; the vectors here are never empty. -/
noncomputable def vmin : List ℝ → ℝ
  | [] => 0
  | a :: l => l.foldl (fun m x => if x < m then x else m) a

/-- `is_valid` (src/algorithm/Triangle.h:269-270, src/algorithm/Quad.h:294-295; `check_validity`,
src/algorithm/FacetGeometry.h:152-169, 485-502). -/
noncomputable def isValid (m : Metrics) : Bool :=
  if m.area ≤ 0 then false else if ∃ l ∈ m.lengths, l ≤ 0 then false else true

/-- `QuadGeometry::calc_circumradius` (src/algorithm/FacetGeometry.h:388-399) around the centre of
`calc_circumcenter` (src/algorithm/FacetGeometry.h:380-383). -/
noncomputable def quadRadius (p q r s : Pt ℝ) : ℝ :=
  let c := St.quadCentroid p q r s
  vmax [len p c, len q c, len r c, len s c]

end FG
end TQ

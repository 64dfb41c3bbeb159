import Verif.Whole.FileSpec

/-! # Specification: element sizes that fit a drawing -/

set_option linter.unusedSectionVars false

namespace TQ.FlSpec
open TQ.Cf TQ.OutlSpec TQ.Fl
variable {K : Type} [Field K] [LinearOrder K]

/-- The sizes written at the corners of a boundary. -/
def cornerSizes (D : DEnv K) : BDef K → List K
  | .edges _ => []
  | .coords rows => rows.map (·.2.2.x)
  | .rect _ _ _ _ s | .circ _ _ _ _ s | .square _ _ _ s | .triangle _ _ _ s => [s.x]
  | .csv f => ((D.files f).bind fun t => (csvRead D.stod D.stoi t).toOption).elim [] fun rows => rows.map (·.props.x)

/-- All sizes written in a definition for single vertices. -/
def localSizes (D : DEnv K) (c : Cfg K) : List K := c.verts.map (·.s.x) ++ c.bdries.flatMap fun b => cornerSizes D b.2

/-- The sizes are at least `m` at the given place: the size wanted there, the sides of the polygons, and the sizes of single vertices (values that are not positive mean that there is none). -/
def AtLeast (norm : Pt K → K) (D : DEnv K) (c : Cfg K) (ss : List (Pt K × Pt K)) (m : K) : Prop :=
  (∀ s ∈ ss, m ≤ norm (s.2 - s.1)) ∧ ∀ x ∈ localSizes D c, x ≤ 0 ∨ m ≤ x

/-- The sizes fit the drawing: all are at least `r`, and either they vary by less than a factor of 3/2, or the wanted size changes slowly and nothing in the drawing is smaller. -/
structure SizesFit (norm : Pt K → K) (f : Pt K → K) (D : DEnv K) (c : Cfg K) (ss : List (Pt K × Pt K)) (r : K) : Prop where
  pos : 0 < r
  wanted : ∀ p, r ≤ f p
  atLeast : AtLeast norm D c ss r
  steady : (∃ R, 2 * R < 3 * r ∧ ∀ p, f p ≤ R) ∨ (∀ p q, 5 * |f p - f q| ≤ norm (p - q)) ∧ ∀ p, AtLeast norm D c ss (f p)

/-- The corners written for a boundary, each with its size and range. -/
def cornersWritten (D : DEnv K) : BDef K → List (Pt K × Pt K)
  | .edges _ => []
  | .coords rows => rows.map fun r => (r.1, r.2.2)
  | .rect _ c w h s => (rectangle c w h).map fun p => (p, s)
  | .circ _ c r n s => (roundPoints D.dir c r n.toNat).map fun p => (p, s)
  | .square _ c a s => (rectangle c a a).map fun p => (p, s)
  | .triangle _ c a s => (roundPoints D.dir c (a / D.root3) 3).map fun p => (p, s)
  | .csv f => ((D.files f).bind fun t => (csvRead D.stod D.stoi t).toOption).elim [] fun rows => rows.map fun r => (r.coords, r.props)

/-- All vertices written in a definition, with size and range: those in the tables, and the corners of the boundaries. -/
def vertsWritten (D : DEnv K) (c : Cfg K) : List (Pt K × Pt K) := c.verts.map (fun v => (v.xy, v.s)) ++ c.bdries.flatMap fun b => cornersWritten D b.2

/-- The vertex is a corner of the drawing or a fixed vertex. -/
def Used (c : Cfg K) (ps : List (Pt K)) (hs : List (List (Pt K))) (p : Pt K) : Prop := p ∈ ps ∨ (∃ q ∈ hs, p ∈ q) ∨ ∃ v ∈ c.verts, v.xy = p ∧ v.fixed = true

end TQ.FlSpec

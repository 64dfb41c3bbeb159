import Verif.Output.Spec
import Verif.Whole.KeptSpec
import Verif.Whole.ColourSpec

/-!
# Specification: the markers and colours in exported files

The files are read with the independent readers of the other specifications; what is read is compared with the drawing in the input file.
-/

set_option linter.unusedSectionVars false

namespace TQ.OutSpec
open TQ.MS TQ.FUSpec TQ.MeshSpec TQ.FlSpec TQ.Cf TQ.Fl TQ.SevSpec TQ.VTSpec TQ.OutlSpec

/-- The point with the number `i` is at `a`, up to half of the fifth decimal. -/
def NearNo (pts : List (List ℚ)) (i : Int) (a : Pt ℚ) : Prop :=
  0 ≤ i ∧ ∃ x y, pts[i.toNat]? = some [x, y] ∧ |x - a.x| ≤ 1 / 200000 ∧ |y - a.y| ≤ 1 / 200000

/-- The rows of the boundary edges show the drawing. -/
structure RowsMarked (D : DEnv ℚ) (xs : List (Drawn ℚ)) (pts : List (List ℚ)) (rows : List (List Int)) : Prop where
  /-- a row `i j l m`: both points are on a drawn side with the marker `m`, up to the printed decimals -/
  marked : ∀ r ∈ rows, ∃ i j l m, r = [i, j, l, m] ∧ ∃ x ∈ xs, ∃ b ∈ x.cfg.bdries, ∃ p q, MarkedSide D (x.cfg.verts.map (·.xy)) b.2 p q m ∧
    ∃ a c, OnClosed p q a ∧ OnClosed p q c ∧ NearNo pts i a ∧ NearNo pts j c
  /-- each point of a drawn side with the marker `m` is on the edge of a row with this marker, unless a side of another definition passes through it -/
  kept : ∀ l x l', xs = l ++ x :: l' → ∀ b ∈ x.cfg.bdries, ∀ p q m, MarkedSide D (x.cfg.verts.map (·.xy)) b.2 p q m → ∀ z, OnClosed p q z →
    (∃ y ∈ l ++ l', DrawnAt D y z) ∨ ∃ i j k a c, [i, j, k, m] ∈ rows ∧ NearNo pts i a ∧ NearNo pts j c ∧ OnClosed a c z

/-- The text file shows the drawing in its section of boundary edges. -/
def TextMarked (D : DEnv ℚ) (xs : List (Drawn ℚ)) (t : List Char) : Prop :=
  ∃ id ss pts rows, readTxt t = some (id, ss) ∧ decRows "VERTICES".toList ss = some pts ∧ intRows "BOUNDARYEDGES".toList ss = some rows ∧ RowsMarked D xs pts rows

/-- The cells in a VTU file and their colours show the regions of the definitions: with places that differ by at most half of the fifth decimal from the points
in the file, what a cell covers is in the region of a definition with the colour of the cell, and a point in the region of a definition that is on no line
through a side is covered by a cell with the colour of the definition. -/
def CellsColoured (xs : List (Drawn ℚ)) (t : List Char) : Prop :=
  ∃ (pts : List (Pt ℚ)) (cells : List (List Nat)) (cols : List Int) (locs : List (Pt ℚ)), readMesh t = some (pts, cells) ∧ readInts "element_color".toList t = some cols ∧
    cols.length = cells.length ∧ locs.length = pts.length ∧
    (∀ i, i < pts.length → |(place pts i).x - (place locs i).x| ≤ 1 / 200000 ∧ |(place pts i).y - (place locs i).y| ≤ 1 / 200000) ∧
    (∀ (k : Nat) (c : List Nat) (m : Int), cells[k]? = some c → cols[k]? = some m → ∀ r ∈ cut (place locs) c, ∀ p, Inside (place locs) p r → ∃ x ∈ xs, m = x.cfg.color ∧ segWinding x.segs p = 1) ∧
    ∀ x ∈ xs, ∀ p, segWinding x.segs p = 1 →
      (∀ r ∈ triangles (place locs) cells, side (place locs r.1) (place locs r.2.1) p ≠ 0 ∧ side (place locs r.2.1) (place locs r.2.2) p ≠ 0 ∧
        side (place locs r.2.2) (place locs r.1) p ≠ 0) →
      ∃ (k : Nat) (c : List Nat), cells[k]? = some c ∧ cols[k]? = some x.cfg.color ∧ ∃ r ∈ cut (place locs) c, Inside (place locs) p r

end TQ.OutSpec

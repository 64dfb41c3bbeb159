import Verif.Writer.Spec
import Verif.FrontUpdate.Spec

/-!
# Specification: the mesh that an exported file describes

Everything here is about what is read from the file: points and cells; nothing refers to the mesh in memory.
-/

namespace TQ.OutSpec
open TQ.VTSpec TQ.FUSpec

/-- Read a VTU file: its points, and its cells as lists of point numbers (0, 1, …).  The file is refused if a point is
not in the plane, if a cell is neither a triangle (type 5) nor a quadrilateral (type 9) with the right number of
points, or if a point number is too large. -/
def readMesh (t : List Char) : Option (List (Pt ℚ) × List (List Nat)) := do
  let p ← readPoints t
  let c ← readCells t
  if (p.all fun q => decide (q.2.2 = 0)) &&
      (c.all fun k => decide ((k.1 = 5 ∧ k.2.length = 3) ∨ (k.1 = 9 ∧ k.2.length = 4)) && k.2.all fun i => decide (i < p.length)) then
    some (p.map fun q => ⟨q.1, q.2.1⟩, c.map (·.2))
  else none

/-- The place of a point. -/
def place (pts : List (Pt ℚ)) (i : Nat) : Pt ℚ := pts.getD i ⟨0, 0⟩

/-- The sides of a cell in its direction: every point with the next one. -/
def cellSides {α : Type*} (c : List α) : List (α × α) := c.zip (c.rotate 1)

/-- The sides of all cells. -/
def sides (cells : List (List Nat)) : List (Nat × Nat) := cells.flatMap cellSides

/-- The outer sides: those that no other cell passes in the other direction. -/
def rim (cells : List (List Nat)) : List (Nat × Nat) := (sides cells).filter fun e => decide ((e.2, e.1) ∉ sides cells)

/-- A conforming mesh with `n` points: all cells are triangles or quadrilaterals with different points that exist, and no
side is passed twice in the same direction. -/
structure Conform (n : Nat) (cells : List (List Nat)) : Prop where
  cell : ∀ c ∈ cells, (c.length = 3 ∨ c.length = 4) ∧ c.Nodup ∧ ∀ i ∈ c, i < n
  once : (sides cells).Nodup

/-- Signed area of a cell (shoelace formula). -/
def cellArea (x : Nat → Pt ℚ) (c : List Nat) : ℚ := enclosed x (cellSides c)

/-- Sum of the areas of all cells. -/
def totalArea (x : Nat → Pt ℚ) (cells : List (List Nat)) : ℚ := (cells.map (cellArea x)).sum

/-- The triangles that make up a cell: a triangle itself, the two halves of a quadrilateral, cut along the first
diagonal if that gives two counter-clockwise triangles, along the second one otherwise. -/
def cut (x : Nat → Pt ℚ) : List Nat → List (Nat × Nat × Nat)
  | [a, b, c] => [(a, b, c)]
  | [a, b, c, d] => if 0 < side (x a) (x b) (x c) ∧ 0 < side (x c) (x d) (x a) then [(a, b, c), (c, d, a)] else [(b, c, d), (d, a, b)]
  | _ => []

/-- The triangles that make up the cells of the file. -/
def triangles (x : Nat → Pt ℚ) (cells : List (List Nat)) : List (Nat × Nat × Nat) := cells.flatMap (cut x)

/-- `p` is strictly inside. -/
def Inside (x : Nat → Pt ℚ) (p : Pt ℚ) (t : Nat × Nat × Nat) : Prop := StrictlyIn p (x t.1) (x t.2.1) (x t.2.2)

/-- All triangles of the cells are counter-clockwise. -/
def Positive (x : Nat → Pt ℚ) (cells : List (List Nat)) : Prop :=
  ∀ t ∈ triangles x cells, 0 < side (x t.1) (x t.2.1) (x t.2.2)

/-- The cells tile the region `R`: no point is inside two triangles of cells, only points of `R` are inside triangles,
and a point of `R` that is on no line through a side of a triangle is inside one. -/
structure Tiles (x : Nat → Pt ℚ) (cells : List (List Nat)) (R : Pt ℚ → Prop) : Prop where
  apart : (triangles x cells).Pairwise fun s t => ∀ p, ¬ (Inside x p s ∧ Inside x p t)
  within : ∀ p, ∀ t ∈ triangles x cells, Inside x p t → R p
  full : ∀ p, R p → (∀ t ∈ triangles x cells, side (x t.1) (x t.2.1) p ≠ 0 ∧ side (x t.2.1) (x t.2.2) p ≠ 0 ∧ side (x t.2.2) (x t.1) p ≠ 0) →
    ∃ t ∈ triangles x cells, Inside x p t

/-- The number has at most five decimals. -/
def FiveDecimals (q : ℚ) : Prop := ∃ k : Int, q = k / 100000

/-- Both coordinates have at most five decimals. -/
def Printable (p : Pt ℚ) : Prop := FiveDecimals p.x ∧ FiveDecimals p.y

/-- A counter-clockwise triangle that stays one if its corners are rounded to five decimals: its doubled area is larger than
`4 L / 100000 + 2 / 100000²`, where `L` bounds the extent of the triangle. -/
def Broad (a b c : Pt ℚ) : Prop :=
  ∃ L : ℚ, |b.x - a.x| ≤ L ∧ |b.y - a.y| ≤ L ∧ |c.x - a.x| ≤ L ∧ |c.y - a.y| ≤ L ∧ 4 * L * (1 / 100000) + 2 * (1 / 100000) ^ 2 < side a b c

/-! ### The text file -/

/-- What the text file says about elements (corners, the quads first), their neighbours and the edges. -/
structure Topology where
  elems : List (List Int)
  nbrs : List (List Int)
  intr : List (List Int)
  bdry : List (List Int)
  front : List (List Int)
  deriving DecidableEq

/-- Read it; the last number of an element (its colour) is left out. -/
def readTopology (t : List Char) : Option Topology := do
  let r ← readTxt t
  let q ← intRows "QUADS".toList r.2
  let k ← intRows "TRIANGLES".toList r.2
  let qn ← intRows "QUADNEIGHBORS".toList r.2
  let kn ← intRows "TRIANGLENEIGHBORS".toList r.2
  let i ← intRows "INTERIOREDGES".toList r.2
  let b ← intRows "BOUNDARYEDGES".toList r.2
  let f ← intRows "FRONT".toList r.2
  some ⟨(q ++ k).map List.dropLast, qn ++ kn, i, b, f⟩

/-- The element number `k` passes from `a` to `b`. -/
def Runs (elems : List (List Int)) (k a b : Int) : Prop := 0 ≤ k ∧ ∃ c, elems[k.toNat]? = some c ∧ (a, b) ∈ cellSides c

/-- The row of an edge connects `a` and `b`. -/
def joins (a b : Int) (r : List Int) : Bool := decide (r.take 2 = [a, b] ∨ r.take 2 = [b, a])

/-- The statements of the text file fit together. -/
structure Fits (T : Topology) : Prop where
  /-- nothing is left to be meshed -/
  front : T.front = []
  /-- an interior edge `a b l r`: `l` passes from `a` to `b`, and `r` passes from `b` to `a` -/
  intr : ∀ e ∈ T.intr, ∃ a b l r, e = [a, b, l, r] ∧ Runs T.elems l a b ∧ Runs T.elems r b a
  /-- a boundary edge `a b l m`: `l` passes from `a` to `b`, and no element passes from `b` to `a` -/
  bdry : ∀ e ∈ T.bdry, ∃ a b l m, e = [a, b, l, m] ∧ Runs T.elems l a b ∧ ∀ k, ¬ Runs T.elems k b a
  /-- one row of neighbours for every element -/
  len : T.nbrs.length = T.elems.length
  /-- one neighbour for every side, beginning with the side from the second to the third corner: the element that
  passes the side in the other direction, or -1 if there is none -/
  nbr : ∀ (k : Nat) (c n : List Int), T.elems[k]? = some c → T.nbrs[k]? = some n → n.length = c.length ∧
    ∀ (i : Nat) (m a b : Int), n[i]? = some m → ((c.rotate 1).zip (c.rotate 2))[i]? = some (a, b) →
      Runs T.elems m b a ∨ (m = -1 ∧ ∀ l, ¬ Runs T.elems l b a)
  /-- no two elements pass a side in the same direction -/
  dir : ∀ k l a b, Runs T.elems k a b → Runs T.elems l a b → k = l
  /-- every side of an element is exactly one of the edges -/
  once : ∀ k a b, Runs T.elems k a b → (T.intr ++ T.bdry).countP (joins a b) = 1

end TQ.OutSpec

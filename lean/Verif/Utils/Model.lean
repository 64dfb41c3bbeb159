import Mathlib.Algebra.Order.Field.Basic
import Mathlib.Algebra.Order.Floor.Ring
import Mathlib.Data.Rat.Floor

/-!
# Models of the small utilities

`src/utils/MathUtility.h`, `src/utils/VecND.h`, `src/utils/Matrix.h`, `src/utils/StringOps.h` and the
property flags of `src/algorithm/Vertex.h`, `src/algorithm/Edge.h`.
-/

namespace TQ

/-! ## Flags (src/algorithm/Vertex.h:27-62, 105-116; src/algorithm/Edge.h:37-76, 154-165) -/

namespace Flags

/-- enumerators of `VertexProperty` (src/algorithm/Vertex.h:27-33) -/
def vOnFront : BitVec 8 := 0b00000001
def vInQuadLayer : BitVec 8 := 0b00000010
def vIsFixed : BitVec 8 := 0b00000100
def vOnBoundary : BitVec 8 := 0b00001000

/-- enumerators of `EdgeProperty` (src/algorithm/Edge.h:37-42) -/
def eOnBoundary : BitVec 8 := 0b00000001
def eIsFixed : BitVec 8 := 0b00000010
def eIsGhost : BitVec 8 := 0b00000100

/-- `add_property` (src/algorithm/Vertex.h:106, src/algorithm/Edge.h:155) -/
def add (w p : BitVec 8) : BitVec 8 := w ||| p
/-- `set_property` (src/algorithm/Vertex.h:107, src/algorithm/Edge.h:156) -/
def set (_w p : BitVec 8) : BitVec 8 := p
/-- `remove_property` (src/algorithm/Vertex.h:108, src/algorithm/Edge.h:157) -/
def remove (w p : BitVec 8) : BitVec 8 := w &&& ~~~p
/-- `has_property` (src/algorithm/Vertex.h:109, src/algorithm/Edge.h:158) -/
def has (w p : BitVec 8) : Bool := (w &&& p) != 0

end Flags

/-! ## src/utils/MathUtility.h -/

/-- `MOD` (src/utils/MathUtility.h:48-50): C++ `%` truncates towards zero. The intermediate sum does
not overflow as long as `2*M` is representable (see `mod_intermediate`). -/
def cppMOD (n M : Int) : Int := Int.tmod (Int.tmod n M + M) M

/-- `MIN`, `MAX`, `CLAMP`, `ABS` (src/utils/MathUtility.h:36-46, 52-54) -/
def cppMIN {T : Type*} [LinearOrder T] (a b : T) : T := if a < b then a else b
def cppMAX {T : Type*} [LinearOrder T] (a b : T) : T := if a > b then a else b
def cppCLAMP {T : Type*} [LinearOrder T] (x lo hi : T) : T := cppMAX lo (cppMIN hi x)
def cppABS {T : Type*} [LinearOrder T] [Zero T] [Neg T] (a : T) : T := if a > 0 then a else -a

/-- `EQ` (src/utils/MathUtility.h:56-76) with the two tolerances as parameters. -/
def cppEQ {T : Type*} [LinearOrder T] [Ring T] (a b maxDiff maxRel : T) : Bool :=
  let diff := cppABS (a - b)
  if diff ≤ maxDiff then true
  else decide (diff ≤ cppMAX (cppABS a) (cppABS b) * maxRel)

/-- `argsort` (src/utils/MathUtility.h:93-109).  `std::stable_sort` with the comparison
`v[i1] < v[i2]` is modelled by the stable merge sort of the Lean library; by theorem
`C16_argsort_unique` every stable sorting algorithm gives this list. -/
def argsort {T : Type*} [LinearOrder T] (v : Array T) : List (Fin v.size) :=
  (List.finRange v.size).mergeSort fun i1 i2 => !decide (v[i2] < v[i1])

/-! ## src/utils/VecND.h

The `std::array` is a list of length `N`; `std::transform` is `map` / `zipWith`. -/

namespace Vec
variable {K : Type*} [Field K]

/-- unary minus (src/utils/VecND.h:143-149) -/
def neg (a : List K) : List K := a.map (fun x => -x)
/-- `+`, `-`, `*`, `/` of vectors (src/utils/VecND.h:351-394; compound forms 154-189) -/
def add (a b : List K) : List K := List.zipWith (· + ·) a b
def sub (a b : List K) : List K := List.zipWith (· - ·) a b
def mul (a b : List K) : List K := List.zipWith (· * ·) a b
def div (a b : List K) : List K := List.zipWith (· / ·) a b
/-- vector and scalar (src/utils/VecND.h:400-476; compound forms 194-229) -/
def addS (a : List K) (s : K) : List K := a.map (· + s)
def subS (a : List K) (s : K) : List K := a.map (· - s)
def sSub (s : K) (a : List K) : List K := a.map (fun x => s - x)
def mulS (a : List K) (s : K) : List K := a.map (· * s)
def divS (a : List K) (s : K) : List K := a.map (· / s)
def sDiv (s : K) (a : List K) : List K := a.map (fun x => s / x)

/-- `std::inner_product` with start value 0 -/
def innerLoop : K → List K → List K → K
  | acc, x :: a, y :: b => innerLoop (acc + x * y) a b
  | acc, _, _ => acc
/-- `dot` (src/utils/VecND.h:243, 482), `norm_sqr` (234) -/
def dot (a b : List K) : K := innerLoop 0 a b
def normSqr (a : List K) : K := innerLoop 0 a a

/-- `cross` for N = 3 (src/utils/VecND.h:262-267, 495-501) -/
def cross3 : K × K × K → K × K × K → K × K × K
  | (ax, ay, az), (bx, b_y, bz) =>
    (ay * bz - az * b_y, az * bx - ax * bz, ax * b_y - ay * bx)

variable [LinearOrder K]

/-- `is_zero` (src/utils/VecND.h:287-291) with `c = epsilon * ulp` -/
def isZero (c : K) (a : List K) : Bool := decide (normSqr a ≤ c * normSqr a)
/-- `==` (src/utils/VecND.h:341-342) -/
def eq (c : K) (a b : List K) : Bool := isZero c (sub a b)

/-- `product` (src/utils/VecND.h:304-308), for floating point entries -/
def product (a : List K) : K := a.foldl (· * ·) 1

/-- conversion of a floating point value to `int`: truncation towards zero (values outside of the
range of `int` are undefined behaviour and not modelled) -/
def toInt (q : ℚ) : Int := if 0 ≤ q then ⌊q⌋ else ⌈q⌉

/-- `sum` (src/utils/VecND.h:296-299) for `T = double`: the start value `0` makes `std::accumulate`
accumulate in `int`. -/
def sum (a : List ℚ) : ℚ := ((a.foldl (fun (acc : Int) x => toInt ((acc : ℚ) + x)) 0 : Int) : ℚ)

end Vec

/-! ## src/utils/Matrix.h -/

/-- `Matrix` (src/utils/Matrix.h:122-129), dimensions as naturals -/
structure Mat (T : Type*) where
  rows : Nat
  cols : Nat
  data : List T
deriving DecidableEq, Repr

namespace Mat
variable {T : Type*}
/-- `swap` (src/utils/Matrix.h:92-98): the new values of `*this` and of the argument. -/
def swap (a b : Mat T) : Mat T × Mat T :=
  (⟨b.rows, b.cols, b.data⟩, ⟨b.rows, b.cols, a.data⟩)
/-- copy assignment (src/utils/Matrix.h:75-81) -/
def assign (_a b : Mat T) : Mat T := ⟨b.rows, b.cols, b.data⟩
/-- `m[i][j]` (src/utils/Matrix.h:83-87): `none` is an out-of-bounds access -/
def get (m : Mat T) (i j : Nat) : Option T := m.data[i * m.cols + j]?
/-- `resize` (src/utils/Matrix.h:103-108): `std::vector::resize` appends zeros or truncates -/
def resize [Zero T] (m : Mat T) (r c : Nat) : Mat T :=
  ⟨r, c, m.data.take (r * c) ++ List.replicate (r * c - m.data.length) 0⟩
end Mat

/-! ## src/utils/StringOps.h -/

/-- The loop `while (std::getline(iss, item, delim))` (src/utils/StringOps.h:23-41) on the remaining
characters: `getline` extracts up to and including the delimiter; it fails iff nothing is left. -/
def splitLoop (d : Char) : List Char → List Char → List (List Char)
  | cur, [] => if cur.isEmpty then [] else [cur]
  | cur, c :: cs => if c = d then cur :: splitLoop d [] cs else splitLoop d (cur ++ [c]) cs

/-- `split` (src/utils/StringOps.h:23-57) -/
def split (s : List Char) (d : Char) (removeEmpty : Bool) : List (List Char) :=
  if removeEmpty then (splitLoop d [] s).filter (fun x => !x.isEmpty) else splitLoop d [] s

end TQ

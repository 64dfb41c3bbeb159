import Verif.QuadTree.Model
import Verif.Writer.Model

/-! # Model of the output of a `QuadTree` -/

namespace TQ.QT
open TQ.VT

/-- `operator<<` of a tree (src/utils/QuadTree.h:591-611): a row for every cell that is not split, the children in their order. The test for null pointers has no
counterpart, a split cell has four children. -/
def print {α : Type*} (b : Box ℚ) : QT α → Txt
  | node _ c0 c1 c2 c3 => print b.ch0 c0 ++ (print b.ch1 c1 ++ (print b.ch2 c2 ++ print b.ch3 c3))
  | leaf n _ => fixed5 b.c.x ++ [','] ++ fixed5 b.c.y ++ [','] ++ fixed5 b.s ++ [','] ++ natTxt n ++ ['\n']

end TQ.QT

import Verif.Move.Model
import Verif.QuadTree.Spec

/-! # Specification: a tree stored at an address -/

namespace TQ
namespace MvSpec
open Mv
variable {α K : Type*} [Field K] [LinearOrder K]

/-- The tree `t` with the square `b` is stored at the address `a`; its cells are the living objects at the addresses `fs`, all different. -/
inductive Stored (h : Heap α K) : Nat → Box K → QT α → List Nat → Prop where
  | leaf {a : Nat} {b : Box K} {n : Nat} {l : List α} : h a = some ⟨b, n, l, none⟩ → Stored h a b (.leaf n l) [a]
  | node {a a0 a1 a2 a3 : Nat} {b : Box K} {n : Nat} {c0 c1 c2 c3 : QT α} {f0 f1 f2 f3 : List Nat} : h a = some ⟨b, n, [], some (a0, a1, a2, a3)⟩ →
      Stored h a0 b.ch0 c0 f0 → Stored h a1 b.ch1 c1 f1 → Stored h a2 b.ch2 c2 f2 → Stored h a3 b.ch3 c3 f3 →
      (a :: (f0 ++ (f1 ++ (f2 ++ f3)))).Nodup → Stored h a b (.node n c0 c1 c2 c3) (a :: (f0 ++ (f1 ++ (f2 ++ f3))))

end MvSpec
end TQ

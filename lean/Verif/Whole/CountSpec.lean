import Verif.Refinement.Spec

/-! # Specification: the numbers of elements after refinements -/

namespace TQ.CountSpec
open MS RefSpec
variable {K : Type*}

/-- `t` has as many elements as `s` refined `n` times: without refinements the same elements; with `k + 1` refinements no triangles, `4^k` times three quads for each triangle
and four for each quad; each boundary edge is split into `2^n`; the Euler characteristic (hence the number of pieces minus the number of holes) is the same. -/
structure Multiplied (n : Nat) (s t : St K) : Prop where
  zero : n = 0 → t.tris = s.tris ∧ t.quads = s.quads
  succ : ∀ k, n = k + 1 → t.tris = [] ∧ t.quads.length = 4 ^ k * (3 * s.tris.length + 4 * s.quads.length)
  bdry : (t.es .bdry).length = 2 ^ n * (s.es .bdry).length
  euler : euler t = euler s

end TQ.CountSpec

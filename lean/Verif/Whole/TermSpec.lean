import Verif.Whole.AppSpec

/-! # Specification: states that the meshing loops pass through -/

namespace TQ.TermSpec
open TQ.MS TQ.MS.St TQ.FU TQ.TG
variable {K : Type*} [Field K] [LinearOrder K]

/-- The loops pass through the mesh `t` when they are started with the mesh `s`: it is the mesh after some number of
turns of the advancing front loop, or of the exhaustive loop that follows if the first one gives up. -/
inductive Visited (env : Env K) (par : Par K) (nEl : Nat) (s : St K) : St K → Prop
  | front {k : Nat} {L : Lp K} : advLoop env par nEl k (advStart env s) = .fuel L → Visited env par nEl s L.s
  | exhaustive {k k' : Nat} {L L' : Lp K} : advLoop env par nEl k (advStart env s) = .ret false L →
      exhLoop env (nEl - L.n) k' (exhStart env L.s L.fbase) = .fuel L' → Visited env par nEl s L'.s

end TQ.TermSpec

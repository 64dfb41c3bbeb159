import Verif.Generator.Model

/-! # Specification: histories of a mesh generator -/

namespace TQ.GNSpec
open TQ.MS TQ.MM TQ.GN

/-- What happened to the generator: a mesh was created at the address `a` for the domain `d`; the merging of the
donor `d` into `r` was requested (`ok`: the donor was merged); an algorithm was requested and the object
`ident` was returned. -/
inductive Ev where
  | new (a d : Nat)
  | merge (r d : Nat) (ok : Bool)
  | got (k : Kind) (m ident : Nat)

/-- The live meshes with the domain they were created for, in order of creation. -/
def live : List Ev → List (Nat × Nat)
  | [] => []
  | .new a d :: l => live l ++ [(a, d)]
  | .merge _ d true :: l => (live l).filter fun x => decide (x.1 ≠ d)
  | .merge _ _ false :: l => live l
  | .got _ _ _ :: l => live l

/-- The domain of a mesh. -/
def domainOf (l : List Ev) (m : Nat) : Option Nat := ((live l).find? fun x => decide (x.1 = m)).map (·.2)

/-- The last request for an algorithm of the group `s`: algorithm, mesh, returned object. -/
def lastGot (s : Slot) : List Ev → Option (Kind × Nat × Nat)
  | [] => none
  | .got k m i :: l => if k.slot = s then some (k, m, i) else lastGot s l
  | .new _ _ :: l => lastGot s l
  | .merge _ _ _ :: l => lastGot s l

/-- All addresses at which a mesh was ever created. -/
def addresses : List Ev → List Nat
  | [] => []
  | .new a _ :: l => a :: addresses l
  | .merge _ _ _ :: l => addresses l
  | .got _ _ _ :: l => addresses l

variable {K : Type*} [Field K] [LinearOrder K]

/-- The merger reports success. -/
def mergerOk (eps : K) (g : Gen K) (r d : Nat) : Bool := (merge eps g.w r d false).any (·.2)

/-- All histories of a generator; the last event is the head of the list.  A new mesh is at an address that no live
mesh has (memory of a removed mesh may be used again); in between the user changes the contents of
the meshes. -/
inductive Hist (eps : K) (w0 : World K) : List Ev → Gen K → Prop
  | start : Hist eps w0 [] (Gen.init w0)
  | new {log g} (prep : World K → Nat → World K × Bool) (a d : Nat) : Hist eps w0 log g → a ∉ g.meshes →
      Hist eps w0 (.new a d :: log) (g.newMesh prep a d)
  | merge {log g g'} {r d : Nat} {b : Bool} : Hist eps w0 log g → g.mergeMeshes eps r d = some (g', b) →
      Hist eps w0 (.merge r d (g.isValid r && g.isValid d && mergerOk eps g r d) :: log) g'
  | access {log g g'} {k : Kind} {m : Nat} {al : Alg} : Hist eps w0 log g → g.access k m = some (g', al) →
      Hist eps w0 (.got k m al.ident :: log) g'
  | work {log g} (w' : World K) : Hist eps w0 log g → Hist eps w0 log { g with w := w' }

end TQ.GNSpec

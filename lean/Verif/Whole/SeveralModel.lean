import Verif.Whole.MultiModel

/-! # Model: input files with several mesh definitions (src/app/TQMeshApp.h:94-229, 920-959) -/

set_option linter.unusedSectionVars false

namespace TQ.Fl
open TQ.Cf TQ.PR TQ.MM
variable {K : Type} [Field K] [LinearOrder K]

/-- Outcome of the run for a further mesh definition: the domain, the meshes after the preparation, and the steps. -/
inductive NRes (K : Type) where
  | done (d : Dm K) (w : World K) (t : AM.NextTrace K)
  | fail (f : DFail)
  | fuel

/-- `construct_mesh` (src/app/TQMeshApp.h:94-126) for a further definition: `a` is the mesh of the definitions before, the only one of the generator
(src/app/TQMeshApp.h:181-191); the new mesh gets the address `a + 1` (src/algorithm/MeshGenerator.h:94-107). A failing `ASSERT` ends the program. -/
def constructNext (D : DEnv K) (L : QL.LEnv K) (J : AM.Job K) (sub : Cfg K → Dm K → List (Fr.MVert K) → Fr.FEdge → Option (List (Pt K))) (fuel : Nat) (w : World K) (a : Nat) (c : Cfg K) : NRes K :=
  match makeDomain D c with
  | .error f => .fail f
  | .ok d =>
    let w0 : World K := MS.upd w (a + 1) fun _ => MS.St.empty c.color
    match GN.prepareMesh (d.prepNext L.env.eps (sub c d) w0 [a]) w0 (a + 1) with
    | .undef => .fail .ub
    | .loops => .fuel
    | .ret _ w1 =>
      if c.algorithm ≠ "Tri-to-Quad".toList ∧ c.algorithm ≠ "Triangulation".toList then .fail .error
      else match AM.generateNext L fuel (jobOf J c) d.dom w1 (a + 1) a with
        | .undef => .fail .ub
        | .abort => .fail .abort
        | .fuel => .fuel
        | .done t => .done d w1 t

/-- Outcome of a run of the application: the meshes, the address of the mesh of the generator, and the returned value. -/
inductive ARes (K : Type) where
  | done (w : World K) (a : Nat) (ok : Bool)
  | fail (f : DFail)
  | fuel

/-- The loop over the further definitions (src/app/TQMeshApp.h:941-955). -/
def runNext (D : DEnv K) (L : QL.LEnv K) (J : AM.Job K) (sub : Cfg K → Dm K → List (Fr.MVert K) → Fr.FEdge → Option (List (Pt K))) (fuel : Nat) :
    List (Cfg K) → World K → Nat → Bool → ARes K
  | [], w, a, ok => .done w a ok
  | c :: cs, w, a, ok =>
    match constructNext D L J sub fuel w a c with
    | .fail f => .fail f
    | .fuel => .fuel
    | .done _ w1 t => runNext D L J sub fuel cs (MS.upd w1 (a + 1) fun _ => t.smoothed) (a + 1) (ok && t.ok)

/-- The loop over all definitions (src/app/TQMeshApp.h:941-955); without definition nothing happens. -/
def runCfgs (D : DEnv K) (L : QL.LEnv K) (J : AM.Job K) (sub : Cfg K → Dm K → List (Fr.MVert K) → Fr.FEdge → Option (List (Pt K))) (fuel : Nat) :
    List (Cfg K) → Option (ARes K)
  | [] => none
  | c :: cs =>
    match constructFirst D L J sub fuel c with
    | .fail f => some (.fail f)
    | .fuel => some .fuel
    | .done _ s0 t => some (runNext D L J sub fuel cs (fun m => if m = 0 then t.smoothed else s0) 0 t.ok)

/-- `TQMeshApp::run` for an input file (src/app/TQMeshApp.h:931-959). The definitions are all read before the first mesh is made,
while the code reads one, makes its mesh, and goes on: a mistake in a later definition is met earlier here. -/
def runAll (E : Env K) (big : K) (D : DEnv K) (L : QL.LEnv K) (J : AM.Job K) (sub : Cfg K → Dm K → List (Fr.MVert K) → Fr.FEdge → Option (List (Pt K))) (fuel : Nat)
    (file : List Line) : Option (ARes K) :=
  match readFile E big file with
  | .error .error => some (.fail .error)
  | .error .ub => some (.fail .ub)
  | .ok cs => runCfgs D L J sub fuel cs

end TQ.Fl

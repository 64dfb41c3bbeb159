import Verif.Whole.Model
import Verif.Whole.CleanModel
import Verif.QuadLayer.Model
import Verif.Triangulation.Model
import Verif.Refinement.Model
import Verif.Smoothing.Model
import Verif.Merger.Model

/-!
# Model: whole runs of the meshing functions and the sequence of steps of the application
(src/algorithm/Triangulation.h:76-154, src/app/TQMeshApp.h:129-229)
-/

namespace TQ.AM
open TQ.MS TQ.MS.St TQ.FU TQ.TG TQ.QL
variable {K : Type*} [Field K] [LinearOrder K]

/-- The result of a meshing function: the returned value and the mesh, undefined behaviour, or not finished within the
given number of turns. -/
inductive Out (K : Type*) where
  | ret (ok : Bool) (s : St K)
  | undef
  | fuel

/-- `Triangulation::generate_elements` (src/algorithm/Triangulation.h:76-118); `nEl` is `n_elements_`, `ix0` are the
indices of the elements before the call. -/
def triangulate (env : Env K) (par : Par K) (nEl fuel : Nat) (ix0 : FRef → Nat) (s : St K) : Out K :=
  if (s.es .bdry).length < 1 then .ret false s
  else match TG.generate env par nEl fuel (MC.startStep env.eps s) with
    | .undef => .undef
    | .fuel => .fuel
    | .ret ok u _ =>
      match MC.improve env.eps ix0 (MC.finishStep u) with
      | none => .undef
      | some t => .ret ok t

/-- `Triangulation::generate_elements_exhaustive` (src/algorithm/Triangulation.h:125-153): no improvement. -/
def exhaust (env : Env K) (nEl fuel : Nat) (s : St K) : Out K :=
  if (s.es .bdry).length < 1 then .ret false s
  else match TG.generateExhaustive env nEl fuel (MC.startStep env.eps s) with
    | .undef => .undef
    | .fuel => .fuel
    | .ret ok u _ => .ret ok (MC.finishStep u)

/-- The parameters of a set of quad layers (src/app/TQMeshApp.h:142-158). -/
structure LayerDef (K : Type*) where
  start : Pt K
  stop : Pt K
  count : Nat
  height : K
  growth : K

/-- The loop over the sets of quad layers (src/app/TQMeshApp.h:142-158); the returned values are ignored.  A negative
number of layers becomes a very large `size_t`; the model has natural numbers. -/
def layerAll (L : LEnv K) (fuel : Nat) : List (LayerDef K) → St K → Option (St K)
  | [], s => some s
  | d :: ds, s => (QL.generate L fuel d.count d.growth s d.start d.stop d.height).bind fun r => layerAll L fuel ds r.1

/-- The loop over the refinements (src/app/TQMeshApp.h:194-195); the returned values are ignored. -/
def refineAll : Nat → St K → Option (St K)
  | 0, s => some s
  | n + 1, s => s.refine.bind fun r => refineAll n r.1

/-- The settings of a mesh definition and the parameters of the algorithms. -/
structure Job (K : Type*) where
  layers : List (LayerDef K)
  toQuad : Bool
  refinements : Nat
  smoothing : Nat
  par : Par K
  ix1 : FRef → Nat
  ix2 : FRef → Nat
  order : St K → List Nat
  nearest : St K → Pt K → Option Nat
  cfg : SmoothCfg K
  torsion : Rule K
  laplace : Rule K
  decay : K
  step : K
  thr : K

/-- The meshes after the steps of a run, and the returned value. -/
structure Trace (K : Type*) where
  layered : St K
  meshed : St K
  modified : St K
  refined : St K
  smoothed : St K
  ok : Bool

/-- The result of the application for a mesh definition. -/
inductive Res (K : Type*) where
  | done (t : Trace K)
  | undef
  | fuel

/-- `MeshConstruction::generate_mesh` (src/app/TQMeshApp.h:129-229) from the prepared mesh `s` of the first mesh
definition (nothing to merge with).  `toQuad` says that the algorithm is "Tri-to-Quad" and not "Triangulation"; other
names throw an error and are not modelled.  The result of `generate_elements` is ignored.  The export of the mesh
(TQMeshApp.h:206-224) assigns indices and connectivity only. -/
def generateMesh (L : LEnv K) (fuel : Nat) (J : Job K) (D : Dom.Domain K) (s : St K) : Res K :=
  match layerAll L fuel J.layers s with
  | none => .undef
  | some a =>
    match triangulate L.env J.par 0 fuel J.ix1 a with
    | .undef => .undef
    | .fuel => .fuel
    | .ret _ b =>
      match if J.toQuad then MC.tri2quad L.env.eps J.ix2 (J.order b) b else some b with
      | none => .undef
      | some c =>
        match refineAll J.refinements c with
        | none => .undef
        | some d =>
          match smoothMixed J.nearest L.env.norm J.cfg J.torsion J.laplace J.decay J.smoothing (d, J.step) with
          | none => .undef
          | some e => .done ⟨a, b, c, d, e.1, (CK.checkCompleteness L.env.eps J.thr D true e.1).2⟩

/-- The steps of a run for a further mesh definition; `merged` are the meshes after the merge. -/
structure NextTrace (K : Type*) where
  layered : St K
  meshed : St K
  modified : St K
  merged : MM.World K
  refined : St K
  smoothed : St K
  ok : Bool

/-- The result of the application for a further mesh definition; `abort` is a failing `ASSERT`. -/
inductive NextRes (K : Type*) where
  | done (t : NextTrace K)
  | abort
  | undef
  | fuel

/-- `MeshConstruction::generate_mesh` (src/app/TQMeshApp.h:129-229) for a further mesh definition: `ni` is the prepared
mesh, `oi` the mesh of the definitions before (`mesh_generator_.mesh(0)`).  The new mesh takes over the old one
(src/app/TQMeshApp.h:181-191); if that is refused, two meshes remain and the `ASSERT` in line 188 fails.  Refinement,
smoothing and check work on the new mesh with the domain `D` of the new definition. -/
def generateNext (L : LEnv K) (fuel : Nat) (J : Job K) (D : Dom.Domain K) (w : MM.World K) (ni oi : Nat) : NextRes K :=
  match layerAll L fuel J.layers (w ni) with
  | none => .undef
  | some a =>
    match triangulate L.env J.par 0 fuel J.ix1 a with
    | .undef => .undef
    | .fuel => .fuel
    | .ret _ b =>
      match if J.toQuad then MC.tri2quad L.env.eps J.ix2 (J.order b) b else some b with
      | none => .undef
      | some c =>
        match MM.merge L.env.eps (upd w ni fun _ => c) ni oi false with
        | none => .undef
        | some (_, false) => .abort
        | some (w', true) =>
          match refineAll J.refinements (w' ni) with
          | none => .undef
          | some d =>
            match smoothMixed J.nearest L.env.norm J.cfg J.torsion J.laplace J.decay J.smoothing (d, J.step) with
            | none => .undef
            | some e => .done ⟨a, b, c, w', d, e.1, (CK.checkCompleteness L.env.eps J.thr D true e.1).2⟩

end TQ.AM

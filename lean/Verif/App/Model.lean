import Verif.Reader.Model
import Verif.QuadTree.Model

/-!
# Model of `src/app/TQMeshApp.h`

Modelled: the checks of vertex indices, the extent of the domain, the error messages for mandatory
parameters, the choice of the exterior boundary, and the loop over the mesh definitions. The
generation of a single mesh (`construct_mesh`, lines 94-126) is a parameter of the loop; its steps
are modelled in the other directories.

Not modelled: printing of parameters (lines 33-89), the remaining transfer of values from parameters to
arguments.
-/

namespace TQ
namespace App

/-- Conversion of an `int` to `size_t` (64 bit). -/
def toSize (z : Int) : Nat := (z % 2 ^ 64).toNat

/-- Outcome of reading edges: `error` is a thrown exception, `abort` the failed `ASSERT` of `Container::operator[]` (undefined behaviour in release builds). -/
inductive EOut (β : Type*) where
  | error
  | abort
  | ok (b : β)
deriving DecidableEq, Repr

/-- The loop over the rows of an edge definition with the check `bad i1 i2` (src/app/TQMeshApp.h:598-614, 431-447, 388-403) and `n` vertices: the vertices joined. Markers are left out. -/
def addEdges (bad : Nat → Nat → Bool) (n : Nat) : List (Int × Int) → EOut (List (Nat × Nat))
  | [] => .ok []
  | (z1, z2) :: rows =>
    let i1 := toSize z1
    let i2 := toSize z2
    if bad i1 i2 then .error
    else if i1 < n ∧ i2 < n then
      match addEdges bad n rows with
      | .ok es => .ok ((i1, i2) :: es)
      | r => r
    else .abort

/-- The check for exterior boundaries (src/app/TQMeshApp.h:605). -/
def badExterior (n i1 i2 : Nat) : Bool := i1 > n || i2 > n

/-- The check for interior boundaries (src/app/TQMeshApp.h:438). -/
def badInterior (n i1 i2 : Nat) : Bool := i1 ≥ n || i2 ≥ n

/-- The check for fixed edges (src/app/TQMeshApp.h:394). -/
def badFixed (n i1 i2 : Nat) : Bool := i1 ≥ n || i2 ≥ n

/-- `"text" + mesh_id_` as in src/app/TQMeshApp.h:859,862,871: the sum of a pointer and an integer. `none` is a pointer outside of the text, which is undefined behaviour. The text is followed by a terminating zero. -/
def message (text : List Char) (k : Int) : Option (List Char) :=
  if 0 ≤ k ∧ k ≤ text.length then some (text.drop k.toNat) else none

/-- The texts of the three errors. -/
def texts : List (List Char) :=
  ["No output file prefix defined for mesh ".toList, "No output format defined for mesh ".toList,
   "Invalid size function definition for mesh ".toList]

section
variable {K : Type*} [Field K] [LinearOrder K]

/-- `init_mesh_vertices` (src/app/TQMeshApp.h:803-850): the extent of the domain. `none`: no boundary vertices are defined; `big` is `TQ_MAX`. -/
def domainExtent (big : K) : Option (List (Pt K)) → K
  | none => big
  | some vs => vs.foldl (fun e v => max (max e |v.x|) |v.y|) 0 * (21 / 10)

/-- The square of the search tree of the domain's vertices (src/app/TQMeshApp.h:794, src/algorithm/Domain.h:204-210, src/utils/QuadTree.h:94-100). -/
def domainBox (extent : K) : Box K := ⟨⟨0, 0⟩, extent⟩
end

/-- `init_exterior_boundary` (src/app/TQMeshApp.h:580-760): the kinds of definitions are queried in a fixed order and the first that succeeds is used. -/
def pickExterior {β : Type*} : List (Option β) → Option β
  | [] => none
  | some b :: _ => some b
  | none :: r => pickExterior r

/-- Outcome of a run: thrown exception (the process ends with a failure), or the returned flag; and the calls of `construct_mesh` with the number of the mesh and the lines of its definition. -/
structure RunRes where
  exc : Bool
  ret : Bool
  calls : List (Nat × Nat × Nat)
deriving DecidableEq, Repr

/-- The loop of `run` (src/app/TQMeshApp.h:940-957) for at most `n` rounds; `construct` is `construct_mesh`, `none` an exception. -/
def loop (construct : Nat → Nat × Nat → Option Bool) (file : List PR.Line) : Nat → Nat → Bool → PR.Block → RunRes
  | 0, _, success, _ => ⟨false, success, []⟩
  | n + 1, id, success, b => match PR.queryBlock file b with
    | .ub => ⟨true, false, []⟩
    | .ret false _ => ⟨false, success, []⟩
    | .ret true b' =>
      let r := (b'.cur.bs, b'.cur.be)
      match construct id r with
      | none => ⟨true, false, [(id, r)]⟩
      | some ok =>
        let rest := loop construct file n (id + 1) (success && ok) b'
        { rest with calls := (id, r) :: rest.calls }

/-- `run` (src/app/TQMeshApp.h:928-959) with the keys of lines 977-978; `file` is the content without comment lines. Each definition has two lines of its own, so that the number of lines bounds the number of rounds. -/
def run (construct : Nat → Nat × Nat → Option Bool) (file : List PR.Line) : RunRes :=
  loop construct file (file.length + 1) 0 true
    ⟨"Define mesh:".toList, "End mesh".toList, ⟨0, file.length, 0⟩, []⟩

end App
end TQ

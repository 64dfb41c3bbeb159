import Verif.Front.Model
import Verif.Merger.Model

/-!
# Model of `src/algorithm/MeshBuilder.h`, `MeshGenerator.h` and `EntityChecks.h`

Meshes and domains are identified by their addresses (natural numbers).  The contents of all meshes form a world
(see `Verif/Merger/Model.lean`).  `TERMINATE` and undefined behaviour are separate outcomes.
-/

set_option linter.unusedSectionVars false

namespace TQ
namespace GN
open MS MS.St MM

section Prepare
variable {K : Type*} [Field K] [LinearOrder K]

/-! ## Checks -/

/-- The loop of `is_traversable` (src/algorithm/EdgeList.h:282-303): at most `n` edges are followed from the edge
with index `i` (`get_next_edge` is `nextIdx`); true if the edge `stop` is reached. -/
def followTo (es : List BEdge) (stop : Nat) : Nat → Nat → Bool
  | 0, _ => false
  | n + 1, i =>
    match es[i]? with
    | none => false
    | some e =>
      match nextIdx es i e with
      | none => false
      | some j => if j = stop then true else followTo es stop n j

/-- `is_traversable(e, e)` for the edge with index `i` (src/algorithm/EdgeList.h:282-303). -/
def isTraversable (es : List BEdge) (i : Nat) : Bool := followTo es i es.length i

/-- `check_domain_validity` (src/algorithm/EntityChecks.h:35-98).  `none` is undefined behaviour: `edges()[0]` of a
boundary without edges (src/utils/Container.h:231-239).  The domain is a list of boundaries, each with the flag
`is_exterior()` and its edges. -/
def checkDomain (eps : K) (pos : Nat → Pt K) (bdries : List (Bool × List BEdge)) : Option Bool :=
  if bdries.length < 1 then some false
  else if !bdries.any (·.1) then some false
  else if bdries.any (fun b => b.2.isEmpty) then
    -- the boundaries before the first empty one are still examined
    if (bdries.takeWhile fun b => !b.2.isEmpty).all (fun b => isTraversable b.2 0) then none else some false
  else if !bdries.all (fun b => isTraversable b.2 0) then some false
  else
    let idx := bdries.zipIdx
    some (idx.all fun b => !intersectsSelf eps pos b.1.2 &&
      idx.all fun c => decide (c.2 = b.2) || !intersectsEdgelist eps pos b.1.2 c.1.2)

/-- `check_front_validity` (src/algorithm/EntityChecks.h:181-187). -/
def checkFront (_ : List Fr.FEdge) : Bool := true

/-! ## Preparation -/

/-- A fixed vertex of the domain: coordinates, `is_fixed()`, number of its edges. -/
structure FixV (K : Type*) where
  xy : Pt K
  fixed : Bool
  nEdges : Nat

/-- A vertex of the mesh with its properties (src/algorithm/Front.h:262-283, src/algorithm/MeshBuilder.h:219-221). -/
def addVert (s : St K) (v : Fr.MVert K) : St K := (s.addVertex v.xy).setProps s.nxt fun _ => v.props

/-- One turn of the loop over the fixed vertices (src/algorithm/MeshBuilder.h:211-222). -/
def addFixed (s : St K) (v : FixV K) : St K :=
  if !v.fixed then s
  else if v.nEdges > 0 then s
  else addVert s ⟨v.xy, Flags.add (Flags.add 0 Flags.vIsFixed) Flags.vOnFront⟩

/-- One turn of the loop over the front edges (src/algorithm/MeshBuilder.h:225-258) for the mesh `a`; `off` is the
address of the first vertex.  The twin edges of the front are numbered in the order in which
`FrontInitData` collected them; `refs` holds their addresses (this order is kept by
`refine_front_edges`, src/algorithm/Front.h:231-255). -/
def addFrontEdge (a off : Nat) (c : World K × List (Nat × Nat)) (e : Fr.FEdge) : World K × List (Nat × Nat) :=
  if e.isFixed then c
  else
    let n := (c.1 a).nxt
    let w : World K := upd c.1 a fun s => s.addEdge .bdry (off + e.v1) (off + e.v2) e.color e.props
    if e.twin then
      match c.2 with
      | [] => (w, [])
      | x :: rest => (upd (upd w x.1 fun s => setTwin s x.2 (a, n)) a fun s => setTwin s n x, rest)
    else (w, c.2)

/-- `Mesh::is_empty` (src/algorithm/Mesh.h:112-113). -/
def isEmpty (s : St K) : Bool :=
  decide (s.verts.length = 0) && decide (s.quads.length + s.tris.length = 0) &&
    decide ((s.es .intr).length + (s.es .bdry).length = 0)

/-- What `prepare_mesh` takes from the domain and the other meshes: the boundaries, the front data, the
subdivision of the edges, the fixed vertices, the addresses of the twin edges. -/
structure Prep (K : Type*) where
  eps : K
  pos : Nat → Pt K
  bdries : List (Bool × List BEdge)
  front : Fr.FID K
  sub : List (Fr.MVert K) → Fr.FEdge → Option (List (Pt K))
  fixed : List (FixV K)
  refs : List (Nat × Nat)

/-- Outcome of `prepare_mesh`: the returned value; `undef` is undefined behaviour in the check of the domain;
`loops` stands for a subdivision of an edge that does not end (see `TQ.C32_terminates`). -/
inductive PrepRes (K : Type*) where
  | ret (ok : Bool) (w : World K)
  | undef
  | loops

/-- `prepare_mesh` (src/algorithm/MeshBuilder.h:175-263) of the mesh `a`.  The branch for an invalid front
(lines 195-208) is never taken, see `checkFront`; its clean-up loop is `cleanup` below. -/
def prepareMesh (P : Prep K) (w : World K) (a : Nat) : PrepRes K :=
  if !isEmpty (w a) then .ret false w
  else match checkDomain P.eps P.pos P.bdries with
    | none => .undef
    | some false => .ret false w
    | some true =>
      match Fr.initFront P.sub [] P.front with
      | none => .loops
      | some (vs, es, _) =>
        let off := (w a).nxt
        let w1 : World K := upd w a fun s => vs.foldl addVert s
        if !checkFront es then .ret false w1
        else
          let w2 : World K := upd w1 a fun s => P.fixed.foldl addFixed s
          .ret true (es.foldl (addFrontEdge a off) (w2, P.refs)).1

end Prepare

/-! ## The clean-up loop -/

/-- A position in a `std::list`: a node, or the end of one of the two lists of a container. -/
inductive Pos where
  | node (n : Nat)
  | endItems
  | endWaste
deriving DecidableEq, Repr

/-- The node after `n`, or the end of the list (`++it`). -/
def succIn (l : List Nat) (stop : Pos) (n : Nat) : Pos :=
  match l.drop (l.idxOf n + 1) with
  | [] => stop
  | m :: _ => .node m

/-- `++it`: nodes keep their links when they are spliced into the other list. -/
def advance (items waste : List Nat) : Pos → Option Pos
  | .node n =>
    if n ∈ items then some (succIn items .endItems n)
    else if n ∈ waste then some (succIn waste .endWaste n) else none
  | _ => none

/-- The loop `for ( auto& v_ptr : mesh.vertices() ) mesh.remove_vertex( *v_ptr );`
(src/algorithm/MeshBuilder.h:199-200): `Container::remove` splices the node to the end of `waste_`
(src/utils/Container.h:175-189; the item is found in the tree).  The result is the lists and `true`, or
`none`: the end of a list is dereferenced (undefined behaviour); out of fuel: the last flag is `false`. -/
def cleanup : Nat → List Nat → List Nat → Pos → Option (List Nat × List Nat × Bool)
  | 0, items, waste, _ => some (items, waste, false)
  | _ + 1, items, waste, .endItems => some (items, waste, true)
  | _ + 1, _, _, .endWaste => none
  | k + 1, items, waste, .node n =>
    let r := if n ∈ items then (items.filter (· ≠ n), waste ++ [n]) else (items, waste)
    match advance r.1 r.2 (.node n) with
    | none => none
    | some p => cleanup k r.1 r.2 p

/-- `begin()` of the items. -/
def start (items : List Nat) : Pos :=
  match items with
  | [] => .endItems
  | n :: _ => .node n

/-! ## The generator -/

/-- The algorithms of the accessors (src/algorithm/MeshGenerator.h:160-246). -/
inductive Kind where
  | triangulation | quadLayer | laplace | torsion | mixed | quadRefinement | tri2quad
deriving DecidableEq, Repr

/-- The four members that hold an algorithm (src/algorithm/MeshGenerator.h:380-392). -/
inductive Slot where
  | meshing | smoothing | refinement | modification
deriving DecidableEq, Repr

/-- The member used for an algorithm. -/
def Kind.slot : Kind → Slot
  | .triangulation | .quadLayer => .meshing
  | .laplace | .torsion | .mixed => .smoothing
  | .quadRefinement => .refinement
  | .tri2quad => .modification

/-- An algorithm object: its type, the mesh and the domain it refers to, and its identity (the settings of the
user live in the object). -/
structure Alg where
  kind : Kind
  mesh : Nat
  domain : Nat
  ident : Nat
deriving DecidableEq, Repr

/-- `MeshGenerator` with its `MeshBuilder` (src/algorithm/MeshGenerator.h:380-392,
src/algorithm/MeshBuilder.h:268-270) and the contents of the meshes.  A slot holds `none` if its type is `None`;
`fresh` is the identity of the next object. -/
structure Gen (K : Type*) where
  meshes : List Nat
  bMeshes : List Nat
  bDomains : List Nat
  slots : Slot → Option Alg
  fresh : Nat
  w : World K

variable {K : Type*} [Field K] [LinearOrder K]

/-- `MeshGenerator()` (src/algorithm/MeshGenerator.h:75). -/
def Gen.init (w : World K) : Gen K := ⟨[], [], [], fun _ => none, 0, w⟩

/-- The loop of `get_domain` (src/algorithm/MeshBuilder.h:62-68); `none` is the null pointer.  Reading `domains_`
out of range does not happen (`TQ.C63_registry`). -/
def getDomain (m : Nat) : List Nat → List Nat → Option Nat
  | x :: xs, d :: ds => if x = m then some d else getDomain m xs ds
  | _, _ => none

/-- `get_domain` of the builder. -/
def Gen.domain (g : Gen K) (m : Nat) : Option Nat := getDomain m g.bMeshes g.bDomains

/-- `is_valid` (src/algorithm/MeshGenerator.h:85-86). -/
def Gen.isValid (g : Gen K) (m : Nat) : Bool := (g.domain m).isSome

/-- `mesh(i)` (src/algorithm/MeshGenerator.h:78-83); `none` is `TERMINATE`. -/
def Gen.mesh (g : Gen K) (i : Nat) : Option Nat := if i ≥ g.meshes.length then none else g.meshes[i]?

/-- `new_mesh` (src/algorithm/MeshGenerator.h:94-107): the new mesh is at the address `a`; `prep` is the effect of
`create_empty_mesh_ptr` and `prepare_mesh`, whose result is ignored. -/
def Gen.newMesh (g : Gen K) (prep : World K → Nat → World K × Bool) (a d : Nat) : Gen K :=
  { g with meshes := g.meshes ++ [a], bMeshes := g.bMeshes ++ [a], bDomains := g.bDomains ++ [d]
           w := (prep g.w a).1 }

/-- `remove_mesh_and_domain` (src/algorithm/MeshBuilder.h:136-153). -/
def Gen.removeMesh (g : Gen K) (m : Nat) : Option (Gen K) :=
  if m ∈ g.bMeshes then
    some { g with bDomains := g.bDomains.eraseIdx (g.bMeshes.idxOf m), bMeshes := g.bMeshes.eraseIdx (g.bMeshes.idxOf m) }
  else none

/-- `merge_meshes` (src/algorithm/MeshGenerator.h:112-139): the generator and the returned value; `none` is undefined
behaviour inside `MeshMerger::merge`. -/
def Gen.mergeMeshes (eps : K) (g : Gen K) (r d : Nat) : Option (Gen K × Bool) :=
  if (g.domain r).isNone || (g.domain d).isNone then some (g, false)
  else match merge eps g.w r d false with
    | none => none
    | some (w', false) => some ({ g with w := w' }, true)
    | some (w', true) =>
      if d ∈ g.meshes then
        match ({ g with w := w' } : Gen K).removeMesh d with
        | none => some ({ g with w := w' }, false)
        | some g' => some ({ g' with meshes := g'.meshes.erase d }, true)
      else some ({ g with w := w' }, false)

/-- `set_algorithm` (src/algorithm/MeshGenerator.h:256-375); `none` is the result `false`. -/
def Gen.setAlgorithm (g : Gen K) (k : Kind) (m : Nat) : Option (Gen K) :=
  match g.domain m with
  | none => none
  | some d => some { g with slots := fun s => if s = k.slot then some ⟨k, m, d, g.fresh⟩ else g.slots s, fresh := g.fresh + 1 }

/-- The accessors (src/algorithm/MeshGenerator.h:160-246); `none` is `TERMINATE`. -/
def Gen.access (g : Gen K) (k : Kind) (m : Nat) : Option (Gen K × Alg) :=
  match g.slots k.slot with
  | some al =>
    if al.kind ≠ k ∨ al.mesh ≠ m then
      match g.setAlgorithm k m with
      | none => none
      | some g' => (g'.slots k.slot).map fun al => (g', al)
    else some (g, al)
  | none =>
    match g.setAlgorithm k m with
    | none => none
    | some g' => (g'.slots k.slot).map fun al => (g', al)

end GN
end TQ

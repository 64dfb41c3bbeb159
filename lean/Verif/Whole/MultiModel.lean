import Verif.Whole.FileModel

/-!
# Model: the neighbour edges of other meshes with their addresses (src/algorithm/FrontInitData.h:165-245)

`Fr.nbrEdges` has the neighbour edges without their addresses; here the search keeps the mesh and the edge, which
`prepare_mesh` needs for the links between the meshes (src/algorithm/MeshBuilder.h:239-251).
-/

set_option linter.unusedSectionVars false

namespace TQ.GN
open MS MS.St MM
variable {K : Type*} [Field K] [LinearOrder K]

/-- An edge of a mesh as `add_edge_data` reads it (src/algorithm/FrontInitData.h:213-245). -/
def edgeSrc (s : St K) (e : Nat) : Fr.SrcEdge K :=
  ⟨s.pos (s.E e).v1, s.pos (s.E e).v2, (s.E e).color, Flags.has (s.E e).props Flags.eIsFixed,
   Flags.has (s.V (s.E e).v1).props Flags.vIsFixed, Flags.has (s.V (s.E e).v2).props Flags.vIsFixed⟩

/-- The boundary edges of a mesh with their addresses (src/algorithm/Mesh.h:146-151). -/
def bdryOf (w : World K) (m : Nat) : List ((Nat × Nat) × Fr.SrcEdge K) := ((w m).es .bdry).map fun e => ((m, e), edgeSrc (w m) e)

/-- The loop body over the meshes (src/algorithm/FrontInitData.h:177-204), see `Fr.nbrStep`. -/
def nbrStepA (eps : K) (e : Fr.SrcEdge K) (found bdry : List ((Nat × Nat) × Fr.SrcEdge K)) : List ((Nat × Nat) × Fr.SrcEdge K) :=
  let near := bdry.filter fun n => decide (Pt.normSq (Fr.srcMid n.2 - Fr.srcMid e) < 9 / 4 * Pt.normSq (e.p2 - e.p1))
  let onEdge := near.filter fun n => inOnSegment eps e.p1 e.p2 n.2.p1 && inOnSegment eps e.p1 e.p2 n.2.p2
  (found ++ onEdge).mergeSort fun a b => !decide (Pt.normSq (Fr.srcMid b.2 - e.p1) < Pt.normSq (Fr.srcMid a.2 - e.p1))

/-- `get_neighbor_mesh_edges` (src/algorithm/FrontInitData.h:165-208) for the meshes `ms`. -/
def nbrA (eps : K) (w : World K) (ms : List Nat) (e : Fr.SrcEdge K) : List ((Nat × Nat) × Fr.SrcEdge K) :=
  (ms.map (bdryOf w)).foldl (nbrStepA eps e) []

/-- The addresses of the neighbour edges in the order in which `collect_front_edges` meets them (src/algorithm/FrontInitData.h:116-144, 224). -/
def refsOf (eps : K) (w : World K) (ms : List Nat) (bd : List (List (Fr.SrcEdge K))) : List (Nat × Nat) :=
  bd.flatMap fun b => b.flatMap fun e => (nbrA eps w ms e).map (·.1)

end TQ.GN

namespace TQ.Fl
open TQ.Cf TQ.PR TQ.MM
variable {K : Type} [Field K] [LinearOrder K]

/-- What `prepare_mesh` takes from the domain and the other meshes `ms` (src/algorithm/MeshBuilder.h:175-263). -/
def Dm.prepNext (d : Dm K) (eps : K) (sub : List (Fr.MVert K) → Fr.FEdge → Option (List (Pt K))) (w : World K) (ms : List Nat) : GN.Prep K :=
  ⟨eps, storePos d.verts, d.bdries.map fun b => (b.1 == .exterior, b.2.edges), Fr.collect (fun e => (GN.nbrA eps w ms e).map (·.2)) d.sources d.fixedSources, sub,
   d.fixedVerts.map fun i => ⟨storePos d.verts i, true, d.degree i⟩, GN.refsOf eps w ms d.sources⟩

end TQ.Fl

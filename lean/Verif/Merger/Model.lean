import Verif.Cleanup.Model
import Verif.Refinement.Model

/-!
# Model of the merging of meshes: `src/algorithm/MeshMerger.h`

Several meshes, each with its own addresses: a world maps numbers to meshes; twin edges are pairs of a mesh
number and an edge address.  A facet belongs to the mesh of the edge that points to it; the null facet belongs
to no mesh (src/algorithm/Facet.h:145).  `new_vertices_` is keyed by the donor vertex instead of its index
(the indices are assigned at lines 57-58 and are a bijection by `TQ.C47_bijection`).  Dereferencing a null
entry is the outcome `none`.  Receiver and donor are different meshes.
-/

set_option linter.unusedSectionVars false

namespace TQ
namespace MM
open MS MS.St MC
variable {K : Type*} [Field K] [LinearOrder K]

/-- All meshes. -/
abbrev World (K : Type*) := Nat → St K

/-- `new_vertices_` (src/algorithm/MeshMerger.h:323). -/
abbrev NewV := Nat → Option Nat

/-- `e_twin->facet_l()->mesh() == m` (src/algorithm/MeshMerger.h:116, 245, 288) for the twin edge `x`. -/
def facetIn (w : World K) (m : Nat) (x : Nat × Nat) : Bool := decide (x.1 = m) && decide (((w x.1).E x.2).fl ≠ .null)

/-- The change of flags of an interface vertex (src/algorithm/MeshMerger.h:128-131). -/
def pin (p : BitVec 8) : BitVec 8 := Flags.add (Flags.remove p Flags.vOnBoundary) Flags.vIsFixed

/-- One turn of `collect_interface_boundary_vertices` (src/algorithm/MeshMerger.h:105-134). -/
def collect1 (w : World K) (di : Nat) (c : St K × NewV × Nat) (e : Nat) : St K × NewV × Nat :=
  match (c.1.E e).twin with
  | none => c
  | some x =>
    if facetIn w di x then
      let d := (w x.1).E x.2
      let new := upd (upd c.2.1 d.v2 fun _ => some (c.1.E e).v1) d.v1 fun _ => some (c.1.E e).v2
      ((c.1.setProps (c.1.E e).v2 pin).setProps (c.1.E e).v1 pin, new, c.2.2 + 1)
    else c

/-- `collect_interface_boundary_vertices` (src/algorithm/MeshMerger.h:101-138): receiver, new vertices and
number of twins. -/
def collect (w : World K) (ri di : Nat) : St K × NewV × Nat :=
  ((w ri).es .bdry).foldl (collect1 w di) (w ri, fun _ => none, 0)

/-- One turn of `copy_donor_vertices` (src/algorithm/MeshMerger.h:146-157). -/
def copyVertex (d : St K) (c : St K × NewV) (v : Nat) : St K × NewV :=
  match c.2 v with
  | some _ => c
  | none => ((c.1.addVertex (d.pos v)).setProps c.1.nxt (Flags.add · (d.V v).props), upd c.2 v fun _ => some c.1.nxt)

/-- One turn of `copy_donor_quads` (src/algorithm/MeshMerger.h:166-184). -/
def copyQuad (d : St K) (new : NewV) (s : St K) (q : Nat) : Option (St K) :=
  match (d.F (.quad q)).corners.mapM new with
  | some [v1, v2, v3, v4] => some (s.addQuad v1 v2 v3 v4 (d.F (.quad q)).color)
  | _ => none

/-- One turn of `copy_donor_triangles` (src/algorithm/MeshMerger.h:192-207). -/
def copyTri (d : St K) (new : NewV) (s : St K) (t : Nat) : Option (St K) :=
  match (d.F (.tri t)).corners.mapM new with
  | some [v1, v2, v3] => some (s.addTri v1 v2 v3 (d.F (.tri t)).color)
  | _ => none

/-- One turn of `copy_donor_interior_edges` (src/algorithm/MeshMerger.h:215-228). -/
def copyIntr (d : St K) (new : NewV) (s : St K) (e : Nat) : Option (St K) :=
  match new (d.E e).v1, new (d.E e).v2 with
  | some v1, some v2 => some (s.addEdge .intr v1 v2 (-1) (d.E e).props)
  | _, _ => none

/-- `twin_edge( x )` (src/algorithm/Edge.h:149). -/
def setTwin (s : St K) (e : Nat) (x : Nat × Nat) : St K := { s with E := upd s.E e fun d => { d with twin := some x } }

/-- One turn of `copy_donor_boundary_edges` (src/algorithm/MeshMerger.h:238-266). -/
def copyBdry (ri di : Nat) (new : NewV) (w : World K) (e : Nat) : Option (World K) :=
  let d := (w di).E e
  if d.twin.any (facetIn w ri) then some w
  else
    match new d.v1, new d.v2 with
    | some v1, some v2 =>
      let n := (w ri).nxt
      let w1 : World K := upd w ri fun s => s.addEdge .bdry v1 v2 d.color d.props
      match d.twin with
      | none => some w1
      | some x => some (upd (upd w1 x.1 fun s => setTwin s x.2 (ri, n)) ri fun s => setTwin s n x)
    | _, _ => none

/-- The first loop of `convert_boundary_interface_edges` (src/algorithm/MeshMerger.h:277-302): the edges to
remove with the ends of the new edges. -/
def interfaces (w : World K) (ri di : Nat) (new : NewV) : List Nat → Option (List (Nat × Nat × Nat))
  | [] => some []
  | e :: l =>
    match ((w ri).E e).twin with
    | none => interfaces w ri di new l
    | some x =>
      if facetIn w di x then
        match new ((w x.1).E x.2).v1, new ((w x.1).E x.2).v2, interfaces w ri di new l with
        | some v1, some v2, some r => some ((e, v2, v1) :: r)
        | _, _, _ => none
      else interfaces w ri di new l

/-- `convert_boundary_interface_edges` (src/algorithm/MeshMerger.h:272-316). -/
def convert (s : St K) (l : List (Nat × Nat × Nat)) : St K :=
  let s := l.foldl (fun s x => s.removeBdry x.1) s
  l.foldl (fun s x => s.addEdge .intr x.2.1 x.2.2 (-1) 0) s

/-- The last loop of `merge` (src/algorithm/MeshMerger.h:80-84). -/
def remark (s : St K) : St K :=
  (s.es .bdry).foldl (fun t e => (t.setProps (t.E e).v1 (Flags.add · Flags.vOnBoundary)).setProps (t.E e).v2
    (Flags.add · Flags.vOnBoundary)) s

/-- `MeshMerger::merge` (src/algorithm/MeshMerger.h:48-92), with the flag `merged_`; `none` is undefined
behaviour. -/
def merge (eps : K) (w : World K) (ri di : Nat) (merged : Bool) : Option (World K × Bool) :=
  if merged then some (w, false)
  else
    let w1 : World K := upd (upd w ri (setupConnectivity eps)) di (setupConnectivity eps)
    let c := collect w1 ri di
    if c.2.2 = 0 then some (upd w1 ri fun _ => c.1, false)
    else
      let d := w1 di
      let c1 := d.verts.foldl (copyVertex d) (c.1, c.2.1)
      match loopM (copyQuad d c1.2) c1.1 d.quads with
      | none => none
      | some s =>
        match loopM (copyTri d c1.2) s d.tris with
        | none => none
        | some s =>
          match loopM (copyIntr d c1.2) s (d.es .intr) with
          | none => none
          | some s =>
            match loopM (copyBdry ri di c1.2) (upd w1 ri fun _ => s) (d.es .bdry) with
            | none => none
            | some w2 =>
              match interfaces w2 ri di c1.2 ((w2 ri).es .bdry) with
              | none => none
              | some l => some (upd w2 ri fun s => remark (convert s l), true)

end MM
end TQ

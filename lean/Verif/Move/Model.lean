import Verif.QuadTree.Model

/-!
# Model of the move constructors of containers, edge lists and meshes

Cells of quad trees are objects with addresses here. Parent pointers, `depth_` and the limits are left out: they are not used below.
-/

namespace TQ
namespace Mv
variable {α K : Type*}

/-- The attributes of a cell (src/utils/QuadTree.h:568-585): `kids` are the pointers in `children_` if `split_` is set. -/
structure Cell (α K : Type*) where
  b : Box K
  n : Nat
  items : List α
  kids : Option (Nat × Nat × Nat × Nat)
deriving DecidableEq

/-- The objects that are alive, by address. -/
abbrev Heap (α K : Type*) := Nat → Option (Cell α K)

/-- How a destruction ends: normally, or with a second destruction of the same object (undefined behaviour); `deep` means that the bound on the recursion of the model is used up. -/
inductive Freed (α K : Type*) where
  | ok (h : Heap α K)
  | ub
  | deep

/-- The end of an object. -/
def free (h : Heap α K) (a : Nat) : Heap α K := fun x => if x = a then none else h x

/-- The destruction of a cell (src/utils/QuadTree.h:107-117): its children are deleted in their order if it is split. -/
def destroy : Nat → Heap α K → Nat → Freed α K
  | 0, _, _ => .deep
  | k + 1, h, a =>
    match h a with
    | none => .ub
    | some c =>
      match c.kids with
      | none => .ok (free h a)
      | some (a0, a1, a2, a3) =>
        match destroy k h a0 with
        | .ub => .ub
        | .deep => .deep
        | .ok h0 =>
          match destroy k h0 a1 with
          | .ub => .ub
          | .deep => .deep
          | .ok h1 =>
            match destroy k h1 a2 with
            | .ub => .ub
            | .deep => .deep
            | .ok h2 =>
              match destroy k h2 a3 with
              | .ub => .ub
              | .deep => .deep
              | .ok h3 => .ok (free h3 a)

/-- The move constructor of a container (src/utils/Container.h:81-89) as far as the search tree is concerned. `QuadTree` declares a destructor and no assignment
(src/utils/QuadTree.h:81-117), so `qtree_ = std::move(c.qtree_)` is the implicit copy assignment: the attributes with the pointers in `children_` are copied, and the source
keeps them. -/
def moveTree (h : Heap α K) (src dst : Nat) : Heap α K := fun x => if x = dst then h src else h x

/-- An edge with its end points and the address of its list, `edgelist_` (src/algorithm/Edge.h:98-110, 262-268). -/
structure Ed where
  v1 : Nat
  v2 : Nat
  owner : Nat
deriving DecidableEq

/-- An edge list at an address. -/
structure EList where
  addr : Nat
  edges : List Ed
deriving DecidableEq

/-- `add_edge` (src/algorithm/EdgeList.h:114-166): the edge gets the address of the list. -/
def addEd (l : EList) (v1 v2 : Nat) : EList := ⟨l.addr, l.edges ++ [⟨v1, v2, l.addr⟩]⟩

/-- The move constructor (src/algorithm/EdgeList.h:64-68; called for both lists of a mesh in src/algorithm/Mesh.h:54-63): the edges go to the new list and are not changed. -/
def moveEd (l : EList) (new : Nat) : EList := ⟨new, l.edges⟩

/-- `get_edge_dir` (src/algorithm/EdgeList.h:471-482): `es` are the edges at the vertex `v1`, of whatever list. -/
def getDir (l : EList) (es : List Ed) (v1 v2 : Nat) : Option Ed :=
  es.find? fun e => decide (e.owner = l.addr) && (decide (e.v1 = v1) && decide (e.v2 = v2))

/-- `remove_interior_edge`, `remove_boundary_edge` (src/algorithm/Mesh.h:341-357): nothing happens if the edge says that it belongs to another list. -/
def removeEd (l : EList) (e : Ed) : EList := if e.owner ≠ l.addr then l else ⟨l.addr, l.edges.erase e⟩

end Mv
end TQ

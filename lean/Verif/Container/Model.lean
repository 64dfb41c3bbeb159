import Verif.QuadTree.Model

/-!
# Model of `src/utils/Container.h`

Items are identifiers standing for the addresses of the `unique_ptr` payloads; the coordinates
`xy_` stored in the items are a function in the state because `update` changes them.
Not modelled: copy/move constructors (lines 61-89), `sort`, `container_destructor` (a hook of the
payload type, see the mesh models).
-/

namespace TQ

/-- `Container` (src/utils/Container.h:284-291) together with the `xy_` of all items. -/
structure Cont (α K : Type*) where
  items : List α
  tree : QT α
  waste : List α
  xy : α → Pt K

/-- Result of an operation: `abort` is a failed `ASSERT` of the tree, `ub` a null dereference. -/
inductive Out (β : Type*) where
  | abort
  | ub
  | ok (b : β)
deriving DecidableEq, Repr

namespace Cont
variable {α K : Type*} [DecidableEq α] [Field K] [LinearOrder K]

/-- Constructor (src/utils/Container.h:51-55); the coordinates of objects not yet allocated are
arbitrary. -/
def new (xy : α → Pt K) : Cont α K := ⟨[], QT.empty, [], xy⟩

/-- `item.xy_ = xy_new` -/
def setXY (f : α → Pt K) (x : α) (p : Pt K) : α → Pt K := fun y => if y = x then p else f y

/-- `insert` before the `k`-th item (src/utils/Container.h:141-161): a new object `x` at `p` is put
in the list whether or not the tree accepts it (an error is only logged). `push_back` (168-169) is
`k = size`. `mi`, `md`, `b` are the parameters of the tree. -/
def insert (mi md : Nat) (b : Box K) (c : Cont α K) (k : Nat) (x : α) (p : Pt K) : Cont α K :=
  let xy := setXY c.xy x p
  { c with items := c.items.insertIdx k x, xy := xy, tree := (QT.add mi xy md x b c.tree).1 }

/-- `remove` (src/utils/Container.h:174-188): the result and the new state. -/
def remove (mi : Nat) (b : Box K) (c : Cont α K) (x : α) : Out (Cont α K × Bool) :=
  match QT.remove mi c.xy x b c.tree with
  | none => .abort
  | some (t, true) =>
    .ok ({ c with tree := t, items := c.items.erase x, waste := c.waste ++ [x] }, true)
  | some (t, false) => .ok ({ c with tree := t }, false)

/-- `update` (src/utils/Container.h:193-209). A null `quad` is dereferenced in line 197. -/
def update (mi md : Nat) (b : Box K) (c : Cont α K) (x : α) (p : Pt K) : Out (Cont α K × Bool) :=
  match QT.getLeaf (c.xy x) b c.tree with
  | none => .ub
  | some (bl, _) =>
    if inOnRect p bl.lo bl.up then .ok ({ c with xy := setXY c.xy x p }, true)
    else
      match QT.remove mi c.xy x b c.tree with
      | none => .abort
      | some (t, false) => .ok ({ c with tree := t }, false)
      | some (t, true) =>
        let xy := setXY c.xy x p
        let r := QT.add mi xy md x b t
        .ok ({ c with xy := xy, tree := r.1 }, r.2)

/-- `clear_waste` (src/utils/Container.h:215). -/
def clearWaste (c : Cont α K) : Cont α K := { c with waste := [] }

/-- `size` (src/utils/Container.h:100). -/
def size (c : Cont α K) : Nat := c.items.length

/-- `operator[]` (src/utils/Container.h:220-239): `none` is the failed `ASSERT`. -/
def get (c : Cont α K) (i : Nat) : Option α :=
  if i < c.items.length then c.items[i]? else none

/-- `get_items` for a rectangle (src/utils/Container.h:111-117). -/
def getItemsRect (b : Box K) (c : Cont α K) (lo up : Pt K) : List α :=
  QT.getRect c.xy lo up (QT.rectQuery c.xy lo up) b c.tree

/-- `get_items` for a circle (src/utils/Container.h:122-128). -/
def getItemsCirc (b : Box K) (c : Cont α K) (q : Pt K) (r : K) : List α :=
  QT.getCirc c.xy q r (QT.circQuery c.xy q (r * r)) b c.tree

end Cont
end TQ

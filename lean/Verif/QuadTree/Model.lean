import Verif.Geometry.Model

/-!
# Model of `src/utils/QuadTree.h`

Items are opaque identifiers (the `T*` of the code); their coordinates `item->xy()` are read through
the function `pos`.  A cell is a `Box` (centre and scale); parent pointers are implicit, so the
counter update `add_item_number(±1)`, which walks up the parent chain, happens on the way back from
the recursion.
-/

namespace TQ

/-- Geometry of a cell: `center_`, `scale_` (src/utils/QuadTree.h:398-416). -/
structure Box (K : Type*) where
  c : Pt K
  s : K
deriving DecidableEq, Repr

namespace Box
variable {K : Type*} [Field K] [LinearOrder K]

/-- `lowleft_ = center_ - halfscale_` (src/utils/QuadTree.h:412-414) -/
def lo (b : Box K) : Pt K := ⟨b.c.x - b.s / 2, b.c.y - b.s / 2⟩
/-- `upright_ = center_ + halfscale_` (src/utils/QuadTree.h:412-415) -/
def up (b : Box K) : Pt K := ⟨b.c.x + b.s / 2, b.c.y + b.s / 2⟩
/-- Child cells 0..3 = NE, NW, SW, SE (src/utils/QuadTree.h:489-511); `h = halfscale_/2`. -/
def ch0 (b : Box K) : Box K := ⟨⟨b.c.x + b.s / 2 / 2, b.c.y + b.s / 2 / 2⟩, b.s / 2⟩
def ch1 (b : Box K) : Box K := ⟨⟨b.c.x - b.s / 2 / 2, b.c.y + b.s / 2 / 2⟩, b.s / 2⟩
def ch2 (b : Box K) : Box K := ⟨⟨b.c.x - b.s / 2 / 2, b.c.y - b.s / 2 / 2⟩, b.s / 2⟩
def ch3 (b : Box K) : Box K := ⟨⟨b.c.x + b.s / 2 / 2, b.c.y - b.s / 2 / 2⟩, b.s / 2⟩
/-- the closed containment test used all over the class -/
def has (b : Box K) (p : Pt K) : Bool := inOnRect p b.lo b.up
end Box

/-- A (sub)tree.  `n` is the stored counter `n_items_`; `items` is `items_` of an unsplit cell; a
split cell (`split_ == true`) has an empty `items_` (src/utils/QuadTree.h:523-530) and four children. -/
inductive QT (α : Type*) where
  | leaf (n : Nat) (items : List α)
  | node (n : Nat) (c0 c1 c2 c3 : QT α)
deriving DecidableEq, Repr

namespace QT
variable {α K : Type*} [Field K] [LinearOrder K]

/-- `size()` (src/utils/QuadTree.h:122): the stored counter. -/
def size : QT α → Nat
  | leaf n _ => n
  | node n _ _ _ _ => n

/-- `split()` (src/utils/QuadTree.h:123). -/
def isSplit : QT α → Bool
  | leaf _ _ => false
  | node .. => true

/-- `items()` (src/utils/QuadTree.h:124). -/
def items : QT α → List α
  | leaf _ l => l
  | node .. => []

/-- `n_leafs` (src/utils/QuadTree.h:164-181), accumulator removed. -/
def nLeafs : QT α → Nat
  | leaf _ _ => 1
  | node _ c0 c1 c2 c3 => nLeafs c0 + nLeafs c1 + nLeafs c2 + nLeafs c3

/-- A freshly constructed tree (src/utils/QuadTree.h:92-102). -/
def empty : QT α := leaf 0 []

/-- The array `children_` (src/utils/QuadTree.h:85, 583). -/
structure Kids (α : Type*) where
  k0 : QT α
  k1 : QT α
  k2 : QT α
  k3 : QT α

/-- The short-circuit chain `children_[0]->add(item) || ... || children_[3]->add(item)`
(`pass_children`, src/utils/QuadTree.h:466-480; the same expression at 548-551). -/
def passKids (add : Box K → QT α → QT α × Bool) (b : Box K) (c : Kids α) : Kids α × Bool :=
  let r0 := add b.ch0 c.k0
  if r0.2 then (⟨r0.1, c.k1, c.k2, c.k3⟩, true) else
  let r1 := add b.ch1 c.k1
  if r1.2 then (⟨r0.1, r1.1, c.k2, c.k3⟩, true) else
  let r2 := add b.ch2 c.k2
  if r2.2 then (⟨r0.1, r1.1, r2.1, c.k3⟩, true) else
  let r3 := add b.ch3 c.k3
  (⟨r0.1, r1.1, r2.1, r3.1⟩, r3.2)

/-- `distribute_items` (src/utils/QuadTree.h:537-564).  The first argument is `items_` in reverse
(the loop works from `back()`); `n` is the counter `n_items_` of the cell being split: a successful
child `add` increments it through the parent chain and line 552 decrements it again.  When no child
accepts the item the code throws; the result is then the list of items not yet popped. -/
def distribute (add : α → Box K → QT α → QT α × Bool) (b : Box K) :
    List α → Nat → Kids α → List α × Nat × Kids α
  | [], n, c => ([], n, c)
  | x :: xs, n, c =>
    let r := passKids (add x) b c
    if r.2 then distribute add b xs (n + 1 - 1) r.1 else (x :: xs, n, r.1)

/-- `add` (src/utils/QuadTree.h:316-347) with `split_qtree` (485-532) inlined.  The first argument
is the remaining depth `max_depth_ - depth_`.  The null check of line 319 has no counterpart.
If the distribution throws, `split_` stays false and the exception is swallowed by `add`
(335-343): the cell keeps the items that were not popped.
The case of a split cell at remaining depth 0 cannot occur (a cell splits only if
`depth_ < max_depth_`, and `max_depth_` cannot be changed afterwards, 401-403). -/
def add (mi : Nat) (pos : α → Pt K) : (d : Nat) → α → Box K → QT α → QT α × Bool
  | 0, x, b, leaf n l => if b.has (pos x) then (leaf (n + 1) (l ++ [x]), true) else (leaf n l, false)
  | 0, _, _, node n c0 c1 c2 c3 => (node n c0 c1 c2 c3, false)
  | d + 1, x, b, leaf n l =>
    if b.has (pos x) then
      if (l ++ [x]).length > mi then
        let r := distribute (add mi pos d) b (l ++ [x]).reverse (n + 1) ⟨empty, empty, empty, empty⟩
        if r.1.isEmpty then (node r.2.1 r.2.2.k0 r.2.2.k1 r.2.2.k2 r.2.2.k3, true)
        else (leaf r.2.1 r.1.reverse, true)
      else (leaf (n + 1) (l ++ [x]), true)
    else (leaf n l, false)
  | d + 1, x, b, node n c0 c1 c2 c3 =>
    if b.has (pos x) then
      let r := passKids (add mi pos d x) b ⟨c0, c1, c2, c3⟩
      (node (if r.2 then n + 1 else n) r.1.k0 r.1.k1 r.1.k2 r.1.k3, r.2)
    else (node n c0 c1 c2 c3, false)

/-- `merge` (src/utils/QuadTree.h:435-461): `none` if a child is split. -/
def mergeItems (c0 c1 c2 c3 : QT α) : Option (List α) :=
  if c0.isSplit || c1.isSplit || c2.isSplit || c3.isSplit then none
  else some (c0.items ++ c1.items ++ c2.items ++ c3.items)

/-- Second half of `remove` on a split cell once a child has removed the item
(src/utils/QuadTree.h:363-389); the counter was decremented through the parent chain. `none` is a
failed `ASSERT( merged )` (line 369). -/
def afterRemove (mi : Nat) (n : Nat) (c0 c1 c2 c3 : QT α) : Option (QT α × Bool) :=
  if n - 1 ≤ mi then
    match mergeItems c0 c1 c2 c3 with
    | some l => some (leaf (n - 1) l, true)
    | none => none
  else some (node (n - 1) c0 c1 c2 c3, true)

/-- `remove` (src/utils/QuadTree.h:352-391).  `none` stands for a failed `ASSERT` (lines 363, 369,
381): abort in debug builds, corrupted counters in release builds.  `items_.remove(item)` removes
every occurrence (`filter`). -/
def remove [DecidableEq α] (mi : Nat) (pos : α → Pt K) (x : α) : Box K → QT α → Option (QT α × Bool)
  | b, leaf n l =>
    if b.has (pos x) then
      let l' := l.filter (fun y => !decide (y = x))
      if l'.length < l.length then some (leaf (n - 1) l', true) else none
    else some (leaf n l, false)
  | b, node n c0 c1 c2 c3 =>
    if b.has (pos x) then
      match remove mi pos x b.ch0 c0 with
      | none => none
      | some (c0, true) => afterRemove mi n c0 c1 c2 c3
      | some (c0, false) =>
      match remove mi pos x b.ch1 c1 with
      | none => none
      | some (c1, true) => afterRemove mi n c0 c1 c2 c3
      | some (c1, false) =>
      match remove mi pos x b.ch2 c2 with
      | none => none
      | some (c2, true) => afterRemove mi n c0 c1 c2 c3
      | some (c2, false) =>
      match remove mi pos x b.ch3 c3 with
      | none => none
      | some (c3, true) => afterRemove mi n c0 c1 c2 c3
      | some (_, false) => none
    else some (node n c0 c1 c2 c3, false)

/-- `get_items` for a rectangle with a query predicate `qf` (src/utils/QuadTree.h:234-266).  The
recursive calls use the default predicate (line 251 does not pass `qfun`).  The result is the list
of appended items; the returned count `n_found` is its length (`++n_found` with every `push_back`,
and the sum over the children). -/
def getRect (pos : α → Pt K) (lo up : Pt K) : (qf : α → Bool) → Box K → QT α → List α
  | qf, b, leaf _ l => if rectOverlap b.lo b.up lo up then l.filter qf else []
  | _, b, node _ c0 c1 c2 c3 =>
    let df := fun x => inOnRect (pos x) lo up
    if rectOverlap b.lo b.up lo up then
      getRect pos lo up df b.ch0 c0 ++ getRect pos lo up df b.ch1 c1 ++
      getRect pos lo up df b.ch2 c2 ++ getRect pos lo up df b.ch3 c3
    else []

/-- Default rectangle predicate (src/utils/QuadTree.h:29-32). -/
def rectQuery (pos : α → Pt K) (lo up : Pt K) (x : α) : Bool := inOnRect (pos x) lo up

/-- Default circle predicate (src/utils/QuadTree.h:37-41). -/
def circQuery (pos : α → Pt K) (c : Pt K) (rsq : K) (x : α) : Bool :=
  decide (Pt.normSq (pos x - c) < rsq)

/-- `get_items` for a circle with a query predicate `qf` (src/utils/QuadTree.h:271-311); the cell
test uses a box of half width `1.4142 * radius`. -/
def getCirc (pos : α → Pt K) (c : Pt K) (r : K) : (qf : α → Bool) → Box K → QT α → List α
  | qf, b, leaf _ l =>
    if rectOverlap b.lo b.up ⟨c.x - 14142 / 10000 * r, c.y - 14142 / 10000 * r⟩
        ⟨c.x + 14142 / 10000 * r, c.y + 14142 / 10000 * r⟩ then l.filter qf else []
  | _, b, node _ c0 c1 c2 c3 =>
    let df := circQuery pos c (r * r)
    if rectOverlap b.lo b.up ⟨c.x - 14142 / 10000 * r, c.y - 14142 / 10000 * r⟩
        ⟨c.x + 14142 / 10000 * r, c.y + 14142 / 10000 * r⟩ then
      getCirc pos c r df b.ch0 c0 ++ getCirc pos c r df b.ch1 c1 ++
      getCirc pos c r df b.ch2 c2 ++ getCirc pos c r df b.ch3 c3
    else []

/-- `get_leaf` (src/utils/QuadTree.h:212-227): the cell found (geometry and content);
`none` is `nullptr`. -/
def getLeaf (q : Pt K) : Box K → QT α → Option (Box K × QT α)
  | b, leaf n l => if b.has q then some (b, leaf n l) else none
  | b, node n c0 c1 c2 c3 =>
    if b.has q then
      match getLeaf q b.ch0 c0 with
      | some r => some r
      | none =>
      match getLeaf q b.ch1 c1 with
      | some r => some r
      | none =>
      match getLeaf q b.ch2 c2 with
      | some r => some r
      | none =>
      match getLeaf q b.ch3 c3 with
      | some r => some r
      | none => some (b, node n c0 c1 c2 c3)
    else none

/-- The loop `if (qfun(item, query, min_dist_sqr)) winner = item` with the default predicate
(src/utils/QuadTree.h:46-58, 194-196, 202-204). -/
def scanNearest (pos : α → Pt K) (q : Pt K) : List α → K × Option α → K × Option α
  | [], st => st
  | x :: xs, st =>
    let d := Pt.normSq (pos x - q)
    scanNearest pos q xs (if d < st.1 then (d, some x) else st)

/-- Outcome of an operation that may dereference a null pointer. -/
inductive Deref (β : Type*) where
  | ub
  | val (b : β)
deriving DecidableEq, Repr

/-- `get_nearest` (src/utils/QuadTree.h:186-207).  `sqrt` is a parameter.  A query outside the
extent gives `quad == nullptr`, which is dereferenced in line 191: undefined behaviour. -/
def getNearest (sqrt : K → K) (pos : α → Pt K) (q : Pt K) (b : Box K) (t : QT α) :
    Deref (Option α) :=
  match getLeaf q b t with
  | none => .ub
  | some (bl, tl) =>
    let st := scanNearest pos q tl.items (4 * bl.s * bl.s, none)
    let r := 4 * sqrt st.1
    let found := getCirc pos q r (circQuery pos q (r * r)) b t
    .val (scanNearest pos q found st).2

end QT
end TQ

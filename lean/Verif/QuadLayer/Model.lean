import Verif.FrontUpdate.Model
import Verif.Cleanup.Model
import Verif.Smoothing.Model

/-!
# Model of the quad layers: `src/algorithm/QuadLayering.h`

The mesh and its front are a state of `Verif/Mesh/Model.lean`.  New edges and vertices are appended to their
containers; the code inserts the parts of a split edge at its place (src/algorithm/EdgeList.h:202, 213-214,
src/algorithm/QuadLayering.h:328, 334), which changes only the order in the containers.  Dereferencing a null
pointer is the outcome `none`; the `ASSERT`s in front of it are no-ops in release builds.
-/

set_option linter.unusedSectionVars false

namespace TQ
namespace QL
open MS MS.St FU
variable {K : Type*} [Field K] [LinearOrder K]

/-- What the quad layers take from outside besides the environment of the front update: the comparison of an angle
between two vectors with `angle_factor_ * pi/2` (src/algorithm/QuadLayering.h:197, 876, 958), the sine of half
an angle (line 212), the cosine of an angle (lines 311, 435), `range_factor_` (line 983), and the initial value
`1E+10` of the search for the closest vertex (src/algorithm/EdgeList.h:378). -/
structure LEnv (K : Type*) where
  env : Env K
  angleLe : Pt K → Pt K → Bool
  sinHalf : Pt K → Pt K → K
  cosAngle : Pt K → Pt K → K
  rangeFactor : K
  far : K

/-! ## QuadLayerVertices -/

/-- The base edges, their vertices, heights and projected coordinates, and the projected vertices
(src/algorithm/QuadLayering.h:508-524). -/
structure Layer (K : Type*) where
  base : List Nat
  v1 : List Nat
  v2 : List Nat
  h : List K
  p1 : List (Pt K)
  p2 : List (Pt K)

/-- Result of the walk along the front. -/
inductive Walk where
  | ok (l : List Nat)
  | null
  | loops
deriving DecidableEq, Repr

/-- The loop of the constructor (src/algorithm/QuadLayering.h:66-79) for the successor function `next` (the bodies
of the loop take the edge `e`, then move on; the end edge is added at the end).  The loop has no bound, `loops`
means out of fuel; `null` is the dereferenced null pointer. -/
def walk (next : Nat → Option Nat) (stop : Nat) : Nat → Nat → Walk
  | 0, _ => .loops
  | n + 1, e =>
    match next e with
    | none => .null
    | some f => if f = stop then .ok [e, stop] else
      match walk next stop n f with
      | .ok l => .ok (e :: l)
      | r => r

/-- `Edge::length` (src/algorithm/Edge.h:240). -/
def len (L : LEnv K) (s : St K) (e : Nat) : K := L.env.norm (s.pos (s.E e).v2 - s.pos (s.E e).v1)

/-- `Edge::normal` (src/algorithm/Edge.h:241-244). -/
def normal (L : LEnv K) (s : St K) (e : Nat) : Pt K :=
  let d := s.pos (s.E e).v2 - s.pos (s.E e).v1
  Pt.smul (1 / len L s e) ⟨-d.y, d.x⟩

/-- The height of one base edge (src/algorithm/QuadLayering.h:491). -/
def height (L : LEnv K) (s : St K) (ht : K) (e : Nat) : K := cppMIN ht (len L s e)

/-- `add_quadlayer_edge` for all base edges (src/algorithm/QuadLayering.h:481-503). -/
def mkLayer (L : LEnv K) (s : St K) (ht : K) (base : List Nat) : Layer K :=
  ⟨base, base.map fun e => (s.E e).v1, base.map fun e => (s.E e).v2, base.map (height L s ht),
    base.map fun e => s.pos (s.E e).v1 + Pt.smul (height L s ht e) (normal L s e),
    base.map fun e => s.pos (s.E e).v2 + Pt.smul (height L s ht e) (normal L s e)⟩

/-- The loop of `smooth_heights` (src/algorithm/QuadLayering.h:124-134) behind the entry with the (new) height
`prev`; the pairs are heights and local sizes of the base edges. -/
def smoothGo : K → List (K × K) → List K
  | _, [] => []
  | _, [x] => [x.1]
  | prev, x :: y :: rest =>
    let h := cppMIN x.2 ((prev + x.1 + y.1) / 3)
    h :: smoothGo h (y :: rest)

/-- `smooth_heights` (src/algorithm/QuadLayering.h:122-136). -/
def smooth (l : List (K × K)) : List K :=
  match l with
  | [] => []
  | x :: rest => x.1 :: smoothGo x.1 rest

/-- The midpoint of an edge (`Edge::xy`, src/algorithm/Edge.h:99). -/
def mid (s : St K) (e : Nat) : Pt K := Pt.smul (1 / 2) (s.pos (s.E e).v1 + s.pos (s.E e).v2)

/-- `smooth_heights` of a layer. -/
def smoothLayer (L : LEnv K) (s : St K) (y : Layer K) : Layer K :=
  { y with h := smooth (y.h.zip (y.base.map fun e => L.env.rho (mid s e))) }

/-- The joint of two adjacent projections (src/algorithm/QuadLayering.h:202-212). -/
def joint (L : LEnv K) (s : St K) (ei ej : Nat) (hi hj : K) (p q r : Pt K) : Pt K :=
  let n := Pt.smul (1 / 2) (normal L s ei + normal L s ej)
  let nn := Pt.smul (1 / L.env.norm n) n
  q + Pt.smul (1 / L.sinHalf (p - q) (r - q)) (Pt.smul (1 / 2 * (hi + hj)) nn)

/-- `adjust_projected_vertex_coordinates` (src/algorithm/QuadLayering.h:185-219); indices are in range. -/
def adjust (L : LEnv K) (s : St K) (y : Layer K) (i j : Nat) : Layer K :=
  match y.v1[i]?, y.v1[j]?, y.v2[j]?, y.base[i]?, y.base[j]?, y.h[i]?, y.h[j]? with
  | some a, some b, some c, some ei, some ej, some hi, some hj =>
    let p := s.pos a
    let q := s.pos b
    let r := s.pos c
    if isLeft L.env.eps p r q && L.angleLe (p - q) (r - q) then y
    else
      let x := joint L s ei ej hi hj p q r
      { y with p1 := y.p1.set j x, p2 := y.p2.set i x }
  | _, _, _, _, _, _, _ => y

/-- The loop of `setup_vertex_projection` (src/algorithm/QuadLayering.h:147-153). -/
def adjustAll (L : LEnv K) (s : St K) (closed : Bool) (y : Layer K) : Layer K :=
  let y1 := (List.range (y.base.length - 1)).foldl (fun y i => adjust L s y i (i + 1)) y
  if closed then adjust L s y1 (y.base.length - 1) 0 else y1

/-- `EdgeList::split_edge` of a front edge (src/algorithm/EdgeList.h:183-225): the new vertex is `s.nxt`, the new
edges are `s.nxt + 1` and `s.nxt + 2`; `none` is a pair of null pointers. -/
def splitFront (s : St K) (e : Nat) (sf : K) : Option (St K) :=
  if 1 ≤ sf ∨ sf ≤ 0 then none
  else
    let d := s.E e
    let n := s.nxt
    let s1 := s.addVertex (Pt.smul sf (s.pos d.v1) + Pt.smul (1 - sf) (s.pos d.v2))
    let s2 := s1.setProps n fun p => Flags.add (Flags.add p (s.V d.v1).props) (s.V d.v2).props
    let s3 := if s.isInterior e then s2.setProps n (Flags.remove · Flags.vOnBoundary) else s2
    some (((s3.addEdge .front d.v1 n d.color d.props).addEdge .front n d.v2 d.color d.props).removeEdge e)

/-- The same for the boundary edge of the mesh (src/algorithm/QuadLayering.h:318-338, 441-460); `d` holds the data
of the split front edge, `n` is the new vertex. -/
def splitBdry (s : St K) (d : EData) (n b : Nat) : Option (St K) :=
  match s.nextEdge b with
  | none => none
  | some _ => some (((s.removeEdge b).addEdge .bdry d.v1 n d.color d.props).addEdge .bdry n d.v2 d.color d.props)

/-- Scenario 2 of `place_start_vertex` and `place_end_vertex` (src/algorithm/QuadLayering.h:300-345, 425-467): the
new state and the new vertex. -/
def split (s : St K) (e : Nat) (sf : K) : Option (St K × Nat) :=
  let d := s.E e
  let b := s.getEdge .bdry d.v1 d.v2
  match splitFront s e sf with
  | none => none
  | some s1 =>
    match b with
    | none => some (s1, s.nxt)
    | some b => (splitBdry s1 d s.nxt b).map fun s2 => (s2, s.nxt)

/-- The shifted position of the neighbour vertex `q` of the corner `v` in scenario 1
(src/algorithm/QuadLayering.h:289-292, 414-417); `x` is the projected coordinate. -/
def shifted (v q x : Pt K) : Pt K :=
  v + Pt.smul (Pt.dot (q - v) (x - v) / Pt.normSq (q - v)) (q - v)

/-- The three scenarios for the corner `v` with neighbour vertex `q` on the front edge `e`
(src/algorithm/QuadLayering.h:280-352, 405-474): the new state and the new projected coordinate.  `atEnd` selects
the split factor of `place_end_vertex`. -/
def place (L : LEnv K) (s : St K) (e v q : Nat) (h : K) (x : Pt K) (atEnd : Bool) : Option (St K × Pt K) :=
  if Pt.normSq (s.pos q - x) < h * h then
    let p := shifted (s.pos v) (s.pos q) x
    some (s.setPos q p, p)
  else if h < len L s e then
    let f := h * L.cosAngle (s.pos q - s.pos v) (x - s.pos v) / len L s e
    match split s e (if atEnd then 1 - f else f) with
    | none => none
    | some (s', n) => some (s', s'.pos n)
  else some (s, s.pos q)

/-- `place_start_vertex` (src/algorithm/QuadLayering.h:256-354) for the start edge `e`. -/
def placeStart (L : LEnv K) (s : St K) (e : Nat) (y : Layer K) : Option (St K × Layer K) :=
  match s.prevEdge e, y.v1[0]?, y.v2[0]?, y.h[0]?, y.p1[0]? with
  | some ep, some a, some b, some h, some x =>
    let q := (s.E ep).v1
    if !isLeft L.env.eps (s.pos a) (s.pos b) (s.pos q) then some (s, y)
    else
      match place L s ep a q h x false with
      | none => none
      | some (s', p) => some (s', { y with p1 := y.p1.set 0 p })
  | _, _, _, _, _ => none

/-- `place_end_vertex` (src/algorithm/QuadLayering.h:375-476) for the end edge `e`. -/
def placeEnd (L : LEnv K) (s : St K) (e : Nat) (y : Layer K) : Option (St K × Layer K) :=
  let i := y.base.length - 1
  match s.nextEdge e, y.v1[i]?, y.v2[i]?, y.h[i]?, y.p2[i]? with
  | some en, some a, some b, some h, some x =>
    let q := (s.E en).v2
    if !isLeft L.env.eps (s.pos a) (s.pos b) (s.pos q) then some (s, y)
    else
      match place L s en b q h x true with
      | none => none
      | some (s', p) => some (s', { y with p2 := y.p2.set i p })
  | _, _, _, _, _ => none

/-- `setup_vertex_projection` (src/algorithm/QuadLayering.h:144-160). -/
def setup (L : LEnv K) (s : St K) (es ee : Nat) (closed : Bool) (y : Layer K) : Option (St K × Layer K) :=
  let y1 := adjustAll L s closed y
  if closed then some (s, y1)
  else
    match placeStart L s es y1 with
    | none => none
    | some (s1, y2) => placeEnd L s1 ee y2

/-! ## Elements -/

/-- The merge of two triangles into a quad (src/algorithm/QuadLayering.h:797-805). -/
def toQuad (s : St K) (e t1 t2 a b p2 p1 : Nat) : St K :=
  let s1 := ((s.removeIntr e).removeTri t1).removeTri t2
  (s1.addQuad a b p2 p1 (-1)).activate (.quad s1.nxt)

/-- `create_quad_layer_element` (src/algorithm/QuadLayering.h:751-809): the new state and the two projected vertices
(`none`: null pointer).  The third corner of a new triangle is read from its corners. -/
def element (L : LEnv K) (s : St K) (base v1 : Nat) (x1 : Pt K) (v2 : Nat) (x2 : Pt K) : St K × Option Nat × Option Nat :=
  match updateFront L.env s base x1 x1 (L.rangeFactor * L.env.norm (s.pos v1 - x1)) with
  | (s1, none) => (s1, none, none)
  | (s1, some t1) =>
    match (s1.F (.tri t1)).corners[2]? with
    | none => (s1, none, none)
    | some q1 =>
      match s1.getEdge .front q1 v2 with
      | none => (s1, some q1, none)
      | some dg =>
        match updateFront L.env s1 dg x2 x2 (L.rangeFactor * L.env.norm (s1.pos v2 - x2)) with
        | (s2, none) => (s2, some q1, none)
        | (s2, some t2) =>
          match (s2.F (.tri t2)).corners[2]? with
          | none => (s2, some q1, none)
          | some q2 =>
            match s2.getEdge .intr v2 q1 with
            | none => (s2, some q1, some q2)
            | some er => (toQuad s2 er t1 t2 v1 v2 q2 q1, some q1, some q2)

/-- One turn of the loop in `create_quad_layer` (src/algorithm/QuadLayering.h:715-732): base edge, its vertices and
projected coordinates; an edge in the waste is skipped. -/
def elementStep (L : LEnv K) (c : St K × List (Option Nat × Option Nat)) (b : Nat × Nat × Nat × Pt K × Pt K) :
    St K × List (Option Nat × Option Nat) :=
  if b.1 ∉ c.1.es .front then (c.1, c.2 ++ [(none, none)])
  else
    let r := element L c.1 b.1 b.2.1 b.2.2.2.1 b.2.2.1 b.2.2.2.2
    (r.1, c.2 ++ [r.2])

/-- The entries of a layer, one for each base edge. -/
def Layer.entries (y : Layer K) : List (Nat × Nat × Nat × Pt K × Pt K) :=
  y.base.zip (y.v1.zip (y.v2.zip (y.p1.zip y.p2)))

/-- `create_quad_layer` (src/algorithm/QuadLayering.h:700-734): the projected vertices of every base edge. -/
def create (L : LEnv K) (s : St K) (y : Layer K) : St K × List (Option Nat × Option Nat) :=
  y.entries.foldl (elementStep L) (s, [])

/-- `close_quad_layer_gap` (src/algorithm/QuadLayering.h:869-914) with `remove_from_mesh_if_invalid`
(src/algorithm/FrontUpdate.h:217-224, 236-245). -/
def closeGap (L : LEnv K) (s : St K) (a b c : Nat) : Option (St K) :=
  let l1 := s.pos a - s.pos b
  let l2 := s.pos c - s.pos b
  if L.angleLe l1 l2 then
    let t := s.nxt
    let s1 := s.addTri a b c (-1)
    if !triangleIsValid L.env s1 t a b c then some (s1.removeTri t)
    else
      match s1.getEdge .front b c with
      | none => none
      | some e => some (advanceFront s1 e a t)
  else
    let v := s.nxt
    let s1 := ((s.addVertex (s.pos b + l1 + l2)).addTri a b v (-1)).addTri b c v (-1)
    let t1 := v + 1
    let t2 := v + 2
    if !(vertexIsValid L.env s1 v && triangleIsValid L.env s1 t1 a b v && triangleIsValid L.env s1 t2 b c v) then
      some (((s1.removeTri t1).removeTri t2).removeVertex v)
    else
      match s1.getEdge .front a b with
      | none => none
      | some e1 =>
        let s2 := advanceFront s1 e1 v t1
        match s2.getEdge .front b c with
        | none => none
        | some e2 => some (advanceFront s2 e2 v t2)

/-- The loop over the gaps (src/algorithm/QuadLayering.h:825-830): `prev` is `v2_proj[i-1]`, the list holds
`v1_base[i]` and the projected vertices from entry `i` on. -/
def closeGaps (L : LEnv K) : St K → Option Nat → List (Nat × Option Nat × Option Nat) → Option (St K)
  | s, _, [] => some s
  | s, prev, (b, p1, p2) :: rest =>
    match p1, prev with
    | some c, some a =>
      if c = a then closeGaps L s p2 rest
      else
        match closeGap L s a b c with
        | none => none
        | some s' => closeGaps L s' p2 rest
    | _, _ => closeGaps L s p2 rest

/-- Marking of the vertices (src/algorithm/QuadLayering.h:833-843). -/
def mark (s : St K) (vs : List Nat) : St K :=
  vs.foldl (fun s v => s.setProps v (Flags.add · Flags.vInQuadLayer)) s

/-- `finish_quad_layer` (src/algorithm/QuadLayering.h:816-845). -/
def finish (L : LEnv K) (s : St K) (y : Layer K) (proj : List (Option Nat × Option Nat)) : Option (St K) :=
  match y.v1.zip proj with
  | [] => some s
  | (_, _, p2) :: rest =>
    match closeGaps L s p2 rest with
    | none => none
    | some s' => some (mark s' ((y.v1.zip (y.v2.zip proj)).flatMap fun x => [x.1, x.2.1] ++ x.2.2.1.toList ++ x.2.2.2.toList))

/-- The search loops of `find_next_layer_endings` (src/algorithm/QuadLayering.h:666-672, 678-684): the pointer
after the loop, which starts with the value `v`. -/
def lastSeen (s : St K) : Option Nat → List (Option Nat) → Option Nat
  | v, [] => v
  | _, x :: rest =>
    match x with
    | some w => if Flags.has (s.V w).props Flags.vOnFront then some w else lastSeen s x rest
    | none => lastSeen s none rest

/-- `find_next_layer_endings` (src/algorithm/QuadLayering.h:660-695): the new start and end vertex. -/
def nextEndings (s : St K) (closed : Bool) (proj : List (Option Nat × Option Nat)) : Option (Nat × Nat) :=
  let v1 := lastSeen s none (proj.map (·.1))
  let v2 := if closed then v1 else lastSeen s v1 (proj.map (·.2)).reverse
  match v1, v2 with
  | some a, some b => some (a, b)
  | _, _ => none

/-! ## The layer -/

/-- `get_closest_vertex` (src/algorithm/EdgeList.h:371-395): the start vertices of the front edges are compared;
`none` is a dereferenced null pointer. -/
def closest (far : K) (s : St K) (p : Pt K) : Option Nat :=
  ((s.es .front).foldl (fun (c : Option Nat × K) e =>
    let d := Pt.normSq (p - s.pos (s.E e).v1)
    if d ≥ c.2 then c else (some (s.E e).v1, d)) (none, far)).1

/-- `get_edge(v, 1)` and `get_edge(v, 2)` (src/algorithm/EdgeList.h:331-365). -/
def edgeFrom (s : St K) (v : Nat) : Option Nat :=
  (s.V v).edges.find? fun e => decide ((s.E e).list = .front) && decide ((s.E e).v1 = v)
/-- See `edgeFrom`. -/
def edgeTo (s : St K) (v : Nat) : Option Nat :=
  (s.V v).edges.find? fun e => decide ((s.E e).list = .front) && decide ((s.E e).v2 = v)

/-- `is_traversable` (src/algorithm/EdgeList.h:282-303): at most `n` steps from `e` lead to `stop`. -/
def reaches (next : Nat → Option Nat) (stop : Nat) : Nat → Nat → Bool
  | 0, _ => false
  | n + 1, e =>
    match next e with
    | none => false
    | some f => if f = stop then true else reaches next stop n f

/-- Outcome of `find_start_and_ending_edges`. -/
inductive Found where
  | undef
  | no
  | yes (es ee : Nat) (closed : Bool)
deriving DecidableEq, Repr

/-- `find_start_and_ending_edges` (src/algorithm/QuadLayering.h:922-972).  `is_traversable` makes one step even for
an empty front; with two edges found the front is not empty. -/
def findEdges (L : LEnv K) (s : St K) (xs xe : Pt K) : Found :=
  match closest L.far s xs, closest L.far s xe with
  | some a, some b =>
    match edgeFrom s a, edgeTo s b with
    | some es, some ee =>
      if !reaches s.nextEdge ee (s.es .front).length es then .no
      else if a = b then
        let q := s.pos (s.E ee).v2
        match s.nextEdge es with
        | some f =>
          if L.angleLe (s.pos (s.E ee).v1 - q) (s.pos (s.E es).v2 - q) then .yes f es true else .yes es ee true
        | none => .yes es ee true
      else .yes es ee false
    | _, _ => .undef
  | _, _ => .undef

/-- Outcome of a layer: undefined behaviour; failure, where the state is unchanged or not; success with the new
start and end positions. -/
inductive LRes (K : Type*) where
  | undef
  | fail (s : St K)
  | done (s : St K) (xs xe : Pt K)

/-- `generate_quad_layer` (src/algorithm/QuadLayering.h:625-655); `fuel` bounds the walk along the front. -/
def layer (L : LEnv K) (fuel : Nat) (s : St K) (xs xe : Pt K) (ht : K) : LRes K :=
  match findEdges L s xs xe with
  | .undef => .undef
  | .no => .fail s
  | .yes es ee closed =>
    match walk s.nextEdge ee fuel es with
    | .ok base =>
      match setup L s es ee closed (smoothLayer L s (mkLayer L s ht base)) with
      | none => .undef
      | some (s1, y) =>
        let r := create L s1 y
        match finish L r.1 y r.2 with
        | none => .undef
        | some s2 =>
          match nextEndings s2 closed r.2 with
          | none => .fail s2
          | some (a, b) => .done s2 (s2.pos a) (s2.pos b)
    | _ => .undef

/-- The loop over the layers (src/algorithm/QuadLayering.h:599-608): `n` layers are left; the returned value and the
heights that were requested; `none` is undefined behaviour. -/
def layers (L : LEnv K) (fuel : Nat) (growth : K) : Nat → St K → Pt K → Pt K → K → Option (St K × Bool × List K)
  | 0, s, _, _, _ => some (s, true, [])
  | n + 1, s, xs, xe, ht =>
    match layer L fuel s xs xe ht with
    | .undef => none
    | .fail s' => some (s', false, [ht])
    | .done s' xs' xe' => (layers L fuel growth n s' xs' xe' (ht * growth)).map fun r => (r.1, r.2.1, ht :: r.2.2)

/-- `generate_elements` (src/algorithm/QuadLayering.h:584-618). -/
def generate (L : LEnv K) (fuel n : Nat) (growth : K) (s : St K) (xs xe : Pt K) (first : K) : Option (St K × Bool) :=
  if (s.es .bdry).length < 1 then some (s, false)
  else (layers L fuel growth n (MC.startStep L.env.eps s) xs xe first).map fun r => (MC.finishStep r.1, r.2.1)

end QL
end TQ

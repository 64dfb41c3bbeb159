import Verif.QuadLayer.Spec

/-!
# The changes made by the quad layers

The functions of `Verif/QuadLayer/Model.lean` once more; they return the changes that the function of the same name
makes, in order.
-/

namespace TQ.QLSpec
open TQ.MS TQ.MS.St TQ.MeshSpec TQ.FUSpec TQ.MCSpec TQ.QL TQ.FU
variable {K : Type*} [Field K] [LinearOrder K]

/-- Changes made by `element`. -/
def elementLog (L : LEnv K) (s : St K) (base v1 : Nat) (x1 : Pt K) (v2 : Nat) (x2 : Pt K) : List (Ev K) :=
  match updateFront L.env s base x1 x1 (L.rangeFactor * L.env.norm (s.pos v1 - x1)) with
  | (_, none) => []
  | (s1, some t1) =>
    match (s1.F (.tri t1)).corners[2]? with
    | none => []
    | some q1 =>
      .tri ⟨pairs s .front, (s.E base).v1, (s.E base).v2, q1⟩ s1 ::
        match s1.getEdge .front q1 v2 with
        | none => []
        | some dg =>
          match updateFront L.env s1 dg x2 x2 (L.rangeFactor * L.env.norm (s1.pos v2 - x2)) with
          | (_, none) => []
          | (s2, some t2) =>
            match (s2.F (.tri t2)).corners[2]? with
            | none => []
            | some q2 => [.tri ⟨pairs s1 .front, (s1.E dg).v1, (s1.E dg).v2, q2⟩ s2]

/-- Changes made by `create`. -/
def createLog (L : LEnv K) : St K → List (Nat × Nat × Nat × Pt K × Pt K) → List (Ev K)
  | _, [] => []
  | s, b :: rest =>
    (if b.1 ∉ s.es .front then [] else elementLog L s b.1 b.2.1 b.2.2.2.1 b.2.2.1 b.2.2.2.2) ++
      createLog L (elementStep L (s, []) b).1 rest

/-- Changes made by `closeGap`. -/
def closeGapLog (L : LEnv K) (s : St K) (a b c : Nat) : List (Ev K) :=
  let l1 := s.pos a - s.pos b
  let l2 := s.pos c - s.pos b
  if L.angleLe l1 l2 then
    if !triangleIsValid L.env (s.addTri a b c (-1)) s.nxt a b c then []
    else
      match (s.addTri a b c (-1)).getEdge .front b c with
      | none => []
      | some e => [.tri ⟨pairs s .front, b, c, a⟩ (advanceFront (s.addTri a b c (-1)) e a s.nxt)]
  else
    let v := s.nxt
    let s1 := ((s.addVertex (s.pos b + l1 + l2)).addTri a b v (-1)).addTri b c v (-1)
    if !(vertexIsValid L.env s1 v && triangleIsValid L.env s1 (v + 1) a b v && triangleIsValid L.env s1 (v + 2) b c v) then []
    else
      match s1.getEdge .front a b with
      | none => []
      | some e1 =>
        .tri ⟨pairs s .front, a, b, v⟩ (advanceFront s1 e1 v (v + 1)) ::
          match (advanceFront s1 e1 v (v + 1)).getEdge .front b c with
          | none => []
          | some e2 => [.tri ⟨pairs (advanceFront s1 e1 v (v + 1)) .front, b, c, v⟩
              (advanceFront (advanceFront s1 e1 v (v + 1)) e2 v (v + 2))]

/-- Changes made by `closeGaps`. -/
def closeGapsLog (L : LEnv K) : St K → Option Nat → List (Nat × Option Nat × Option Nat) → List (Ev K)
  | _, _, [] => []
  | s, prev, (b, p1, p2) :: rest =>
    match p1, prev with
    | some c, some a =>
      if c = a then closeGapsLog L s p2 rest
      else
        match closeGap L s a b c with
        | none => []
        | some s' => closeGapLog L s a b c ++ closeGapsLog L s' p2 rest
    | _, _ => closeGapsLog L s p2 rest

/-- Changes made by `finish`. -/
def finishLog (L : LEnv K) (s : St K) (y : Layer K) (proj : List (Option Nat × Option Nat)) : List (Ev K) :=
  match y.v1.zip proj with
  | [] => []
  | (_, _, p2) :: rest => closeGapsLog L s p2 rest

/-- Changes made by `place`. -/
def placeLog (L : LEnv K) (s : St K) (e q : Nat) (h : K) (x : Pt K) : List (Ev K) :=
  if Pt.normSq (s.pos q - x) < h * h then [.move q]
  else if h < len L s e then [.split (s.E e).v1 (s.E e).v2 s.nxt (s.getEdge .bdry (s.E e).v1 (s.E e).v2).isSome]
  else []

/-- Changes made by `placeStart`. -/
def placeStartLog (L : LEnv K) (s : St K) (e : Nat) (y : Layer K) : List (Ev K) :=
  match s.prevEdge e, y.v1[0]?, y.v2[0]?, y.h[0]?, y.p1[0]? with
  | some ep, some a, some b, some h, some x =>
    let q := (s.E ep).v1
    if !isLeft L.env.eps (s.pos a) (s.pos b) (s.pos q) then [] else placeLog L s ep q h x
  | _, _, _, _, _ => []

/-- Changes made by `placeEnd`. -/
def placeEndLog (L : LEnv K) (s : St K) (e : Nat) (y : Layer K) : List (Ev K) :=
  let i := y.base.length - 1
  match s.nextEdge e, y.v1[i]?, y.v2[i]?, y.h[i]?, y.p2[i]? with
  | some en, some a, some b, some h, some x =>
    let q := (s.E en).v2
    if !isLeft L.env.eps (s.pos a) (s.pos b) (s.pos q) then [] else placeLog L s en q h x
  | _, _, _, _, _ => []

/-- Changes made by `setup`. -/
def setupLog (L : LEnv K) (s : St K) (es ee : Nat) (closed : Bool) (y : Layer K) : List (Ev K) :=
  let y1 := adjustAll L s closed y
  if closed then []
  else
    match placeStart L s es y1 with
    | none => []
    | some (s1, y2) => placeStartLog L s es y1 ++ placeEndLog L s1 ee y2

/-- Changes made by `layer`. -/
def layerLog (L : LEnv K) (fuel : Nat) (s : St K) (xs xe : Pt K) (ht : K) : List (Ev K) :=
  match findEdges L s xs xe with
  | .yes es ee closed =>
    match walk s.nextEdge ee fuel es with
    | .ok base =>
      let y0 := smoothLayer L s (mkLayer L s ht base)
      match setup L s es ee closed y0 with
      | none => []
      | some (s1, y) =>
        setupLog L s es ee closed y0 ++ (createLog L s1 y.entries ++ finishLog L (create L s1 y).1 y (create L s1 y).2)
    | _ => []
  | _ => []

/-- Changes made by `layers`. -/
def layersLog (L : LEnv K) (fuel : Nat) (growth : K) : Nat → St K → Pt K → Pt K → K → List (Ev K)
  | 0, _, _, _, _ => []
  | n + 1, s, xs, xe, ht =>
    layerLog L fuel s xs xe ht ++
      match layer L fuel s xs xe ht with
      | .done s' xs' xe' => layersLog L fuel growth n s' xs' xe' (ht * growth)
      | _ => []

end TQ.QLSpec

import Verif.QuadLayer.Model
import Verif.FrontUpdate.Spec
import Verif.Cleanup.Spec

/-! # Specifications for the quad layers -/

namespace TQ.QLSpec
open TQ.MS TQ.MeshSpec TQ.FUSpec TQ.MCSpec TQ.QL TQ.FU
variable {K : Type*}

/-- `l` follows `next` from `a` to the first occurrence of `b`. -/
structure IsPath (next : Nat → Option Nat) (a b : Nat) (l : List Nat) : Prop where
  head : l.head? = some a
  last : l.getLast? = some b
  link : ∀ i x y, l[i]? = some x → l[i + 1]? = some y → next x = some y
  once : l.Nodup

/-- Every directed edge occurs once, and not in the opposite direction. -/
def Simple (es : List (Nat × Nat)) : Prop := es.Nodup ∧ ∀ a b, (a, b) ∈ es → (b, a) ∉ es

/-- A change made by the quad layers: a triangle on a base edge of the front (`s`: the mesh after that), the split of a front edge `a → b` in
`n` (`bd`: and of a boundary edge with these ends), a vertex that is moved. -/
inductive Ev (K : Type*) where
  | tri (e : Entry) (s : St K)
  | split (a b n : Nat) (bd : Bool)
  | move (v : Nat)

/-- The base edge runs along the front, which is simple, and the side edges run along the front. -/
def GoodEntry (e : Entry) : Prop := (e.b1, e.b2) ∈ e.front ∧ Simple e.front ∧ Oriented e.front e.b1 e.b2 e.v

/-- Nothing is moved, and triangles are put on the front. -/
def Good : Ev K → Prop
  | .tri e _ => GoodEntry e
  | .split _ _ _ _ => True
  | .move _ => False

/-- Sides of the elements. -/
def elemSides (s : St K) : List (Nat × Nat) := sides s ++ (s.quads.map fun q => (s.F (.quad q)).corners).flatMap bdryOf

/-- Strictly between two points. -/
def Between [Field K] [LinearOrder K] (p a b : Pt K) : Prop :=
  ∃ t : K, 0 < t ∧ t < 1 ∧ p = a + Pt.smul t (b - a)

/-- All elements have positive area. -/
def ElemPos [Field K] [LinearOrder K] (s : St K) : Prop := ∀ f, Live s f → 0 < s.fArea f

variable [Field K] [LinearOrder K]

/-- One step of the generation of quad layers. -/
inductive LStep (L : LEnv K) : St K → List (Ev K) → St K → Prop
  | fail {s s' base np sp r} : base ∈ s.es .front → updateFront L.env s base np sp r = (s', none) → LStep L s [] s'
  | tri {s s' base np sp r t v} : base ∈ s.es .front → updateFront L.env s base np sp r = (s', some t) →
      (s'.F (.tri t)).corners[2]? = some v →
      LStep L s [.tri ⟨pairs s .front, (s.E base).v1, (s.E base).v2, v⟩ s'] s'
  | quad {s s1 s2 base np sp r t1 q1 dg np' sp' r' t2 q2 er} : base ∈ s.es .front →
      updateFront L.env s base np sp r = (s1, some t1) → (s1.F (.tri t1)).corners[2]? = some q1 →
      s1.getEdge .front q1 (s.E base).v2 = some dg →
      updateFront L.env s1 dg np' sp' r' = (s2, some t2) → (s2.F (.tri t2)).corners[2]? = some q2 →
      s2.getEdge .intr (s.E base).v2 q1 = some er →
      LStep L s [.tri ⟨pairs s .front, (s.E base).v1, (s.E base).v2, q1⟩ s1,
          .tri ⟨pairs s1 .front, (s1.E dg).v1, (s1.E dg).v2, q2⟩ s2]
        (toQuad s2 er t1 t2 (s.E base).v1 (s.E base).v2 q2 q1)
  | gapFail {s a b c} : [a, b, c].Nodup → a ∈ s.verts → b ∈ s.verts → c ∈ s.verts →
      LStep L s [] ((s.addTri a b c (-1)).removeTri s.nxt)
  | gap {s a b c e} : [a, b, c].Nodup → a ∈ s.verts → b ∈ s.verts → c ∈ s.verts →
      triangleIsValid L.env (s.addTri a b c (-1)) s.nxt a b c = true →
      (s.addTri a b c (-1)).getEdge .front b c = some e →
      LStep L s [.tri ⟨pairs s .front, b, c, a⟩ (advanceFront (s.addTri a b c (-1)) e a s.nxt)]
        (advanceFront (s.addTri a b c (-1)) e a s.nxt)
  | gap2Fail {s : St K} {a b c : Nat} {p : Pt K} : [a, b, c].Nodup → a ∈ s.verts → b ∈ s.verts → c ∈ s.verts →
      LStep L s [] ((((((s.addVertex p).addTri a b s.nxt (-1)).addTri b c s.nxt (-1)).removeTri (s.nxt + 1)).removeTri
        (s.nxt + 2)).removeVertex s.nxt)
  | gap2 {s s1 : St K} {a b c e1 e2 : Nat} {p : Pt K} : [a, b, c].Nodup → a ∈ s.verts → b ∈ s.verts → c ∈ s.verts →
      s1 = ((s.addVertex p).addTri a b s.nxt (-1)).addTri b c s.nxt (-1) →
      triangleIsValid L.env s1 (s.nxt + 1) a b s.nxt = true → triangleIsValid L.env s1 (s.nxt + 2) b c s.nxt = true →
      s1.getEdge .front a b = some e1 →
      (advanceFront s1 e1 s.nxt (s.nxt + 1)).getEdge .front b c = some e2 →
      LStep L s [.tri ⟨pairs s .front, a, b, s.nxt⟩ (advanceFront s1 e1 s.nxt (s.nxt + 1)),
          .tri ⟨pairs (advanceFront s1 e1 s.nxt (s.nxt + 1)) .front, b, c, s.nxt⟩
            (advanceFront (advanceFront s1 e1 s.nxt (s.nxt + 1)) e2 s.nxt (s.nxt + 2))]
        (advanceFront (advanceFront s1 e1 s.nxt (s.nxt + 1)) e2 s.nxt (s.nxt + 2))
  | split {s s' e sf n} : e ∈ s.es .front → QL.split s e sf = some (s', n) →
      LStep L s [.split (s.E e).v1 (s.E e).v2 n (s.getEdge .bdry (s.E e).v1 (s.E e).v2).isSome] s'
  | move {s v p} : v ∈ s.verts → LStep L s [.move v] (s.setPos v p)
  | mark {s v} : LStep L s [] (s.setProps v (Flags.add · Flags.vInQuadLayer))

/-- A history of such steps. -/
inductive LRun (L : LEnv K) (s0 : St K) : List (Ev K) → St K → Prop
  | start : LRun L s0 [] s0
  | step {log l s s'} : LRun L s0 log s → LStep L s l s' → LRun L s0 (log ++ l) s'

end TQ.QLSpec

import Verif.Merger.Model
import Verif.Refinement.Spec

/-! # Specification of the merging of meshes -/

namespace TQ.MergeSpec
open TQ.MS TQ.MeshSpec TQ.MCSpec TQ.RefSpec TQ.MM
variable {K : Type*}

/-- The edge `e` has a twin in mesh `m`. -/
def TwinIn (s : St K) (m e : Nat) : Prop := ∃ e', (s.E e).twin = some (m, e')

instance (s : St K) (m e : Nat) : Decidable (TwinIn s m e) :=
  decidable_of_iff ((s.E e).twin.any fun x => decide (x.1 = m)) (by
    unfold TwinIn
    cases h : (s.E e).twin with
    | none => simp
    | some x =>
      obtain ⟨a, b⟩ := x
      simp)

/-- The boundary edge `e` of mesh `ri` has a twin in mesh `di`. -/
abbrev Iface (w : World K) (ri di : Nat) (e : Nat) : Prop := TwinIn (w ri) di e

/-- `v` is an end of an edge with a twin in mesh `di`. -/
def OnIface (w : World K) (ri di : Nat) (v : Nat) : Prop :=
  ∃ e ∈ (w ri).es .bdry, Iface w ri di e ∧ (((w ri).E e).v1 = v ∨ ((w ri).E e).v2 = v)

instance (w : World K) (ri di v : Nat) : Decidable (OnIface w ri di v) :=
  inferInstanceAs (Decidable (∃ e ∈ (w ri).es .bdry, _))

/-- `v` is an end of a boundary edge. -/
def BdryEnd (s : St K) (v : Nat) : Prop := ∃ e ∈ s.es .bdry, (s.E e).v1 = v ∨ (s.E e).v2 = v

instance (s : St K) (v : Nat) : Decidable (BdryEnd s v) := inferInstanceAs (Decidable (∃ e ∈ s.es .bdry, _))

variable [Field K] [LinearOrder K]

/-- Two meshes with a common interface: twin edges are mutual, have opposite directions and elements on both
sides; boundary vertices on the interface lie at different points; the donor
has no twins in itself and its edges have different twins. -/
structure Adjacent (w : World K) (ri di : Nat) : Prop where
  ne : ri ≠ di
  receiver : Proper (w ri)
  donor : Proper (w di)
  link : ∀ e ∈ (w ri).es .bdry, ∀ e', ((w ri).E e).twin = some (di, e') →
    e' ∈ (w di).es .bdry ∧ ((w di).E e').twin = some (ri, e) ∧
    (w ri).pos ((w ri).E e).v1 = (w di).pos ((w di).E e').v2 ∧ (w ri).pos ((w ri).E e).v2 = (w di).pos ((w di).E e').v1
  back : ∀ e' ∈ (w di).es .bdry, ∀ e, ((w di).E e').twin = some (ri, e) →
    e ∈ (w ri).es .bdry ∧ ((w ri).E e).twin = some (di, e')
  meshedR : ∀ e ∈ (w ri).es .bdry, Iface w ri di e → Covered (w ri) ((w ri).E e).v1 ((w ri).E e).v2
  meshedD : ∀ e ∈ (w di).es .bdry, Iface w di ri e → Covered (w di) ((w di).E e).v1 ((w di).E e).v2
  apartR : ∀ u v, OnIface w ri di u → OnIface w ri di v → (w ri).pos u = (w ri).pos v → u = v
  apartD : ∀ u v, OnIface w di ri u → OnIface w di ri v → (w di).pos u = (w di).pos v → u = v
  self : ∀ e ∈ (w di).es .bdry, ∀ x, ((w di).E e).twin = some x → x.1 ≠ di
  different : ∀ e ∈ (w di).es .bdry, ∀ e' ∈ (w di).es .bdry, ∀ x, ((w di).E e).twin = some x →
    ((w di).E e').twin = some x → e = e'

/-- The element `g` of `t` is a copy of the element `f` of `d`, inactive and without neighbours. -/
def CopiedF (d t : St K) (c : Int) (φ : Nat → Nat) (f g : FRef) : Prop :=
  (t.F g).corners = (d.F f).corners.map φ ∧ (t.F g).active = false ∧
  (t.F g).color = (if (d.F f).color < 0 then c else (d.F f).color) ∧ (t.F g).nbrs = (d.F f).corners.map fun _ => .null

/-- The edge `y` of `t` is a copy of the edge `x` of `d`. -/
def CopiedE (d t : St K) (φ : Nat → Nat) (x y : Nat) : Prop :=
  (t.E y).v1 = φ (d.E x).v1 ∧ (t.E y).v2 = φ (d.E x).v2 ∧ (t.E y).props = (d.E x).props

/-- The edge `y` of `t` runs like the edge `x` of `r` and is an ordinary interior edge. -/
def Converted (r t : St K) (x y : Nat) : Prop :=
  (t.E y).v1 = (r.E x).v1 ∧ (t.E y).v2 = (r.E x).v2 ∧ (t.E y).props = 0 ∧ (t.E y).color = -1 ∧ (t.E y).twin = none

/-- Nothing but twin edges differs. -/
def SameButTwins (s t : St K) : Prop := t = { s with E := t.E } ∧ ∀ e, t.E e = { s.E e with twin := (t.E e).twin }

/-- The flags after the merge: interface vertices are fixed and, like all others, on the boundary if a boundary
edge ends there. -/
def mergedFlags (t : St K) (iface : Prop) [Decidable iface] (v : Nat) (p : BitVec 8) : BitVec 8 :=
  let q := if iface then (p &&& ~~~ Flags.vOnBoundary) ||| Flags.vIsFixed else p
  if BdryEnd t v then q ||| Flags.vOnBoundary else q

/-- `w'` is the world `w` after the donor `di` was glued to the receiver `ri`; `φ` maps the donor vertices. -/
structure Merged (w w' : World K) (ri di : Nat) (φ : Nat → Nat) : Prop where
  /-- vertices: those of the receiver and the donor's that are not on the interface -/
  verts : (w' ri).verts = (w ri).verts ++ ((w di).verts.filter fun v => ¬ OnIface w di ri v).map φ
  inj : ∀ u ∈ (w di).verts, ∀ v ∈ (w di).verts, φ u = φ v → u = v
  shared : ∀ v ∈ (w di).verts, φ v ∈ (w ri).verts ↔ OnIface w di ri v
  glue : ∀ e ∈ (w ri).es .bdry, ∀ e', ((w ri).E e).twin = some (di, e') →
    φ ((w di).E e').v1 = ((w ri).E e).v2 ∧ φ ((w di).E e').v2 = ((w ri).E e).v1
  old : ∀ v ∈ (w ri).verts, (w' ri).pos v = (w ri).pos v ∧
    ((w' ri).V v).props = mergedFlags (w' ri) (OnIface w ri di v) v ((w ri).V v).props
  pos : ∀ v ∈ (w di).verts, (w' ri).pos (φ v) = (w di).pos v
  props : ∀ v ∈ (w di).verts, ¬ OnIface w di ri v →
    ((w' ri).V (φ v)).props = mergedFlags (w' ri) False (φ v) ((w di).V v).props
  /-- elements -/
  tris : ∃ new, (w' ri).tris = (w ri).tris ++ new ∧
    List.Forall₂ (fun x y => CopiedF (w di) (w' ri) (w ri).color φ (.tri x) (.tri y)) (w di).tris new
  quads : ∃ new, (w' ri).quads = (w ri).quads ++ new ∧
    List.Forall₂ (fun x y => CopiedF (w di) (w' ri) (w ri).color φ (.quad x) (.quad y)) (w di).quads new
  oldF : ∀ f, Live (w ri) f → ((w' ri).F f).corners = ((w ri).F f).corners ∧ ((w' ri).F f).color = ((w ri).F f).color ∧
    ((w' ri).F f).active = ((w ri).F f).active
  /-- edges: interface edges become interior edges -/
  intr : ∃ n1 n2, (w' ri).es .intr = (w ri).es .intr ++ n1 ++ n2 ∧
    List.Forall₂ (fun x y => CopiedE (w di) (w' ri) φ x y ∧ ((w' ri).E y).color = -1 ∧ ((w' ri).E y).twin = none)
      ((w di).es .intr) n1 ∧
    List.Forall₂ (Converted (w ri) (w' ri)) (((w ri).es .bdry).filter fun e => Iface w ri di e) n2
  bdry : ∃ n1, (w' ri).es .bdry = (((w ri).es .bdry).filter fun e => ¬ Iface w ri di e) ++ n1 ∧
    List.Forall₂ (fun x y => CopiedE (w di) (w' ri) φ x y ∧ ((w' ri).E y).color = ((w di).E x).color ∧
        ((w' ri).E y).twin = ((w di).E x).twin ∧
        ∀ z, ((w di).E x).twin = some z → ((w' z.1).E z.2).twin = some (ri, y))
      (((w di).es .bdry).filter fun e => ¬ Iface w di ri e) n1
  front : (w' ri).es .front = (w ri).es .front
  oldE : ∀ l, ∀ e ∈ (w ri).es l, ((w' ri).E e).v1 = ((w ri).E e).v1 ∧ ((w' ri).E e).v2 = ((w ri).E e).v2 ∧
    ((w' ri).E e).color = ((w ri).E e).color ∧ ((w' ri).E e).props = ((w ri).E e).props ∧
    ((w' ri).E e).twin = ((w ri).E e).twin
  color : (w' ri).color = (w ri).color
  /-- the other meshes -/
  donor : SameButPointers (w di) (w' di)
  others : ∀ m, m ≠ ri → m ≠ di → SameButTwins (w m) (w' m) ∧
    ∀ e, (∀ x ∈ (w di).es .bdry, ((w di).E x).twin ≠ some (m, e)) → (w' m).E e = (w m).E e

end TQ.MergeSpec

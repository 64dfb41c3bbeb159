import Verif.Whole.SeveralSpec

/-! # Specification: the markers of the boundary edges -/

set_option linter.unusedSectionVars false

namespace TQ.SevSpec
open TQ.MS TQ.OutlSpec TQ.FUSpec TQ.MeshSpec TQ.FlSpec TQ.Cf TQ.Fl
variable {K : Type} [Field K] [LinearOrder K] [IsStrictOrderedRing K]

/-- The side from `p` to `q` of a boundary has the marker `m`: in a table of edges between the vertices `vs`, by its row; in a shape, by the marker of the
whole shape or by the marker written beside the corner at which it starts. -/
inductive MarkedSide (D : DEnv K) (vs : List (Pt K)) : BDef K → Pt K → Pt K → Int → Prop
  | row {rows : List (Int × Int × Int)} {i j : Nat} {m : Int} {p q : Pt K} (hr : ((i : Int), (j : Int), m) ∈ rows) (hp : vs[i]? = some p) (hq : vs[j]? = some q) :
      MarkedSide D vs (.edges rows) p q m
  | side {b : BDef K} {ps : List (Pt K)} {i : Nat} {m : Int} {p q : Pt K} (hw : Written D b ps) (hp : ps[i]? = some p) (hq : ps[(i + 1) % ps.length]? = some q)
      (hm : markers D b = [m] ∨ (markers D b)[i]? = some m) : MarkedSide D vs b p q m

/-- A boundary whose markers are not shifted when its orientation is changed (see C19): all markers are the same, or the corners are written in the order in which they are
kept, counter-clockwise for exterior boundaries and clockwise for interior ones. -/
def Aligned (D : DEnv K) (b : BdryType × BDef K) : Prop :=
  ∀ ps, Written D b.2 ps → (∀ m ∈ markers D b.2, ∀ m' ∈ markers D b.2, m = m') ∨ (b.1 = .exterior ↔ 0 < polygonArea ps)

/-- Each boundary edge of the mesh lies on a side that is drawn in a definition, and has the marker of this side. -/
def MarkedAs (D : DEnv K) (xs : List (Drawn K)) (t : St K) : Prop :=
  ∀ e ∈ t.es .bdry, ∃ x ∈ xs, ∃ b ∈ x.cfg.bdries, ∃ p q, MarkedSide D (x.cfg.verts.map (·.xy)) b.2 p q (t.E e).color ∧
    OnClosed p q (t.pos (t.E e).v1) ∧ OnClosed p q (t.pos (t.E e).v2)

end TQ.SevSpec

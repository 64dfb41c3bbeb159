import Verif.Whole.MultiSpec
import Verif.Whole.FileSpec
import Verif.Whole.SeveralModel

/-! # Specification: input files with several mesh definitions -/

set_option linter.unusedSectionVars false

namespace TQ.SevSpec
open TQ.MS TQ.MS.St TQ.MM TQ.FUSpec TQ.MeshSpec TQ.MergeSpec TQ.LinkSpec TQ.OutlSpec TQ.FlSpec TQ.Fl TQ.Cf TQ.AM TQ.QL TQ.AppSpec TQ.MCSpec TQ.RefSpec TQ.CleanSpec

section
variable {K : Type*} [Field K] [LinearOrder K] [IsStrictOrderedRing K]

/-- A mesh to which another one can be added: its boundary edges have no links and are not marked as fixed, and different ends of them
lie at different points. -/
structure Ready (s : St K) : Prop where
  unlinked : ∀ e ∈ s.es .bdry, (s.E e).twin = none
  unfixed : ∀ e ∈ s.es .bdry, Flags.has (s.E e).props Flags.eIsFixed = false
  ends : EndsApart s

/-- The boundary edges of the mesh `s` along the side `d`, backwards. -/
def along (eps : K) (s : St K) (d : Pt K × Pt K) : List (Pt K × Pt K) :=
  ((s.es .bdry).filter fun e => decide (LiesOn eps d s e)).map fun e => (s.pos (s.E e).v2, s.pos (s.E e).v1)

/-- The sides `ss` of a new domain fit to the boundary of the mesh `s`: a boundary edge lies on at most one side; the boundary edges that lie on a side
divide the whole side; other sides and other boundary edges meet in common end points only; something is in common; and the tolerance is small
compared to the sides. -/
structure Fits (eps : K) (s : St K) (ss : List (Pt K × Pt K)) : Prop where
  once : ss.Pairwise fun d d' => ∀ e ∈ s.es .bdry, LiesOn eps d s e → ¬ LiesOn eps d' s e
  whole : ∀ d ∈ ss, (∃ e ∈ s.es .bdry, LiesOn eps d s e) → ∃ l, IsCut d l ∧ (along eps s d).Perm l
  apart : ∀ d ∈ ss, (∀ e ∈ s.es .bdry, ¬ LiesOn eps d s e) → ∀ e ∈ s.es .bdry, (∀ d' ∈ ss, ¬ LiesOn eps d' s e) → SegApart d (s.pos (s.E e).v1, s.pos (s.E e).v2)
  common : ∃ d ∈ ss, ∃ e ∈ s.es .bdry, LiesOn eps d s e
  small : ∀ d ∈ ss, eps ≤ 2 * (Pt.normSq (d.2 - d.1) * Pt.normSq (d.2 - d.1))

end

variable {K : Type} [Field K] [LinearOrder K] [IsStrictOrderedRing K]

/-- A definition with its polygon and holes. -/
structure Drawn (K : Type) where
  cfg : Cfg K
  outer : List (Pt K)
  holes : List (List (Pt K))

/-- Its outline. -/
def Drawn.segs (x : Drawn K) : List (Pt K × Pt K) := withHoles x.outer x.holes

/-- Its area. -/
def Drawn.area (x : Drawn K) : K := polygonArea x.outer - (x.holes.map polygonArea).sum

/-- What is asked of a single definition: it draws a polygon with holes with a simple outline (see C172), and its sides can be divided. -/
structure Proper (D : DEnv K) (eps : K) (sub : Cfg K → Dm K → List (Fr.MVert K) → Fr.FEdge → Option (List (Pt K))) (x : Drawn K) : Prop where
  drawing : ∃ b bs, Drawing D x.cfg b bs x.outer x.holes
  simple : SimpleOutline x.segs
  fixed : ∃ fs, Constructible D x.cfg x.outer x.holes fs ∧
    ∀ d, makeDomain D x.cfg = .ok d → PartSub (sub x.cfg d) ∧ Divisible (sub x.cfg d) (x.segs ++ fs)
  sharp : Sharp eps (x.outer ++ x.holes.flatten)
  known : x.cfg.algorithm = "Tri-to-Quad".toList ∨ x.cfg.algorithm = "Triangulation".toList

/-- A run for a list of definitions (the last one first) in which nothing got in the way: the meshes, the address of the mesh of the generator, and the returned value.
The definitions are proper, each one fits to the mesh of those before (of which different ends of boundary edges lie at different points) and has no region in common with it; the runs are good as in C163 and C173. -/
inductive GoodRuns (D : DEnv K) (L : LEnv K) (J : Job K) (sub : Cfg K → Dm K → List (Fr.MVert K) → Fr.FEdge → Option (List (Pt K))) (fuel : Nat) :
    List (Drawn K) → World K → Nat → Bool → Prop
  | first {x : Drawn K} {d : Dm K} {s0 : St K} {T : Trace K} :
      Proper D L.env.eps sub x → constructFirst D L J sub fuel x.cfg = .done d s0 T → FlSpec.GoodRun L fuel (jobOf J x.cfg) s0 T →
      GoodRuns D L J sub fuel [x] (fun m => if m = 0 then T.smoothed else s0) 0 T.ok
  | next {xs : List (Drawn K)} {w w1 : World K} {a : Nat} {ok : Bool} {x : Drawn K} {d : Dm K} {T : NextTrace K} :
      GoodRuns D L J sub fuel xs w a ok → Proper D L.env.eps sub x → EndsApart (w a) → Fits L.env.eps (w a) x.segs →
      (∀ p, segWinding x.segs p + segWinding (xs.flatMap Drawn.segs) p ≤ 1) → LeftFacets L.env.eps (w a) →
      constructNext D L J sub fuel w a x.cfg = .done d w1 T → AppSpec.GoodRun L fuel (jobOf J x.cfg) (w1 (a + 1)) T.layered T.meshed →
      RimKept (w1 (a + 1)) T.layered → LeftFacets L.env.eps T.modified → ((jobOf J x.cfg).refinements = 0 ∨ ConvexElements (T.merged (a + 1))) → Unfolded T.smoothed →
      GoodRuns D L J sub fuel (x :: xs) (upd w1 (a + 1) fun _ => T.smoothed) (a + 1) (ok && T.ok)

end TQ.SevSpec

import Verif.Smoothing.PlaceLemmas
import Verif.Smoothing.LaplaceProps
import Verif.Cleanup.DegreeProps
import Verif.Refinement.Props

/-! # C200: clean-up, merging, refinement and smoothing of a moved mesh give the moved result -/

set_option linter.unusedSectionVars false

namespace TQ
open MS MS.St MC GeoSpec PlaceSpec
variable {K : Type*} [Field K] [LinearOrder K] [IsStrictOrderedRing K]

/-- **C200 (refinement).** The refinement of a mesh at another place, in another direction, in another unit of length is the refined mesh there; it is refused, and its behaviour is undefined, for the same meshes. No
tolerance takes part. -/
theorem C200_refined (f : Similarity K) (s : St K) : (place f s).refine = s.refine.map fun r => (place f r.1, r.2) := refine_place f s

/-- **C200 (merging).** The merging of triangles into quads along given edges gives the same quads. -/
theorem C200_merged (f : Similarity K) (col : FData → Int) (l : List Nat) (s : St K) : mergeTriangles col l (place f s) = (mergeTriangles col l s).map (place f) := mergeTriangles_place f col l s

/-- **C200 (clean-up).** With a tolerance that fits the unit (it is compared with squares of doubled areas) the search of neighbours, the removal of double edges and of vertices with three triangles give the same mesh
at the other place, and they are undefined for the same meshes. -/
theorem C200_cleaned (f : Similarity K) (hf : 0 < f.factor) (eps : K) (ix : FRef → Nat) (s : St K) :
    setupConnectivity (f.factor ^ 2 * eps) (place f s) = place f (setupConnectivity eps s) ∧
    clearDoubleQuads (f.factor ^ 2 * eps) ix (place f s) = (clearDoubleQuads eps ix s).map (place f) ∧
    clearDoubleTris (f.factor ^ 2 * eps) ix (place f s) = (clearDoubleTris eps ix s).map (place f) ∧
    mergeDegenerate (f.factor ^ 2 * eps) (place f s) = (mergeDegenerate eps s).map (place f) :=
  have T := C198_fitting_partial f hf eps
  ⟨setup_place T s, clearQuads_place T ix s, clearTris_place T ix s, mergeDegenerate_place T s⟩

/-- **C200 (clean-up, moved).** Turns and shifts need no other tolerance. -/
theorem C200_moved (f : Similarity K) (hf : f.Motion) (eps : K) (ix : FRef → Nat) (s : St K) :
    setupConnectivity eps (place f s) = place f (setupConnectivity eps s) ∧ clearDoubleQuads eps ix (place f s) = (clearDoubleQuads eps ix s).map (place f) ∧
    clearDoubleTris eps ix (place f s) = (clearDoubleTris eps ix s).map (place f) ∧ mergeDegenerate eps (place f s) = (mergeDegenerate eps s).map (place f) := by
  have T := C198_moved_partial f hf eps
  exact ⟨setup_place T s, clearQuads_place T ix s, clearTris_place T ix s, mergeDegenerate_place T s⟩

/-- **C200 (smoothing).** Laplace, torsion and mixed smoothing of a mesh at another place, in surroundings that follow, end with the smoothed mesh there, for every number of iterations, every relaxation factor and
with or without the smoothing of quad layers. -/
theorem C200_smoothed {f : Similarity K} {lam : K} {c c' : SmoothCfg K} {nearest nearest' : St K → Pt K → Option Nat} {norm norm' : Pt K → K}
    (h : SmoothFollows f lam c c' nearest nearest' norm norm') (sn cs : K → K) (angle : Pt K → Pt K → K) (ha : ∀ u v, angle (f.turn u) (f.turn v) = angle u v) (af decay : K) (n : Nat) (s : St K) (e : K) :
    smooth nearest' norm' c' laplaceRule decay n (place f s, e) = (smooth nearest norm c laplaceRule decay n (s, e)).map (fun r => (place f r.1, r.2)) ∧
    smooth nearest' norm' c' (torsionRule sn cs angle af) decay n (place f s, e) = (smooth nearest norm c (torsionRule sn cs angle af) decay n (s, e)).map (fun r => (place f r.1, r.2)) ∧
    smoothMixed nearest' norm' c' (torsionRule sn cs angle af) laplaceRule decay n (place f s, e) =
      (smoothMixed nearest norm c (torsionRule sn cs angle af) laplaceRule decay n (s, e)).map (fun r => (place f r.1, r.2)) :=
  ⟨smooth_place h (laplace_place f) laplace_turns decay n (s, e), smooth_place h (torsion_place f sn cs angle ha af) (torsion_turns sn cs angle af) decay n (s, e),
    smoothMixed_place h (torsion_place f sn cs angle ha af) (torsion_turns sn cs angle af) (laplace_place f) laplace_turns decay n (s, e)⟩

namespace PlaceEx
/-- A unit of length two times as small, and a shift. -/
def twice : Similarity ℚ := ⟨2, 0, ⟨5, -1⟩⟩
/-- The way back. -/
def back (p : Pt ℚ) : Pt ℚ := ⟨(p.x - 5) / 2, (p.y + 1) / 2⟩
theorem back_at (p : Pt ℚ) : back (twice.at p) = p := by
  refine Pt.ext' ?_ ?_ <;> simp [back, twice, Similarity.at]
/-- The surroundings of the fan at the other place. -/
def cfg2 : SmoothCfg ℚ := ⟨16 / 2 ^ 52, fun p => SMEx.inside SMEx.fan (back p), fun _ _ l => l, false⟩
theorem smoothFollows : SmoothFollows twice 2 (SMEx.cfg false SMEx.fan) cfg2 SMEx.noEdge SMEx.noEdge SMEx.sup SMEx.sup where
  pos := by norm_num
  factor := by norm_num [twice, Similarity.factor]
  eps := by norm_num [twice, Similarity.factor, cfg2, SMEx.cfg]
  inside p := by simp only [cfg2, SMEx.cfg, back_at]
  order _ _ _ := List.IsRotated.refl _
  layers := rfl
  near _ _ := rfl
  norm u := by
    simp only [SMEx.sup, twice, Similarity.turn, zero_mul, sub_zero, zero_add, abs_mul]
    rw [mul_max_of_nonneg _ _ (by norm_num)]
    norm_num
/-- A unit of length that is 100000 times as large. -/
def small : Similarity ℚ := ⟨1 / 100000, 0, ⟨0, 0⟩⟩
/-- The surroundings of the small fan, with the tolerance of the code. -/
def cfgSmall : SmoothCfg ℚ := ⟨1 / 2 ^ 52, fun p => SMEx.inside SMEx.fan ⟨100000 * p.x, 100000 * p.y⟩, fun _ _ l => l, false⟩
end PlaceEx

/-- the vertex of the fan moves, there and here -/
example : SMEx.places (smooth SMEx.noEdge SMEx.sup (SMEx.cfg false SMEx.fan) laplaceRule 1 1 (SMEx.fan, 3 / 4)) = [(0, 0), (4, 0), (4, 4), (0, 4), (7 / 4, 7 / 4)] ∧
    SMEx.places (smooth SMEx.noEdge SMEx.sup PlaceEx.cfg2 laplaceRule 1 1 (place PlaceEx.twice SMEx.fan, 3 / 4)) = [(5, -1), (13, -1), (13, 7), (5, 7), (17 / 2, 5 / 2)] := by
  decide +kernel

/-- double edges, vertices with three triangles, refined meshes -/
example : MCEx.shownQ (clearDoubleQuads (1 / 1000000) (fun _ => 0) (place PlaceEx.twice MCEx.square)) 4 0 [[1, 2, 3, 0]] [1] = true ∧
    MCEx.shownT (mergeDegenerate (1 / 4503599627370496) (place PlaceEx.twice (MCEx.star 1 7))) 3 0 [[0, 1, 2]] [7] = true ∧
    (place PlaceEx.twice MCEx.house).refine.any (fun u => u.2 && decide (u.1.quads.map (fun q => u.1.fArea (.quad q)) = [8, 8, 8, 16, 16, 16, 16])) = true := by
  refine ⟨?_, ?_, ?_⟩ <;> decide +kernel

/-- **C200 is violated for the tolerance of the code (2⁻⁵²):** in a unit of length that is 100000 times as large (a part of 40 micrometres, given in metres) the vertex that Laplace smoothing moves stays
where it is: every new place is rejected, because its triangles count as lines. -/
theorem C200_unit_violated :
    (∀ p, PlaceEx.cfgSmall.inside (PlaceEx.small.at p) = (SMEx.cfg false SMEx.fan).inside p) ∧ PlaceEx.cfgSmall.eps = (SMEx.cfg false SMEx.fan).eps ∧
    SMEx.places (smooth SMEx.noEdge SMEx.sup (SMEx.cfg false SMEx.fan) laplaceRule 1 1 (SMEx.fan, 3 / 4)) ≠ SMEx.places (some (SMEx.fan, 3 / 4)) ∧
    SMEx.places (smooth SMEx.noEdge SMEx.sup PlaceEx.cfgSmall laplaceRule 1 1 (place PlaceEx.small SMEx.fan, 3 / 4)) = SMEx.places (some (place PlaceEx.small SMEx.fan, 3 / 4)) := by
  refine ⟨fun p => ?_, rfl, by decide +kernel, by decide +kernel⟩
  simp only [PlaceEx.cfgSmall, SMEx.cfg, PlaceEx.small, Similarity.at]
  congr 1
  refine Pt.ext' ?_ ?_ <;> norm_num <;> ring

end TQ

#print axioms TQ.C200_refined
#print axioms TQ.C200_merged
#print axioms TQ.C200_cleaned
#print axioms TQ.C200_moved
#print axioms TQ.C200_smoothed
#print axioms TQ.C200_unit_violated

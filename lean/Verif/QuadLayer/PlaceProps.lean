import Verif.QuadLayer.PlaceLemmas
import Verif.QuadLayer.Examples

/-! # C201: the quad layers of a moved domain are the moved quad layers -/

set_option linter.unusedSectionVars false

namespace TQ
open MS MS.St FU GeoSpec PlaceSpec
variable {K : Type*} [Field K] [LinearOrder K] [IsStrictOrderedRing K]

/-- **C201.** In surroundings that follow the domain, layers of the same number with the same growth and with heights in the new unit, between the images of the start and the end, are the images of the layers: the outcome
is undefined in the same cases, otherwise the same value is returned, and the new mesh is the image of the mesh. The same holds for every single layer, with the positions where the next one starts and ends. -/
theorem C201_similar {f : Similarity K} {lam : K} {L L' : QL.LEnv K} (h : LayerFollows f lam L L') (fuel n : Nat) (growth : K) (s : St K) (xs xe : Pt K) (first : K) :
    QL.generate L' fuel n growth (place f s) (f.at xs) (f.at xe) (lam * first) = (QL.generate L fuel n growth s xs xe first).map (fun r => (place f r.1, r.2)) ∧
    QL.layer L' fuel (place f s) (f.at xs) (f.at xe) (lam * first) = placeLRes f (QL.layer L fuel s xs xe first) :=
  ⟨qlGenerate_place h fuel n growth s xs xe first, layer_place h fuel s xs xe first⟩

/-- **C201 (moved).** For a shift or a turn the tolerance, the heights and the initial distance of the search are those of the domain. -/
theorem C201_moved {f : Similarity K} (hf : f.Motion) {lam : K} {L L' : QL.LEnv K} (h : LayerFollows f lam L L') (fuel n : Nat) (growth : K) (s : St K) (xs xe : Pt K) (first : K) :
    L'.env.eps = L.env.eps ∧ L'.far = L.far ∧ QL.generate L' fuel n growth (place f s) (f.at xs) (f.at xe) first = (QL.generate L fuel n growth s xs xe first).map fun r => (place f r.1, r.2) := by
  have h1 : f.factor = 1 := hf
  have hl : lam = 1 := by
    have h2 : lam ^ 2 = 1 := h.env.factor.symm.trans h1
    have h3 := h.env.pos
    nlinarith
  have h2 := (C201_similar h fuel n growth s xs xe first).1
  rw [hl, one_mul] at h2
  exact ⟨by rw [h.env.eps, h1]; ring, by rw [h.far, h1, one_mul], h2⟩

namespace PlaceEx
/-- The surroundings of the examples of quad layers, with queries for live elements. -/
def L1 : QL.LEnv ℚ := { QLEx.L with env := { env1 with eps := 1 / 1000000, rho := fun _ => 1, bdryEdges := fun _ _ => [] } }
theorem layerFollows : LayerFollows quarter 1 L1 L1 where
  env :=
    have h := follows
    ⟨h.pos, h.factor, by rw [show quarter.factor = 1 from motion, one_pow, one_mul], fun _ => (one_mul _).symm, h.inside, fun _ _ => rfl, h.norm, h.angle, h.quality, h.cell, h.normF, h.verts, h.tris, h.quads, h.front, h.sort⟩
  angle u v := by
    show decide (0 ≤ Pt.dot (quarter.turn u) (quarter.turn v)) = decide (0 ≤ Pt.dot u v)
    rw [turn_dot, show quarter.factor = 1 from motion, one_mul]
  sine u v := by
    show (if Pt.dot (quarter.turn u) (quarter.turn v) = 0 then (1 / 2 : ℚ) else 1) = if Pt.dot u v = 0 then 1 / 2 else 1
    rw [turn_dot, show quarter.factor = 1 from motion, one_mul]
  cosine u v := by
    show Pt.dot (quarter.turn u) (quarter.turn v) / ((|(quarter.turn u).x| + |(quarter.turn u).y|) * (|(quarter.turn v).x| + |(quarter.turn v).y|)) =
      Pt.dot u v / ((|u.x| + |u.y|) * (|v.x| + |v.y|))
    rw [turn_dot, show quarter.factor = 1 from motion, one_mul]
    simp only [quarter, Similarity.turn, zero_mul, one_mul, zero_sub, add_zero, abs_neg]
    rw [add_comm |u.y|, add_comm |v.y|]
  range := rfl
  far := by rw [show quarter.factor = 1 from motion, one_mul]
  norm k u hk := by
    show |k * u.x| + |k * u.y| = k * (|u.x| + |u.y|)
    rw [abs_mul, abs_mul, abs_of_pos hk, mul_add]
/-- The layers of the turned square. -/
example (fuel n : Nat) (g t : ℚ) (xs xe : Pt ℚ) := C201_moved motion layerFollows fuel n g QLEx.sqr8 xs xe t
end PlaceEx

/-- one layer at the bottom of the square, before and after a quarter turn: two quads -/
example : ((QL.generate PlaceEx.L1 20 1 1 QLEx.sqr8 ⟨0, 0⟩ ⟨2, 0⟩ (1 / 2)).map fun r => (r.2, r.1.quads.map fun q => r.1.fArea (.quad q))) = some (true, [1 / 2, 1 / 2]) ∧
    ((QL.generate PlaceEx.L1 20 1 1 (place PlaceEx.quarter QLEx.sqr8) ⟨5, -2⟩ ⟨5, 0⟩ (1 / 2)).map fun r => (r.2, r.1.quads.map fun q => r.1.fArea (.quad q))) = some (true, [1 / 2, 1 / 2]) := by
  decide +kernel

/-- **C201 is violated by the initial distance of the search for the start of a layer (1E+10, compared with squares of lengths).** The start is given one fifth beside a corner of a square, and the search finds the corner. In a unit
of length that is a million times as small (micrometres instead of metres) no vertex is found, and a null pointer is dereferenced. -/
theorem C201_far_violated : QLEx.L.far = 10 ^ 10 ∧ QL.findEdges QLEx.L (QLEx.start QLEx.sqr8) ⟨-1 / 5, 0⟩ ⟨2, 0⟩ = .yes 16 17 false ∧
    QL.findEdges QLEx.L (place (unit (10 ^ 6)) (QLEx.start QLEx.sqr8)) ((unit (10 ^ 6)).at ⟨-1 / 5, 0⟩) ((unit (10 ^ 6)).at ⟨2, 0⟩) = .undef ∧
    QL.layer QLEx.L 20 (place (unit (10 ^ 6)) (QLEx.start QLEx.sqr8)) ((unit (10 ^ 6)).at ⟨-1 / 5, 0⟩) ((unit (10 ^ 6)).at ⟨2, 0⟩) (10 ^ 6 / 2) = .undef := by
  have h : QL.findEdges QLEx.L (place (unit (10 ^ 6)) (QLEx.start QLEx.sqr8)) ((unit (10 ^ 6)).at ⟨-1 / 5, 0⟩) ((unit (10 ^ 6)).at ⟨2, 0⟩) = .undef := by decide +kernel
  refine ⟨rfl, by decide +kernel, h, ?_⟩
  unfold QL.layer
  rw [h]

end TQ

#print axioms TQ.C201_similar
#print axioms TQ.C201_moved
#print axioms TQ.C201_far_violated

import Verif.Smoothing.CoordModel
import Verif.Smoothing.CoordSpec
import Verif.Smoothing.Props
import Verif.Geometry.Props
import Verif.Cleanup.MergeProps

/-! # C203: the check of new places against elements -/

set_option linter.unusedSectionVars false

namespace TQ
open MS MS.St MeshSpec MCSpec GeoSpec SmoothSpec
variable {K : Type*} [Field K] [LinearOrder K] [IsStrictOrderedRing K]

/-- **C203, partial.** A place that is accepted lies in the domain, and no triangle in reach without the vertex holds it,
nor the half of a quad in reach at its second corner.  Missing: the other half of quads, elements out of reach
(`C203_quad_violated`, `C203_far_violated`). -/
theorem C203_place_partial {c : SmoothCfg K} (he : 0 < c.eps) {s : St K} (w : WF s) (hc : TrisCCW s) {v : Nat} {p : Pt K}
    (h : checkCoordinate c s v p = true) : c.inside p = true ∧
    (∀ t ∈ s.tris, v ∉ (s.F (.tri t)).corners → InReach s v p (.tri t) → ¬ Holds s (.tri t) p) ∧
    ∀ q ∈ s.quads, ∀ a b d e, (s.F (.quad q)).corners = [a, b, d, e] → v ∉ [a, b, d] → 0 ≤ turn (s.pos a) (s.pos b) (s.pos d) →
      InReach s v p (.quad q) → ∀ x y z : K, 0 ≤ x → 0 ≤ y → 0 ≤ z → ¬ IsCombo p [(x, s.pos a), (y, s.pos b), (z, s.pos d)] := by
  unfold checkCoordinate at h
  simp only [Bool.and_eq_true, Bool.not_eq_true', List.any_eq_false, List.mem_filter] at h
  obtain ⟨h1, h2, h3⟩ := h
  have near : ∀ f, InReach s v p f → QT.circQuery s.fCentroid p (4 * Pt.normSq (p - s.pos v)) f = true := by
    intro f hf
    unfold InReach distSq at hf
    unfold QT.circQuery Pt.normSq
    simp only [Pt.sub_x, Pt.sub_y, decide_eq_true_eq]
    nlinarith [hf]
  refine ⟨h3, fun t ht hv hr hh => ?_, fun q hq a b d e hcs hv hccw hr x y z hx hy hz hco => ?_⟩
  · have hb := h1 (.tri t) ⟨List.mem_map_of_mem ht, near _ hr⟩
    obtain ⟨a, b, d, hcs⟩ : ∃ a b d, (s.F (.tri t)).corners = [a, b, d] := by
      have hlen := w.tcor t ht
      generalize (s.F (.tri t)).corners = l at hlen
      match l, hlen with
      | [a, b, d], _ => exact ⟨a, b, d, rfl⟩
    obtain ⟨ws, hl, hw, hco⟩ := hh
    rw [hcs] at hl hco hv
    match ws, hl with
    | [x, y, z], _ =>
      apply hb
      unfold blocks
      rw [hcs]
      simp only [List.mem_cons, List.not_mem_nil, or_false] at hv
      simp only [hv, decide_false, Bool.not_false, Bool.true_and]
      have ar := hc t ht a b d hcs
      refine C13_in_on_triangle_complete c.eps he _ _ _ _ x y z ?_ (hw x (by simp)) (hw y (by simp)) (hw z (by simp)) hco
      unfold St.triArea Pt.cross at ar
      simp only [Pt.sub_x, Pt.sub_y] at ar
      unfold turn
      nlinarith [ar]
  · apply h2 (.quad q) ⟨List.mem_map_of_mem hq, near _ hr⟩
    unfold blocks
    rw [hcs]
    simp only [List.mem_cons, List.not_mem_nil, or_false, not_or] at hv
    have hv' : ¬ (v = a ∨ v = b ∨ v = d ∨ v = d) := by tauto
    simp only [hv', decide_false, Bool.not_false, Bool.true_and]
    have z0 : turn (s.pos d) (s.pos d) (s.pos a) = 0 := by unfold turn; ring
    have z1 : turn (s.pos b) (s.pos d) (s.pos d) = 0 := by unfold turn; ring
    have z2 : turn (s.pos d) (s.pos a) (s.pos b) = turn (s.pos a) (s.pos b) (s.pos d) := by unfold turn; ring
    refine C13_in_on_quad_complete c.eps he _ _ _ _ _ x y z 0 hccw (by rw [z1]) (by rw [z0]) (by rw [z2]; exact hccw) hx hy hz le_rfl ?_
    obtain ⟨i1, i2, i3⟩ := hco
    refine ⟨?_, ?_, ?_⟩ <;> simp only [List.map_cons, List.map_nil, List.sum_cons, List.sum_nil, add_zero, zero_mul] at i1 i2 i3 ⊢ <;> assumption

namespace SMEx
open TQ.MCEx
/-- A square quad (11) and a triangle (12) beside it with the vertex 4. -/
def beside : St ℚ := build [.v 0 0, .v 4 0, .v 4 4, .v 0 4, .v (-1) 3, .bdry 0 1 1, .bdry 1 2 1, .bdry 2 3 1, .bdry 3 4 1, .bdry 4 0 1, .intr 0 3,
  .quad 0 1 2 3 1, .tri 0 3 4 1] (St.empty 1)
theorem wf_beside : WF beside := built_wf (built_of _ _ Built.empty (by decide +kernel))
/-- A large triangle (9) and a small one (10) with the vertex 3. -/
def large : St ℚ := build [.v 0 0, .v 10 0, .v 0 10, .v (-1) 5, .bdry 0 1 1, .bdry 1 2 1, .bdry 2 3 1, .bdry 3 0 1, .intr 0 2,
  .tri 0 1 2 1, .tri 0 2 3 1] (St.empty 1)
theorem wf_large : WF large := built_wf (built_of _ _ Built.empty (by decide +kernel))
end SMEx

/-- both outcomes: the vertex 4 may not be moved into the lower half of the quad -/
example : checkCoordinate (SMEx.cfg false SMEx.beside) SMEx.beside 4 ⟨3, 1⟩ = false ∧ checkCoordinate (SMEx.cfg false SMEx.beside) SMEx.beside 4 ⟨-1 / 2, 3⟩ = true ∧
    TrisCCW SMEx.beside ∧ WF SMEx.beside := by
  refine ⟨by decide +kernel, by decide +kernel, ?_, SMEx.wf_beside⟩
  exact ccw_of_shapes (eps := 1 / 2 ^ 52) (shapes_of (by decide +kernel))

/-- **C203 is violated for quads.** The vertex 4 may be moved into the quad beside its triangle: the check reads the third
corner of the quad for the fourth. -/
theorem C203_quad_violated : WF SMEx.beside ∧ 11 ∈ SMEx.beside.quads ∧ 4 ∉ (SMEx.beside.F (.quad 11)).corners ∧
    checkCoordinate (SMEx.cfg false SMEx.beside) SMEx.beside 4 ⟨1, 3⟩ = true ∧ InReach SMEx.beside 4 ⟨1, 3⟩ (.quad 11) ∧ Holds SMEx.beside (.quad 11) ⟨1, 3⟩ := by
  refine ⟨SMEx.wf_beside, by decide +kernel, by decide +kernel, by decide +kernel, by unfold InReach distSq; decide +kernel,
    [0, 1 / 4, 0, 3 / 4], by decide +kernel, by decide +kernel, ?_⟩
  unfold IsCombo; decide +kernel

/-- **C203 is violated for large elements.** The vertex 3 may be moved into the large triangle: the centroid of the
triangle is farther away than twice the displacement. -/
theorem C203_far_violated : WF SMEx.large ∧ 9 ∈ SMEx.large.tris ∧ 3 ∉ (SMEx.large.F (.tri 9)).corners ∧
    checkCoordinate (SMEx.cfg false SMEx.large) SMEx.large 3 ⟨1 / 2, 5⟩ = true ∧ Holds SMEx.large (.tri 9) ⟨1 / 2, 5⟩ := by
  refine ⟨SMEx.wf_large, by decide +kernel, by decide +kernel, by decide +kernel, [9 / 20, 1 / 20, 1 / 2], by decide +kernel, by decide +kernel, ?_⟩
  unfold IsCombo; decide +kernel

end TQ

#print axioms TQ.C203_place_partial
#print axioms TQ.C203_quad_violated
#print axioms TQ.C203_far_violated

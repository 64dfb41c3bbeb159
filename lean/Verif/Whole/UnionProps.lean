import Verif.Whole.UnionLine
import Verif.Whole.FinalProps

/-! # Property C162: the merge of two finished meshes is a finished mesh of both domains -/

set_option linter.unusedSectionVars false
set_option linter.unusedSimpArgs false

namespace TQ
open QL MS MeshSpec MCSpec MC MS.St FUSpec WholeSpec RefSpec CleanSpec Whole QLSpec SmSpec Sm GN MM MergeSpec CK FU
variable {K : Type*} [Field K] [LinearOrder K] [IsStrictOrderedRing K]

/-- **C162.** Two complete meshes side by side are merged: the result is a complete mesh (conforming, its elements tile
what its boundary encloses).  Its boundary encloses the two domains together, its elements have their common area.  It
is left in the state that the following algorithms need; if the merged meshes had no other twins, it has none, and
convex elements stay convex. -/
theorem C162_merge {eps : K} {w w' : World K} {ri di : Nat} {a b : St K} (ha : MeshOf a (w ri)) (hb : MeshOf b (w di))
    (S : SideBySide w ri di) (lr : LeftFacets eps (w ri)) (ld : LeftFacets eps (w di))
    (hm : merge eps w ri di false = some (w', true)) :
    MeshOf (w' ri) (w' ri) ∧
    meshArea (w' ri) = enclosed a.pos (pairs a .bdry) + enclosed b.pos (pairs b .bdry) ∧
    (∀ p, winding (w' ri).pos (pairs (w' ri) .bdry) p = winding a.pos (pairs a .bdry) p + winding b.pos (pairs b .bdry) p) ∧
    LeftFacets eps (w' ri) ∧
    (ConvexElements (w ri) → ConvexElements (w di) → ConvexElements (w' ri)) ∧
    ((∀ e ∈ (w ri).es .bdry, ¬ Iface w ri di e → ((w ri).E e).twin = none) →
      (∀ e ∈ (w di).es .bdry, ¬ Iface w di ri e → ((w di).E e).twin = none) → NoTwins (w' ri)) := by
  obtain ⟨φ, κ, ρ, δ, G, -, hF⟩ := merged_of S.adj lr ld hm
  have hc := union_complete G ha.complete hb.complete S
  have hp := union_pointers G hF ha.complete ha.len ha.fresh
  refine ⟨meshOf_self hc (union_flagged G) hp.1 hp.2, ?_, ?_, union_left G lr ld,
    (C103_conforming S.adj lr ld hm (side_matching ha.complete hb.complete S) ha.complete.toConforming hb.complete.toConforming).2, ?_⟩
  · rw [(C55_area_partial S.adj lr ld hm).1, ha.area, hb.area]
  · intro p
    rw [conforming_winding hc.toConforming, union_winding G, ← conforming_winding ha.complete.toConforming,
      ← conforming_winding hb.complete.toConforming, ha.region, hb.region]
  · intro h1 h2 e he
    rw [G.bdry, List.mem_append, List.mem_map] at he
    rcases he with he | ⟨x, hx, rfl⟩
    · rw [List.mem_filter] at he
      rw [(G.mer.oldE _ e he.1).2.2.2.2]
      exact h1 e he.1 (of_decide_eq_true he.2)
    · rw [List.mem_filter] at hx
      have := G.deltaB x hx.1 (of_decide_eq_true hx.2)
      rw [this.2.2.1]
      exact h2 x hx.1 (of_decide_eq_true hx.2)

/-- **C162.** Such a merge succeeds whenever the meshes share an edge, and whatever is done with the result, it stays a
complete mesh of the two domains. -/
theorem C162_processed {eps : K} {w : World K} {ri di : Nat} {a b : St K} (ha : MeshOf a (w ri)) (hb : MeshOf b (w di))
    (S : SideBySide w ri di) (lr : LeftFacets eps (w ri)) (ld : LeftFacets eps (w di)) (hex : ∃ e ∈ (w ri).es .bdry, Iface w ri di e) :
    ∃ w', merge eps w ri di false = some (w', true) ∧ ∀ t, Processed eps (w' ri) t →
      Complete t ∧ Tiled t ∧ meshArea t = enclosed a.pos (pairs a .bdry) + enclosed b.pos (pairs b .bdry) ∧
      ∀ p, winding t.pos (pairs t .bdry) p = winding a.pos (pairs a .bdry) p + winding b.pos (pairs b .bdry) p := by
  obtain ⟨w', φ, hm, -, -⟩ := C53_merge S.adj lr ld hex
  obtain ⟨h1, h2, h3, -⟩ := C162_merge ha hb S lr ld hm
  refine ⟨w', hm, fun t ht => ?_⟩
  have := C158_processed h1 ht
  exact ⟨this.complete, this.tiled, by rw [this.area, ← h1.area, h2], fun p => by rw [this.region p, h3 p]⟩

namespace UNEx
open MCEx MMEx
/-- The unit square as one quad. -/
def rightS : St ℚ := build [.v 0 0, .v 1 0, .v 1 1, .v 0 1, .bdry 0 1 1, .bdry 1 2 1, .bdry 2 3 1, .bdry 3 0 2, .quad 0 1 2 3 5] (St.empty 1)
/-- The square at its left with two triangles. -/
def leftS : St ℚ := build [.v (-1) 0, .v 0 0, .v 0 1, .v (-1) 1, .bdry 0 1 1, .bdry 1 2 2, .bdry 2 3 1, .bdry 3 0 1, .intr 0 2,
  .tri 0 1 2 6, .tri 0 2 3 6] (St.empty 1)

def pair : World ℚ := fun m => match m with
  | 0 => setTwin (flagged rightS) 7 (1, 5)
  | 1 => setTwin (flagged leftS) 5 (0, 7)
  | _ => St.empty 1

theorem wf0 : WF (pair 0) := wf_setTwin (remark_spec _ (built_wf (c := 1) (built_of _ _ Built.empty (by decide +kernel)))).1 _ _
theorem wf1 : WF (pair 1) := wf_setTwin (remark_spec _ (built_wf (c := 1) (built_of _ _ Built.empty (by decide +kernel)))).1 _ _
theorem conf0 : Conforming (pair 0) :=
  conforming_of (proper_of wf0 (by decide +kernel) (by decide +kernel) (by decide +kernel)) (by decide +kernel) (by decide +kernel) (by decide +kernel)
theorem conf1 : Conforming (pair 1) :=
  conforming_of (proper_of wf1 (by decide +kernel) (by decide +kernel) (by decide +kernel)) (by decide +kernel) (by decide +kernel) (by decide +kernel)
theorem adj : Adjacent pair 0 1 := adjacent_of (by decide) conf0 conf1 (by decide +kernel) (by decide +kernel) (by decide +kernel)
  (by decide +kernel) (by decide +kernel) (by decide +kernel)
theorem left0 : LeftFacets (1 / 1000000) (pair 0) := C48_left_geometry wf0 (shapes_of (by decide +kernel))
theorem left1 : LeftFacets (1 / 1000000) (pair 1) := C48_left_geometry wf1 (shapes_of (by decide +kernel))
theorem comp0 : Complete (pair 0) := complete_of conf0 (by decide +kernel) (by decide +kernel) (by decide +kernel) (by decide +kernel) (by decide +kernel)
theorem comp1 : Complete (pair 1) where
  toConforming := conf1
  front := by decide +kernel
  bdry := by
    have hb : pairs (pair 1) .bdry = [(0, 1), (1, 2), (2, 3), (3, 0)] := by decide +kernel
    rw [hb]
    exact simple_shift ⟨-1, 0⟩ (FUEx.unit_simple (pos := (pair 0).pos) (by decide +kernel)) (by decide +kernel)
  ccw := by decide +kernel
  plain := by decide +kernel
theorem mesh0 : MeshOf (pair 0) (pair 0) :=
  meshOf_self comp0 (by unfold BdryFlagged; decide +kernel) (pointers_of (by decide +kernel)).1 (pointers_of (by decide +kernel)).2
theorem mesh1 : MeshOf (pair 1) (pair 1) :=
  meshOf_self comp1 (by unfold BdryFlagged; decide +kernel) (pointers_of (by decide +kernel)).1 (pointers_of (by decide +kernel)).2
theorem side : SideBySide pair 0 1 := sideBySide_of_line adj comp0 comp1 (c := 0) (by decide +kernel) (by decide +kernel) (by decide +kernel)
  (by decide +kernel)
theorem iface : ∃ e ∈ (pair 0).es .bdry, Iface pair 0 1 e := by decide +kernel
end UNEx

/-- A quad and two triangles: the merge of the two squares is a complete mesh with area 2 and can be refined. -/
example : ∃ w', merge (1 / 1000000) UNEx.pair 0 1 false = some (w', true) ∧ Tiled (w' 0) ∧ meshArea (w' 0) = 2 ∧
    ∃ t N, (w' 0).refine = some (t, true) ∧ Refined (w' 0) t N ∧ Tiled t ∧ meshArea t = 2 := by
  obtain ⟨w', φ, hm, -⟩ := C53_merge UNEx.adj UNEx.left0 UNEx.left1 UNEx.iface
  obtain ⟨h1, h2, -, -, h5, h6⟩ := C162_merge UNEx.mesh0 UNEx.mesh1 UNEx.side UNEx.left0 UNEx.left1 hm
  have e : enclosed (UNEx.pair 0).pos (pairs (UNEx.pair 0) .bdry) + enclosed (UNEx.pair 1).pos (pairs (UNEx.pair 1) .bdry) = 2 := by
    decide +kernel
  obtain ⟨t, N, k1, k2, k3, -⟩ := C157_refine h1 (h6 (by decide +kernel) (by decide +kernel))
    (h5 (SMEx.convex_of (by decide +kernel)) (SMEx.convex_of (by decide +kernel)))
  exact ⟨w', hm, h1.tiled, h2.trans e, t, N, k1, k2, k3.tiled, by rw [k3.area, ← h1.area, h2, e]⟩

/-- The same by computation. -/
example : (merge (1 / 1000000) UNEx.pair 0 1 false).any (fun r => r.2 && decide (meshArea (r.1 0) = 2) &&
    decide ((r.1 0).verts.length = 6) && decide (((r.1 0).es .bdry).length = 6) && decide (((r.1 0).es .intr).length = 2)) = true := by
  decide +kernel

end TQ

#print axioms TQ.C162_merge
#print axioms TQ.C162_processed

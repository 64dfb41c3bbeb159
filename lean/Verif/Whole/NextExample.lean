import Verif.Whole.NextProps

/-! # Two squares, one after the other (an instance of C163) -/

set_option linter.unusedSectionVars false
set_option linter.unusedSimpArgs false

namespace TQ
open QL MS MeshSpec MCSpec MC MS.St FUSpec WholeSpec RefSpec CleanSpec Whole QLSpec SmSpec Sm GN MM MergeSpec CK FU AM AppSpec

namespace NXEx
open Fr GNEx
/-- The square at the right of the unit square. -/
def sq2 : List (SrcEdge ℚ) :=
  [⟨⟨1, 0⟩, ⟨2, 0⟩, 1, false, false, false⟩, ⟨⟨2, 0⟩, ⟨2, 1⟩, 1, false, false, false⟩,
   ⟨⟨2, 1⟩, ⟨1, 1⟩, 1, false, false, false⟩, ⟨⟨1, 1⟩, ⟨1, 0⟩, 2, false, false, false⟩]
/-- Its left side lies at the right side of the unit square. -/
def nbr2 (e : SrcEdge ℚ) : List (SrcEdge ℚ) := if e.color = 2 then [⟨⟨1, 0⟩, ⟨1, 1⟩, 1, false, false, false⟩] else []
def pos2 : Nat → Pt ℚ
  | 0 => ⟨1, 0⟩ | 1 => ⟨2, 0⟩ | 2 => ⟨2, 1⟩ | _ => ⟨1, 1⟩
def prep2 : Prep ℚ := ⟨1 / 1000, pos2, [(true, sqEdges)], collect nbr2 [sq2] [], noSub, [], [(0, 5)]⟩
/-- The meshes after the first definition. -/
def w1 : World ℚ := fun m => if m = 0 then (APEx.trace APEx.plain).smoothed else St.empty 1
/-- With the second mesh prepared. -/
def w2 : World ℚ := match prepareMesh prep2 w1 1 with
  | .ret _ w => w
  | _ => w1
theorem w2_eq : prepareMesh prep2 w1 1 = .ret true w2 := by
  have key : (match prepareMesh prep2 w1 1 with
    | .ret b _ => b
    | _ => false) = true := by decide +kernel
  unfold w2
  rcases h : prepareMesh prep2 w1 1 with ⟨b, w⟩ | _ | _
  · rw [h] at key
    obtain rfl : b = true := key
    rfl
  · rw [h] at key; simp at key
  · rw [h] at key; simp at key
theorem data2 : DomainData nbr2 [sq2] [] where
  closed := by unfold FrSpec.ClosedSrc; decide +kernel
  leads := by
    intro b hb e he h
    simp only [List.mem_cons, List.not_mem_nil, or_false] at hb
    subst hb
    simp only [sq2, List.mem_cons, List.not_mem_nil, or_false] at he
    rcases he with rfl | rfl | rfl | rfl
    · exact absurd rfl h
    · exact absurd rfl h
    · exact absurd rfl h
    · exact List.Perm.swap _ _ _
  free := by decide +kernel
  fixed := by simp
  ne := by decide +kernel
theorem simple2 : SimpleFront (w2 1).pos (pairs (w2 1) .bdry) := by
  rw [show pairs (w2 1) .bdry = [(0, 1), (1, 2), (2, 3), (3, 0)] by decide +kernel]
  exact simple_shift ⟨1, 0⟩ (FUEx.unit_simple (pos := GNEx.sqMesh.pos) (by decide +kernel)) (by decide +kernel)

theorem ok1 : (APEx.trace APEx.plain).ok = true := by decide +kernel
theorem first_run : GoodRun FNEx.Lf 20 APEx.plain GNEx.sqMesh (APEx.trace APEx.plain).layered (APEx.trace APEx.plain).meshed := by
  obtain ⟨e1, e2⟩ := APEx.trace_meshed ok1 rfl rfl rfl
  exact ⟨trivial, by rw [e1]; exact APEx.sq_well, by rw [e1, e2]; exact APEx.sq_true, fun h => absurd h (by decide)⟩
theorem first_prepared : Prepared GNEx.sqMesh := ⟨FNEx.sq_bare, FNEx.sq_flagged, by decide +kernel⟩
/-- The first definition: the unit square. -/
theorem first : Definitions FNEx.Lf [GNEx.sqMesh] w1 0 :=
  .first (T := APEx.trace APEx.plain) first_prepared (APEx.done_of ok1) first_run (Or.inl rfl) (APEx.unfolded_of (by decide +kernel)) rfl

theorem prepared2 : Prepared (w2 1) ∧ SameButTwins (w1 0) (w2 0) := by
  obtain ⟨c1, c2, c3, c4, c5, c6, c7, c8, c9, c10, c11⟩ := C115_prepared data2 (P := prep2) rfl noSub_line (w := w1) (a := 1)
    (wf_empty 1) (by decide) w2_eq
  exact ⟨⟨prepared_bare data2 (P := prep2) rfl noSub_line (w := w1) (a := 1) (c := 1) rfl (by decide) w2_eq simple2, c8, c10⟩, c11 0 (by decide)⟩

/-- The smoothed unit square, also with its links. -/
theorem old_mesh : MeshOf GNEx.sqMesh (w2 0) := by
  obtain ⟨-, -, -, m4, -⟩ := C161_application (L := FNEx.Lf) FUEx.epsPos FUEx.exact FUEx.sortOK FUEx.norm_ok first_prepared.bare first_prepared.flagged
    first_prepared.area (APEx.done_of ok1) first_run.layers first_run.well first_run.ok first_run.quads (Or.inl rfl) (APEx.unfolded_of (by decide +kernel))
  exact meshOf_twins m4 prepared2.2

theorem beside : Beside w2 1 0 :=
  beside_of_line (by decide) prepared2.1.bare.wf old_mesh.complete.wf (by decide +kernel) (by decide +kernel) (by decide +kernel) (by decide +kernel)
    simple2 old_mesh.complete.bdry (c := 1) (by decide +kernel) (by decide +kernel) (by unfold Iface; decide +kernel) (by unfold Iface; decide +kernel)
    ⟨7, by decide +kernel, 5, by decide +kernel⟩

/-- The second square as a domain. -/
def dom2 : Dom.Domain ℚ := ⟨pos2, [0, 1, 2, 3], [(.exterior, ⟨true, sqEdges, 1⟩)]⟩
/-- The run for the second definition. -/
def trace : NextTrace ℚ := match generateNext FNEx.Lf 20 APEx.job dom2 w2 1 0 with
  | .done T => T
  | _ => ⟨St.empty 1, St.empty 1, St.empty 1, w2, St.empty 1, St.empty 1, false⟩
theorem ok2 : trace.ok = true := by decide +kernel
theorem done2 : generateNext FNEx.Lf 20 APEx.job dom2 w2 1 0 = .done trace := by
  have h := ok2
  unfold trace at h ⊢
  rcases hg : generateNext FNEx.Lf 20 APEx.job dom2 w2 1 0 with T | _ | _ | _
  · rfl
  · rw [hg] at h; simp at h
  · rw [hg] at h; simp at h
  · rw [hg] at h; simp at h
/-- The second square, triangulated. -/
theorem meshed2 : trace.layered = w2 1 ∧ triangulate FNEx.Lf.env TGEx.par 0 20 (fun _ => 0) (w2 1) = .ret true trace.meshed := by
  obtain ⟨h1, ⟨ok, h2⟩, -⟩ := generateNext_steps done2
  have h1 : w2 1 = trace.layered := by simpa [layerAll, APEx.job] using h1
  refine ⟨h1.symm, ?_⟩
  rw [← h1] at h2
  have h2 : triangulate FNEx.Lf.env TGEx.par 0 20 (fun _ => 0) (w2 1) = .ret ok trace.meshed := h2
  have key : (match triangulate FNEx.Lf.env TGEx.par 0 20 (fun _ => 0) (w2 1) with
    | .ret ok _ => ok
    | _ => false) = true := by decide +kernel
  rw [h2] at key
  obtain rfl : ok = true := key
  exact h2
theorem well2 : MeshedWell FNEx.Lf.env TGEx.par 0 20 (w2 1) := by
  intro ok u c hg
  have key : (match TG.generate FUEx.env TGEx.par 0 20 (startStep FUEx.env.eps (w2 1)) with
    | .ret _ u _ => APEx.wellOK FUEx.env (startStep FUEx.env.eps (w2 1)) u
    | _ => false) = true := by decide +kernel
  have hg' : TG.generate FUEx.env TGEx.par 0 20 (startStep FUEx.env.eps (w2 1)) = .ret ok u c := hg
  rw [hg'] at key
  exact APEx.well_of key
theorem run2 : GoodRun FNEx.Lf 20 APEx.job (w2 1) trace.layered trace.meshed := by
  obtain ⟨e1, e2⟩ := meshed2
  refine ⟨trivial, by rw [e1]; exact well2, by rw [e1]; exact e2, fun _ => ⟨?_, List.Perm.refl _⟩⟩
  exact C48_left_geometry (C160_complete (L := FNEx.Lf) FUEx.epsPos FUEx.exact FUEx.sortOK FUEx.norm_ok prepared2.1.bare prepared2.1.flagged
    .prepared well2 e2).1.complete.wf (shapes_of (by decide +kernel))
theorem left2 : LeftFacets FNEx.Lf.env.eps trace.modified := by
  obtain ⟨h1, -, h3, -⟩ := generateNext_steps done2
  exact C48_left_geometry (meshed_part (L := FNEx.Lf) FUEx.epsPos FUEx.exact FUEx.sortOK FUEx.norm_ok prepared2.1 h1 h3 run2).1.complete.wf
    (shapes_of (by decide +kernel))
theorem old_left : LeftFacets FNEx.Lf.env.eps (w2 0) := C48_left_geometry old_mesh.complete.wf (shapes_of (by decide +kernel))
theorem rim2 : RimKept (w2 1) trace.layered := by rw [meshed2.1]; exact rim_refl _
theorem convex2 : ConvexElements (trace.merged 1) := SMEx.convex_of (by decide +kernel)
theorem unfolded2 : Unfolded trace.smoothed := APEx.unfolded_of (by decide +kernel)

/-- Both definitions. -/
theorem both : Definitions FNEx.Lf [w2 1, GNEx.sqMesh] (upd w2 1 fun _ => trace.smoothed) 1 :=
  .next first prepared2.2 prepared2.1 beside old_left done2 run2 rim2 left2 (Or.inr convex2) unfolded2 (by simp [upd])
end NXEx

/-- The merged mesh has the two triangles of the first square and the quad of the second one; refined and smoothed it has
ten quads, is complete, and has the area 2; the application reports success. -/
example : Complete NXEx.trace.smoothed ∧ meshArea NXEx.trace.smoothed = 2 ∧ NXEx.trace.ok = true ∧
    (NXEx.trace.merged 1).tris.length = 2 ∧ (NXEx.trace.merged 1).quads.length = 1 ∧ NXEx.trace.smoothed.quads.length = 10 := by
  obtain ⟨h1, -, h3, -⟩ := C163_definitions (L := FNEx.Lf) FUEx.epsPos FUEx.exact FUEx.sortOK FUEx.norm_ok NXEx.both
  have e : (upd NXEx.w2 1 fun _ => NXEx.trace.smoothed) 1 = NXEx.trace.smoothed := by simp [upd]
  rw [e] at h1 h3
  obtain ⟨-, -, k⟩ := C163_next (L := FNEx.Lf) FUEx.epsPos FUEx.exact FUEx.sortOK FUEx.norm_ok NXEx.prepared2.1 NXEx.old_mesh NXEx.beside NXEx.old_left NXEx.done2
    NXEx.run2 NXEx.rim2 NXEx.left2 (Or.inr NXEx.convex2) NXEx.unfolded2
  exact ⟨h1, h3.trans (by decide +kernel), k (C48_left_geometry h1.wf (shapes_of (by decide +kernel))) (by decide +kernel) (by decide +kernel)
    (by decide +kernel) (by decide +kernel), by decide +kernel, by decide +kernel, by decide +kernel⟩

/-- The assertion after the merge does not fail. -/
example : generateNext FNEx.Lf 20 APEx.job NXEx.dom2 NXEx.w2 1 0 ≠ .abort := by
  obtain ⟨h1, -, h3, -⟩ := generateNext_steps NXEx.done2
  exact (C163_merges (L := FNEx.Lf) FUEx.epsPos FUEx.exact FUEx.sortOK FUEx.norm_ok NXEx.prepared2.1 NXEx.old_mesh NXEx.beside NXEx.old_left h1
    NXEx.run2 NXEx.rim2 h3 NXEx.left2).1

end TQ

import Verif.Whole.RimLayer
import Verif.Whole.NextExample

/-! # Property C164: quad layers beside other meshes -/

set_option linter.unusedSectionVars false
set_option linter.unusedSimpArgs false

namespace TQ
open QL MS MeshSpec MCSpec MC MS.St FUSpec WholeSpec RefSpec CleanSpec Whole QLSpec SmSpec Sm GN MM MergeSpec CK FU AM AppSpec

section
variable {K : Type*} [Field K] [LinearOrder K] [IsStrictOrderedRing K]
variable {L : LEnv K} (he : 0 < L.env.eps) (hq : QueryExact L.env) (hso : SortOK L.env)
  (hn : ∀ p, 0 ≤ L.env.norm p ∧ Pt.normSq p ≤ L.env.norm p * L.env.norm p)
include he hq hso hn

/-- **C164**, the part that holds: quad layers that cut no edge of an interface keep all interface edges with their ends
and links, and make no links.  Missing: layers whose first or last edge is next to an interface edge
(`C164_interface_violated`). -/
theorem C164_links_partial {s0 t : St K} (h0 : Bare s0) {fuel : Nat} {ds : List (LayerDef K)} (hf : LayersFine L fuel ds s0)
    (ho : LayersOff L fuel ds s0) (h : layerAll L fuel ds s0 = some t) : RimKept s0 t :=
  rim_layerAll he hq hso hn h0 .prepared h0.wf hf ho h

/-- **C164**, the part that holds: with such layers the application merges the meshes and leaves a complete mesh of both
domains. -/
theorem C164_merged_partial {fuel : Nat} {J : Job K} {D : Dom.Domain K} {w : World K} {ni oi : Nat} {b : St K} {T : NextTrace K}
    (h0 : Prepared (w ni)) (hb : MeshOf b (w oi)) (B : Beside w ni oi) (ld : LeftFacets L.env.eps (w oi))
    (h : generateNext L fuel J D w ni oi = .done T) (g : GoodRun L fuel J (w ni) T.layered T.meshed) (ho : LayersOff L fuel J.layers (w ni))
    (lr : LeftFacets L.env.eps T.modified) (hconv : J.refinements = 0 ∨ ConvexElements (T.merged ni)) (hfold : Unfolded T.smoothed) :
    Complete T.smoothed ∧ Tiled T.smoothed ∧
    ∀ p, winding T.smoothed.pos (pairs T.smoothed .bdry) p = winding (w ni).pos (pairs (w ni) .bdry) p + winding b.pos (pairs b .bdry) p := by
  have hl := (generateNext_steps h).1
  obtain ⟨k, -⟩ := C163_next he hq hso hn h0 hb B ld h g (C164_links_partial he hq hso hn h0.bare g.layers ho hl) lr hconv hfold
  obtain ⟨k1, k2, -, k3⟩ := k T.smoothed (by simp)
  exact ⟨k1, k2, k3⟩
end

namespace NXEx
/-- A layer of quads along the lower side: its first edge is next to the interface. -/
def low : LayerDef ℚ := ⟨⟨1, 0⟩, ⟨2, 0⟩, 1, 1 / 2, 1⟩
/-- A layer of quads along the right side. -/
def right : LayerDef ℚ := ⟨⟨2, 0⟩, ⟨2, 1⟩, 1, 1 / 2, 1⟩
def lay (d : LayerDef ℚ) : Job ℚ := { APEx.job with layers := [d] }

def dlog (d : LayerDef ℚ) : List (Ev ℚ) := layersLog FNEx.Lf 20 d.growth d.count (startStep FNEx.Lf.env.eps (w2 1)) d.start d.stop d.height
def dres (d : LayerDef ℚ) : Option (St ℚ × Bool × List ℚ) :=
  QL.layers FNEx.Lf 20 d.growth d.count (startStep FNEx.Lf.env.eps (w2 1)) d.start d.stop d.height

theorem w2_bdry : ¬ ((w2 1).es .bdry).length < 1 := by decide +kernel
theorem layers_fine {d : LayerDef ℚ} (h1 : (dlog d).all (WEx.fineB FNEx.Lf.env) = true)
    (h2 : (dres d).all (fun r => (facets r.1).all (shapeOK FNEx.Lf.env.eps r.1)) = true) : LayersFine FNEx.Lf 20 [d] (w2 1) := by
  unfold LayersFine
  rw [if_neg w2_bdry]
  refine ⟨WEx.fine_of h1, fun r hr => ⟨?_, trivial⟩⟩
  have hw : Work FNEx.Lf (w2 1) r.1 := .layers .start hr (WEx.fine_of h1)
  have hr : dres d = some r := hr
  rw [hr] at h2
  exact C48_left_geometry (work_inv (L := FNEx.Lf) FUEx.epsPos FUEx.exact FUEx.sortOK FUEx.norm_ok prepared2.1.bare hw).mesh.wf (shapes_of h2)

theorem low_fine : LayersFine FNEx.Lf 20 [low] (w2 1) := layers_fine (by decide +kernel) (by decide +kernel)
theorem right_fine : LayersFine FNEx.Lf 20 [right] (w2 1) := layers_fine (by decide +kernel) (by decide +kernel)
def offB (s : St ℚ) : Ev ℚ → Bool
  | .split a b _ _ => (s.es .bdry).all fun e => (s.E e).twin.isNone || decide (((s.E e).v1, (s.E e).v2) ≠ (a, b))
  | _ => true
theorem right_off : LayersOff FNEx.Lf 20 [right] (w2 1) := by
  have key : (dlog right).all (offB (w2 1)) = true := by decide +kernel
  unfold LayersOff
  rw [if_neg w2_bdry]
  refine ⟨fun x hx => ?_, fun r hr => trivial⟩
  have := List.all_eq_true.mp key x hx
  cases x with
  | split a b n bd =>
    intro e he ht
    simp only [offB, List.all_eq_true, Bool.or_eq_true, decide_eq_true_eq, Option.isNone_iff_eq_none] at this
    exact (this e he).resolve_left ht
  | tri _ _ => trivial
  | move _ => trivial

/-- The mesh with the layer. -/
def layered (d : LayerDef ℚ) : St ℚ := (layerAll FNEx.Lf 20 [d] (w2 1)).getD (w2 1)
def meshedL (d : LayerDef ℚ) : St ℚ := match triangulate FNEx.Lf.env TGEx.par 0 20 (fun _ => 0) (layered d) with
  | .ret _ t => t
  | _ => w2 1
theorem layered_eq {d : LayerDef ℚ} (h : (layerAll FNEx.Lf 20 [d] (w2 1)).isSome = true) : layerAll FNEx.Lf 20 [d] (w2 1) = some (layered d) := by
  obtain ⟨x, hx⟩ := Option.isSome_iff_exists.mp h
  unfold layered
  rw [hx]; rfl
theorem wellL {d : LayerDef ℚ} (key : (match TG.generate FUEx.env TGEx.par 0 20 (startStep FUEx.env.eps (layered d)) with
    | .ret _ u _ => APEx.wellOK FUEx.env (startStep FUEx.env.eps (layered d)) u
    | _ => false) = true) : MeshedWell FNEx.Lf.env TGEx.par 0 20 (layered d) := by
  intro ok u c hg
  have hg' : TG.generate FUEx.env TGEx.par 0 20 (startStep FUEx.env.eps (layered d)) = .ret ok u c := hg
  rw [hg'] at key
  exact APEx.well_of key
theorem meshedL_eq {d : LayerDef ℚ} (key : (match triangulate FNEx.Lf.env TGEx.par 0 20 (fun _ => 0) (layered d) with
    | .ret ok _ => ok
    | _ => false) = true) : triangulate FNEx.Lf.env TGEx.par 0 20 (fun _ => 0) (layered d) = .ret true (meshedL d) := by
  unfold meshedL
  rcases h : triangulate FNEx.Lf.env TGEx.par 0 20 (fun _ => 0) (layered d) with ⟨ok, t⟩ | _ | _
  · rw [h] at key
    obtain rfl : ok = true := key
    rfl
  · rw [h] at key; simp at key
  · rw [h] at key; simp at key
theorem runL {d : LayerDef ℚ} (hf : LayersFine FNEx.Lf 20 [d] (w2 1)) (hl : (layerAll FNEx.Lf 20 [d] (w2 1)).isSome = true)
    (hw : MeshedWell FNEx.Lf.env TGEx.par 0 20 (layered d))
    (hm : triangulate FNEx.Lf.env TGEx.par 0 20 (fun _ => 0) (layered d) = .ret true (meshedL d))
    (hs : (facets (meshedL d)).all (shapeOK FNEx.Lf.env.eps (meshedL d)) = true) :
    GoodRun FNEx.Lf 20 (lay d) (w2 1) (layered d) (meshedL d) := by
  refine ⟨hf, hw, hm, fun _ => ⟨?_, List.Perm.refl _⟩⟩
  exact C48_left_geometry (C160_complete (L := FNEx.Lf) FUEx.epsPos FUEx.exact FUEx.sortOK FUEx.norm_ok prepared2.1.bare prepared2.1.flagged
    (layerAll_staged .prepared hf (layered_eq hl)) hw hm).1.complete.wf (shapes_of hs)
theorem low_run : GoodRun FNEx.Lf 20 (lay low) (w2 1) (layered low) (meshedL low) :=
  runL low_fine (by decide +kernel) (wellL (by decide +kernel)) (meshedL_eq (by decide +kernel)) (by decide +kernel)
theorem right_run : GoodRun FNEx.Lf 20 (lay right) (w2 1) (layered right) (meshedL right) :=
  runL right_fine (by decide +kernel) (wellL (by decide +kernel)) (meshedL_eq (by decide +kernel)) (by decide +kernel)
end NXEx

/-- **C164 does not hold for the code.** The unit square is meshed; the square at its right has a layer of quads along its
lower side.  Everything is as C163 wants it (`Prepared`, `Beside`, good layers, a successful triangulation), but the layer
cuts the interface edge in two parts without links; the merge finds no interface, and the assertion about the number of meshes
fails. -/
theorem C164_interface_violated : ∃ (J : Job ℚ) (D : Dom.Domain ℚ) (w : World ℚ) (a m : St ℚ), Prepared (w 1) ∧ MeshOf GNEx.sqMesh (w 0) ∧
    Beside w 1 0 ∧ LeftFacets FNEx.Lf.env.eps (w 0) ∧ layerAll FNEx.Lf 20 J.layers (w 1) = some a ∧ GoodRun FNEx.Lf 20 J (w 1) a m ∧
    MeshOf (w 1) m ∧ ¬ RimKept (w 1) a ∧ generateNext FNEx.Lf 20 J D w 1 0 = .abort := by
  have hl := NXEx.layered_eq (d := NXEx.low) (by decide +kernel)
  refine ⟨NXEx.lay NXEx.low, NXEx.dom2, NXEx.w2, NXEx.layered NXEx.low, NXEx.meshedL NXEx.low, NXEx.prepared2.1, NXEx.old_mesh, NXEx.beside,
    NXEx.old_left, hl, NXEx.low_run, ?_, ?_, ?_⟩
  · exact (C160_complete (L := FNEx.Lf) FUEx.epsPos FUEx.exact FUEx.sortOK FUEx.norm_ok NXEx.prepared2.1.bare NXEx.prepared2.1.flagged
      (layerAll_staged .prepared NXEx.low_fine hl) NXEx.low_run.well NXEx.low_run.ok).1
  · intro k
    have := (k.linked 7 (by decide +kernel) (by decide +kernel)).1
    revert this
    decide +kernel
  · have key : (match generateNext FNEx.Lf 20 (NXEx.lay NXEx.low) NXEx.dom2 NXEx.w2 1 0 with
      | .abort => true
      | _ => false) = true := by decide +kernel
    rcases h : generateNext FNEx.Lf 20 (NXEx.lay NXEx.low) NXEx.dom2 NXEx.w2 1 0 with T | _ | _ | _
    · rw [h] at key; simp at key
    · rfl
    · rw [h] at key; simp at key
    · rw [h] at key; simp at key

namespace NXEx
/-- The run with the layer along the right side. -/
def traceR : NextTrace ℚ := match generateNext FNEx.Lf 20 (lay right) dom2 w2 1 0 with
  | .done T => T
  | _ => ⟨St.empty 1, St.empty 1, St.empty 1, w2, St.empty 1, St.empty 1, false⟩
theorem okR : traceR.ok = true := by decide +kernel
theorem doneR : generateNext FNEx.Lf 20 (lay right) dom2 w2 1 0 = .done traceR := by
  have h := okR
  unfold traceR at h ⊢
  rcases hg : generateNext FNEx.Lf 20 (lay right) dom2 w2 1 0 with T | _ | _ | _
  · rfl
  · rw [hg] at h; simp at h
  · rw [hg] at h; simp at h
  · rw [hg] at h; simp at h
theorem right_some : layerAll FNEx.Lf 20 [right] (w2 1) = some (layered right) := layered_eq (by decide +kernel)
theorem right_parts : traceR.layered = layered right ∧ traceR.meshed = meshedL right := by
  obtain ⟨h1, ⟨ok, h2⟩, -⟩ := generateNext_steps doneR
  have e1 : traceR.layered = layered right := Option.some.inj (h1.symm.trans right_some)
  rw [e1] at h2
  have h2 : triangulate FNEx.Lf.env TGEx.par 0 20 (fun _ => 0) (layered right) = .ret ok traceR.meshed := h2
  have h3 : triangulate FNEx.Lf.env TGEx.par 0 20 (fun _ => 0) (layered right) = .ret true (meshedL right) := right_run.ok
  rw [h3] at h2
  injection h2 with _ e2
  exact ⟨e1, e2.symm⟩
theorem runR : GoodRun FNEx.Lf 20 (lay right) (w2 1) traceR.layered traceR.meshed := by
  rw [right_parts.1, right_parts.2]; exact right_run
theorem leftR : LeftFacets FNEx.Lf.env.eps traceR.modified := by
  obtain ⟨h1, -, h3, -⟩ := generateNext_steps doneR
  exact C48_left_geometry (meshed_part (L := FNEx.Lf) FUEx.epsPos FUEx.exact FUEx.sortOK FUEx.norm_ok prepared2.1 h1 h3 runR).1.complete.wf
    (shapes_of (by decide +kernel))
theorem convexR : ConvexElements (traceR.merged 1) := SMEx.convex_of (by decide +kernel)
theorem unfoldedR : Unfolded traceR.smoothed := APEx.unfolded_of (by decide +kernel)
end NXEx

/-- With the layer along the right side the layer cuts two other boundary edges, the interface stays, and the meshes are
merged: two triangles and two quads. -/
example : RimKept (NXEx.w2 1) (NXEx.layered NXEx.right) ∧ (NXEx.layered NXEx.right).quads.length = 1 ∧
    ((NXEx.layered NXEx.right).es .bdry).length = 6 ∧ Complete NXEx.traceR.smoothed ∧ Tiled NXEx.traceR.smoothed ∧
    (NXEx.traceR.merged 1).tris.length = 2 ∧ (NXEx.traceR.merged 1).quads.length = 2 := by
  have k := C164_links_partial (L := FNEx.Lf) FUEx.epsPos FUEx.exact FUEx.sortOK FUEx.norm_ok NXEx.prepared2.1.bare NXEx.right_fine NXEx.right_off
    NXEx.right_some
  obtain ⟨m1, m2, -⟩ := C164_merged_partial (L := FNEx.Lf) FUEx.epsPos FUEx.exact FUEx.sortOK FUEx.norm_ok NXEx.prepared2.1 NXEx.old_mesh NXEx.beside
    NXEx.old_left NXEx.doneR NXEx.runR NXEx.right_off NXEx.leftR (Or.inr NXEx.convexR) NXEx.unfoldedR
  exact ⟨k, by decide +kernel, by decide +kernel, m1, m2, by decide +kernel, by decide +kernel⟩

end TQ

#print axioms TQ.C164_links_partial
#print axioms TQ.C164_merged_partial
#print axioms TQ.C164_interface_violated

import Verif.Whole.Work
import Verif.Whole.Props
import Verif.QuadLayer.Examples

/-!
# Properties of domains that are meshed with quad layers and triangulation steps: C119, C150, C151
-/

set_option linter.unusedSectionVars false
set_option linter.unusedSimpArgs false

namespace TQ
open MS MS.St MeshSpec FUSpec MCSpec RefSpec WholeSpec Whole GN MM CK FU QLSpec QL
variable {K : Type*} [Field K] [LinearOrder K] [IsStrictOrderedRing K]

/-! ### C119 -/

/-- **C119** (partial: the changes of the layers are fine, that is nothing is moved, only front edges on the boundary are
split, the tolerance is below the resolution and the checks reach far enough).  Quad layers on a partly meshed domain leave
a partly meshed domain; the area of the elements plus the area enclosed by the front is the same as before, the area
counter follows, and the winding numbers of elements and front around every point add up to the same number as before. -/
theorem C119_conserved_partial {L : LEnv K} (he : 0 < L.env.eps) (hq : QueryExact L.env) (hso : SortOK L.env)
    (hn : ∀ p, 0 ≤ L.env.norm p ∧ Pt.normSq p ≤ L.env.norm p * L.env.norm p) {s : St K} (h : Meshing s) {fuel n : Nat}
    {growth ht : K} {xs xe : Pt K} {r} (hl : layers L fuel growth n s xs xe ht = some r)
    (f : ∀ x ∈ layersLog L fuel growth n s xs xe ht, Fine L.env x) :
    Meshing r.1 ∧
    meshArea r.1 + enclosed r.1.pos (pairs r.1 .front) = meshArea s + enclosed s.pos (pairs s .front) ∧
    r.1.area - s.area = meshArea r.1 - meshArea s ∧
    ∀ p, winding r.1.pos (elemSides r.1) p + winding r.1.pos (pairs r.1 .front) p =
      winding s.pos (elemSides s) p + winding s.pos (pairs s .front) p := by
  have hql := queryExact_live hq
  have hr := (layers_tracks (R := regFine he hq hso hn) he hql hso n h hl f).1
  obtain ⟨m, g⟩ := fine_good he hq hso hn h hr f
  exact ⟨m, C119_tiling_partial he hql hso h.wf hl g⟩

namespace QLEx
/-- A domain with a bend on its right side. -/
def bent : St ℚ := MCEx.build [.v 0 0, .v 1 0, .v 2 0, .v 2 1, .v 3 2, .v 0 2, .v 0 1,
  .bdry 0 1 1, .bdry 1 2 1, .bdry 2 3 2, .bdry 3 4 2, .bdry 4 5 3, .bdry 5 6 3, .bdry 6 0 4] (St.empty 1)
theorem built_bent : Built 1 bent := MCEx.built_of _ _ Built.empty (by decide +kernel)
theorem wf_bent : WF (start bent) := wf_start built_bent (by decide +kernel)
end QLEx

/-- **C119 is violated**: the layer moves the vertex in the bend of the right side from (2, 1) to (2, 3/4); the domain
of the area 9/2 has grown to 37/8. -/
theorem C119_conserved_violated : WF (QLEx.start QLEx.bent) ∧
    (QLEx.run 1 QLEx.bent ⟨0, 0⟩ ⟨2, 0⟩ (3 / 4)).map (·.2.1) = some true ∧
    meshArea (QLEx.start QLEx.bent) + enclosed (QLEx.start QLEx.bent).pos (pairs (QLEx.start QLEx.bent) .front) = 9 / 2 ∧
    let s := QLEx.fin 1 QLEx.bent ⟨0, 0⟩ ⟨2, 0⟩ (3 / 4)
    meshArea s + enclosed s.pos (pairs s .front) = 37 / 8 ∧ s.pos 3 = ⟨2, 3 / 4⟩ :=
  ⟨QLEx.wf_bent, by decide +kernel, by decide +kernel, by decide +kernel, by apply Pt.ext' <;> decide +kernel⟩

/-! ### C150 -/

/-- **C150.** A domain with simple boundary is meshed with triangulation steps and quad layers in any order, each one
stopped anywhere and picked up by the next: at every moment the mesh together with its front is consistent, a
point inside an element is in no other one, in the domain and not in the region of the front, the areas of the mesh
and of the front add up to the area of the domain, the vertices of the domain are in the mesh at their places, and the
boundary edges (some of them split) enclose the domain.  When the front is empty, the mesh is conforming. -/
theorem C150_work {L : LEnv K} (he : 0 < L.env.eps) (hq : QueryExact L.env) (hso : SortOK L.env)
    (hn : ∀ p, 0 ≤ L.env.norm p ∧ Pt.normSq p ≤ L.env.norm p * L.env.norm p) {s0 s : St K} (h0 : Bare s0) (h : Work L s0 s) :
    Remaining s ∧ UniqueIntr s ∧
    (∀ p, ∀ x ∈ pieces s, InPiece s p x → (∀ y ∈ pieces s, InPiece s p y → y = x) ∧
      winding s.pos (pairs s .front) p = 0 ∧ winding s0.pos (pairs s0 .bdry) p = 1) ∧
    s.area + enclosed s.pos (pairs s .front) = s0.area + enclosed s0.pos (pairs s0 .bdry) ∧
    (∀ v ∈ s0.verts, v ∈ s.verts ∧ s.pos v = s0.pos v) ∧
    (SimpleFront s.pos (pairs s .bdry) ∧ ∀ p, winding s.pos (pairs s .bdry) p = winding s0.pos (pairs s0 .bdry) p) ∧
    (s.es .front = [] → Conforming s) := by
  have i := work_inv he hq hso hn h0 h
  refine ⟨(meshing_remaining i.mesh).1, (meshing_remaining i.mesh).2, fun p x hx hp => ?_, i.area, fun v hv => ⟨i.verts v hv, i.pos v hv⟩,
    ⟨i.mesh.bdry, i.region⟩, meshing_conforming i.mesh⟩
  have := meshing_in i.mesh hx hp
  rw [i.region] at this
  exact this

/-- **C150, from the domain.** The mesh was prepared for a domain: when the front is empty, its area is the area of
the domain boundaries. -/
theorem C150_domain {nbr : Fr.SrcEdge K → List (Fr.SrcEdge K)} {bd : List (List (Fr.SrcEdge K))} {fx : List (Fr.SrcEdge K)}
    (D : DomainData nbr bd fx) {P : Prep K} (hP : P.front = Fr.collect nbr bd fx) (hS : LineSub P.sub) {w w' : World K} {a : Nat} {c : Int}
    (hw : w a = St.empty c) (hr : ∀ x ∈ P.refs, x.1 ≠ a) (h : prepareMesh P w a = .ret true w')
    (hsim : SimpleFront (w' a).pos (pairs (w' a) .bdry))
    {L : LEnv K} (he : 0 < L.env.eps) (hq : QueryExact L.env) (hso : SortOK L.env)
    (hn : ∀ p, 0 ≤ L.env.norm p ∧ Pt.normSq p ≤ L.env.norm p * L.env.norm p) {s : St K} (hss : Work L (w' a) s)
    (hf : s.es .front = []) :
    Conforming s ∧ s.area = sourceArea nbr bd := by
  have hb := prepared_bare D hP hS hw hr h hsim
  obtain ⟨-, -, -, h4, -, -, h5⟩ := C150_work he hq hso hn hb hss
  obtain ⟨c1, c2, c3, c4, c5, c6, c7, c8, c9, c10, c11⟩ := C115_prepared D hP hS (by rw [hw]; exact wf_empty c) hr h
  refine ⟨h5 hf, ?_⟩
  have hp : pairs s .front = [] := by unfold pairs; rw [hf]; rfl
  rw [hp, c7, c10, hw] at h4
  simpa [enclosed, St.empty] using h4

/-! ### C151 -/

/-- **C151.** A domain meshed completely with quad layers and triangles passes the check of the mesh if the elements
are found on the left of their sides. -/
theorem C151_work_passes {nbr : Fr.SrcEdge K → List (Fr.SrcEdge K)} {bd : List (List (Fr.SrcEdge K))} {fx : List (Fr.SrcEdge K)}
    (D : DomainData nbr bd fx) {P : Prep K} (hP : P.front = Fr.collect nbr bd fx) (hS : LineSub P.sub) {w w' : World K} {a : Nat} {c : Int}
    (hw : w a = St.empty c) (hr : ∀ x ∈ P.refs, x.1 ≠ a) (h : prepareMesh P w a = .ret true w')
    (hsim : SimpleFront (w' a).pos (pairs (w' a) .bdry))
    {L : LEnv K} (he : 0 < L.env.eps) (hq : QueryExact L.env) (hso : SortOK L.env)
    (hn : ∀ p, 0 ≤ L.env.norm p ∧ Pt.normSq p ≤ L.env.norm p * L.env.norm p) {s : St K} (hss : Work L (w' a) s)
    (hlf : LeftFacets L.env.eps s) (hf : s.es .front = []) {thr : K} (ht : 0 < thr) {dom : Dom.Domain K}
    (ha : Dom.area dom = sourceArea nbr bd) (hx : (Dom.extent dom).1.1 ≠ (Dom.extent dom).1.2)
    (hy : (Dom.extent dom).2.1 ≠ (Dom.extent dom).2.2) :
    (checkCompleteness L.env.eps thr dom true (MC.finishStep s)).2 = true := by
  obtain ⟨h1, h2⟩ := C150_domain D hP hS hw hr h hsim he hq hso hn hss hf
  rw [finish_complete hf]
  exact C144_conforming_passes ht h1 hlf (h2.trans ha.symm) hx hy

/-! ### A concrete case -/

namespace WEx
/-- The unit square, its bottom and its top in two edges. -/
def box : St ℚ := MCEx.build [.v 0 0, .v 1 0, .v 1 1, .v 0 1, .v (1 / 2) 0, .v (1 / 2) 1,
  .bdry 0 4 1, .bdry 4 1 1, .bdry 1 2 2, .bdry 2 5 2, .bdry 5 3 3, .bdry 3 0 3] (St.empty 1)
theorem built_box : Built 1 box := MCEx.built_of _ _ Built.empty (by decide +kernel)

theorem box_simple : SimpleFront box.pos (pairs box .bdry) := by
  have h0 : SimpleFront box.pos [(0, 1), (1, 2), (2, 3), (3, 0)] := FUEx.unit_simple (by decide +kernel)
  have h1 : SimpleFront box.pos [(0, 4), (4, 1), (1, 2), (2, 3), (3, 0)] :=
    simple_split (a := 0) (b := 1) (n := 4) h0 (by decide) (by decide) ⟨1 / 2, by norm_num, by norm_num, by
      apply Pt.ext' <;> decide +kernel⟩
  refine simple_split (a := 2) (b := 3) (n := 5) h1 (by decide) (by decide +kernel) ⟨1 / 2, by norm_num, by norm_num, by
      apply Pt.ext' <;> decide +kernel⟩

theorem box_bare : Bare box := by
  have k : box.tris = [] ∧ box.quads = [] ∧ box.es .intr = [] ∧ box.es .front = [] ∧ (∀ e ∈ box.es .bdry, (box.E e).fl = .null) ∧
    ∀ b ∈ box.es .bdry, box.isInterior b = false ∧ box.isGhost b = false := by decide +kernel
  exact ⟨built_wf built_box, k.1, k.2.1, k.2.2.1, k.2.2.2.1, k.2.2.2.2.1, k.2.2.2.2.2, box_simple⟩

/-- Decidable form of `Fine`: all front edges are near. -/
def fineB (env : Env ℚ) : Ev ℚ → Bool
  | .tri e s => decide ((e.b1, e.b2) ∈ e.front) && (e.front.all fun x =>
        decide (Pt.normSq (Pt.smul (1 / 2) (s.pos x.1 + s.pos x.2) - St.triCentroid (s.pos e.b1) (s.pos e.b2) (s.pos e.v)) <
          checkRange env (s.pos e.b1) (s.pos e.b2) (s.pos e.v) * checkRange env (s.pos e.b1) (s.pos e.b2) (s.pos e.v))) &&
      (s.verts.all fun a => s.verts.all fun b => s.verts.all fun c =>
        !(decide (side (s.pos a) (s.pos b) (s.pos c) * side (s.pos a) (s.pos b) (s.pos c) < env.eps)) ||
          decide (side (s.pos a) (s.pos b) (s.pos c) = 0))
  | .split _ _ _ bd => bd
  | .move _ => false

theorem fine_of {env : Env ℚ} {l : List (Ev ℚ)} (h : l.all (fineB env) = true) : ∀ x ∈ l, Fine env x := by
  intro x hx
  have := List.all_eq_true.mp h x hx
  cases x with
  | tri e s =>
    simp only [fineB, Bool.and_eq_true, decide_eq_true_eq, List.all_eq_true, Bool.or_eq_true, Bool.not_eq_true', decide_eq_false_iff_not] at this
    obtain ⟨⟨h1, h2⟩, h3⟩ := this
    exact ⟨h1, fun x hx _ => h2 x hx, fun a ha b hb c hc hlt => (h3 a ha b hb c hc).resolve_left fun hh => hh hlt⟩
  | split => exact this
  | move => cases this

theorem box_done : (QLEx.run 1 box ⟨0, 0⟩ ⟨1, 0⟩ (1 / 2)).isSome = true := by decide +kernel
theorem box_fine : (layersLog QLEx.L 20 1 1 (QLEx.start box) ⟨0, 0⟩ ⟨1, 0⟩ (1 / 2)).all (fineB QLEx.L.env) = true := by decide +kernel

/-- After a quad layer on the bottom. -/
def box1 : St ℚ := QLEx.fin 1 box ⟨0, 0⟩ ⟨1, 0⟩ (1 / 2)
/-- After the first triangle. -/
def box2 : St ℚ := (updateFront QLEx.L.env box1 16 ⟨1 / 2, 1 / 2⟩ ⟨1 / 2, 1 / 2⟩ 2).1
/-- After the second triangle. -/
def box3 : St ℚ := (updateFront QLEx.L.env box2 15 ⟨3 / 2, 1 / 2⟩ ⟨3 / 2, 1 / 2⟩ 2).1

theorem box_up1 : (updateFront QLEx.L.env box1 16 ⟨1 / 2, 1 / 2⟩ ⟨1 / 2, 1 / 2⟩ 2).2 = some 50 := by decide +kernel
theorem box_up2 : (updateFront QLEx.L.env box2 15 ⟨3 / 2, 1 / 2⟩ ⟨3 / 2, 1 / 2⟩ 2).2 = some 56 := by decide +kernel

theorem box_run : Run QLEx.L.env box1 [⟨pairs box1 .front, 5, 3, 18⟩, ⟨pairs box2 .front, 2, 5, 23⟩] box3 := by
  have r1 := Run.update (env := QLEx.L.env) (s0 := box1) (v := 18) Run.start (by decide +kernel) (FUEx.pair_eq box_up1) (by decide +kernel)
  have r2 := Run.update (v := 23) r1 (by decide +kernel) (FUEx.pair_eq box_up2) (by decide +kernel)
  have e1 : (box1.E 16).v1 = 5 ∧ (box1.E 16).v2 = 3 := by decide +kernel
  have e2 : (box2.E 15).v1 = 2 ∧ (box2.E 15).v2 = 5 := by decide +kernel
  rw [e1.1, e1.2] at r2
  have e3 := e2
  unfold box2 at e3
  rw [e3.1, e3.2] at r2
  exact r2

theorem box_work1 : Work QLEx.L box box1 := by
  obtain ⟨r, h, hr⟩ := QLEx.run_eq box_done
  have := Work.layers Work.start h (fine_of box_fine)
  rw [hr] at this
  exact this

/-- The unit square: a quad layer on the bottom, picked up again, and two triangles. -/
theorem box_work : Work QLEx.L box box3 := by
  refine Work.run box_work1 box_run (by unfold Resolved; decide +kernel) ?_
  intro e he
  simp only [List.mem_cons, List.not_mem_nil, or_false] at he
  rcases he with rfl | rfl
  · intro f hf hx; clear hx; revert f; unfold Near; decide +kernel
  · intro f hf hx; clear hx; revert f; unfold Near; decide +kernel

theorem norm_ok (p : Pt ℚ) : 0 ≤ QLEx.L.env.norm p ∧ Pt.normSq p ≤ QLEx.L.env.norm p * QLEx.L.env.norm p := FUEx.norm_ok p

/-- Written back and picked up after the quad layer. -/
theorem box_again : Work QLEx.L box (MC.startStep QLEx.L.env.eps (MC.finishStep box1)) :=
  Work.resume box_work1 (C48_left_geometry (work_inv QLEx.epsPos QLEx.exact QLEx.sortOK norm_ok box_bare box_work1).mesh.wf
    (TQ.MCSpec.shapes_of (by decide +kernel)))
end WEx

/-- Two quads and two triangles tile the unit square; the mesh is conforming and its area is 1.  Half way, after
writing back, there are two quads and the mesh with its front is consistent. -/
example : Conforming WEx.box3 ∧ WEx.box3.area = 1 ∧ WEx.box3.quads.length = 2 ∧ WEx.box3.tris.length = 2 ∧
    Remaining (MC.startStep QLEx.L.env.eps (MC.finishStep WEx.box1)) := by
  obtain ⟨-, -, -, h4, -, -, h7⟩ := C150_work QLEx.epsPos QLEx.exact QLEx.sortOK WEx.norm_ok WEx.box_bare WEx.box_work
  refine ⟨h7 (by decide +kernel), ?_, by decide +kernel, by decide +kernel,
    (C150_work QLEx.epsPos QLEx.exact QLEx.sortOK WEx.norm_ok WEx.box_bare WEx.box_again).1⟩
  have e1 : enclosed WEx.box3.pos (pairs WEx.box3 .front) = 0 := by decide +kernel
  have e2 : WEx.box.area + enclosed WEx.box.pos (pairs WEx.box .bdry) = 1 := by decide +kernel
  rw [e1, e2] at h4
  linarith

end TQ

#print axioms TQ.C119_conserved_partial
#print axioms TQ.C119_conserved_violated
#print axioms TQ.C150_work
#print axioms TQ.C150_domain
#print axioms TQ.C151_work_passes

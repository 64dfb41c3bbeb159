import Verif.Whole.Session
import Verif.Generator.PrepareProps
import Verif.Smoothing.Area

/-!
# Properties of whole meshing sessions and of the mesh checker: C143, C144, C145
-/

set_option linter.unusedSectionVars false
set_option linter.unusedSimpArgs false

namespace TQ
open MS MS.St MeshSpec FUSpec MCSpec RefSpec WholeSpec Whole GN MM CK FU
variable {K : Type*} [Field K] [LinearOrder K] [IsStrictOrderedRing K]

/-- A successfully prepared mesh with simple boundary is the start of a session. -/
theorem prepared_bare {nbr : Fr.SrcEdge K → List (Fr.SrcEdge K)} {bd : List (List (Fr.SrcEdge K))} {fx : List (Fr.SrcEdge K)}
    (D : DomainData nbr bd fx) {P : Prep K} (hP : P.front = Fr.collect nbr bd fx) (hS : LineSub P.sub) {w w' : World K} {a : Nat} {c : Int}
    (hw : w a = St.empty c) (hr : ∀ x ∈ P.refs, x.1 ≠ a) (h : prepareMesh P w a = .ret true w')
    (hsim : SimpleFront (w' a).pos (pairs (w' a) .bdry)) : Bare (w' a) := by
  have hwf : WF (w a) := by rw [hw]; exact wf_empty c
  obtain ⟨c1, c2, c3, c4, c5, c6, c7, c8, c9, c10, c11⟩ := C115_prepared D hP hS hwf hr h
  exact ⟨c1, c2, c3, c4, by rw [c5, hw]; rfl, c9, prepared_plain D hP hwf hr h, hsim⟩

/-! ### C143 -/

/-- **C143.** Any number of triangulation steps on a domain with simple boundary, each one stopped anywhere and picked
up by the next: at every moment the mesh together with its front is consistent (every interior edge has an
element on each side and no edge is there twice, the front consists of the open sides only), a point inside a
triangle is in no other one, in the domain and not in the region of the front, and the area of the mesh and
the area enclosed by the front add up to the area of the domain.  When the front is empty, the mesh is
conforming. -/
theorem C143_session {env : FU.Env K} (he : 0 < env.eps) (hq : QueryExact env) (hs : SortOK env)
    (hn : ∀ p, 0 ≤ env.norm p ∧ Pt.normSq p ≤ env.norm p * env.norm p) {s0 s : St K} (h0 : Bare s0) (h : Session env s0 s) :
    Remaining s ∧ UniqueIntr s ∧
    (∀ p, ∀ x ∈ pieces s, InPiece s p x → (∀ y ∈ pieces s, InPiece s p y → y = x) ∧
      winding s.pos (pairs s .front) p = 0 ∧ winding s.pos (pairs s0 .bdry) p = 1) ∧
    s.area + enclosed s.pos (pairs s .front) = s0.area + enclosed s0.pos (pairs s0 .bdry) ∧
    (s.es .front = [] → Conforming s) := by
  have i := session_inv he hq hs hn h0 h
  refine ⟨(meshing_remaining i.mesh).1, (meshing_remaining i.mesh).2, fun p x hx hp => ?_, i.area, meshing_conforming i.mesh⟩
  have := meshing_in i.mesh hx hp
  rw [i.bdry] at this
  exact this

/-- **C143, from the domain.** The same for a mesh prepared for a domain: the area is the area of the domain
boundaries. -/
theorem C143_domain {nbr : Fr.SrcEdge K → List (Fr.SrcEdge K)} {bd : List (List (Fr.SrcEdge K))} {fx : List (Fr.SrcEdge K)}
    (D : DomainData nbr bd fx) {P : Prep K} (hP : P.front = Fr.collect nbr bd fx) (hS : LineSub P.sub) {w w' : World K} {a : Nat} {c : Int}
    (hw : w a = St.empty c) (hr : ∀ x ∈ P.refs, x.1 ≠ a) (h : prepareMesh P w a = .ret true w')
    (hsim : SimpleFront (w' a).pos (pairs (w' a) .bdry))
    {env : FU.Env K} (he : 0 < env.eps) (hq : QueryExact env) (hs : SortOK env)
    (hn : ∀ p, 0 ≤ env.norm p ∧ Pt.normSq p ≤ env.norm p * env.norm p) {s : St K} (hss : Session env (w' a) s)
    (hf : s.es .front = []) :
    Conforming s ∧ s.area = sourceArea nbr bd := by
  have hb := prepared_bare D hP hS hw hr h hsim
  obtain ⟨-, -, -, h4, h5⟩ := C143_session he hq hs hn hb hss
  obtain ⟨c1, c2, c3, c4, c5, c6, c7, c8, c9, c10, c11⟩ := C115_prepared D hP hS (by rw [hw]; exact wf_empty c) hr h
  refine ⟨h5 hf, ?_⟩
  have hp : pairs s .front = [] := by unfold pairs; rw [hf]; rfl
  rw [hp, c7, c10, hw] at h4
  simpa [enclosed, St.empty] using h4

namespace WEx
theorem sq_simple : SimpleFront GNEx.sqMesh.pos (pairs GNEx.sqMesh .bdry) := by
  rw [show pairs GNEx.sqMesh .bdry = [(0, 1), (1, 2), (2, 3), (3, 0)] by decide +kernel]
  exact FUEx.unit_simple (by decide +kernel)

theorem sq_resolved : Resolved (9 * FUEx.env.eps) GNEx.f2 := by unfold Resolved; decide +kernel

/-- The unit square: prepared, its front initialised, meshed with two triangles. -/
theorem sq_session : Session FUEx.env GNEx.sqMesh GNEx.f2 :=
  Session.run Session.start GNEx.frun sq_resolved (by
      intro e he
      simp only [GNEx.flog, List.mem_cons, List.not_mem_nil, or_false] at he
      rcases he with rfl | rfl
      · intro f hf hx; clear hx; revert f; unfold Near; decide +kernel
      · intro f hf hx; clear hx; revert f; unfold Near; decide +kernel)

/-- Written back and picked up again (the front is empty). -/
theorem sq_again : Session FUEx.env GNEx.sqMesh (MC.startStep FUEx.env.eps (MC.finishStep GNEx.f2)) := Session.resume sq_session sq_resolved

/-- The step stopped after the first triangle and picked up again. -/
theorem sq_half : Session FUEx.env GNEx.sqMesh (MC.startStep FUEx.env.eps (MC.finishStep GNEx.f1)) := by
  have r1 : Run FUEx.env GNEx.f0 ([] ++ [⟨pairs GNEx.f0 .front, (GNEx.f0.E 8).v1, (GNEx.f0.E 8).v2, 2⟩]) GNEx.f1 :=
    Run.update Run.start (by decide +kernel) (FUEx.pair_eq GNEx.step1) (by decide +kernel)
  have hres : Resolved (9 * FUEx.env.eps) GNEx.f1 := by unfold Resolved; decide +kernel
  refine Session.resume (Session.run Session.start r1 hres ?_) hres
  intro e he
  simp only [List.nil_append, List.mem_singleton] at he
  subst he
  intro f hf hx
  clear hx
  revert f
  unfold Near
  decide +kernel
end WEx

/-- The triangulated square is conforming and has the area 1; half way, the mesh with its front is consistent. -/
example : Conforming GNEx.f2 ∧ GNEx.f2.area = 1 ∧ (Remaining (MC.startStep FUEx.env.eps (MC.finishStep GNEx.f1)) ∧
    pairs (MC.startStep FUEx.env.eps (MC.finishStep GNEx.f1)) .front ≠ []) := by
  have h := C143_domain (GNEx.sq_data [] (by simp) (by simp)) (P := GNEx.prep [] []) rfl GNEx.noSub_line (w := GNEx.w0) (a := 0)
    (c := 1) rfl (by simp [GNEx.prep]) (GNEx.prepared_eq GNEx.ret0) WEx.sq_simple FUEx.epsPos FUEx.exact FUEx.sortOK FUEx.norm_ok
    WEx.sq_session (by decide +kernel)
  have hb : Bare GNEx.sqMesh := prepared_bare (GNEx.sq_data [] (by simp) (by simp)) (P := GNEx.prep [] []) rfl GNEx.noSub_line (w := GNEx.w0) (a := 0)
    (c := 1) rfl (by simp [GNEx.prep]) (GNEx.prepared_eq GNEx.ret0) WEx.sq_simple
  exact ⟨h.1, h.2.trans (by decide +kernel),
    (C143_session FUEx.epsPos FUEx.exact FUEx.sortOK FUEx.norm_ok hb WEx.sq_half).1, by decide +kernel⟩

/-! ### C144 -/

/-- **C144.** A conforming mesh whose area is the area of the domain passes the check. -/
theorem C144_conforming_passes {eps thr : K} (ht : 0 < thr) {D : Dom.Domain K} {s : St K} (h : Conforming s) (hlf : LeftFacets eps s)
    (ha : s.area = Dom.area D) (hx : (Dom.extent D).1.1 ≠ (Dom.extent D).1.2) (hy : (Dom.extent D).2.1 ≠ (Dom.extent D).2.2) :
    (checkCompleteness eps thr D true s).2 = true := by
  have hsb := TQ.MC.setup_sbp eps (s := s) h.wf
  unfold checkCompleteness areaAgrees
  simp only [if_true]
  rw [frontEdges_conforming h hlf, validity_conforming h, hsb.area, ha]
  have h1 : ((Dom.extent D).1.2 - (Dom.extent D).1.1) * ((Dom.extent D).2.2 - (Dom.extent D).2.1) ≠ 0 :=
    mul_ne_zero (sub_ne_zero.mpr hx.symm) (sub_ne_zero.mpr hy.symm)
  simp [h1, ht]

/-- **C144.** A session on a domain with simple boundary that ended with an empty front passes the check.  (The area
of the domain is the one of the source edges, see C20 and C27.) -/
theorem C144_session_passes {nbr : Fr.SrcEdge K → List (Fr.SrcEdge K)} {bd : List (List (Fr.SrcEdge K))} {fx : List (Fr.SrcEdge K)}
    (D : DomainData nbr bd fx) {P : Prep K} (hP : P.front = Fr.collect nbr bd fx) (hS : LineSub P.sub) {w w' : World K} {a : Nat} {c : Int}
    (hw : w a = St.empty c) (hr : ∀ x ∈ P.refs, x.1 ≠ a) (h : prepareMesh P w a = .ret true w')
    (hsim : SimpleFront (w' a).pos (pairs (w' a) .bdry))
    {env : FU.Env K} (he : 0 < env.eps) (hq : QueryExact env) (hs : SortOK env)
    (hn : ∀ p, 0 ≤ env.norm p ∧ Pt.normSq p ≤ env.norm p * env.norm p) {s : St K} (hss : Session env (w' a) s)
    (hres : Resolved (9 * env.eps) s) (hf : s.es .front = []) {thr : K} (ht : 0 < thr) {dom : Dom.Domain K}
    (ha : Dom.area dom = sourceArea nbr bd) (hx : (Dom.extent dom).1.1 ≠ (Dom.extent dom).1.2)
    (hy : (Dom.extent dom).2.1 ≠ (Dom.extent dom).2.2) :
    (checkCompleteness env.eps thr dom true (MC.finishStep s)).2 = true := by
  have hb := prepared_bare D hP hS hw hr h hsim
  have i := session_inv he hq hs hn hb hss
  obtain ⟨h1, h2⟩ := C143_domain D hP hS hw hr h hsim he hq hs hn hss hf
  rw [finish_complete hf]
  exact C144_conforming_passes ht h1 (resolved_left i.mesh i.quads hres) (h2.trans ha.symm) hx hy

namespace WEx
/-- The unit square as a domain. -/
def sqDom : Dom.Domain ℚ :=
  ⟨GNEx.sqPos, [0, 1, 2, 3], [(.exterior, ⟨true, GNEx.sqEdges, 1⟩)]⟩
end WEx

/-- The triangulated square passes the check, the prepared one does not. -/
example : (checkCompleteness FUEx.env.eps (1 / 10000000000) WEx.sqDom true (MC.finishStep GNEx.f2)).2 = true ∧
    (checkCompleteness FUEx.env.eps (1 / 10000000000) WEx.sqDom true GNEx.sqMesh).2 = false :=
  ⟨C144_session_passes (GNEx.sq_data [] (by simp) (by simp)) (P := GNEx.prep [] []) rfl GNEx.noSub_line (w := GNEx.w0) (a := 0)
    (c := 1) rfl (by simp [GNEx.prep]) (GNEx.prepared_eq GNEx.ret0) WEx.sq_simple FUEx.epsPos FUEx.exact FUEx.sortOK FUEx.norm_ok
    WEx.sq_session WEx.sq_resolved (by decide +kernel) (by norm_num) (dom := WEx.sqDom) (by decide +kernel) (by decide +kernel) (by decide +kernel),
   by decide +kernel⟩

/-! ### C145 -/

namespace WEx
/-- A unit square, a million away from the origin. -/
def far : Dom.Domain ℚ :=
  ⟨fun i => match i with
    | 0 => ⟨1000000, 1000000⟩ | 1 => ⟨1000001, 1000000⟩ | 2 => ⟨1000001, 1000001⟩ | _ => ⟨1000000, 1000001⟩,
   [0, 1, 2, 3],
   [(.exterior, ⟨true, [⟨0, 1, 1, 0⟩, ⟨1, 2, 1, 0⟩, ⟨2, 3, 1, 0⟩, ⟨3, 0, 1, 0⟩], 1⟩)]⟩
end WEx

/-- **C145 is violated.** The empty mesh passes the check for a unit square: the difference of the areas is compared
with the extent of the domain, which reaches from the square to the origin (C25). -/
theorem C145_far_violated : Dom.area WEx.far = 1 ∧ (St.empty 1 : St ℚ).tris = [] ∧ (St.empty 1 : St ℚ).quads = [] ∧
    (checkCompleteness (1 / 1000000000000) (1 / 10000000000) WEx.far true (St.empty 1)).2 = true := by
  decide +kernel

/-- **C145 (partial).** A mesh with all sides on edges, no edge twice, nothing on the right of boundary edges, and
no stale pointers: if it passes the check, it is conforming, and the area of its elements is the area enclosed by
its boundary edges.  Missing: stale pointers (C99), and that the boundary edges are those of the domain. -/
theorem C145_sound_partial {eps thr : K} {D : Dom.Domain K} {s : St K} (h : Proper s)
    (hu : ∀ e, (e ∈ s.es .intr ∨ e ∈ s.es .bdry) → ∀ e', (e' ∈ s.es .intr ∨ e' ∈ s.es .bdry) → SameEnds s e e' → e = e')
    (hlf : LeftFacets eps s) (hn : NullWhereOpen s)
    (hb : ∀ b ∈ s.es .bdry, ¬ Covered s (s.E b).v1 (s.E b).v2 → (s.E b).fl = .null)
    (hc : (checkCompleteness eps thr D true s).2 = true) :
    Conforming s ∧ meshArea s = enclosed s.pos (pairs s .bdry) := by
  have hfe : MC.frontEdges (MC.setupConnectivity eps s) = [] := by
    unfold checkCompleteness at hc
    simp only [if_true, Bool.and_eq_true, List.isEmpty_iff] at hc
    exact hc.1.1
  have hcf := frontEdges_sound h hu hlf hn hb hfe
  refine ⟨hcf, ?_⟩
  have := TQ.Sm.meshArea_boundary hcf
  have h2 : (2 : K) ≠ 0 := two_ne_zero
  have : meshArea s = 1 / 2 * ((s.es .bdry).map fun e => Pt.cross (s.pos (s.E e).v1) (s.pos (s.E e).v2)).sum := by
    rw [← this]; field_simp
  rw [this]
  unfold enclosed pairs
  rw [List.map_map, ← List.sum_map_mul_left]
  rfl

/-- **C145 (partial), areas.** A mesh that passes the check differs in its area from the domain by less than the threshold times the box of the domain, in both directions. -/
theorem C145_area_partial {eps thr : K} {D : Dom.Domain K} {s : St K} (hw : MeshSpec.WF s) (hx : (Dom.extent D).1.1 < (Dom.extent D).1.2) (hy : (Dom.extent D).2.1 < (Dom.extent D).2.2)
    (hc : (checkCompleteness eps thr D true s).2 = true) :
    s.area - Dom.area D < thr * (((Dom.extent D).1.2 - (Dom.extent D).1.1) * ((Dom.extent D).2.2 - (Dom.extent D).2.1)) ∧
    Dom.area D - s.area < thr * (((Dom.extent D).1.2 - (Dom.extent D).1.1) * ((Dom.extent D).2.2 - (Dom.extent D).2.1)) := by
  have hpos : 0 < ((Dom.extent D).1.2 - (Dom.extent D).1.1) * ((Dom.extent D).2.2 - (Dom.extent D).2.1) := mul_pos (sub_pos.2 hx) (sub_pos.2 hy)
  have ha := (TQ.MC.setup_sbp eps (s := s) hw).area
  unfold checkCompleteness areaAgrees at hc
  simp only [if_true, Bool.and_eq_true, ha, hpos.ne', if_false, decide_eq_true_eq] at hc
  have h1 := (div_lt_iff₀ hpos).1 hc.2
  exact ⟨lt_of_le_of_lt (le_abs_self _) h1, lt_of_le_of_lt (by rw [← neg_sub]; exact neg_le_abs _) h1⟩

/-- **C145 (partial), state.** After the check, passed or not, every interior edge knows the element on its left and on its right, and the mesh is the same but for such pointers. -/
theorem C145_links_partial {eps thr : K} {D : Dom.Domain K} {s : St K} (h : MeshSpec.WF s) (hd : DirUnique s) (hlf : LeftFacets eps s) :
    SameButPointers s (checkCompleteness eps thr D true s).1 ∧
    ∀ e ∈ s.es .intr, ∀ f, MeshSpec.Live s f →
      (HasSide s f (s.E e).v1 (s.E e).v2 → ((checkCompleteness eps thr D true s).1.E e).fl = f) ∧
      (HasSide s f (s.E e).v2 (s.E e).v1 → ((checkCompleteness eps thr D true s).1.E e).fr = f) :=
  ⟨TQ.MC.setup_sbp eps h, fun e he f hf => (C48_left_right h hd hlf).1 e he f hf⟩

/-- The hypotheses hold for the square meshed with two triangles, which passes (see above); it has an interior edge. -/
example : (Dom.extent WEx.sqDom).1.1 < (Dom.extent WEx.sqDom).1.2 ∧ (Dom.extent WEx.sqDom).2.1 < (Dom.extent WEx.sqDom).2.2 ∧ (GNEx.f2.es .intr).length = 1 ∧
    WF GNEx.f2 ∧ DirUnique GNEx.f2 ∧ LeftFacets FUEx.env.eps GNEx.f2 := by
  have i := session_inv FUEx.epsPos FUEx.exact FUEx.sortOK FUEx.norm_ok (prepared_bare (GNEx.sq_data [] (by simp) (by simp)) (P := GNEx.prep [] []) rfl GNEx.noSub_line (w := GNEx.w0) (a := 0)
    (c := 1) rfl (by simp [GNEx.prep]) (GNEx.prepared_eq GNEx.ret0) WEx.sq_simple) WEx.sq_session
  exact ⟨by decide +kernel, by decide +kernel, by decide +kernel, i.mesh.wf, meshing_dir i.mesh, resolved_left i.mesh i.quads WEx.sq_resolved⟩

/-- **C145 (partial), points.** If moreover the elements are counter-clockwise and the boundary edges bound a region
on their left, the elements that pass the check tile this region: every point off the lines of the sides is in exactly
one triangle (or half of a quad) if it is in the region, and in none otherwise. -/
theorem C145_tiles_partial {eps thr : K} {D : Dom.Domain K} {s : St K} (h : Proper s)
    (hu : ∀ e, (e ∈ s.es .intr ∨ e ∈ s.es .bdry) → ∀ e', (e' ∈ s.es .intr ∨ e' ∈ s.es .bdry) → SameEnds s e e' → e = e')
    (hlf : LeftFacets eps s) (hn : NullWhereOpen s)
    (hb : ∀ b ∈ s.es .bdry, ¬ Covered s (s.E b).v1 (s.E b).v2 → (s.E b).fl = .null)
    (hc : (checkCompleteness eps thr D true s).2 = true)
    (hf : s.es .front = []) (hsim : SimpleFront s.pos (pairs s .bdry))
    (hccw : ∀ x ∈ pieces s, 0 < side (s.pos x.2.1) (s.pos x.2.2.1) (s.pos x.2.2.2))
    (hp : ∀ b ∈ s.es .bdry, s.isInterior b = false ∧ s.isGhost b = false) {q : Pt K}
    (hg : ∀ x ∈ pieces s, ∀ e ∈ [(x.2.1, x.2.2.1), (x.2.2.1, x.2.2.2), (x.2.2.2, x.2.1)], side (s.pos e.1) (s.pos e.2) q ≠ 0) :
    (pieces s).countP (fun x => decide (InPiece s q x)) = if winding s.pos (pairs s .bdry) q = 1 then 1 else 0 := by
  obtain ⟨hcf, -⟩ := C145_sound_partial h hu hlf hn hb hc
  have m := conforming_meshing hcf hf hsim hccw hp
  have hc := meshing_cover m (q := q) hg
  have h0 : winding s.pos (pairs s .front) q = 0 := by
    have : pairs s .front = [] := by unfold pairs; rw [hf]; rfl
    rw [this]; rfl
  rw [h0, add_zero] at hc
  rcases hsim.once q with h1 | h1
  · rw [h1] at hc; rw [if_neg (by rw [h1]; decide)]; exact_mod_cast hc
  · rw [h1] at hc; rw [if_pos h1]; exact_mod_cast hc

/-- The triangulated square: it passes the check, and its two triangles tile it. -/
example : (pieces GNEx.f2).countP (fun x => decide (InPiece GNEx.f2 ⟨1/4, 1/2⟩ x)) = 1 ∧
    (pieces GNEx.f2).countP (fun x => decide (InPiece GNEx.f2 ⟨5/4, 1/2⟩ x)) = 0 := by
  have hb : Bare GNEx.sqMesh := prepared_bare (GNEx.sq_data [] (by simp) (by simp)) (P := GNEx.prep [] []) rfl GNEx.noSub_line (w := GNEx.w0) (a := 0)
    (c := 1) rfl (by simp [GNEx.prep]) (GNEx.prepared_eq GNEx.ret0) WEx.sq_simple
  have i := session_inv FUEx.epsPos FUEx.exact FUEx.sortOK FUEx.norm_ok hb WEx.sq_session
  have c := meshing_conforming i.mesh (by decide +kernel)
  have hl := resolved_left i.mesh i.quads WEx.sq_resolved
  have t := fun q hg => C145_tiles_partial (eps := FUEx.env.eps) (thr := 1 / 10000000000) (D := WEx.sqDom) (s := GNEx.f2) c.toProper c.unique hl
    (fun e he => ⟨fun hn => by obtain ⟨f, hf, hs⟩ := (c.intrFull e he).1; exact absurd hs (hn f hf),
      fun hn => by obtain ⟨f, hf, hs⟩ := (c.intrFull e he).2; exact absurd hs (hn f hf)⟩)
    (fun b hb hn => absurd (c.bdryFull b hb) hn) (by decide +kernel) (by decide +kernel) i.mesh.bdry i.mesh.ccw i.mesh.plain (q := q) hg
  constructor
  · rw [t ⟨1/4, 1/2⟩ (by decide +kernel)]; decide +kernel
  · rw [t ⟨5/4, 1/2⟩ (by decide +kernel)]; decide +kernel

end TQ

#print axioms TQ.C143_session
#print axioms TQ.C143_domain
#print axioms TQ.C144_conforming_passes
#print axioms TQ.C144_session_passes
#print axioms TQ.C145_far_violated
#print axioms TQ.C145_sound_partial
#print axioms TQ.C145_tiles_partial

#print axioms TQ.C145_area_partial
#print axioms TQ.C145_links_partial

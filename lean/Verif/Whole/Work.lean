import Verif.Whole.Layer5
import Verif.Whole.Session
import Verif.QuadLayer.Ends

/-! # Lemmas: sessions of quad layers and triangulation steps -/

set_option linter.unusedSectionVars false
set_option linter.unusedSimpArgs false

namespace TQ.WholeSpec
open TQ.MS TQ.MeshSpec TQ.FUSpec TQ.QLSpec TQ.MCSpec TQ.QL
variable {K : Type*} [Field K] [LinearOrder K] [IsStrictOrderedRing K]

/-- Meshing of a domain, from a mesh `s0` without elements: the front is made, advanced by triangulation steps and by
quad layers, written back and picked up again, in any order. -/
inductive Work (L : LEnv K) (s0 : St K) : St K → Prop
  | start : Work L s0 (MC.startStep L.env.eps s0)
  | run {s s' : St K} {log : List Entry} : Work L s0 s → Run L.env s log s' → Resolved L.env.eps s' →
      AllReach L.env s'.pos log → Work L s0 s'
  | layers {s : St K} {fuel n : Nat} {growth ht : K} {xs xe : Pt K} {r : St K × Bool × List K} : Work L s0 s →
      QL.layers L fuel growth n s xs xe ht = some r → (∀ x ∈ layersLog L fuel growth n s xs xe ht, Fine L.env x) → Work L s0 r.1
  | resume {s : St K} : Work L s0 s → LeftFacets L.env.eps s → Work L s0 (MC.startStep L.env.eps (MC.finishStep s))

end TQ.WholeSpec

namespace TQ.Whole
open TQ.MS TQ.MeshSpec TQ.FUSpec TQ.MS.St TQ.GeoSpec TQ.FU TQ.Sm TQ.MCSpec TQ.WholeSpec TQ.RefSpec TQ.QLSpec TQ.QL
variable {K : Type*} [Field K] [LinearOrder K] [IsStrictOrderedRing K]

theorem sidesOf_perm {cs : List Nat} (h : cs.length = 3 ∨ cs.length = 4) : (bdryOf cs).Perm (sidesOf cs) := by
  match cs with
  | [a, b, c] =>
    rw [sides3]
    exact List.perm_append_comm (l₁ := [(a, b)]) (l₂ := [(b, c), (c, a)])
  | [a, b, c, d] =>
    rw [sides4]
    exact List.perm_append_comm (l₁ := [(a, b)]) (l₂ := [(b, c), (c, d), (d, a)])
  | [] => simp at h
  | [_] => simp at h
  | [_, _] => simp at h
  | _ :: _ :: _ :: _ :: _ :: _ => simp at h

theorem flatMap_perm {α β : Type*} {f g : α → List β} : ∀ {l : List α}, (∀ x ∈ l, (f x).Perm (g x)) → (l.flatMap f).Perm (l.flatMap g)
  | [], _ => List.Perm.refl _
  | x :: l, h => by
    rw [List.flatMap_cons, List.flatMap_cons]
    exact (h x List.mem_cons_self).append (flatMap_perm fun y hy => h y (List.mem_cons_of_mem _ hy))

theorem elemSides_perm {s : St K} (h : WF s) : (elemSides s).Perm (allSides s) := by
  unfold elemSides allSides facets sides triCorners
  rw [List.flatMap_append, List.flatMap_map, List.flatMap_map, List.flatMap_map, List.flatMap_map]
  refine (flatMap_perm fun t ht => ?_).append (flatMap_perm fun t ht => ?_)
  · exact sidesOf_perm (Or.inl (h.tcor t ht))
  · exact sidesOf_perm (Or.inr (h.qcor t ht))

theorem winding_perm {pos : Nat → Pt K} {xs ys : List (Nat × Nat)} (h : xs.Perm ys) (p : Pt K) : winding pos xs p = winding pos ys p := by
  rw [winding_eq, winding_eq]; exact (h.map _).sum_eq

/-- The region enclosed by the boundary is the one of the elements together with the one of the front. -/
theorem meshing_winding {s : St K} (h : Meshing s) (p : Pt K) :
    winding s.pos (elemSides s) p + winding s.pos (pairs s .front) p = winding s.pos (pairs s .bdry) p := by
  rw [winding_perm (elemSides_perm h.wf)]
  exact winding_of_chain h.chain p

theorem winding_congr {x y : Nat → Pt K} {es : List (Nat × Nat)} (h : ∀ e ∈ es, x e.1 = y e.1 ∧ x e.2 = y e.2) (p : Pt K) :
    winding x es p = winding y es p := by
  rw [winding_eq, winding_eq]
  congr 1
  exact List.map_congr_left fun e he => by rw [(h e he).1, (h e he).2]

/-- What holds in every state of the meshing of a domain. -/
structure WInv (s0 s : St K) : Prop where
  mesh : Meshing s
  verts : ∀ v ∈ s0.verts, v ∈ s.verts
  pos : ∀ v ∈ s0.verts, s.pos v = s0.pos v
  area : s.area + enclosed s.pos (pairs s .front) = s0.area + enclosed s0.pos (pairs s0 .bdry)
  region : ∀ p, winding s.pos (pairs s .bdry) p = winding s0.pos (pairs s0 .bdry) p

theorem work_inv {L : LEnv K} (he : 0 < L.env.eps) (hq : QueryExact L.env) (hso : SortOK L.env)
    (hn : ∀ p, 0 ≤ L.env.norm p ∧ Pt.normSq p ≤ L.env.norm p * L.env.norm p) {s0 s : St K} (h0 : Bare s0)
    (h : Work L s0 s) : WInv s0 s := by
  have hql := queryExact_live hq
  induction h with
  | start =>
    obtain ⟨d1, d2, d3, d4, d5, d6, d7, -⟩ := start_bare L.env.eps h0.wf h0.tris h0.quads h0.intr h0.front h0.null
    refine ⟨bare_meshing _ h0, fun v hv => by rw [d2.verts]; exact hv, fun v _ => d2.pos v, ?_, ?_⟩
    · rw [d2.area, d3, funext d2.pos]
    · intro p
      rw [funext d2.pos]
      congr 1
      unfold pairs
      rw [d4]
      exact List.map_congr_left fun e hem => by rw [d6 e hem]
  | @run s s' log hss hrun hres hreach ih =>
    obtain ⟨w, fr⟩ := run_frame he hql hso ih.mesh.wf hrun
    obtain ⟨ho, -⟩ := C140_stays_simple he hq hso hn ih.mesh.wf ih.mesh.front hrun hres hreach
    refine ⟨meshing_run he hq hso hn ih.mesh hrun hres hreach, fun v hv => fr.verts v (ih.verts v hv),
      fun v hv => (fr.pos v (ih.verts v hv)).trans (ih.pos v hv), ?_, ?_⟩
    · rw [C34_area_conserved he hql hso ih.mesh.wf hrun ho, ih.area]
    · intro p
      rw [← ih.region]
      have : pairs s' .bdry = pairs s .bdry := by
        unfold pairs
        rw [fr.bdry]
        exact List.map_congr_left fun e hem => by rw [fr.E e hem]
      rw [this]
      exact winding_congr (fun e hem => ⟨fr.pos _ (pairs_verts ih.mesh.wf e hem).1, fr.pos _ (pairs_verts ih.mesh.wf e hem).2⟩) p
  | @layers s fuel n growth ht xs xe r hss hl hf ih =>
    obtain ⟨m, k⟩ := meshing_layers he hq hso hn ih.mesh hl hf
    have hr := (layers_tracks (R := regFine he hq hso hn) he hql hso n ih.mesh hl hf).1
    obtain ⟨c1, c2, c3⟩ := C119_tiling_partial he hql hso ih.mesh.wf hl (fine_good he hq hso hn ih.mesh hr hf).2
    refine ⟨m, fun v hv => k.verts v (ih.verts v hv), fun v hv => (k.pos v (ih.verts v hv)).trans (ih.pos v hv), ?_, ?_⟩
    · rw [← ih.area]; linear_combination c1 + c2
    · intro p
      rw [← ih.region, ← meshing_winding m, ← meshing_winding ih.mesh]
      exact c3 p
  | @resume s hss hlf ih =>
    obtain ⟨m1, m2, m3⟩ := meshing_resume ih.mesh hlf
    obtain ⟨-, -, -, c4, c5, -⟩ := TQ.MC.resume (meshing_remaining ih.mesh).1 hlf
    refine ⟨m1, fun v hv => by rw [m2.verts]; exact ih.verts v hv, fun v hv => (m2.pos v).trans (ih.pos v hv), ?_, ?_⟩
    · rw [m2.area, funext m2.pos, enclosed_perm m3, ih.area]
    · intro p
      rw [← ih.region, funext m2.pos]
      congr 1
      unfold pairs
      rw [c4]
      exact List.map_congr_left fun e hem => (c5 e (Or.inr hem)).1

end TQ.Whole

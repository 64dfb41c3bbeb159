import Verif.QuadLayer.PlaceSpec
import Verif.Smoothing.PlaceLemmas
import Verif.Triangulation.PlaceProps

/-! # Lemmas for C201: the steps of the quad layers follow the place of the mesh -/

set_option linter.unusedSectionVars false

namespace TQ
open MS MS.St FU GeoSpec PlaceSpec
variable {K : Type*} [Field K] [LinearOrder K] [IsStrictOrderedRing K]

section plain
variable (f : Similarity K)

theorem qlSplitFront_place (s : St K) (e : Nat) (sf : K) : QL.splitFront (place f s) e sf = (QL.splitFront s e sf).map (place f) := by
  unfold QL.splitFront
  by_cases h1 : 1 ≤ sf ∨ sf ≤ 0
  · rw [if_pos h1, if_pos h1]; rfl
  · rw [if_neg h1, if_neg h1]
    dsimp only [Option.map_some]
    have hp : Pt.smul sf ((place f s).pos ((place f s).E e).v1) + Pt.smul (1 - sf) ((place f s).pos ((place f s).E e).v2) = f.at (Pt.smul sf (s.pos (s.E e).v1) + Pt.smul (1 - sf) (s.pos (s.E e).v2)) := by
      refine Pt.ext' ?_ ?_ <;> simp only [pos_place, show (place f s).E = s.E from rfl, Similarity.at, Pt.smul_x, Pt.smul_y, Pt.add_x, Pt.add_y] <;> ring
    rw [hp, addVertex_place]
    simp only [show (place f s).isInterior e = s.isInterior e from rfl, show (place f s).E = s.E from rfl, show (place f s).nxt = s.nxt from rfl,
      show ∀ v, ((place f s).V v).props = (s.V v).props from fun _ => rfl, setProps_place]
    split_ifs <;> simp only [addEdge_place, removeEdge_place]

theorem qlSplitBdry_place (s : St K) (d : EData) (n b : Nat) : QL.splitBdry (place f s) d n b = (QL.splitBdry s d n b).map (place f) := by
  unfold QL.splitBdry
  rw [show (place f s).nextEdge b = s.nextEdge b from rfl]
  rcases s.nextEdge b with _ | x
  · rfl
  · dsimp only [Option.map_some]
    rw [removeEdge_place, addEdge_place, addEdge_place]

theorem qlSplit_place (s : St K) (e : Nat) (sf : K) : QL.split (place f s) e sf = (QL.split s e sf).map (placeP f) := by
  unfold QL.split
  dsimp only
  rw [qlSplitFront_place, show (place f s).E = s.E from rfl, show (place f s).getEdge = s.getEdge from rfl, show (place f s).nxt = s.nxt from rfl]
  rcases QL.splitFront s e sf with _ | s1
  · rfl
  · dsimp only [Option.map_some]
    rcases s.getEdge .bdry (s.E e).v1 (s.E e).v2 with _ | b
    · rfl
    · dsimp only
      rw [qlSplitBdry_place, Option.map_map, Option.map_map]
      rfl

theorem toQuad_place (s : St K) (e t1 t2 a b p2 p1 : Nat) : QL.toQuad (place f s) e t1 t2 a b p2 p1 = place f (QL.toQuad s e t1 t2 a b p2 p1) := by
  unfold QL.toQuad
  dsimp only
  rw [removeIntr_place, removeTri_place, removeTri_place, addQuad_place, activate_place]
  rfl

theorem mark_place (s : St K) (vs : List Nat) : QL.mark (place f s) vs = place f (QL.mark s vs) :=
  foldl_place (place f) (fun s v => setProps_place f s v _) vs s

theorem lastSeen_place (s : St K) : ∀ (l : List (Option Nat)) (v : Option Nat), QL.lastSeen (place f s) v l = QL.lastSeen s v l
  | [], _ => rfl
  | x :: l, v => by
    unfold QL.lastSeen
    rcases x with _ | w
    · exact lastSeen_place s l _
    · dsimp only
      rw [show ((place f s).V w).props = (s.V w).props from rfl, lastSeen_place s l]

theorem nextEndings_place (s : St K) (closed : Bool) (proj : List (Option Nat × Option Nat)) : QL.nextEndings (place f s) closed proj = QL.nextEndings s closed proj := by
  unfold QL.nextEndings
  simp only [lastSeen_place]

theorem shifted_place (hf : f.factor ≠ 0) (v q x : Pt K) : QL.shifted (f.at v) (f.at q) (f.at x) = f.at (QL.shifted v q x) := by
  unfold QL.shifted
  simp only [at_sub, turn_dot, turn_normSq, mul_div_mul_left _ _ hf, turn_smul, at_add]

theorem closest_place {c : K} (hc : f.factor = c) (h0 : 0 < c) (far : K) (s : St K) (p : Pt K) : QL.closest (c * far) (place f s) (f.at p) = QL.closest far s p := by
  unfold QL.closest
  rw [show (place f s).es = s.es from rfl]
  have key := foldl_place (fun x : Option Nat × K => (x.1, c * x.2))
    (step := fun (x : Option Nat × K) e => let d := Pt.normSq (p - s.pos (s.E e).v1); if d ≥ x.2 then x else (some (s.E e).v1, d))
    (step' := fun (x : Option Nat × K) e => let d := Pt.normSq (f.at p - (place f s).pos ((place f s).E e).v1); if d ≥ x.2 then x else (some ((place f s).E e).v1, d))
    (fun x e => by
      dsimp only
      rw [pos_place, at_sub, turn_normSq, hc]
      simp only [ge_iff_le, mul_le_mul_iff_right₀ h0, show (place f s).E = s.E from rfl]
      split_ifs <;> rfl) (s.es .front) (none, far)
  have k1 := congrArg Prod.fst key
  exact k1

theorem addFrontEdge_place (s : St K) (e : Nat) : MC.addFrontEdge (place f s) e = place f (MC.addFrontEdge s e) := by
  unfold MC.addFrontEdge
  rw [show (place f s).E = s.E from rfl, setProps_place, setProps_place, addEdge_place]

theorem initFront_place (s : St K) : MC.initFront (place f s) = place f (MC.initFront s) :=
  foldl_place (place f) (addFrontEdge_place f) (MC.frontEdges s) s

theorem removeInvalid_place (s : St K) : MC.removeInvalid (place f s) = place f (MC.removeInvalid s) :=
  foldl_place (place f) (removeIntr_place f) (MC.frontEdges s) s

theorem addRemaining1_place (s : St K) (e : Nat) : MC.addRemaining1 (place f s) e = place f (MC.addRemaining1 s e) := by
  unfold MC.addRemaining1
  dsimp only
  rw [show (place f s).E = s.E from rfl, setProps_place, setProps_place]
  generalize (s.setProps (s.E e).v1 _).setProps (s.E e).v2 _ = s1
  rw [show (place f s1).getEdge = s1.getEdge from rfl]
  split_ifs
  · rfl
  · rfl
  · exact addEdge_place f s1 _ _ _ _ _

theorem finishStep_place (s : St K) : MC.finishStep (place f s) = place f (MC.finishStep s) := by
  unfold MC.finishStep MC.clearFront MC.addRemaining
  rw [show (place f s).es = s.es from rfl, foldl_place (place f) (addRemaining1_place f)]
  exact foldl_place (place f) (removeEdge_place f) _ _

theorem startStep_place {eps eps' : K} (T : SameTests f.at Set.univ eps' eps) (s : St K) : MC.startStep eps' (place f s) = place f (MC.startStep eps s) := by
  unfold MC.startStep
  rw [setup_place T, initFront_place, removeInvalid_place]

/-- The data of a layer at another place. -/
def placeLayer (f : Similarity K) (lam : K) (y : QL.Layer K) : QL.Layer K := { y with h := y.h.map (lam * ·), p1 := y.p1.map f.at, p2 := y.p2.map f.at }

end plain

section env
variable {f : Similarity K} {lam : K} {L L' : QL.LEnv K} (h : LayerFollows f lam L L')
include h

theorem norm_turn (u : Pt K) : L'.env.norm (f.turn u) = lam * L.env.norm u := by
  have := h.env.norm u 0
  rw [at_sub] at this
  rwa [show u - 0 = u by refine Pt.ext' ?_ ?_ <;> simp] at this

theorem len_place (s : St K) (e : Nat) : QL.len L' (place f s) e = lam * QL.len L s e := h.env.norm _ _

theorem normal_place (s : St K) (e : Nat) : QL.normal L' (place f s) e = placeDir f lam (QL.normal L s e) := by
  unfold QL.normal placeDir
  dsimp only
  rw [len_place h, pos_place, pos_place, at_sub, show (place f s).E = s.E from rfl]
  refine Pt.ext' ?_ ?_ <;> simp only [Similarity.turn, Pt.smul_x, Pt.smul_y, one_div, mul_inv] <;> ring

theorem smul_dir (k : K) (u : Pt K) : Pt.smul (lam * k) (placeDir f lam u) = f.turn (Pt.smul k u) := by
  have := h.env.pos.ne'
  unfold placeDir
  rw [← turn_smul]
  refine Pt.ext' ?_ ?_ <;> simp only [Pt.smul_x, Pt.smul_y] <;> field_simp

theorem height_place (s : St K) (ht : K) (e : Nat) : QL.height L' (place f s) (lam * ht) e = lam * QL.height L s ht e := by
  unfold QL.height
  rw [len_place h, cppMIN_mul h.env]

theorem mkLayer_place (s : St K) (ht : K) (base : List Nat) : QL.mkLayer L' (place f s) (lam * ht) base = placeLayer f lam (QL.mkLayer L s ht base) := by
  unfold QL.mkLayer placeLayer
  simp only [List.map_map, show (place f s).E = s.E from rfl, QL.Layer.mk.injEq, true_and]
  refine ⟨List.map_congr_left fun e _ => height_place h s ht e, List.map_congr_left fun e _ => ?_, List.map_congr_left fun e _ => ?_⟩ <;>
  · dsimp only [Function.comp]
    rw [height_place h, normal_place h, smul_dir h, pos_place, at_add]

theorem smoothGo_mul : ∀ (l : List (K × K)) (prev : K), QL.smoothGo (lam * prev) (l.map fun x => (lam * x.1, lam * x.2)) = (QL.smoothGo prev l).map (lam * ·)
  | [], _ => rfl
  | [x], _ => rfl
  | x :: y :: l, prev => by
    rw [List.map_cons, List.map_cons]
    unfold QL.smoothGo
    dsimp only
    rw [show (lam * prev + lam * x.1 + lam * y.1) / 3 = lam * ((prev + x.1 + y.1) / 3) by ring, cppMIN_mul h.env, List.map_cons,
      ← List.map_cons (f := fun x : K × K => (lam * x.1, lam * x.2)), smoothGo_mul (y :: l)]

theorem smooth_mul (l : List (K × K)) : QL.smooth (l.map fun x => (lam * x.1, lam * x.2)) = (QL.smooth l).map (lam * ·) := by
  unfold QL.smooth
  rcases l with _ | ⟨x, l⟩
  · rfl
  · rw [List.map_cons, List.map_cons]
    exact congrArg _ (smoothGo_mul h l x.1)

theorem mid_place (s : St K) (e : Nat) : QL.mid (place f s) e = f.at (QL.mid s e) := emid_place s e

theorem smoothLayer_place (s : St K) (y : QL.Layer K) : QL.smoothLayer L' (place f s) (placeLayer f lam y) = placeLayer f lam (QL.smoothLayer L s y) := by
  unfold QL.smoothLayer placeLayer
  simp only [QL.Layer.mk.injEq, true_and, and_true]
  rw [← smooth_mul h]
  congr 1
  simp only [mid_place h, h.env.rho]
  rw [show (fun x : K × K => (lam * x.1, lam * x.2)) = Prod.map (lam * ·) (lam * ·) from rfl, ← List.zip_map, List.map_map]
  rfl

theorem joint_place (s : St K) (ei ej : Nat) (hi hj : K) (p q r : Pt K) :
    QL.joint L' (place f s) ei ej (lam * hi) (lam * hj) (f.at p) (f.at q) (f.at r) = f.at (QL.joint L s ei ej hi hj p q r) := by
  unfold QL.joint
  dsimp only
  have h0 := h.env.pos.ne'
  have hn : Pt.smul (1 / 2) (QL.normal L' (place f s) ei + QL.normal L' (place f s) ej) = placeDir f lam (Pt.smul (1 / 2) (QL.normal L s ei + QL.normal L s ej)) := by
    rw [normal_place h, normal_place h]
    unfold placeDir
    refine Pt.ext' ?_ ?_ <;> simp only [Similarity.turn, Pt.smul_x, Pt.smul_y, Pt.add_x, Pt.add_y] <;> ring
  rw [hn]
  generalize Pt.smul (1 / 2) (QL.normal L s ei + QL.normal L s ej) = n
  have hl : L'.env.norm (placeDir f lam n) = L.env.norm n := by
    unfold placeDir
    rw [turn_smul, norm_turn h, h.norm _ _ (by have := h.env.pos; positivity)]
    field_simp
  rw [hl, at_sub, at_sub, h.sine, ← at_add, ← turn_smul, show 1 / 2 * (lam * hi + lam * hj) = lam * (1 / 2 * (hi + hj)) by ring,
    show Pt.smul (1 / L.env.norm n) (placeDir f lam n) = placeDir f lam (Pt.smul (1 / L.env.norm n) n) by
      unfold placeDir
      refine Pt.ext' ?_ ?_ <;> simp only [Similarity.turn, Pt.smul_x, Pt.smul_y] <;> ring, smul_dir h]

theorem adjust_place (s : St K) (y : QL.Layer K) (i j : Nat) : QL.adjust L' (place f s) (placeLayer f lam y) i j = placeLayer f lam (QL.adjust L s y i j) := by
  unfold QL.adjust
  rw [show (placeLayer f lam y).v1 = y.v1 from rfl, show (placeLayer f lam y).v2 = y.v2 from rfl, show (placeLayer f lam y).base = y.base from rfl,
    show (placeLayer f lam y).h = y.h.map (lam * ·) from rfl, List.getElem?_map, List.getElem?_map]
  rcases y.v1[i]? with _ | a
  · rfl
  rcases y.v1[j]? with _ | b
  · rfl
  rcases y.v2[j]? with _ | c
  · rfl
  rcases y.base[i]? with _ | ei
  · rfl
  rcases y.base[j]? with _ | ej
  · rfl
  rcases y.h[i]? with _ | hi
  · rfl
  rcases y.h[j]? with _ | hj
  · rfl
  dsimp only [Option.map_some]
  rw [pos_place, pos_place, pos_place, ((tests h.env).left _ trivial _ trivial _ trivial).1, at_sub, at_sub, h.angle, joint_place h]
  split_ifs
  · rfl
  · unfold placeLayer
    simp only [List.map_set]

theorem adjustAll_place (s : St K) (closed : Bool) (y : QL.Layer K) : QL.adjustAll L' (place f s) closed (placeLayer f lam y) = placeLayer f lam (QL.adjustAll L s closed y) := by
  unfold QL.adjustAll
  dsimp only
  rw [show (placeLayer f lam y).base = y.base from rfl, foldl_place (placeLayer f lam) (step := fun y i => QL.adjust L s y i (i + 1)) (fun y i => adjust_place h s y i (i + 1))]
  split_ifs
  · exact adjust_place h s _ _ _
  · rfl

theorem qlPlace_place (s : St K) (e v q : Nat) (ht : K) (x : Pt K) (atEnd : Bool) :
    QL.place L' (place f s) e v q (lam * ht) (f.at x) atEnd = (QL.place L s e v q ht x atEnd).map fun r => (place f r.1, f.at r.2) := by
  have hf := fact_pos h.env
  unfold QL.place
  rw [pos_place, pos_place, at_sub, turn_normSq, show lam * ht * (lam * ht) = f.factor * (ht * ht) by rw [h.env.factor]; ring, len_place h]
  simp only [mul_lt_mul_iff_right₀ hf, mul_lt_mul_iff_right₀ h.env.pos]
  split_ifs with h1 h2
  · simp only [shifted_place f hf.ne', setPos_place, Option.map_some]
  · rw [at_sub, at_sub, h.cosine, show lam * ht * L.cosAngle (s.pos q - s.pos v) (x - s.pos v) / (lam * QL.len L s e) = ht * L.cosAngle (s.pos q - s.pos v) (x - s.pos v) / QL.len L s e by
      rw [mul_assoc, mul_div_mul_left _ _ h.env.pos.ne'], qlSplit_place]
    generalize QL.split s e _ = o
    rcases o with _ | ⟨s', n⟩ <;> rfl
  · rw [at_sub, at_sub, h.cosine, show lam * ht * L.cosAngle (s.pos q - s.pos v) (x - s.pos v) / (lam * QL.len L s e) = ht * L.cosAngle (s.pos q - s.pos v) (x - s.pos v) / QL.len L s e by
      rw [mul_assoc, mul_div_mul_left _ _ h.env.pos.ne'], qlSplit_place]
    generalize QL.split s e _ = o
    rcases o with _ | ⟨s', n⟩ <;> rfl
  · rfl

/-- A mesh and the data of a layer at another place. -/
def placeSL (f : Similarity K) (lam : K) (r : St K × QL.Layer K) : St K × QL.Layer K := (place f r.1, placeLayer f lam r.2)

theorem placeStart_place (s : St K) (e : Nat) (y : QL.Layer K) : QL.placeStart L' (place f s) e (placeLayer f lam y) = (QL.placeStart L s e y).map (placeSL f lam) := by
  unfold QL.placeStart
  rw [show (place f s).prevEdge e = s.prevEdge e from rfl, show (placeLayer f lam y).v1 = y.v1 from rfl, show (placeLayer f lam y).v2 = y.v2 from rfl,
    show (placeLayer f lam y).h = y.h.map (lam * ·) from rfl, show (placeLayer f lam y).p1 = y.p1.map f.at from rfl, List.getElem?_map, List.getElem?_map]
  rcases s.prevEdge e with _ | ep
  · rfl
  rcases y.v1[0]? with _ | a
  · rfl
  rcases y.v2[0]? with _ | b
  · rfl
  rcases y.h[0]? with _ | ht
  · rfl
  rcases y.p1[0]? with _ | x
  · rfl
  dsimp only [Option.map_some]
  rw [pos_place, pos_place, pos_place, ((tests h.env).left _ trivial _ trivial _ trivial).1, show (place f s).E = s.E from rfl, qlPlace_place h]
  split_ifs
  · rfl
  · rcases QL.place L s ep a (s.E ep).v1 ht x false with _ | ⟨s', p⟩
    · rfl
    · dsimp only [Option.map_some, placeSL, placeLayer]
      rw [List.map_set]

theorem placeEnd_place (s : St K) (e : Nat) (y : QL.Layer K) : QL.placeEnd L' (place f s) e (placeLayer f lam y) = (QL.placeEnd L s e y).map (placeSL f lam) := by
  unfold QL.placeEnd
  dsimp only
  rw [show (place f s).nextEdge e = s.nextEdge e from rfl, show (placeLayer f lam y).v1 = y.v1 from rfl, show (placeLayer f lam y).v2 = y.v2 from rfl, show (placeLayer f lam y).base = y.base from rfl,
    show (placeLayer f lam y).h = y.h.map (lam * ·) from rfl, show (placeLayer f lam y).p2 = y.p2.map f.at from rfl, List.getElem?_map, List.getElem?_map]
  rcases s.nextEdge e with _ | ep
  · rfl
  rcases y.v1[y.base.length - 1]? with _ | a
  · rfl
  rcases y.v2[y.base.length - 1]? with _ | b
  · rfl
  rcases y.h[y.base.length - 1]? with _ | ht
  · rfl
  rcases y.p2[y.base.length - 1]? with _ | x
  · rfl
  dsimp only [Option.map_some]
  rw [pos_place, pos_place, pos_place, ((tests h.env).left _ trivial _ trivial _ trivial).1, show (place f s).E = s.E from rfl, qlPlace_place h]
  split_ifs
  · rfl
  · rcases QL.place L s ep b (s.E ep).v2 ht x true with _ | ⟨s', p⟩
    · rfl
    · dsimp only [Option.map_some, placeSL, placeLayer]
      rw [List.map_set]

theorem qlSetup_place (s : St K) (es ee : Nat) (closed : Bool) (y : QL.Layer K) : QL.setup L' (place f s) es ee closed (placeLayer f lam y) = (QL.setup L s es ee closed y).map (placeSL f lam) := by
  unfold QL.setup
  dsimp only
  rw [adjustAll_place h]
  split_ifs
  · rfl
  · rw [placeStart_place h]
    rcases QL.placeStart L s es (QL.adjustAll L s closed y) with _ | ⟨s1, y2⟩
    · rfl
    · exact placeEnd_place h s1 ee y2

theorem element_place (s : St K) (base v1 : Nat) (x1 : Pt K) (v2 : Nat) (x2 : Pt K) : QL.element L' (place f s) base v1 (f.at x1) v2 (f.at x2) = placeP f (QL.element L s base v1 x1 v2 x2) := by
  unfold QL.element
  rw [pos_place, at_sub, norm_turn h, h.range, show L.rangeFactor * (lam * L.env.norm (s.pos v1 - x1)) = lam * (L.rangeFactor * L.env.norm (s.pos v1 - x1)) by ring, update_place h.env]
  rcases updateFront L.env s base x1 x1 (L.rangeFactor * L.env.norm (s.pos v1 - x1)) with ⟨s1, _ | t1⟩
  · rfl
  dsimp only [placeP]
  rw [show (place f s1).F = s1.F from rfl, show (place f s1).getEdge = s1.getEdge from rfl]
  rcases (s1.F (.tri t1)).corners[2]? with _ | q1
  · rfl
  dsimp only
  rcases s1.getEdge .front q1 v2 with _ | dg
  · rfl
  dsimp only
  rw [pos_place, at_sub, norm_turn h, show L.rangeFactor * (lam * L.env.norm (s1.pos v2 - x2)) = lam * (L.rangeFactor * L.env.norm (s1.pos v2 - x2)) by ring, update_place h.env]
  rcases updateFront L.env s1 dg x2 x2 (L.rangeFactor * L.env.norm (s1.pos v2 - x2)) with ⟨s2, _ | t2⟩
  · rfl
  dsimp only [placeP]
  rw [show (place f s2).F = s2.F from rfl, show (place f s2).getEdge = s2.getEdge from rfl]
  rcases (s2.F (.tri t2)).corners[2]? with _ | q2
  · rfl
  dsimp only
  rcases s2.getEdge .intr v2 q1 with _ | er
  · rfl
  dsimp only
  rw [toQuad_place]

theorem elementStep_place (c : St K × List (Option Nat × Option Nat)) (b : Nat × Nat × Nat × Pt K × Pt K) :
    QL.elementStep L' (placeP f c) (b.1, b.2.1, b.2.2.1, f.at b.2.2.2.1, f.at b.2.2.2.2) = placeP f (QL.elementStep L c b) := by
  unfold QL.elementStep
  dsimp only
  rw [show (placeP f c).1.es = c.1.es from rfl, show (placeP f c).1 = place f c.1 from rfl, element_place h]
  split_ifs <;> rfl

omit h in
theorem entries_place (y : QL.Layer K) : (placeLayer f lam y).entries = y.entries.map fun b => (b.1, b.2.1, b.2.2.1, f.at b.2.2.2.1, f.at b.2.2.2.2) := by
  unfold QL.Layer.entries placeLayer
  dsimp only
  rw [List.zip_map, List.zip_map_right, List.zip_map_right, List.zip_map_right]
  rfl

theorem create_place (s : St K) (y : QL.Layer K) : QL.create L' (place f s) (placeLayer f lam y) = placeP f (QL.create L s y) := by
  unfold QL.create
  rw [entries_place, List.foldl_map]
  exact foldl_place (placeP f) (elementStep_place h) y.entries (s, [])

theorem closeGap_place (s : St K) (a b c : Nat) : QL.closeGap L' (place f s) a b c = (QL.closeGap L s a b c).map (place f) := by
  unfold QL.closeGap
  dsimp only
  rw [pos_place, pos_place, pos_place, at_sub, at_sub, h.angle, show (place f s).nxt = s.nxt from rfl, addTri_place, triValid_place h.env, at_add, at_add, addVertex_place, addTri_place, addTri_place,
    vtxValid_place h.env, triValid_place h.env, triValid_place h.env]
  split_ifs
  · rw [removeTri_place]; rfl
  · rw [show (place f (s.addTri a b c (-1))).getEdge = (s.addTri a b c (-1)).getEdge from rfl]
    rcases (s.addTri a b c (-1)).getEdge .front b c with _ | e
    · rfl
    · dsimp only [Option.map_some]
      rw [advFront_place]
  · rw [removeTri_place, removeTri_place, removeVertex_place]; rfl
  · generalize ((s.addVertex _).addTri a b s.nxt (-1)).addTri b c s.nxt (-1) = s1
    rw [show (place f s1).getEdge = s1.getEdge from rfl]
    rcases s1.getEdge .front a b with _ | e1
    · rfl
    · dsimp only
      rw [advFront_place]
      generalize advanceFront s1 e1 s.nxt (s.nxt + 1) = s2
      rw [show (place f s2).getEdge = s2.getEdge from rfl]
      rcases s2.getEdge .front b c with _ | e2
      · rfl
      · dsimp only [Option.map_some]
        rw [advFront_place]

theorem closeGaps_place : ∀ (l : List (Nat × Option Nat × Option Nat)) (s : St K) (prev : Option Nat), QL.closeGaps L' (place f s) prev l = (QL.closeGaps L s prev l).map (place f)
  | [], _, _ => rfl
  | (b, p1, p2) :: l, s, prev => by
    unfold QL.closeGaps
    rcases p1 with _ | c
    · exact closeGaps_place l s p2
    · rcases prev with _ | a
      · exact closeGaps_place l s p2
      · dsimp only
        rw [closeGaps_place l s p2, closeGap_place h]
        split_ifs
        · rfl
        · rcases QL.closeGap L s a b c with _ | s'
          · rfl
          · exact closeGaps_place l s' p2

theorem qlFinish_place (s : St K) (y : QL.Layer K) (proj : List (Option Nat × Option Nat)) : QL.finish L' (place f s) (placeLayer f lam y) proj = (QL.finish L s y proj).map (place f) := by
  unfold QL.finish
  rw [show (placeLayer f lam y).v1 = y.v1 from rfl, show (placeLayer f lam y).v2 = y.v2 from rfl]
  rcases y.v1.zip proj with _ | ⟨⟨_, _, p2⟩, rest⟩
  · rfl
  · dsimp only
    rw [closeGaps_place h]
    rcases QL.closeGaps L s p2 rest with _ | s'
    · rfl
    · dsimp only [Option.map_some]
      rw [mark_place]

theorem findEdges_place (s : St K) (xs xe : Pt K) : QL.findEdges L' (place f s) (f.at xs) (f.at xe) = QL.findEdges L s xs xe := by
  unfold QL.findEdges
  rw [h.far, closest_place f rfl (fact_pos h.env), closest_place f rfl (fact_pos h.env)]
  simp only [pos_place, at_sub, h.angle]
  rfl

theorem layer_place (fuel : Nat) (s : St K) (xs xe : Pt K) (ht : K) : QL.layer L' fuel (place f s) (f.at xs) (f.at xe) (lam * ht) = placeLRes f (QL.layer L fuel s xs xe ht) := by
  unfold QL.layer
  rw [findEdges_place h, show (place f s).nextEdge = s.nextEdge from rfl]
  rcases QL.findEdges L s xs xe with _ | _ | ⟨es, ee, closed⟩
  · rfl
  · rfl
  dsimp only
  rcases QL.walk s.nextEdge ee fuel es with base | _ | _
  · dsimp only
    rw [mkLayer_place h, smoothLayer_place h, qlSetup_place h]
    rcases QL.setup L s es ee closed (QL.smoothLayer L s (QL.mkLayer L s ht base)) with _ | ⟨s1, y⟩
    · rfl
    dsimp only [Option.map_some, placeSL]
    rw [create_place h]
    rcases QL.create L s1 y with ⟨s2, proj⟩
    dsimp only [placeP]
    rw [qlFinish_place h]
    rcases QL.finish L s2 y proj with _ | s3
    · rfl
    dsimp only [Option.map_some]
    rw [nextEndings_place]
    rcases QL.nextEndings s3 closed proj with _ | ⟨a, b⟩ <;> rfl
  · rfl
  · rfl

theorem layers_place (fuel : Nat) (growth : K) : ∀ (n : Nat) (s : St K) (xs xe : Pt K) (ht : K), QL.layers L' fuel growth n (place f s) (f.at xs) (f.at xe) (lam * ht) =
    (QL.layers L fuel growth n s xs xe ht).map fun r => (place f r.1, r.2.1, r.2.2.map (lam * ·))
  | 0, _, _, _, _ => rfl
  | n + 1, s, xs, xe, ht => by
    unfold QL.layers
    rw [layer_place h]
    rcases QL.layer L fuel s xs xe ht with _ | s' | ⟨s', xs', xe'⟩
    · rfl
    · rfl
    · dsimp only [placeLRes]
      rw [mul_assoc, layers_place fuel growth n s' xs' xe', Option.map_map, Option.map_map]
      rfl

theorem qlGenerate_place (fuel n : Nat) (growth : K) (s : St K) (xs xe : Pt K) (first : K) : QL.generate L' fuel n growth (place f s) (f.at xs) (f.at xe) (lam * first) =
    (QL.generate L fuel n growth s xs xe first).map (placeP f) := by
  unfold QL.generate
  rw [show (place f s).es = s.es from rfl]
  split_ifs
  · rfl
  · rw [startStep_place f (tests h.env), layers_place h, Option.map_map, Option.map_map]
    refine congrArg (fun g => Option.map g _) (funext fun r => ?_)
    dsimp only [Function.comp, placeP]
    rw [finishStep_place]

end env

end TQ

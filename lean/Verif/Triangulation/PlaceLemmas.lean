import Verif.Triangulation.PlaceSpec
import Verif.Geometry.UnitProps

/-! # Lemmas for C199: every step of the meshing follows the place of the mesh -/

set_option linter.unusedSectionVars false

namespace TQ
open MS MS.St FU TG GeoSpec PlaceSpec
variable {K : Type*} [Field K] [LinearOrder K] [IsStrictOrderedRing K]

section ops
variable (f : Similarity K)

theorem upd_place {V : Nat → VData K} (i : Nat) {g g' : VData K → VData K} (h : ∀ d, g' (placeV f d) = placeV f (g d)) :
    upd (fun v => placeV f (V v)) i g' = fun v => placeV f (upd V i g v) := by
  funext v
  unfold upd
  split_ifs
  · exact h _
  · rfl

theorem addVertex_place (s : St K) (p : Pt K) : (place f s).addVertex (f.at p) = place f (s.addVertex p) := by
  unfold addVertex place
  simp only [St.mk.injEq, true_and, and_true]
  exact upd_place f _ fun _ => rfl

theorem removeVertex_place (s : St K) (v : Nat) : (place f s).removeVertex v = place f (s.removeVertex v) := rfl

theorem reg_place (fr : FRef) : ∀ (cs : List Nat) (V : Nat → VData K), regFacet (fun v => placeV f (V v)) fr cs = fun v => placeV f (regFacet V fr cs v)
  | [], _ => rfl
  | c :: cs, V => by
    unfold regFacet
    rw [List.foldl_cons, List.foldl_cons, upd_place f c (g := vAddFacet fr) fun _ => rfl]
    exact reg_place fr cs _

theorem unreg_place (fr : FRef) : ∀ (cs : List Nat) (V : Nat → VData K), unregFacet (fun v => placeV f (V v)) fr cs = fun v => placeV f (unregFacet V fr cs v)
  | [], _ => rfl
  | c :: cs, V => by
    unfold unregFacet
    rw [List.foldl_cons, List.foldl_cons, upd_place f c (g := vRemFacet fr) fun _ => rfl]
    exact unreg_place fr cs _

theorem addTri_place (s : St K) (a b c : Nat) (col : Int) : (place f s).addTri a b c col = place f (s.addTri a b c col) := by
  unfold addTri place
  simp only [St.mk.injEq, true_and, and_true]
  exact ⟨reg_place f _ _ _, rfl⟩

theorem removeTri_place (s : St K) (t : Nat) : (place f s).removeTri t = place f (s.removeTri t) := by
  unfold removeTri place
  simp only [St.mk.injEq, true_and, and_true]
  exact unreg_place f _ _ _

theorem addEdge_place (s : St K) (l : EL) (a b : Nat) (col : Int) (pr : BitVec 8) : (place f s).addEdge l a b col pr = place f (s.addEdge l a b col pr) := by
  unfold addEdge place
  simp only [St.mk.injEq, true_and, and_true]
  rw [upd_place f a (g := vAddEdge s.nxt) fun _ => rfl, upd_place f b (g := vAddEdge s.nxt) fun _ => rfl]

theorem removeEdge_place (s : St K) (e : Nat) : (place f s).removeEdge e = place f (s.removeEdge e) := by
  unfold removeEdge place
  simp only [St.mk.injEq, true_and, and_true]
  rw [upd_place f _ (g := vRemEdge e) fun _ => rfl, upd_place f _ (g := vRemEdge e) fun _ => rfl]

theorem setProps_place (s : St K) (v : Nat) (g : BitVec 8 → BitVec 8) : (place f s).setProps v g = place f (s.setProps v g) := by
  unfold setProps place
  simp only [St.mk.injEq, true_and, and_true]
  exact upd_place f _ fun _ => rfl

theorem activate_place (s : St K) (fr : FRef) : (place f s).activate fr = place f (s.activate fr) := rfl

theorem addArea_place (s : St K) (a : K) : (place f s).addArea (f.factor * a) = place f (s.addArea a) := by
  unfold addArea place
  simp only [St.mk.injEq, true_and, and_true]
  ring

theorem triArea_at (p q r : Pt K) : St.triArea (f.at p) (f.at q) (f.at r) = f.factor * St.triArea p q r := by
  simp only [St.triArea, Pt.cross, Similarity.at, Similarity.factor, Pt.sub_x, Pt.sub_y]; ring

theorem quadArea_at (p q r s : Pt K) : quadArea (f.at p) (f.at q) (f.at r) (f.at s) = f.factor * quadArea p q r s := by
  simp only [quadArea, Pt.cross, Similarity.at, Similarity.factor, Pt.sub_x, Pt.sub_y]; ring

theorem triCentroid_at (p q r : Pt K) : triCentroid (f.at p) (f.at q) (f.at r) = f.at (triCentroid p q r) := by
  refine Pt.ext' ?_ ?_ <;> simp only [triCentroid, Similarity.at, Pt.smul_x, Pt.smul_y, Pt.add_x, Pt.add_y] <;> ring

theorem quadCentroid_at (p q r s : Pt K) : quadCentroid (f.at p) (f.at q) (f.at r) (f.at s) = f.at (quadCentroid p q r s) := by
  refine Pt.ext' ?_ ?_ <;> simp only [quadCentroid, Similarity.at, Pt.smul_x, Pt.smul_y, Pt.add_x, Pt.add_y] <;> ring

theorem pos_place (s : St K) (v : Nat) : (place f s).pos v = f.at (s.pos v) := rfl

theorem fArea_place (s : St K) (fr : FRef) : (place f s).fArea fr = f.factor * s.fArea fr := by
  unfold fArea
  rw [show ((place f s).F fr).corners = (s.F fr).corners from rfl]
  split
  · exact triArea_at f _ _ _
  · exact quadArea_at f _ _ _ _
  · rw [mul_zero]

end ops

theorem mul_nonpos_of {a b : K} (ha : 0 < a) : a * b ≤ 0 ↔ b ≤ 0 := by
  rw [← not_lt, ← not_lt, mul_pos_iff_of_pos_left ha]

section env
variable {f : Similarity K} {lam : K} {env env' : Env K} (h : Follows f lam env env')
include h

theorem fact_pos : 0 < f.factor := by rw [h.factor]; exact pow_pos h.pos 2

theorem tests : SameTests f.at Set.univ env'.eps env.eps := by
  rw [h.eps]; exact C198_fitting_partial f (fact_pos h) env.eps

theorem edgeLength_place (p q : Pt K) : edgeLength env' (f.at p) (f.at q) = lam * edgeLength env p q := h.norm q p

theorem maxEdge_place (p q r : Pt K) : maxEdgeLength env' (f.at p) (f.at q) (f.at r) = lam * maxEdgeLength env p q r := by
  unfold maxEdgeLength
  rw [edgeLength_place h, edgeLength_place h, edgeLength_place h, mul_max_of_nonneg _ _ h.pos.le, mul_max_of_nonneg _ _ h.pos.le]

theorem shape_place (p q r : Pt K) : shapeFactor env' (f.at p) (f.at q) (f.at r) = shapeFactor env p q r := by
  unfold shapeFactor
  simp only [edgeLength_place h, triArea_at, h.normF]
  rw [show lam * edgeLength env p q * (lam * edgeLength env p q) + lam * edgeLength env q r * (lam * edgeLength env q r) + lam * edgeLength env r p * (lam * edgeLength env r p) =
    f.factor * (edgeLength env p q * edgeLength env p q + edgeLength env q r * edgeLength env q r + edgeLength env r p * edgeLength env r p) by rw [h.factor]; ring]
  simp only [mul_pos_iff_of_pos_left (fact_pos h)]
  rw [show env.normFactor * (f.factor * St.triArea p q r) = f.factor * (env.normFactor * St.triArea p q r) by ring, mul_div_mul_left _ _ (fact_pos h).ne']

theorem quality_place (x : K) (p q r : Pt K) : quality env' (lam * x) (f.at p) (f.at q) (f.at r) = quality env x p q r := by
  unfold quality
  simp only [edgeLength_place h, shape_place h, mul_div_mul_left _ _ h.pos.ne']

theorem validity_place (p q r : Pt K) : checkValidity env' (f.at p) (f.at q) (f.at r) = checkValidity env p q r := by
  unfold checkValidity
  simp only [edgeLength_place h, triArea_at, mul_nonpos_of (fact_pos h), mul_nonpos_of h.pos]

theorem facetHas_place (s : St K) (fr : FRef) (v : Nat) : facetHasVertex env'.eps (place f s) fr v = facetHasVertex env.eps s fr v := by
  have t := tests h
  unfold facetHasVertex
  rw [show ((place f s).F fr).corners = (s.F fr).corners from rfl]
  split_ifs
  · rfl
  · split
    · exact (t.inTri _ trivial _ trivial _ trivial _ trivial).2
    · exact (t.inQd _ trivial _ trivial _ trivial _ trivial _ trivial).2
    · rfl

theorem hitsDomain_place (p q r : Pt K) : hitsDomain env' (f.at p) (f.at q) (f.at r) = hitsDomain env p q r := by
  have t := tests h
  unfold hitsDomain
  rw [triCentroid_at, maxEdge_place h, h.bdry, List.any_map]
  congr 1
  funext e
  exact (t.lineTri _ trivial _ trivial _ trivial _ trivial _ trivial).2

theorem hitsTri_place (s : St K) (tri : Nat) (p q r : Pt K) (t : Nat) : hitsTri env'.eps (place f s) tri (f.at p) (f.at q) (f.at r) t = hitsTri env.eps s tri p q r t := by
  have T := tests h
  unfold hitsTri fCentroid
  rw [show (place f s).F = s.F from rfl]
  rcases hc : (s.F (.tri t)).corners with _ | ⟨a, _ | ⟨b, _ | ⟨c, _ | ⟨d, l⟩⟩⟩⟩
  all_goals try rfl
  simp only [pos_place, triCentroid_at, T.triTri _ trivial _ trivial _ trivial _ trivial _ trivial _ trivial, (T.inTri _ trivial _ trivial _ trivial _ trivial).1]

theorem hitsQuad_place (s : St K) (p q r : Pt K) (t : Nat) : hitsQuad env'.eps (place f s) (f.at p) (f.at q) (f.at r) t = hitsQuad env.eps s p q r t := by
  have T := tests h
  unfold hitsQuad fCentroid
  rw [show (place f s).F = s.F from rfl]
  rcases hc : (s.F (.quad t)).corners with _ | ⟨a, _ | ⟨b, _ | ⟨c, _ | ⟨d, _ | ⟨e, l⟩⟩⟩⟩⟩
  all_goals try rfl
  simp only [pos_place, triCentroid_at, quadCentroid_at, T.triQuad _ trivial _ trivial _ trivial _ trivial _ trivial _ trivial _ trivial, (T.inTri _ trivial _ trivial _ trivial _ trivial).1,
    (T.inQd _ trivial _ trivial _ trivial _ trivial _ trivial).1]

theorem hitsEdge_place (s : St K) (p q r : Pt K) (e : Nat) : hitsEdge env'.eps (place f s) (f.at p) (f.at q) (f.at r) e = hitsEdge env.eps s p q r e :=
  ((tests h).lineTri _ trivial _ trivial _ trivial _ trivial _ trivial).1

theorem hitsVertex_place (s : St K) (a b c v : Nat) : hitsVertex env'.eps (place f s) a b c v = hitsVertex env.eps s a b c v := by
  unfold hitsVertex
  split_ifs
  · rfl
  · exact ((tests h).inTri _ trivial _ trivial _ trivial _ trivial).2

theorem cppMAX_mul (a b : K) : cppMAX (lam * a) (lam * b) = lam * cppMAX a b := by
  unfold cppMAX
  simp only [gt_iff_lt, mul_lt_mul_iff_right₀ h.pos]
  split_ifs <;> rfl

theorem cppMIN_mul (a b : K) : cppMIN (lam * a) (lam * b) = lam * cppMIN a b := by
  unfold cppMIN
  simp only [mul_lt_mul_iff_right₀ h.pos]
  split_ifs <;> rfl

theorem triValid_place (s : St K) (t a b c : Nat) : triangleIsValid env' (place f s) t a b c = triangleIsValid env s t a b c := by
  unfold triangleIsValid
  simp only [pos_place, validity_place h, triCentroid_at, h.rho, maxEdge_place h]
  rw [show 2 * (lam * env.rho (triCentroid (s.pos a) (s.pos b) (s.pos c))) = lam * (2 * env.rho (triCentroid (s.pos a) (s.pos b) (s.pos c))) by ring, cppMAX_mul h]
  simp only [h.front, h.verts, h.tris, h.quads, quality_place h, h.quality, h.cell, h.angle, hitsDomain_place h]
  rw [show hitsEdge env'.eps (place f s) (f.at (s.pos a)) (f.at (s.pos b)) (f.at (s.pos c)) = hitsEdge env.eps s (s.pos a) (s.pos b) (s.pos c) from funext (hitsEdge_place h s _ _ _),
    show hitsVertex env'.eps (place f s) a b c = hitsVertex env.eps s a b c from funext (hitsVertex_place h s _ _ _),
    show hitsTri env'.eps (place f s) t (f.at (s.pos a)) (f.at (s.pos b)) (f.at (s.pos c)) = hitsTri env.eps s t (s.pos a) (s.pos b) (s.pos c) from funext (hitsTri_place h s _ _ _ _),
    show hitsQuad env'.eps (place f s) (f.at (s.pos a)) (f.at (s.pos b)) (f.at (s.pos c)) = hitsQuad env.eps s (s.pos a) (s.pos b) (s.pos c) from funext (hitsQuad_place h s _ _ _)]

theorem vtxValid_place (s : St K) (v : Nat) : vertexIsValid env' (place f s) v = vertexIsValid env s v := by
  unfold vertexIsValid
  simp only [pos_place, h.rho, h.inside]
  rw [show 2 * (lam * env.rho (s.pos v)) = lam * (2 * env.rho (s.pos v)) by ring]
  simp only [h.tris, h.quads, facetHas_place h]

/-- A pair of a mesh and something else at another place. -/
def placeP {β : Type*} (f : Similarity K) (x : St K × β) : St K × β := (place f x.1, x.2)

theorem tryVertex_place (b1 b2 : Nat) (acc : St K × List Nat) (v : Nat) : tryVertex env' b1 b2 (placeP f acc) v = placeP f (tryVertex env b1 b2 acc v) := by
  unfold tryVertex placeP
  dsimp only
  rw [show ((place f acc.1).V v).props = (acc.1.V v).props from rfl, pos_place, pos_place, pos_place, (tests h).orient _ trivial _ trivial _ trivial,
    show (place f acc.1).nxt = acc.1.nxt from rfl, addTri_place, triValid_place h]
  split_ifs
  · rfl
  · rfl
  · rfl
  · rw [removeTri_place]

theorem tryAll_place (b1 b2 : Nat) : ∀ (l : List Nat) (acc : St K × List Nat), l.foldl (tryVertex env' b1 b2) (placeP f acc) = placeP f (l.foldl (tryVertex env b1 b2) acc)
  | [], _ => rfl
  | v :: l, acc => by rw [List.foldl_cons, List.foldl_cons, tryVertex_place h]; exact tryAll_place b1 b2 l _

theorem possible_place (s : St K) (base : Nat) (xy : Pt K) (range : K) :
    createPossible env' (place f s) base (f.at xy) (lam * range) = placeP f (createPossible env s base xy range) := by
  unfold createPossible
  rw [h.verts]
  exact tryAll_place h _ _ _ (s, [])

theorem sortKey_place (s : St K) (t : Nat) : sortKey env' (place f s) t = sortKey env s t := by
  unfold sortKey fCentroid
  rw [show (place f s).F = s.F from rfl]
  rcases hc : (s.F (.tri t)).corners with _ | ⟨a, _ | ⟨b, _ | ⟨c, _ | ⟨d, l⟩⟩⟩⟩
  all_goals try rfl
  simp only [pos_place, triCentroid_at, h.rho, quality_place h]

theorem removeAll_place : ∀ (l : List Nat) (s : St K), l.foldl St.removeTri (place f s) = place f (l.foldl St.removeTri s)
  | [], _ => rfl
  | t :: l, s => by rw [List.foldl_cons, List.foldl_cons, removeTri_place]; exact removeAll_place l _

theorem best_place (s : St K) (ts : List Nat) : chooseBest env' (place f s) ts = (chooseBest env s ts).map (placeP f) := by
  unfold chooseBest
  rw [h.sort, show sortKey env' (place f s) = sortKey env s from funext (sortKey_place h s)]
  rcases env.sort (sortKey env s) ts with _ | ⟨t, l⟩
  · rfl
  · simp only [Option.map_some, placeP, removeAll_place h]

end env

section front
variable (f : Similarity K)

theorem frontState_place (s : St K) (v : Nat) : updateFrontState (place f s) v = place f (updateFrontState s v) := by
  unfold updateFrontState
  rw [show ((place f s).V v).edges = (s.V v).edges from rfl, show (place f s).E = s.E from rfl]
  split_ifs <;> exact setProps_place f s _ _

theorem keepEdge_place (s : St K) (e : Nat) : keepEdge (place f s) e = place f (keepEdge s e) := by
  unfold keepEdge addIntr
  rw [show (place f s).isInterior e = s.isInterior e from rfl, show (place f s).E = s.E from rfl]
  split_ifs
  · exact addEdge_place f s _ _ _ _ _
  · rfl

theorem addFront_place (s : St K) (a b : Nat) : addFront (place f s) a b = place f (addFront s a b) := addEdge_place f s _ _ _ _ _

theorem advEdges_place (s : St K) (b1 b2 v : Nat) : advanceEdges (place f s) b1 b2 v = place f (advanceEdges s b1 b2 v) := by
  unfold advanceEdges
  rw [show (place f s).getEdge .front v b1 = s.getEdge .front v b1 from rfl, show (place f s).getEdge .front v b2 = s.getEdge .front v b2 from rfl]
  rcases s.getEdge .front v b1 with _ | e1 <;> rcases s.getEdge .front v b2 with _ | e2 <;> simp only [keepEdge_place, removeEdge_place, addFront_place]

theorem advFront_place (s : St K) (base v t : Nat) : advanceFront (place f s) base v t = place f (advanceFront s base v t) := by
  unfold advanceFront
  dsimp only
  rw [show (place f s).E = s.E from rfl, advEdges_place, frontState_place, frontState_place, frontState_place]
  generalize updateFrontState (updateFrontState (updateFrontState (advanceEdges s (s.E base).v1 (s.E base).v2 v) (s.E base).v1) (s.E base).v2) v = s2
  rw [show (place f s2).isInterior base = s2.isInterior base from rfl, show (place f s2).isGhost base = s2.isGhost base from rfl]
  have h3 : (if (s2.isInterior base && !s2.isGhost base) = true then (place f s2).addIntr (s.E base).v1 (s.E base).v2 else place f s2) =
      place f (if (s2.isInterior base && !s2.isGhost base) = true then s2.addIntr (s.E base).v1 (s.E base).v2 else s2) := by
    split_ifs
    · exact addEdge_place f s2 _ _ _ _ _
    · rfl
  rw [h3, removeEdge_place, activate_place, fArea_place, addArea_place]

end front

section update
variable {f : Similarity K} {lam : K} {env env' : Env K} (h : Follows f lam env env')
include h

theorem update_place (s : St K) (base : Nat) (np sp : Pt K) (range : K) :
    updateFront env' (place f s) base (f.at np) (f.at sp) (lam * range) = placeP f (updateFront env s base np sp range) := by
  unfold updateFront
  rw [possible_place h]
  generalize createPossible env s base sp range = r
  dsimp only [placeP]
  rw [best_place h]
  rcases chooseBest env r.1 r.2 with _ | ⟨s1, t⟩
  · simp only [Option.map_none]
    rw [show (place f s).E = s.E from rfl, show (place f r.1).nxt = r.1.nxt from rfl, addVertex_place, show (place f (r.1.addVertex np)).nxt = (r.1.addVertex np).nxt from rfl,
      addTri_place, vtxValid_place h, triValid_place h]
    split_ifs
    · rw [advFront_place]
    · rw [removeTri_place, removeVertex_place]
  · simp only [Option.map_some, placeP]
    rw [show (place f s1).F = s1.F from rfl]
    rcases hc : (s1.F (.tri t)).corners with _ | ⟨a, _ | ⟨b, _ | ⟨c, _ | ⟨d, l⟩⟩⟩⟩
    all_goals try rfl
    simp only [advFront_place]

theorem exhaustive_place (s : St K) (base v : Nat) : updateFrontExhaustive env' (place f s) base v = placeP f (updateFrontExhaustive env s base v) := by
  unfold updateFrontExhaustive placeP
  dsimp only
  rw [show ((place f s).V v).props = (s.V v).props from rfl, show (place f s).E = s.E from rfl, pos_place, pos_place, pos_place, (tests h).orient _ trivial _ trivial _ trivial,
    show (place f s).nxt = s.nxt from rfl, addTri_place, triValid_place h]
  split_ifs
  · rfl
  · rfl
  · rw [advFront_place]
  · rw [removeTri_place]

end update

end TQ

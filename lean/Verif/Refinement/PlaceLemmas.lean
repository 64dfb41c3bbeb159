import Verif.Refinement.Model
import Verif.Triangulation.PlaceLemmas

/-! # Lemmas for C200: the steps of the refinement follow the place of the mesh -/

set_option linter.unusedSectionVars false

namespace TQ
open MS MS.St FU TG GeoSpec PlaceSpec
variable {K : Type*} [Field K] [LinearOrder K] [IsStrictOrderedRing K]
variable (f : Similarity K)

/-- A loop over steps that follow the place follows the place. -/
theorem foldl_place {α β : Type*} (g : β → β) {step : β → α → β} {step' : β → α → β} (h : ∀ s x, step' (g s) x = g (step s x)) :
    ∀ (l : List α) (s : β), l.foldl step' (g s) = g (l.foldl step s)
  | [], _ => rfl
  | x :: l, s => by rw [List.foldl_cons, List.foldl_cons, h]; exact foldl_place g h l _

theorem loopM_place {α β : Type*} (g : β → β) {step : β → α → Option β} {step' : β → α → Option β} (h : ∀ s x, step' (g s) x = (step s x).map g) :
    ∀ (l : List α) (s : β), loopM step' (g s) l = (loopM step s l).map g
  | [], _ => rfl
  | x :: l, s => by
    unfold loopM
    rw [h]
    rcases step s x with _ | t
    · rfl
    · exact loopM_place g h l t

theorem addQuad_place (s : St K) (a b c d : Nat) (col : Int) : (place f s).addQuad a b c d col = place f (s.addQuad a b c d col) := by
  unfold addQuad place
  simp only [St.mk.injEq, true_and, and_true]
  exact ⟨reg_place f _ _ _, rfl⟩

theorem removeQuad_place (s : St K) (t : Nat) : (place f s).removeQuad t = place f (s.removeQuad t) := by
  unfold removeQuad place
  simp only [St.mk.injEq, true_and, and_true]
  exact unreg_place f _ _ _

theorem removeIntr_place (s : St K) (e : Nat) : (place f s).removeIntr e = place f (s.removeIntr e) := by
  unfold removeIntr
  rw [show (place f s).E = s.E from rfl]
  split_ifs
  · rfl
  · exact removeEdge_place f s e

theorem removeBdry_place (s : St K) (e : Nat) : (place f s).removeBdry e = place f (s.removeBdry e) := by
  unfold removeBdry
  rw [show (place f s).E = s.E from rfl]
  split_ifs
  · rfl
  · exact removeEdge_place f s e

theorem edgeMid_place (s : St K) (e : Nat) : (place f s).edgeMid e = f.at (s.edgeMid e) := by
  refine Pt.ext' ?_ ?_ <;> simp only [edgeMid, pos_place, show (place f s).E = s.E from rfl, Similarity.at, Pt.smul_x, Pt.smul_y, Pt.add_x, Pt.add_y] <;> ring

theorem inheritProps_place (s : St K) (v : Nat) (ws : List Nat) : (place f s).inheritProps v ws = place f (s.inheritProps v ws) :=
  foldl_place (place f) (fun s _ => setProps_place f s _ _) ws s

theorem clearBoundary_place (s : St K) (v : Nat) : (place f s).clearBoundary v = place f (s.clearBoundary v) := setProps_place f s _ _

theorem splitIntr_place (r : RS K) (e : Nat) : splitIntr (placeP f r) e = placeP f (splitIntr r e) := by
  unfold splitIntr placeP
  dsimp only
  rw [edgeMid_place, addVertex_place, show (place f r.1).E = r.1.E from rfl, show (place f r.1).nxt = r.1.nxt from rfl, addEdge_place, addEdge_place, inheritProps_place, clearBoundary_place]

theorem splitBdry_place (r : RS K) (e : Nat) : splitBdry (placeP f r) e = placeP f (splitBdry r e) := by
  unfold splitBdry placeP
  dsimp only
  rw [edgeMid_place, addVertex_place, show (place f r.1).E = r.1.E from rfl, show (place f r.1).nxt = r.1.nxt from rfl, addEdge_place, addEdge_place, inheritProps_place]

theorem addSub_place (s : St K) (c : Int) (q : Nat × Nat × Nat × Nat) : (place f s).addSub c q = place f (s.addSub c q) := by
  unfold addSub
  rw [addQuad_place]
  rfl

theorem splitFacet_place (s : St K) (p : Pt K) (vs : List Nat) (c : Int) (qs : List (Nat × Nat × Nat × Nat)) (mids : List Nat) :
    (place f s).splitFacet (f.at p) vs c qs mids = place f (s.splitFacet p vs c qs mids) := by
  unfold splitFacet
  dsimp only
  rw [addVertex_place, show (place f s).nxt = s.nxt from rfl, inheritProps_place, clearBoundary_place, foldl_place (place f) (fun s q => addSub_place f s c q),
    foldl_place (place f) (fun s m => addEdge_place f s _ m _ _ _)]

theorem splitTri_place (r : RS K) (t : Nat) : splitTri (placeP f r) t = (splitTri r t).map (placeP f) := by
  unfold splitTri fCentroid
  rw [show (placeP f r).1.F = r.1.F from rfl]
  rcases hc : (r.1.F (.tri t)).corners with _ | ⟨a, _ | ⟨b, _ | ⟨c, _ | ⟨d, l⟩⟩⟩⟩
  all_goals try rfl
  dsimp only
  rw [show subVertex (placeP f r) a b = subVertex r a b from rfl, show subVertex (placeP f r) b c = subVertex r b c from rfl, show subVertex (placeP f r) c a = subVertex r c a from rfl]
  rcases subVertex r a b with _ | x <;> rcases subVertex r b c with _ | y <;> rcases subVertex r c a with _ | z <;> try rfl
  dsimp only [placeP]
  rw [pos_place, pos_place, pos_place, triCentroid_at, splitFacet_place]
  rfl

theorem splitQuad_place (r : RS K) (q : Nat) : splitQuad (placeP f r) q = (splitQuad r q).map (placeP f) := by
  unfold splitQuad fCentroid
  rw [show (placeP f r).1.F = r.1.F from rfl]
  rcases hc : (r.1.F (.quad q)).corners with _ | ⟨a, _ | ⟨b, _ | ⟨c, _ | ⟨d, _ | ⟨e, l⟩⟩⟩⟩⟩
  all_goals try rfl
  dsimp only
  rw [show subVertex (placeP f r) a b = subVertex r a b from rfl, show subVertex (placeP f r) b c = subVertex r b c from rfl, show subVertex (placeP f r) c d = subVertex r c d from rfl,
    show subVertex (placeP f r) d a = subVertex r d a from rfl]
  rcases subVertex r a b with _ | x <;> rcases subVertex r b c with _ | y <;> rcases subVertex r c d with _ | z <;> rcases subVertex r d a with _ | w <;> try rfl
  dsimp only [placeP]
  rw [pos_place, pos_place, pos_place, pos_place, quadCentroid_at, splitFacet_place]
  rfl

theorem removeOld_place (s : St K) (ei eb ts qs : List Nat) : (place f s).removeOld ei eb ts qs = place f (s.removeOld ei eb ts qs) := by
  unfold St.removeOld
  dsimp only
  rw [foldl_place (place f) (fun s e => removeIntr_place f s e), foldl_place (place f) (fun s e => removeBdry_place f s e),
    foldl_place (place f) (fun s e => removeTri_place f s e), foldl_place (place f) (fun s e => removeQuad_place f s e)]

theorem refine_place (s : St K) : (place f s).refine = (s.refine).map (placeP f) := by
  unfold refine
  rw [show (place f s).es = s.es from rfl, show (place f s).E = s.E from rfl, show (place f s).tris = s.tris from rfl, show (place f s).quads = s.quads from rfl]
  split_ifs
  · rfl
  · dsimp only
    rw [show ((place f s, fun _ => none) : RS K) = placeP f (s, fun _ => none) from rfl, foldl_place (placeP f) (splitIntr_place f),
      foldl_place (placeP f) (splitBdry_place f), loopM_place (placeP f) (splitTri_place f)]
    rcases loopM splitTri _ s.tris with _ | r
    · rfl
    · dsimp only [Option.map_some]
      rw [loopM_place (placeP f) (splitQuad_place f)]
      rcases loopM splitQuad r s.quads with _ | r'
      · rfl
      · dsimp only [Option.map_some, placeP]
        rw [removeOld_place]

end TQ

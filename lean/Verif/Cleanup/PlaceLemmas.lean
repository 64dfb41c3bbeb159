import Verif.Cleanup.Model
import Verif.Refinement.PlaceLemmas

/-! # Lemmas for C200: the steps of the clean-up follow the place of the mesh -/

set_option linter.unusedSectionVars false

namespace TQ
open MS MS.St MC GeoSpec PlaceSpec
variable {K : Type*} [Field K] [LinearOrder K] [IsStrictOrderedRing K]
variable {f : Similarity K}

theorem option_bind_place {α β : Type*} (g : β → β) (h : α → α) {step step' : α → Option β} (hs : ∀ x, step' (h x) = (step x).map g) (o : Option α) :
    (o.map h).bind step' = (o.bind step).map g := by
  rcases o with _ | x
  · rfl
  · exact hs x

theorem edgeIndex_corners {d : FData} {a b i : Nat} (h : edgeIndex d a b = some i) : (∃ x y z, d.corners = [x, y, z]) ∨ ∃ x y z w, d.corners = [x, y, z, w] := by
  unfold edgeIndex at h
  split at h
  · rename_i x y z hc; exact .inl ⟨x, y, z, hc⟩
  · rename_i x y z w hc; exact .inr ⟨x, y, z, w, hc⟩
  · exact absurd h (by simp)

variable (f) in
theorem fCentroid_place (s : St K) (g : FRef) (h : (∃ x y z, (s.F g).corners = [x, y, z]) ∨ ∃ x y z w, (s.F g).corners = [x, y, z, w]) :
    (place f s).fCentroid g = f.at (s.fCentroid g) := by
  unfold fCentroid
  rw [show (place f s).F = s.F from rfl]
  rcases h with ⟨x, y, z, h⟩ | ⟨x, y, z, w, h⟩
  · rw [h]; exact triCentroid_at f _ _ _
  · rw [h]; exact quadCentroid_at f _ _ _ _

theorem sharing_corners {s : St K} {a b : Nat} {x : FRef × Nat} (h : x ∈ sharing s a b) : (∃ p q r, (s.F x.1).corners = [p, q, r]) ∨ ∃ p q r t, (s.F x.1).corners = [p, q, r, t] := by
  unfold sharing at h
  obtain ⟨g, -, hg⟩ := List.mem_filterMap.mp h
  obtain ⟨i, hi, rfl⟩ := Option.map_eq_some_iff.mp hg
  exact edgeIndex_corners hi

theorem setNbr_corners (s : St K) (g : FRef) (i : Nat) (k l : FRef) : ((setNbr s g i k).F l).corners = (s.F l).corners := by
  unfold setNbr upd
  dsimp only
  split_ifs <;> rfl

section tol
variable {eps eps' : K} (T : SameTests f.at Set.univ eps' eps)
include T

theorem setSide_place (s : St K) (e : Nat) (g : FRef) (h : (∃ x y z, (s.F g).corners = [x, y, z]) ∨ ∃ x y z w, (s.F g).corners = [x, y, z, w]) :
    setSide eps' (place f s) e g = place f (setSide eps s e g) := by
  unfold setSide
  rw [fCentroid_place f s g h, pos_place, pos_place, (T.left _ trivial _ trivial _ trivial).1, show (place f s).E = s.E from rfl]
  split_ifs <;> rfl

theorem connIntr_place (s : St K) (e : Nat) : connIntr eps' (place f s) e = place f (connIntr eps s e) := by
  unfold connIntr
  rw [show sharing (place f s) ((place f s).E e).v1 ((place f s).E e).v2 = sharing s (s.E e).v1 (s.E e).v2 from rfl]
  have hs := fun x (h : x ∈ sharing s (s.E e).v1 (s.E e).v2) => sharing_corners h
  revert hs
  rcases sharing s (s.E e).v1 (s.E e).v2 with _ | ⟨⟨f1, i1⟩, _ | ⟨⟨f2, i2⟩, l⟩⟩ <;> intro hs
  · rfl
  · have h1 := hs (f1, i1) (by simp)
    dsimp only
    rw [show setNbr (place f s) f1 i1 .null = place f (setNbr s f1 i1 .null) from rfl, setSide_place T]
    rw [setNbr_corners]; exact h1
  · have h1 := hs (f1, i1) (by simp)
    have h2 := hs (f2, i2) (by simp)
    dsimp only
    rw [show setNbr (place f s) f1 i1 f2 = place f (setNbr s f1 i1 f2) from rfl, setSide_place T]
    · rw [show setNbr (place f (setSide eps (setNbr s f1 i1 f2) e f1)) f2 i2 f1 = place f (setNbr (setSide eps (setNbr s f1 i1 f2) e f1) f2 i2 f1) from rfl, setSide_place T]
      rw [setNbr_corners, show (setSide eps (setNbr s f1 i1 f2) e f1).F = (setNbr s f1 i1 f2).F by unfold setSide; split_ifs <;> rfl, setNbr_corners]
      exact h2
    · rw [setNbr_corners]; exact h1

theorem connBdry_place (s : St K) (e : Nat) : connBdry eps' (place f s) e = place f (connBdry eps s e) := by
  unfold connBdry
  rw [show sharing (place f s) ((place f s).E e).v1 ((place f s).E e).v2 = sharing s (s.E e).v1 (s.E e).v2 from rfl]
  have hs := fun x (h : x ∈ sharing s (s.E e).v1 (s.E e).v2) => sharing_corners h
  revert hs
  rcases sharing s (s.E e).v1 (s.E e).v2 with _ | ⟨⟨f1, i1⟩, l⟩ <;> intro hs
  · rfl
  · dsimp only
    rw [fCentroid_place f s f1 (hs (f1, i1) (by simp)), pos_place, pos_place, (T.left _ trivial _ trivial _ trivial).1, show (place f s).E = s.E from rfl]
    split_ifs <;> rfl

theorem setup_place (s : St K) : setupConnectivity eps' (place f s) = place f (setupConnectivity eps s) := by
  unfold setupConnectivity
  rw [show (place f s).es = s.es from rfl, foldl_place (place f) (connIntr_place T), foldl_place (place f) (connBdry_place T)]

end tol

section plain
variable (f)

theorem redirect_place (fl fr q : FRef) (s : St K) (ab : Nat × Nat) : redirect fl fr q (place f s) ab = place f (redirect fl fr q s ab) := by
  unfold redirect
  rw [show (place f s).getEdge .intr ab.1 ab.2 = s.getEdge .intr ab.1 ab.2 from rfl]
  rcases s.getEdge .intr ab.1 ab.2 with _ | e <;> rfl

theorem removeTriRef_place (s : St K) (g : FRef) : removeTriRef (place f s) g = place f (removeTriRef s g) := by
  rcases g with _ | t | q
  · rfl
  · exact removeTri_place f s t
  · rfl

theorem mergeEdge_place (col : FData → Int) (s : St K) (e : Nat) : mergeEdge col (place f s) e = (mergeEdge col s e).map (place f) := by
  unfold mergeEdge
  dsimp only
  simp only [show (place f s).E = s.E from rfl, show (place f s).F = s.F from rfl, show nVerts (place f s) = nVerts s from rfl]
  split_ifs
  · rfl
  · rcases edgeIndex (s.F (s.E e).fl) (s.E e).v1 (s.E e).v2 with _ | il <;> rcases edgeIndex (s.F (s.E e).fr) (s.E e).v1 (s.E e).v2 with _ | ir
    iterate 3 exact rfl
    dsimp only
    rcases (s.F (s.E e).fl).corners[il]? with _ | ql <;> rcases (s.F (s.E e).fr).corners[ir]? with _ | qr
    iterate 3 exact rfl
    dsimp only
    rw [removeIntr_place, addQuad_place, activate_place, show (place f (s.removeIntr e)).nxt = (s.removeIntr e).nxt from rfl, foldl_place (place f) (redirect_place f _ _ _),
      removeTriRef_place, removeTriRef_place]
    rfl

theorem mergeTriangles_place (col : FData → Int) : ∀ (l : List Nat) (s : St K), mergeTriangles col l (place f s) = (mergeTriangles col l s).map (place f)
  | [], _ => rfl
  | e :: l, s => by
    unfold mergeTriangles
    rw [mergeEdge_place]
    exact option_bind_place (place f) (place f) (mergeTriangles_place col l) _

theorem removeFacet_place (s : St K) (g : FRef) : removeFacet (place f s) g = place f (removeFacet s g) := by
  rcases g with _ | t | q
  · rfl
  · exact removeTri_place f s t
  · exact removeQuad_place f s q

theorem newQuad_place (s : St K) (m : Merge) : newQuad (place f s) m = place f (newQuad s m) := by
  unfold newQuad
  dsimp only
  rw [addQuad_place, activate_place]
  rfl

theorem newTri_place (s : St K) (m : Merge) : newTri (place f s) m = (newTri s m).map (place f) := by
  unfold newTri
  rw [show (place f s).F = s.F from rfl]
  rcases vertexIndex (s.F (.quad m.q)) m.v2 with _ | i
  · rfl
  · dsimp only
    rw [show corner (place f s) = corner s from rfl]
    rcases corner s m.q (i + 1) with _ | a <;> rcases corner s m.q (i + 2) with _ | b <;> rcases corner s m.q (i + 3) with _ | c <;> try rfl
    dsimp only
    rw [addTri_place, activate_place]
    rfl

theorem cleanOld_place (ms : List Merge) (s : St K) : MC.removeOld ms (place f s) = place f (MC.removeOld ms s) := by
  unfold MC.removeOld
  dsimp only
  rw [foldl_place (place f) (step := fun s m => removeFacet (s.removeQuad m.q) m.nbr) (fun s m => by rw [removeQuad_place, removeFacet_place]),
    foldl_place (place f) (step := fun s m => (s.removeIntr m.e1).removeIntr m.e2) (fun s m => by rw [removeIntr_place, removeIntr_place]),
    foldl_place (place f) (step := fun s m => s.removeVertex m.v2) (fun s m => rfl)]

theorem newTris_place : ∀ (l : List Merge) (o : Option (St K)), l.foldl (fun o m => o.bind fun s => newTri s m) (o.map (place f)) =
    (l.foldl (fun o m => o.bind fun s => newTri s m) o).map (place f)
  | [], _ => rfl
  | m :: l, o => by
    rw [List.foldl_cons, List.foldl_cons, option_bind_place (place f) (place f) (fun s => newTri_place f s m)]
    exact newTris_place l _

end plain

section tol2
variable {eps eps' : K} (T : SameTests f.at Set.univ eps' eps)
include T

theorem clearQuads_place (ix0 : FRef → Nat) (s : St K) : clearDoubleQuads eps' ix0 (place f s) = (clearDoubleQuads eps ix0 s).map (place f) := by
  unfold clearDoubleQuads
  dsimp only
  rw [setup_place T, show scan (place f (setupConnectivity eps s)) true (assignIndices (place f (setupConnectivity eps s)) (fun _ => 0) ix0).2 =
    scan (setupConnectivity eps s) true (assignIndices (setupConnectivity eps s) (fun _ => 0) ix0).2 from rfl]
  rcases scan (setupConnectivity eps s) true (assignIndices (setupConnectivity eps s) (fun _ => 0) ix0).2 with _ | c
  · rfl
  · dsimp only
    rw [foldl_place (place f) (newQuad_place f), cleanOld_place, setup_place T]
    rfl

theorem clearTris_place (ix0 : FRef → Nat) (s : St K) : clearDoubleTris eps' ix0 (place f s) = (clearDoubleTris eps ix0 s).map (place f) := by
  unfold clearDoubleTris
  dsimp only
  rw [setup_place T, show scan (place f (setupConnectivity eps s)) false (assignIndices (place f (setupConnectivity eps s)) (fun _ => 0) ix0).2 =
    scan (setupConnectivity eps s) false (assignIndices (setupConnectivity eps s) (fun _ => 0) ix0).2 from rfl]
  rcases scan (setupConnectivity eps s) false (assignIndices (setupConnectivity eps s) (fun _ => 0) ix0).2 with _ | c
  · rfl
  · dsimp only
    rw [show some (place f (setupConnectivity eps s)) = (some (setupConnectivity eps s)).map (place f) from rfl, newTris_place]
    generalize c.out.foldl (fun o m => o.bind fun s => newTri s m) (some (setupConnectivity eps s)) = o
    rcases o with _ | s2
    · rfl
    · simp only [Option.map_some, cleanOld_place, setup_place T]

theorem mergeBad_place (s : St K) (v : Nat) : mergeBad eps' (place f s) v = (mergeBad eps s v).map (place f) := by
  unfold mergeBad
  rw [show ((place f s).V v).facets = (s.V v).facets from rfl, show (place f s).F = s.F from rfl, show (place f s).getEdge = s.getEdge from rfl]
  rcases (s.V v).facets with _ | ⟨f0, _ | ⟨f1, _ | ⟨f2, l⟩⟩⟩ <;> try rfl
  dsimp only
  rcases succCorner (s.F f0) v with _ | v0 <;> rcases succCorner (s.F f1) v with _ | v1 <;> rcases succCorner (s.F f2) v with _ | v2 <;> try rfl
  dsimp only
  rcases s.getEdge .intr v v0 with _ | e0 <;> rcases s.getEdge .intr v v1 with _ | e1 <;> rcases s.getEdge .intr v v2 with _ | e2 <;> try rfl
  dsimp only
  rw [pos_place, pos_place, pos_place, T.orient _ trivial _ trivial _ trivial]
  simp only [removeIntr_place, removeFacet_place, removeVertex_place, addTri_place]
  split_ifs <;> rfl

theorem mergeBads_place : ∀ (l : List Nat) (s : St K), mergeBads eps' l (place f s) = (mergeBads eps l s).map (place f)
  | [], _ => rfl
  | v :: l, s => by
    unfold mergeBads
    rw [mergeBad_place T]
    exact option_bind_place (place f) (place f) (mergeBads_place l) _

theorem mergeDegenerate_place (s : St K) : mergeDegenerate eps' (place f s) = (mergeDegenerate eps s).map (place f) := by
  unfold mergeDegenerate
  rw [show (place f s).verts.filter (isBad (place f s)) = s.verts.filter (isBad s) from rfl, mergeBads_place T]
  rcases mergeBads eps (s.verts.filter (isBad s)) s with _ | t
  · rfl
  · simp only [Option.map_some, setup_place T]

end tol2

end TQ

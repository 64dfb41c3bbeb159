import Verif.Generator.Prepare
import Verif.Generator.Props
import Verif.FrontUpdate.Best

/-! # More properties of the preparation: failure, clean-up, fixed edges -/

set_option linter.unusedSectionVars false

namespace TQ
open MS MS.St MM GN MeshSpec MCSpec MergeSpec FUSpec FrSpec

/-! ### Examples -/

namespace GNEx
open Fr

/-- The unit square as boundary of a domain. -/
def sq : List (SrcEdge ℚ) :=
  [⟨⟨0, 0⟩, ⟨1, 0⟩, 1, false, false, false⟩, ⟨⟨1, 0⟩, ⟨1, 1⟩, 1, false, false, false⟩,
   ⟨⟨1, 1⟩, ⟨0, 1⟩, 1, false, false, false⟩, ⟨⟨0, 1⟩, ⟨0, 0⟩, 1, false, false, false⟩]
/-- The diagonal of the square from the right to the left as fixed edge. -/
def diag : List (SrcEdge ℚ) := [⟨⟨1, 0⟩, ⟨0, 1⟩, -1, true, false, false⟩]
/-- No subdivision of edges. -/
def noSub (st : List (MVert ℚ)) (e : FEdge) : Option (List (Pt ℚ)) := some [vpos st e.v1, vpos st e.v2]
/-- No neighbour meshes. -/
def noNbr (_ : SrcEdge ℚ) : List (SrcEdge ℚ) := []
/-- The corners of the square. -/
def sqPos : Nat → Pt ℚ
  | 0 => ⟨0, 0⟩ | 1 => ⟨1, 0⟩ | 2 => ⟨1, 1⟩ | _ => ⟨0, 1⟩
/-- The boundary of the square as edge list. -/
def sqEdges : List BEdge := [⟨0, 1, 1, 0⟩, ⟨1, 2, 1, 0⟩, ⟨2, 3, 1, 0⟩, ⟨3, 0, 1, 0⟩]
/-- A domain: the square with the fixed edges `fx` and the isolated fixed vertices `fv`. -/
def prep (fx : List (SrcEdge ℚ)) (fv : List (FixV ℚ)) : Prep ℚ :=
  ⟨1 / 1000, sqPos, [(true, sqEdges)], collect noNbr [sq] fx, noSub, fv, []⟩
/-- A world of empty meshes. -/
def w0 : World ℚ := fun _ => St.empty 1
/-- The world after the preparation of the mesh 0; the world itself if the preparation does not return. -/
def prepared (P : Prep ℚ) : World ℚ :=
  match prepareMesh P w0 0 with
  | .ret _ w => w
  | _ => w0
/-- The value returned by the preparation of the mesh 0. -/
def returned (P : Prep ℚ) : Option Bool :=
  match prepareMesh P w0 0 with
  | .ret b _ => some b
  | _ => none

theorem prepared_eq {P : Prep ℚ} {b : Bool} (h : returned P = some b) : prepareMesh P w0 0 = .ret b (prepared P) := by
  unfold returned at h
  unfold prepared
  split at h
  · next b' w hp => rw [hp]; simp at h; rw [h]
  · simp at h

theorem noSub_line : LineSub noSub := by
  intro s e coords _ h
  unfold noSub at h
  simp only [Option.some.injEq] at h
  subst h
  exact ⟨[], rfl⟩

theorem sq_ne : ∀ c ∈ [sq].flatMap (fun b => b.flatMap fun e =>
    if (noNbr e).length > 0 then (noNbr e).map fun n => (n, true) else [(e, false)]), c.1.p1 ≠ c.1.p2 := by decide +kernel

theorem sq_data (fx : List (SrcEdge ℚ)) (h1 : ∀ e ∈ fx, e.fixed = true) (h2 : ∀ e ∈ fx, e.p1 ≠ e.p2) : DomainData noNbr [sq] fx where
  closed := by unfold ClosedSrc; decide +kernel
  leads := fun _ _ e _ h => absurd rfl h
  free := by unfold noNbr; decide +kernel
  fixed := h1
  ne := by
    intro c hc
    unfold collectCalls at hc
    rcases List.mem_append.mp hc with hc | hc
    · exact sq_ne c hc
    · obtain ⟨e, he, rfl⟩ := List.mem_map.mp hc
      exact h2 e he

/-- The prepared square. -/
def sqMesh : St ℚ := prepared (prep [] []) 0
/-- Its front. -/
def f0 : St ℚ := MC.startStep FUEx.env.eps sqMesh
/-- After the first triangle. -/
def f1 : St ℚ := (FU.updateFront FUEx.env f0 8 ⟨1/2, 3/4⟩ ⟨1/2, 3/4⟩ 2).1
/-- After the second triangle. -/
def f2 : St ℚ := (FU.updateFront FUEx.env f1 14 ⟨1/2, 3/4⟩ ⟨1/2, 3/4⟩ 2).1


theorem ret0 : returned (prep [] []) = some true := by decide +kernel
theorem step1 : (FU.updateFront FUEx.env f0 8 ⟨1/2, 3/4⟩ ⟨1/2, 3/4⟩ 2).2 = some 12 := by decide +kernel
theorem step2 : (FU.updateFront FUEx.env f1 14 ⟨1/2, 3/4⟩ ⟨1/2, 3/4⟩ 2).2 = some 16 := by decide +kernel

/-- The history of the two steps. -/
def flog : List Entry := [⟨[(0, 1), (1, 2), (2, 3), (3, 0)], 0, 1, 2⟩, ⟨[(2, 3), (3, 0), (0, 2)], 0, 2, 3⟩]

theorem frun : Run FUEx.env f0 flog f2 := by
  have r1 : Run FUEx.env f0 ([] ++ [⟨pairs f0 .front, (f0.E 8).v1, (f0.E 8).v2, 2⟩]) f1 :=
    Run.update Run.start (by decide +kernel) (FUEx.pair_eq step1) (by decide +kernel)
  have r2 := Run.update (np := ⟨1/2, 3/4⟩) (sp := ⟨1/2, 3/4⟩) (r := 2) (v := 3) r1 (by decide +kernel) (FUEx.pair_eq step2)
    (by decide +kernel)
  have e : ([] ++ [⟨pairs f0 .front, (f0.E 8).v1, (f0.E 8).v2, 2⟩] : List Entry) ++
      [⟨pairs f1 .front, (f1.E 14).v1, (f1.E 14).v2, 3⟩] = flog := by
    have e1 : pairs f0 .front = [(0, 1), (1, 2), (2, 3), (3, 0)] := by decide +kernel
    have e2 : pairs f1 .front = [(2, 3), (3, 0), (0, 2)] := by decide +kernel
    have e3 : (f0.E 8).v1 = 0 ∧ (f0.E 8).v2 = 1 ∧ (f1.E 14).v1 = 0 ∧ (f1.E 14).v2 = 2 := by decide +kernel
    rw [e1, e2, e3.1, e3.2.1, e3.2.2.1, e3.2.2.2]; rfl
  rw [e] at r2
  exact r2

end GNEx

/-- `TQ.C115_prepared`: the square with a fixed diagonal and a fixed vertex; the boundary encloses the area 1. -/
example : WF (GNEx.prepared (GNEx.prep GNEx.diag [⟨⟨1 / 2, 1 / 4⟩, true, 0⟩]) 0) ∧
    enclosed (GNEx.prepared (GNEx.prep GNEx.diag [⟨⟨1 / 2, 1 / 4⟩, true, 0⟩]) 0).pos
      (pairs (GNEx.prepared (GNEx.prep GNEx.diag [⟨⟨1 / 2, 1 / 4⟩, true, 0⟩]) 0) .bdry) = 1 := by
  have h := C115_prepared (GNEx.sq_data GNEx.diag (by decide +kernel) (by decide +kernel)) (P := GNEx.prep GNEx.diag [⟨⟨1 / 2, 1 / 4⟩, true, 0⟩])
    rfl GNEx.noSub_line (w := GNEx.w0) (a := 0) (wf_empty 1) (by simp [GNEx.prep]) (GNEx.prepared_eq (by decide +kernel))
  refine ⟨h.1, h.2.2.2.2.2.2.1.trans ?_⟩
  decide +kernel

/-- `TQ.C117_tiles_domain_partial`: the prepared square is meshed by two triangles of total area 1. -/
example : GNEx.f2.tris.length = 2 ∧ GNEx.f2.area = 1 := by
  refine ⟨by decide +kernel, ?_⟩
  have h := C117_tiles_domain_partial (GNEx.sq_data [] (by simp) (by simp)) (P := GNEx.prep [] []) rfl GNEx.noSub_line (w := GNEx.w0) (a := 0)
    (c := 1) rfl (by simp [GNEx.prep]) (GNEx.prepared_eq GNEx.ret0) FUEx.epsPos (FU.queryExact_live FUEx.exact) FUEx.sortOK GNEx.frun
    (by
      intro e he
      simp only [GNEx.flog, List.mem_cons, List.not_mem_nil, or_false] at he
      rcases he with rfl | rfl <;> (constructor <;> decide)) (by decide +kernel)
  exact h.1.trans (by decide +kernel)

/-- `TQ.C117_tiles_simple_domain`: the boundary of the prepared square is simple, a point inside is covered once. -/
example : GNEx.f2.area = 1 ∧ GNEx.f2.tris.countP (Covers GNEx.f2 ⟨1/4, 1/2⟩) = 1 := by
  have hsim : SimpleFront GNEx.sqMesh.pos (pairs GNEx.sqMesh .bdry) := by
    rw [show pairs GNEx.sqMesh .bdry = [(0, 1), (1, 2), (2, 3), (3, 0)] by decide +kernel]
    exact FUEx.unit_simple (by decide +kernel)
  have h := C117_tiles_simple_domain (GNEx.sq_data [] (by simp) (by simp)) (P := GNEx.prep [] []) rfl GNEx.noSub_line (w := GNEx.w0) (a := 0)
    (c := 1) rfl (by simp [GNEx.prep]) (GNEx.prepared_eq GNEx.ret0) hsim FUEx.epsPos FUEx.exact FUEx.sortOK FUEx.norm_ok GNEx.frun
    (by unfold Resolved; decide +kernel)
    (by
      intro e he
      simp only [GNEx.flog, List.mem_cons, List.not_mem_nil, or_false] at he
      rcases he with rfl | rfl
      · intro f hf hx; clear hx; revert f; unfold Near; decide +kernel
      · intro f hf hx; clear hx; revert f; unfold Near; decide +kernel) (by decide +kernel)
  refine ⟨h.1.trans (by decide +kernel), (h.2.2 ⟨1/4, 1/2⟩ (by unfold Generic; decide +kernel)).trans ?_⟩
  rw [if_pos]
  change winding GNEx.sqMesh.pos (pairs GNEx.sqMesh .bdry) ⟨1/4, 1/2⟩ = 1
  decide +kernel

/-! ### C81 -/

/-- A domain without exterior boundary and a mesh that is not empty: both are refused (`TQ.C81_failed_preparation`). -/
example : GNEx.returned { GNEx.prep [] [] with bdries := [(false, GNEx.sqEdges)] } = some false ∧
    (∃ w', prepareMesh (GNEx.prep [] []) (GNEx.prepared (GNEx.prep [] [])) 0 = .ret false w') := by
  refine ⟨by decide +kernel, GNEx.prepared (GNEx.prep [] []), ?_⟩
  unfold prepareMesh
  rw [show isEmpty (GNEx.prepared (GNEx.prep [] []) 0) = false by decide +kernel]
  rfl

/-- **C81 (violated).** The loop that removes the vertices after a failed initialisation of the front runs into
undefined behaviour on every mesh with a vertex: the first removal moves the node of the iterator to the end of the
waste list, so that the next increment leads to the end of that list.  (The loop is dead code: the front is never
found invalid.) -/
theorem C81_cleanup_violated (n : Nat) (rest waste : List Nat) (hn : n ∉ rest) (hw : n ∉ waste) (k : Nat) :
    cleanup (k + 2) (n :: rest) waste (start (n :: rest)) = none := by
  have hf : (n :: rest).filter (· ≠ n) = rest := by
    rw [List.filter_cons]
    simp only [ne_eq, not_true_eq_false, decide_false, Bool.false_eq_true, ↓reduceIte]
    rw [List.filter_eq_self]
    intro m hm
    simpa using fun h : m = n => hn (h ▸ hm)
  have hi : (waste ++ [n]).idxOf n = waste.length := by
    rw [List.idxOf_append_of_notMem hw]; simp
  have ha : advance rest (waste ++ [n]) (.node n) = some .endWaste := by
    unfold advance succIn
    simp only [hn, ↓reduceIte, List.mem_append, List.mem_singleton, or_true]
    rw [hi, List.drop_eq_nil_of_le (by simp)]
  unfold start
  simp only [cleanup, List.mem_cons, true_or, ↓reduceIte]
  rw [hf, ha]
  rfl

/-- Without vertices the loop ends at once. -/
example : cleanup 1 [] [7] (start []) = some ([], [7], true) := rfl

/-- The end points of all edges that make up the initial front are vertices of the prepared mesh. -/
theorem call_verts {K : Type*} [Field K] [LinearOrder K] [IsStrictOrderedRing K]
    {nbr : Fr.SrcEdge K → List (Fr.SrcEdge K)} {bd : List (List (Fr.SrcEdge K))} {fx : List (Fr.SrcEdge K)}
    (D : DomainData nbr bd fx) {P : Prep K} (hP : P.front = Fr.collect nbr bd fx) {w w' : World K} {a : Nat} (hw : WF (w a))
    (hr : ∀ x ∈ P.refs, x.1 ≠ a) (h : prepareMesh P w a = .ret true w') (c : Fr.SrcEdge K × Bool) (hc : c ∈ Fr.collectCalls nbr bd fx) :
    (∃ v ∈ (w' a).verts, (w' a).pos v = (callPts c).1) ∧ ∃ v ∈ (w' a).verts, (w' a).pos v = (callPts c).2 := by
  obtain ⟨vs, es, A, hf, hv, _⟩ := C115_vertices D hP hw hr h
  have hg := good_collect nbr bd fx
  obtain ⟨es0, h0, hfa⟩ := initEdges_calls hg 0
  rw [hP] at hf
  unfold Fr.initFront at hf
  rw [show ([] : List (Fr.MVert K)).length = 0 from rfl, h0] at hf
  dsimp only at hf
  have hir : ∀ e ∈ es0, e.v1 < (Fr.initVerts [] (Fr.collect nbr bd fx)).length ∧ e.v2 < (Fr.initVerts [] (Fr.collect nbr bd fx)).length := by
    intro e he
    obtain ⟨c, hc, i, j, rfl, hi, hj⟩ := forall₂_mem hfa e he
    have h1 := coord_some_lt hi
    have h2 := coord_some_lt hj
    exact ⟨by unfold Fr.initVerts; simp; omega, by unfold Fr.initVerts; simp; omega⟩
  cases hre : Fr.refineEdges (P.sub (Fr.initVerts [] (Fr.collect nbr bd fx))) (Fr.initVerts [] (Fr.collect nbr bd fx)) es0 with
  | none => rw [hre] at hf; simp at hf
  | some q =>
    rw [hre] at hf
    simp only [Option.some.injEq, Prod.mk.injEq] at hf
    obtain ⟨rfl, rfl, rfl⟩ := hf
    obtain ⟨⟨ext, hx⟩, _⟩ := refineEdges_range _ _ _ _ _ hre hir
    have key : ∀ i p, FID.coord (Fr.collect nbr bd fx) i = some p → ∃ v ∈ (w' a).verts, (w' a).pos v = p := by
      intro i p hi
      unfold FID.coord at hi
      obtain ⟨q0, hq0, rfl⟩ := Option.map_eq_some_iff.mp hi
      have hm : (Fr.newVert q0).xy ∈ ((w' a).verts.map (fun v => ((w' a).pos v, ((w' a).V v).props))).map (·.1) := by
        rw [hv, List.map_append, List.mem_append]
        left
        rw [List.map_map, hx]
        refine List.mem_map.mpr ⟨Fr.newVert q0, List.mem_append_left _ ?_, rfl⟩
        unfold Fr.initVerts
        rw [List.nil_append]
        exact List.mem_map_of_mem (List.mem_of_getElem? hq0)
      rw [List.map_map, List.mem_map] at hm
      obtain ⟨v, hv1, hv2⟩ := hm
      exact ⟨v, hv1, hv2⟩
    have hc2 : ∃ i j, FID.coord (Fr.collect nbr bd fx) i = some (callPts c).1 ∧ FID.coord (Fr.collect nbr bd fx) j = some (callPts c).2 := by
      obtain ⟨n, hn, rfl⟩ := List.getElem_of_mem hc
      have hl := hfa.length_eq
      have := List.Forall₂.get hfa (i := n) (by omega) hn
      obtain ⟨i, j, _, h1, h2⟩ := this
      exact ⟨i, j, h1, h2⟩
    obtain ⟨i, j, h1, h2⟩ := hc2
    exact ⟨key i _ h1, key j _ h2⟩

/-! ### C114: failures of the preparation are not reported -/

/-- The effect of `prepare_mesh` as used by `new_mesh`; outcomes other than a returned value leave the world. -/
def prepOf {K : Type*} [Field K] [LinearOrder K] (P : Prep K) (w : World K) (a : Nat) : World K × Bool :=
  match prepareMesh P w a with
  | .ret b w' => (w', b)
  | _ => (w, false)

/-- **C114 (violated).** `new_mesh` registers the mesh although its preparation failed: for a domain without
exterior boundary the mesh stays empty, but it counts as valid and is handed out, and algorithms can be
requested for it. -/
theorem C114_unprepared_violated : ∃ (P : Prep ℚ) (g : Gen ℚ),
    prepareMesh P GNEx.w0 0 = .ret false GNEx.w0 ∧ g = (Gen.init GNEx.w0).newMesh (prepOf P) 0 5 ∧
    g.isValid 0 = true ∧ g.mesh 0 = some 0 ∧ isEmpty (g.w 0) = true ∧ (g.access .triangulation 0).isSome = true := by
  have h : prepareMesh { GNEx.prep [] [] with bdries := [(false, GNEx.sqEdges)] } GNEx.w0 0 = .ret false GNEx.w0 := by
    have := GNEx.prepared_eq (P := { GNEx.prep [] [] with bdries := [(false, GNEx.sqEdges)] }) (b := false) (by decide +kernel)
    have e := (C81_failed_preparation _ _ _ _ this).1
    rw [this, e]
  refine ⟨_, _, h, rfl, by decide +kernel, by decide +kernel, by decide +kernel, by decide +kernel⟩

/-- **C114 (partial).** A mesh whose preparation succeeded is not empty, if its domain has a boundary edge.  Missing:
`new_mesh` does not tell whether the preparation succeeded. -/
theorem C114_prepared_partial {K : Type*} [Field K] [LinearOrder K] [IsStrictOrderedRing K]
    {nbr : Fr.SrcEdge K → List (Fr.SrcEdge K)} {bd : List (List (Fr.SrcEdge K))} {fx : List (Fr.SrcEdge K)}
    (D : DomainData nbr bd fx) {P : Prep K} (hP : P.front = Fr.collect nbr bd fx) {w w' : World K} {a : Nat} (hw : WF (w a))
    (hr : ∀ x ∈ P.refs, x.1 ≠ a) (h : prepareMesh P w a = .ret true w') {b : List (Fr.SrcEdge K)} (hb : b ∈ bd) (hne : b ≠ []) :
    isEmpty (w' a) = false := by
  obtain ⟨e, he⟩ := List.exists_mem_of_ne_nil b hne
  have hc : ∃ c, c ∈ Fr.collectCalls nbr bd fx := by
    unfold Fr.collectCalls
    by_cases hn : (nbr e).length > 0
    · obtain ⟨n, hm⟩ := List.exists_mem_of_ne_nil (nbr e) (by rintro h; rw [h] at hn; simp at hn)
      exact ⟨(n, true), List.mem_append_left _ (List.mem_flatMap.mpr ⟨b, hb, List.mem_flatMap.mpr ⟨e, he, by
        rw [if_pos hn]; exact List.mem_map_of_mem hm⟩⟩)⟩
    · exact ⟨(e, false), List.mem_append_left _ (List.mem_flatMap.mpr ⟨b, hb, List.mem_flatMap.mpr ⟨e, he, by
        rw [if_neg hn]; simp⟩⟩)⟩
  obtain ⟨c, hc⟩ := hc
  obtain ⟨⟨v, hv, _⟩, _⟩ := call_verts D hP hw hr h c hc
  rw [Bool.eq_false_iff]
  intro hcon
  rw [(isEmpty_iff _).mp hcon |>.1] at hv
  simp at hv

example : isEmpty (GNEx.prepared (GNEx.prep [] []) 0) = false :=
  C114_prepared_partial (GNEx.sq_data [] (by simp) (by simp)) (P := GNEx.prep [] []) rfl (w := GNEx.w0) (a := 0)
    (wf_empty 1) (by simp [GNEx.prep]) (GNEx.prepared_eq GNEx.ret0) (b := GNEx.sq) (by simp) (by simp [GNEx.sq])

/-! ### C116: fixed edges -/

/-- **C116 (partial).** The end points of every fixed edge of the domain are vertices of the prepared mesh.  Missing:
the edge itself is lost, see `TQ.C116_lost_violated`. -/
theorem C116_ends_partial {K : Type*} [Field K] [LinearOrder K] [IsStrictOrderedRing K]
    {nbr : Fr.SrcEdge K → List (Fr.SrcEdge K)} {bd : List (List (Fr.SrcEdge K))} {fx : List (Fr.SrcEdge K)}
    (D : DomainData nbr bd fx) {P : Prep K} (hP : P.front = Fr.collect nbr bd fx) {w w' : World K} {a : Nat} (hw : WF (w a))
    (hr : ∀ x ∈ P.refs, x.1 ≠ a) (h : prepareMesh P w a = .ret true w') (e : Fr.SrcEdge K) (he : e ∈ fx) :
    (∃ v ∈ (w' a).verts, (w' a).pos v = e.p1) ∧ ∃ v ∈ (w' a).verts, (w' a).pos v = e.p2 := by
  have hc : (e, false) ∈ Fr.collectCalls nbr bd fx := by
    unfold Fr.collectCalls
    exact List.mem_append_right _ (List.mem_map_of_mem (f := fun e => (e, false)) he)
  exact call_verts D hP hw hr h (e, false) hc

example : ∃ v ∈ (GNEx.prepared (GNEx.prep GNEx.diag []) 0).verts, (GNEx.prepared (GNEx.prep GNEx.diag []) 0).pos v = ⟨0, 1⟩ :=
  (C116_ends_partial (GNEx.sq_data GNEx.diag (by decide +kernel) (by decide +kernel)) (P := GNEx.prep GNEx.diag []) rfl (w := GNEx.w0) (a := 0)
    (wf_empty 1) (by simp [GNEx.prep]) (GNEx.prepared_eq (by decide +kernel)) ⟨⟨1, 0⟩, ⟨0, 1⟩, -1, true, false, false⟩ (by simp [GNEx.diag])).2

/-- The corners of the triangles after a complete run on a prepared mesh. -/
def GNEx.meshed (P : Prep ℚ) : Option (Bool × Nat × List Nat × List (List Nat)) :=
  TGEx.result (TG.generate FUEx.env TGEx.par 0 20 (MC.startStep FUEx.env.eps (GNEx.prepared P 0)))

/-- **C116 (violated).** A fixed edge of the domain need not be an edge of the mesh: the square with its fixed
diagonal from `(1, 0)` to `(0, 1)` (vertices 1 and 3) is meshed completely with the other diagonal. -/
theorem C116_lost_violated : ∃ P : Prep ℚ, P.front = Fr.collect GNEx.noNbr [GNEx.sq] GNEx.diag ∧
    prepareMesh P GNEx.w0 0 = .ret true (GNEx.prepared P) ∧ GNEx.meshed P = some (true, 2, [], [[0, 1, 2], [2, 3, 0]]) ∧
    (GNEx.prepared P 0).pos 1 = ⟨1, 0⟩ ∧ (GNEx.prepared P 0).pos 3 = ⟨0, 1⟩ :=
  ⟨GNEx.prep GNEx.diag [], rfl, GNEx.prepared_eq (by decide +kernel), by decide +kernel, by decide +kernel, by decide +kernel⟩

end TQ

#print axioms TQ.C81_cleanup_violated
#print axioms TQ.C114_unprepared_violated
#print axioms TQ.C114_prepared_partial
#print axioms TQ.C116_ends_partial
#print axioms TQ.C116_lost_violated

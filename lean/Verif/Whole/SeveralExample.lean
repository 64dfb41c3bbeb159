import Verif.Whole.SeveralProps

/-! # A file with two squares, one after the other (an instance of C178) -/

set_option linter.unusedSectionVars false
set_option linter.unusedSimpArgs false

namespace TQ
open QL MS MeshSpec MCSpec MC MS.St FUSpec WholeSpec RefSpec CleanSpec Whole QLSpec SmSpec Sm GN MM MergeSpec CK FU AM AppSpec LinkSpec OutlSpec Outl SevSpec FlSpec Cf CfSpec Fl PR PRSpec TQ.Sev

namespace SVEx
/-- The square at the right of the unit square. -/
def items : List Item := [
  .single .size "  ".toList " 1".toList,
  .single .color "  ".toList " 2".toList,
  .single .algorithm "  ".toList " Triangulation".toList,
  .single .smoothing "  ".toList " 1".toList,
  .single .outFormat "  ".toList " VTU".toList,
  .single .outPrefix "  ".toList " a".toList,
  .single (.rect .exterior) "  ".toList " 1, 1.5, 0.5, 1, 1".toList]
def text : MeshText := ⟨[], [], [], items, "End mesh".toList⟩
def file : List Line := FLEx.file ++ [
  "Define mesh:".toList,
  "  Element size: 1".toList,
  "  Element color: 2".toList,
  "  Meshing algorithm: Triangulation".toList,
  "  Number of smoothing iterations: 1".toList,
  "  Output file format: VTU".toList,
  "  Output file prefix: a".toList,
  "  Define exterior rectangular boundary: 1, 1.5, 0.5, 1, 1".toList,
  "End mesh".toList]
set_option maxRecDepth 8000 in
theorem file_ok : readContent file = [FLEx.text, text].flatMap MeshText.lines ++ [] ∧ (∀ m ∈ [FLEx.text, text], m.OK ∧ WellWritten demoEnv m.items) := by decide +kernel
def cfg : Cfg ℚ := ⟨"a".toList, "VTU".toList, "1".toList, 1000, [], [(.exterior, .rect 1 ⟨3 / 2, 1 / 2⟩ 1 1 ⟨-1, -1⟩)], [], [], 2, "Triangulation".toList, 0, 1, false⟩
set_option maxRecDepth 4000 in
theorem cfg_eq : described demoEnv 1000 text.items = cfg := by decide +kernel
def unit : List (Pt ℚ) := [⟨1, 0⟩, ⟨2, 0⟩, ⟨2, 1⟩, ⟨1, 1⟩]
/-- The two definitions. -/
def x1 : Drawn ℚ := ⟨FLEx.cfg, FLEx.unit, []⟩
def x2 : Drawn ℚ := ⟨cfg, unit, []⟩
theorem rect_eq : rectangle (⟨3 / 2, 1 / 2⟩ : Pt ℚ) 1 1 = unit := by decide +kernel
theorem proper1 : SevSpec.Proper FLEx.D FNEx.Lf.env.eps FLEx.sub x1 :=
  ⟨⟨_, _, FLEx.drawing⟩, FLEx.simple, ⟨_, FLEx.constructible, fun _ _ => ⟨OutlEx.noSub_part, FLEx.divisible _⟩⟩, FLEx.sharp, Or.inl rfl⟩
theorem proper2 : SevSpec.Proper FLEx.D FNEx.Lf.env.eps FLEx.sub x2 where
  drawing := ⟨.rect 1 ⟨3 / 2, 1 / 2⟩ 1 1 ⟨-1, -1⟩, [], rfl, .shape (.rect _ _ _ _ _) (Or.inl rect_eq), .nil, by
    intro q hq; rw [show x2.holes = [] from rfl, List.mem_singleton] at hq; subst hq; decide +kernel, by decide⟩
  simple := by
    have := convex_simple (Sh.convex_rect (K := ℚ) (x0 := 1) (x1 := 2) (y0 := 0) (y1 := 1) (by norm_num))
    simpa [withHoles, unit, x2, Drawn.segs] using this
  fixed := by
    refine ⟨[], ⟨?_, by decide +kernel, .nil, by simp, ?_⟩, fun _ _ => ⟨OutlEx.noSub_part, FLEx.divisible _⟩⟩
    · intro q hq; rw [show x2.holes = [] from rfl, List.mem_singleton] at hq; subst hq; decide +kernel
    · intro b hb q hw p hp st
      rw [show x2.cfg.bdries = [(.exterior, .rect 1 ⟨3 / 2, 1 / 2⟩ 1 1 ⟨-1, -1⟩)] from rfl, List.mem_singleton] at hb
      subst hb
      cases hw
      rw [rect_eq] at hp
      have : ∀ p ∈ unit, (App.domainBox (1000 : ℚ)).has p = true := by decide +kernel
      exact ⟨_, if_pos (this p hp)⟩
  sharp := by show Sharp (1 / 1000) unit; unfold Sharp; decide +kernel
  known := Or.inr rfl

/-- The meshes after the first definition. -/
def w : World ℚ := fun m => if m = 0 then FLEx.parts.2.2.smoothed else FLEx.parts.2.1
theorem only_one {E : Cf.Env ℚ} {big : ℚ} {D : DEnv ℚ} {L : LEnv ℚ} {J : Job ℚ} {sub : Cfg ℚ → Dm ℚ → List (Fr.MVert ℚ) → Fr.FEdge → Option (List (Pt ℚ))} {fuel : Nat} {file : List Line}
    {c : Cfg ℚ} {r : MRes ℚ} (h : readFile E big file = .ok [c]) (hr : runFirst E big D L J sub fuel file = some r) : constructFirst D L J sub fuel c = r := by
  unfold runFirst at hr
  rw [h] at hr
  exact Option.some.inj hr
theorem first_eq : constructFirst FLEx.D FNEx.Lf FLEx.J FLEx.sub 20 FLEx.cfg = .done FLEx.parts.1 FLEx.parts.2.1 FLEx.parts.2.2 :=
  only_one (by rw [C169_file_partial demoEnv 1000 FLEx.file [FLEx.text] [] FLEx.file_ok.1 (by simp) FLEx.file_ok.2, List.map_singleton, FLEx.cfg_eq]) FLEx.run_eq
theorem first : GoodRuns FLEx.D FNEx.Lf FLEx.J FLEx.sub 20 [x1] w 0 FLEx.parts.2.2.ok := .first proper1 first_eq FLEx.good

/-- `mergeSort`, such that the kernel can compute it for short lists. -/
def sort2 {α : Type*} (le : α → α → Bool) : List α → List α
  | [] => []
  | [a] => [a]
  | [a, b] => if le a b then [a, b] else [b, a]
  | l => l.mergeSort le
theorem sort2_eq {α : Type*} (le : α → α → Bool) (l : List α) : l.mergeSort le = sort2 le l := by
  unfold sort2
  split
  · simp
  · simp
  · simp [List.mergeSort, List.MergeSort.Internal.splitInTwo, List.merge]
  · rfl
def nbrStep2 (eps : ℚ) (e : Fr.SrcEdge ℚ) (found bdry : List ((Nat × Nat) × Fr.SrcEdge ℚ)) : List ((Nat × Nat) × Fr.SrcEdge ℚ) :=
  let near := bdry.filter fun n => decide (Pt.normSq (Fr.srcMid n.2 - Fr.srcMid e) < 9 / 4 * Pt.normSq (e.p2 - e.p1))
  let onEdge := near.filter fun n => inOnSegment eps e.p1 e.p2 n.2.p1 && inOnSegment eps e.p1 e.p2 n.2.p2
  sort2 (fun a b => !decide (Pt.normSq (Fr.srcMid b.2 - e.p1) < Pt.normSq (Fr.srcMid a.2 - e.p1))) (found ++ onEdge)
def nbr2 (eps : ℚ) (w : World ℚ) (ms : List Nat) (e : Fr.SrcEdge ℚ) : List ((Nat × Nat) × Fr.SrcEdge ℚ) := (ms.map (GN.bdryOf w)).foldl (nbrStep2 eps e) []
theorem nbr2_eq : (GN.nbrA : ℚ → _) = nbr2 := by
  have h : (GN.nbrStepA : ℚ → _) = nbrStep2 := by
    funext eps e found bdry
    exact sort2_eq _ _
  funext eps w ms e
  unfold GN.nbrA nbr2
  rw [h]
def prep2 (d : Dm ℚ) (eps : ℚ) (sub : List (Fr.MVert ℚ) → Fr.FEdge → Option (List (Pt ℚ))) (w : World ℚ) (ms : List Nat) : GN.Prep ℚ :=
  ⟨eps, storePos d.verts, d.bdries.map fun b => (b.1 == .exterior, b.2.edges), Fr.collect (fun e => (nbr2 eps w ms e).map (·.2)) d.sources d.fixedSources, sub,
   d.fixedVerts.map fun i => ⟨storePos d.verts i, true, d.degree i⟩, d.sources.flatMap fun b => b.flatMap fun e => (nbr2 eps w ms e).map (·.1)⟩
theorem prep2_eq : (Dm.prepNext : Dm ℚ → _) = prep2 := by
  funext d eps sub w ms
  unfold Dm.prepNext prep2 GN.refsOf
  rw [nbr2_eq]
/-- `constructNext` for the second definition. -/
def second (w : World ℚ) : NRes ℚ :=
  match makeDomain FLEx.D cfg with
  | .error f => .fail f
  | .ok d =>
    let w0 : World ℚ := MS.upd w (0 + 1) fun _ => MS.St.empty cfg.color
    match GN.prepareMesh (prep2 d FNEx.Lf.env.eps (FLEx.sub cfg d) w0 [0]) w0 (0 + 1) with
    | .undef => .fail .ub
    | .loops => .fuel
    | .ret _ w1 =>
      if cfg.algorithm ≠ "Tri-to-Quad".toList ∧ cfg.algorithm ≠ "Triangulation".toList then .fail .error
      else match AM.generateNext FNEx.Lf 20 (jobOf FLEx.J cfg) d.dom w1 (0 + 1) 0 with
        | .undef => .fail .ub
        | .abort => .fail .abort
        | .fuel => .fuel
        | .done t => .done d w1 t
theorem construct_eq (w : World ℚ) : constructNext FLEx.D FNEx.Lf FLEx.J FLEx.sub 20 w 0 cfg = second w := by
  unfold constructNext second
  rw [prep2_eq]
  generalize makeDomain FLEx.D cfg = r
  rcases r with f | d
  · rfl
  · dsimp only
    generalize GN.prepareMesh (prep2 d FNEx.Lf.env.eps (FLEx.sub cfg d) (MS.upd w (0 + 1) fun _ => MS.St.empty cfg.color) [0]) (MS.upd w (0 + 1) fun _ => MS.St.empty cfg.color) (0 + 1) = q
    rcases q with ⟨b, w1⟩ | _ | _
    · dsimp only
      generalize AM.generateNext FNEx.Lf 20 (jobOf FLEx.J cfg) d.dom w1 (0 + 1) 0 = z
      cases z <;> rfl
    · rfl
    · rfl
/-- The run for the second definition. -/
def partsOf : NRes ℚ → Dm ℚ × World ℚ × NextTrace ℚ
  | .done d w1 t => (d, w1, t)
  | _ => (⟨[], [], [], ⟨false, [], 0⟩⟩, fun _ => St.empty 1, ⟨St.empty 1, St.empty 1, St.empty 1, fun _ => St.empty 1, St.empty 1, St.empty 1, false⟩)
theorem partsOf_eq {r : NRes ℚ} (h : (partsOf r).2.2.ok = true) : r = .done (partsOf r).1 (partsOf r).2.1 (partsOf r).2.2 := by
  match r, h with
  | .done d s t, _ => rfl
  | .fail _, h => exact absurd h Bool.false_ne_true
  | .fuel, h => exact absurd h Bool.false_ne_true
def parts : Dm ℚ × World ℚ × NextTrace ℚ := partsOf (second w)
theorem w_zero : w 0 = FLEx.parts.2.2.smoothed := if_pos rfl
theorem first_mesh : Complete (w 0) := (C178_mesh (L := FNEx.Lf) FUEx.epsPos FUEx.exact FUEx.sortOK FUEx.norm_ok first).1
/-- What is checked of the first mesh: the ends of its boundary edges lie apart, and the second square fits to it. -/
theorem fit_checks :
    (∀ e ∈ (w 0).es .bdry, ∀ f ∈ (w 0).es .bdry, ∀ u ∈ [((w 0).E e).v1, ((w 0).E e).v2], ∀ v ∈ [((w 0).E f).v1, ((w 0).E f).v2], (w 0).pos u = (w 0).pos v → u = v) ∧
    along FNEx.Lf.env.eps (w 0) (⟨1, 1⟩, ⟨1, 0⟩) = [(⟨1, 1 / 2⟩, ⟨1, 0⟩), (⟨1, 1⟩, ⟨1, 1 / 2⟩)] ∧
    (x2.segs.Pairwise fun d d' => ∀ e ∈ (w 0).es .bdry, LiesOn FNEx.Lf.env.eps d (w 0) e → ¬ LiesOn FNEx.Lf.env.eps d' (w 0) e) ∧
    (∀ d ∈ x2.segs, (∃ e ∈ (w 0).es .bdry, LiesOn FNEx.Lf.env.eps d (w 0) e) → d = (⟨1, 1⟩, ⟨1, 0⟩)) ∧
    (∀ d ∈ x2.segs, (1 ≤ d.1.x ∧ 1 ≤ d.2.x) ∧ (d = (⟨1, 1⟩, ⟨1, 0⟩) ∨ 1 < d.1.x ∨ 1 < d.2.x)) ∧
    (∀ e ∈ (w 0).es .bdry, (((w 0).pos ((w 0).E e).v1).x ≤ 1 ∧ ((w 0).pos ((w 0).E e).v2).x ≤ 1) ∧
      (LiesOn FNEx.Lf.env.eps (⟨1, 1⟩, ⟨1, 0⟩) (w 0) e ∨ ((w 0).pos ((w 0).E e).v1).x < 1 ∨ ((w 0).pos ((w 0).E e).v2).x < 1)) ∧
    (∃ d ∈ x2.segs, ∃ e ∈ (w 0).es .bdry, LiesOn FNEx.Lf.env.eps d (w 0) e) ∧
    (∀ d ∈ x2.segs, FNEx.Lf.env.eps ≤ 2 * (Pt.normSq (d.2 - d.1) * Pt.normSq (d.2 - d.1))) := by decide +kernel
theorem ends : EndsApart (w 0) := by
  rintro u v ⟨e, he, hu⟩ ⟨f, hf, hv⟩ hp
  exact fit_checks.1 e he f hf u (by rcases hu with rfl | rfl <;> simp) v (by rcases hv with rfl | rfl <;> simp) hp
theorem ready : SevSpec.Ready (w 0) := by
  have h := (C178_mesh (L := FNEx.Lf) FUEx.epsPos FUEx.exact FUEx.sortOK FUEx.norm_ok first).2.2.2.2
  exact ⟨fun e he => (h e he).1, fun e he => (h e he).2, ends⟩
theorem fits : Fits FNEx.Lf.env.eps (w 0) x2.segs := by
  obtain ⟨-, interface, c1, c2, c3, c4, c5, c6⟩ := fit_checks
  refine ⟨c1, fun d hd he => ?_, fun d hd hn e he hne => ?_, c5, c6⟩
  · obtain rfl := c2 d hd he
    refine ⟨[(⟨1, 1⟩, ⟨1, 1 / 2⟩), (⟨1, 1 / 2⟩, ⟨1, 0⟩)], ⟨[1 / 2], by decide +kernel, by decide +kernel⟩, ?_⟩
    rw [interface]
    exact List.Perm.swap _ _ _
  · intro x hx hx'
    have hi : ((⟨1, 1⟩, ⟨1, 0⟩) : Pt ℚ × Pt ℚ) ∈ x2.segs := by decide +kernel
    refine rims_of_line (c := 1) (c3 d hd).1 (c4 e he).1 ((c3 d hd).2.resolve_left ?_) ((c4 e he).2.resolve_left (hne _ hi)) hx hx'
    rintro rfl
    obtain ⟨d', hd', e', he', h'⟩ := c5
    obtain rfl := c2 d' hd' ⟨e', he', h'⟩
    exact hn e' he' h'
theorem disj (p : Pt ℚ) : segWinding x2.segs p + segWinding ([x1].flatMap Drawn.segs) p ≤ 1 := by
  have h1 := proper1.simple.once p
  have h2 := proper2.simple.once p
  rw [List.flatMap_singleton]
  rcases lt_or_ge p.x 1 with h | h
  · have : segWinding x2.segs p = 0 := by
      rw [segWinding_wind, show x2.segs = [(⟨1, 0⟩, ⟨2, 0⟩), (⟨2, 0⟩, ⟨2, 1⟩), (⟨2, 1⟩, ⟨1, 1⟩), (⟨1, 1⟩, ⟨1, 0⟩)] by decide +kernel]
      have h' : p.x < 2 := by linarith
      simp [wind, crossing_of_lt, h, h']
    omega
  · have : segWinding x1.segs p = 0 := by
      rw [segWinding_wind, show x1.segs = [(⟨0, 0⟩, ⟨1, 0⟩), (⟨1, 0⟩, ⟨1, 1⟩), (⟨1, 1⟩, ⟨0, 1⟩), (⟨0, 1⟩, ⟨0, 0⟩)] by decide +kernel]
      have h' : 0 ≤ p.x := by linarith
      simp [wind, crossing_of_le, h, h']
    omega
/-- What is checked of the second run. -/
theorem checks : parts.2.2.ok = true ∧
    (match TG.generate FUEx.env TGEx.par 0 20 (MC.startStep FUEx.env.eps parts.2.2.layered) with
      | .ret _ u _ => APEx.wellOK FUEx.env (MC.startStep FUEx.env.eps parts.2.2.layered) u
      | _ => false) = true ∧
    (match triangulate FUEx.env TGEx.par 0 20 (fun _ => 0) parts.2.2.layered with
      | .ret ok _ => ok
      | _ => false) = true ∧
    (facets parts.2.2.meshed).all (shapeOK FUEx.env.eps parts.2.2.meshed) = true ∧ (facets parts.2.2.modified).all (shapeOK FUEx.env.eps parts.2.2.modified) = true ∧
    (facets parts.2.2.smoothed).all (shapeOK FUEx.env.eps parts.2.2.smoothed) = true ∧
    (parts.2.2.smoothed.quads.all fun q => match (parts.2.2.smoothed.F (.quad q)).corners with
      | [a, b, c, d] => decide (0 < side (parts.2.2.smoothed.pos a) (parts.2.2.smoothed.pos b) (parts.2.2.smoothed.pos c)) &&
        decide (0 < side (parts.2.2.smoothed.pos c) (parts.2.2.smoothed.pos d) (parts.2.2.smoothed.pos a))
      | _ => false) = true ∧ parts.2.2.meshed.tris.length = 3 ∧ parts.2.2.smoothed.quads.length = 4 ∧ parts.2.2.smoothed.tris.length = 3 := by decide +kernel
theorem colours : parts.2.2.smoothed.quads.map (fun q => (parts.2.2.smoothed.F (.quad q)).color) = [1, 1, 1, 1] ∧
    parts.2.2.smoothed.tris.map (fun q => (parts.2.2.smoothed.F (.tri q)).color) = [2, 2, 2] := by decide +kernel
theorem second_eq : constructNext FLEx.D FNEx.Lf FLEx.J FLEx.sub 20 w 0 x2.cfg = .done parts.1 parts.2.1 parts.2.2 := (construct_eq w).trans (partsOf_eq checks.1)
attribute [irreducible] parts
/-- The second run starts from a prepared mesh. -/
theorem start : Prepared (parts.2.1 (0 + 1)) ∧ generateNext FNEx.Lf 20 (jobOf FLEx.J x2.cfg) parts.1.dom parts.2.1 (0 + 1) 0 = .done parts.2.2 := by
  obtain ⟨-, cov, -, -⟩ := C178_mesh (L := FNEx.Lf) FUEx.epsPos FUEx.exact FUEx.sortOK FUEx.norm_ok first
  obtain ⟨d', w2, hd, k1, k2, k3, k4, k5, k6, k7, k8, k9⟩ := C178_next (L := FNEx.Lf) FUEx.epsPos proper2 first_mesh ready fits
    (by intro p; rw [cov.bdry]; exact disj p) FLEx.J 20
  have k9 := second_eq.symm.trans k9
  cases hgen : generateNext FNEx.Lf 20 (jobOf FLEx.J x2.cfg) d'.dom w2 (0 + 1) 0 with
  | undef => rw [hgen] at k9; simp at k9
  | abort => rw [hgen] at k9; simp at k9
  | fuel => rw [hgen] at k9; simp at k9
  | done T' =>
    rw [hgen] at k9
    simp only [NRes.done.injEq] at k9
    obtain ⟨h1, h2, h3⟩ := k9
    rw [h1, h2, h3]
    exact ⟨k1, hgen⟩
theorem meshed : parts.2.2.layered = parts.2.1 (0 + 1) ∧ triangulate FUEx.env TGEx.par 0 20 (fun _ => 0) (parts.2.1 (0 + 1)) = .ret true parts.2.2.meshed := by
  obtain ⟨h1, ⟨ok, h2⟩, -⟩ := generateNext_steps start.2
  have h1 : some (parts.2.1 (0 + 1)) = some parts.2.2.layered := h1
  have h1 := Option.some.inj h1
  refine ⟨h1.symm, ?_⟩
  have h2 : triangulate FUEx.env TGEx.par 0 20 (fun _ => 0) parts.2.2.layered = .ret ok parts.2.2.meshed := h2
  have key := checks.2.2.1
  rw [h2] at key
  obtain rfl : ok = true := key
  rw [h1]; exact h2
theorem well : MeshedWell FUEx.env TGEx.par 0 20 parts.2.2.layered := by
  intro ok u c hg
  have key := checks.2.1
  rw [hg] at key
  exact APEx.well_of key
theorem run : AppSpec.GoodRun FNEx.Lf 20 (jobOf FLEx.J x2.cfg) (parts.2.1 (0 + 1)) parts.2.2.layered parts.2.2.meshed := by
  obtain ⟨e1, e2⟩ := meshed
  exact ⟨trivial, well, by rw [e1]; exact e2, fun h => absurd h (by decide)⟩
theorem left : LeftFacets FNEx.Lf.env.eps parts.2.2.modified := by
  obtain ⟨h1, -, h3, -⟩ := generateNext_steps start.2
  exact C48_left_geometry (meshed_part (L := FNEx.Lf) FUEx.epsPos FUEx.exact FUEx.sortOK FUEx.norm_ok start.1 h1 h3 run).1.complete.wf
    (shapes_of checks.2.2.2.2.1)
theorem left0 : LeftFacets FNEx.Lf.env.eps (w 0) := C48_left_geometry first_mesh.wf (by rw [w_zero]; exact FLEx.smoothed_shapes)
/-- Both definitions. -/
theorem both : GoodRuns FLEx.D FNEx.Lf FLEx.J FLEx.sub 20 [x2, x1] (upd parts.2.1 (0 + 1) fun _ => parts.2.2.smoothed) (0 + 1) (FLEx.parts.2.2.ok && parts.2.2.ok) :=
  .next first proper2 ends fits disj left0 second_eq run (by rw [meshed.1]; exact rim_refl _) left (Or.inl rfl)
    (APEx.unfolded_of checks.2.2.2.2.2.2.1)
end SVEx

/-- The file with both squares: one mesh with four quads and three triangles that covers both squares, and success. -/
example : runAll demoEnv 1000 FLEx.D FNEx.Lf FLEx.J FLEx.sub 20 SVEx.file = some (.done (upd SVEx.parts.2.1 1 fun _ => SVEx.parts.2.2.smoothed) 1 true) ∧
    CoversOutline ([SVEx.x1, SVEx.x2].flatMap Drawn.segs) SVEx.parts.2.2.smoothed ∧ meshArea SVEx.parts.2.2.smoothed = 2 ∧
    SVEx.parts.2.2.smoothed.quads.length = 4 ∧ SVEx.parts.2.2.smoothed.tris.length = 3 := by
  have e : (upd SVEx.parts.2.1 1 fun _ => SVEx.parts.2.2.smoothed) 1 = SVEx.parts.2.2.smoothed := by simp [upd]
  obtain ⟨h1, h2, h3, h4, h5⟩ := C178_file demoEnv 1000 SVEx.file [FLEx.text, SVEx.text] [] SVEx.file_ok.1 (by simp) SVEx.file_ok.2 (L := FNEx.Lf) FUEx.epsPos FUEx.exact FUEx.sortOK FUEx.norm_ok
    (xs := [SVEx.x1, SVEx.x2]) (by simp only [List.map_cons, List.map_nil, FLEx.cfg_eq, SVEx.cfg_eq]; rfl) SVEx.both
  have g := (C178_mesh (L := FNEx.Lf) FUEx.epsPos FUEx.exact FUEx.sortOK FUEx.norm_ok SVEx.both).1
  rw [e] at h3 h4 h5 g
  have h5 := h5 (C48_left_geometry g.wf (shapes_of SVEx.checks.2.2.2.2.2.1)) FLEx.thr_pos
  rw [h5] at h1
  exact ⟨h1, h3, h4.trans (by decide +kernel), SVEx.checks.2.2.2.2.2.2.2.2⟩

end TQ

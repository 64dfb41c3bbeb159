import Verif.Whole.AppRun

/-! # Properties C160, C161: whole runs of `generate_elements` and of the application -/

set_option linter.unusedSectionVars false
set_option linter.unusedSimpArgs false

namespace TQ
open QL MS MeshSpec MCSpec MC MS.St FUSpec WholeSpec RefSpec CleanSpec Whole QLSpec SmSpec Sm GN MM CK FU AM AppSpec
variable {K : Type*} [Field K] [LinearOrder K] [IsStrictOrderedRing K]

/-! ### C160: `generate_elements` -/

/-- **C160.** `Triangulation::generate_elements` without limit of elements, on a prepared domain or after any number of
other meshing calls: if it returns true, the mesh is a complete mesh of the domain, and the area counter has grown by
the area of the domain. -/
theorem C160_complete {L : LEnv K} (he : 0 < L.env.eps) (hq : QueryExact L.env) (hso : SortOK L.env)
    (hn : ∀ p, 0 ≤ L.env.norm p ∧ Pt.normSq p ≤ L.env.norm p * L.env.norm p) {s0 a : St K} (h0 : Bare s0) (hb : BdryFlagged s0)
    (h : Staged L s0 a) {par : TG.Par K} {fuel : Nat} {ix0 : FRef → Nat} (hm : MeshedWell L.env par 0 fuel a) {t : St K}
    (ht : triangulate L.env par 0 fuel ix0 a = .ret true t) :
    MeshOf s0 t ∧ t.area = s0.area + enclosed s0.pos (pairs s0 .bdry) := by
  unfold triangulate at ht
  split_ifs at ht
  · simp at ht
  · split at ht
    · simp at ht
    · simp at ht
    · rename_i ok u c hg
      split at ht
      · simp at ht
      · rename_i t' hi
        simp only [Out.ret.injEq] at ht
        obtain ⟨rfl, rfl⟩ := ht
        obtain ⟨hw, hres, hf⟩ := generate_work he hq hso hn h0 h hm hg
        have hf := (hf rfl).resolve_right (fun x => absurd x.1 (lt_irrefl 0))
        rw [finish_complete hf] at hi
        obtain ⟨v, h1, h2, h3⟩ := C155_improved he hq hso hn h0 hb hw hf hres ix0
        rw [hi] at h1
        obtain rfl := Option.some.inj h1
        exact ⟨h2, by rw [area_improve hi, work_counter he hq hso hn h0 hw hf]⟩

/-- **C160.** If it returns false, edges of the front are left: they enclose what is missing of the domain, and no
element reaches into it. -/
theorem C160_incomplete {L : LEnv K} (he : 0 < L.env.eps) (hq : QueryExact L.env) (hso : SortOK L.env)
    (hn : ∀ p, 0 ≤ L.env.norm p ∧ Pt.normSq p ≤ L.env.norm p * L.env.norm p) {s0 a : St K} (h0 : Bare s0)
    (h : Staged L s0 a) (hbd : a.es .bdry ≠ []) {par : TG.Par K} {nEl fuel : Nat} {ix0 : FRef → Nat} (hm : MeshedWell L.env par nEl fuel a)
    {t : St K} (ht : triangulate L.env par nEl fuel ix0 a = .ret false t) :
    ∃ u, Work L s0 u ∧ u.es .front ≠ [] ∧ improve L.env.eps ix0 (finishStep u) = some t ∧
      t.area + enclosed u.pos (pairs u .front) = s0.area + enclosed s0.pos (pairs s0 .bdry) ∧
      ∀ p, winding u.pos (elemSides u) p + winding u.pos (pairs u .front) p = winding s0.pos (pairs s0 .bdry) p := by
  unfold triangulate at ht
  rw [if_neg (by have := List.length_pos_of_ne_nil hbd; omega)] at ht
  split at ht
  · simp at ht
  · simp at ht
  · rename_i ok u c hg
    split at ht
    · simp at ht
    · rename_i t' hi
      simp only [Out.ret.injEq] at ht
      obtain ⟨rfl, rfl⟩ := ht
      obtain ⟨hw, hres, -⟩ := generate_work he hq hso hn h0 h hm hg
      have i := work_inv he hq hso hn h0 hw
      have hwf := (work_inv he hq hso hn h0 (staged_start h)).mesh.wf
      refine ⟨u, hw, ?_, hi, ?_, fun p => ?_⟩
      · exact generate_false he (queryExact_live hq) hso hwf hg
      · rw [area_improve hi, area_finish, i.area]
      · rw [meshing_winding i.mesh, i.region]

/-- **C160.** The call never runs into undefined behaviour on the way to a finished mesh: with a front to start from, the
only such outcome is in the improvement of an unfinished mesh. -/
theorem C160_defined {L : LEnv K} (he : 0 < L.env.eps) (hq : QueryExact L.env) (hso : SortOK L.env)
    (hn : ∀ p, 0 ≤ L.env.norm p ∧ Pt.normSq p ≤ L.env.norm p * L.env.norm p) {s0 a : St K} (h0 : Bare s0) (hb : BdryFlagged s0)
    (h : Staged L s0 a) {par : TG.Par K} {fuel : Nat} {ix0 : FRef → Nat} (hm : MeshedWell L.env par 0 fuel a)
    (hf : (startStep L.env.eps a).es .front ≠ []) (ht : triangulate L.env par 0 fuel ix0 a = .undef) :
    ∃ u c, TG.generate L.env par 0 fuel (startStep L.env.eps a) = .ret false u c ∧ u.es .front ≠ [] ∧
      improve L.env.eps ix0 (finishStep u) = none := by
  have hwf := (work_inv he hq hso hn h0 (staged_start h)).mesh.wf
  unfold triangulate at ht
  split_ifs at ht
  · split at ht
    · rename_i hg
      exact absurd hg ((C94_complete_mesh_partial he (queryExact_live hq) hso par 0 fuel hwf).2 hf)
    · simp at ht
    · rename_i ok u c hg
      obtain ⟨hw, hres, hfr⟩ := generate_work he hq hso hn h0 h hm hg
      split at ht
      · rename_i hi
        by_cases hfe : u.es .front = []
        · rw [finish_complete hfe] at hi
          obtain ⟨v, h1, -⟩ := C155_improved he hq hso hn h0 hb hw hfe hres ix0
          rw [hi] at h1; simp at h1
        · cases ok with
          | true => exact absurd ((hfr rfl).resolve_right (fun x => absurd x.1 (lt_irrefl 0))) hfe
          | false => exact ⟨u, c, hg, hfe, hi⟩
      · simp at ht

/-- **C160.** `generate_elements_exhaustive`. -/
theorem C160_exhaustive {L : LEnv K} (he : 0 < L.env.eps) (hq : QueryExact L.env) (hso : SortOK L.env)
    (hn : ∀ p, 0 ≤ L.env.norm p ∧ Pt.normSq p ≤ L.env.norm p * L.env.norm p) {s0 a : St K} (h0 : Bare s0) (hb : BdryFlagged s0)
    (h : Staged L s0 a) {fuel : Nat}
    (hm : ∀ ok u c, TG.generateExhaustive L.env 0 fuel (startStep L.env.eps a) = .ret ok u c →
      Resolved L.env.eps u ∧ Reaching L.env (startStep L.env.eps a) u) {t : St K}
    (ht : exhaust L.env 0 fuel a = .ret true t) :
    MeshOf s0 t ∧ t.area = s0.area + enclosed s0.pos (pairs s0 .bdry) := by
  have hw := staged_start h
  have hwf := (work_inv he hq hso hn h0 hw).mesh.wf
  unfold exhaust at ht
  split_ifs at ht
  · simp at ht
  · split at ht
    · simp at ht
    · simp at ht
    · rename_i ok u c hg
      simp only [Out.ret.injEq] at ht
      obtain ⟨rfl, rfl⟩ := ht
      obtain ⟨⟨log, hr⟩, hf⟩ := exhaustive_run he (queryExact_live hq) hso hwf hg
      obtain ⟨hres, hre⟩ := hm _ _ _ hg
      have hwk : Work L s0 u := .run hw hr hres (reaching_all he (queryExact_live hq) hso hwf hr hre)
      have hf := (hf rfl).resolve_right (fun x => absurd x.1 (lt_irrefl 0))
      rw [finish_complete hf]
      exact ⟨C155_session he hq hso hn h0 hb hwk hf, work_counter he hq hso hn h0 hwk hf⟩

/-- **C160.** The ranges of the checks are large enough if the edges are not long compared to the size function. -/
theorem C160_sized {L : LEnv K} (he : 0 < L.env.eps) (hq : QueryExact L.env) (hso : SortOK L.env)
    (hn : ∀ p, 0 ≤ L.env.norm p ∧ Pt.normSq p ≤ L.env.norm p * L.env.norm p) {s0 a : St K} (h0 : Bare s0)
    (h : Staged L s0 a) {par : TG.Par K} {nEl fuel : Nat}
    (hm : ∀ ok u c, TG.generate L.env par nEl fuel (startStep L.env.eps a) = .ret ok u c →
      Resolved L.env.eps u ∧ Sized L.env (startStep L.env.eps a) u) : MeshedWell L.env par nEl fuel a := by
  intro ok u c hg
  obtain ⟨hres, hsz⟩ := hm ok u c hg
  refine ⟨hres, fun t ht hnt x y z hc => ?_⟩
  have hms := (work_inv he hq hso hn h0 (staged_start h)).mesh
  have hwf := hms.wf
  obtain ⟨⟨log, hr, -⟩, -⟩ := C41_limit he (queryExact_live hq) hso par hwf (generate_front hg) hg
  obtain ⟨h1, h2⟩ := hsz t ht hnt x y z hc
  obtain ⟨-, hccw⟩ := run_ccw he (queryExact_live hq) hso hwf
    (fun t ht a b c hc => by rw [← area2_side]; exact ((ccw_iff hwf).mp hms.ccw).1 t ht a b c hc) hr
  exact C140_reach_of_size hn (hccw t ht x y z hc) h1 (h2 (x, y) (by simp)) (h2 (y, z) (by simp)) (h2 (z, x) (by simp))
    (fun e hem _ => h2 e (List.mem_cons_of_mem _ (List.mem_cons_of_mem _ (List.mem_cons_of_mem _ hem))))

/-! ### C161: the application -/

/-- The steps of a run of the application. -/
theorem generateMesh_steps {L : LEnv K} {fuel : Nat} {J : Job K} {D : Dom.Domain K} {s0 : St K} {T : Trace K}
    (h : generateMesh L fuel J D s0 = .done T) :
    layerAll L fuel J.layers s0 = some T.layered ∧ (∃ ok, triangulate L.env J.par 0 fuel J.ix1 T.layered = .ret ok T.meshed) ∧
    (if J.toQuad then tri2quad L.env.eps J.ix2 (J.order T.meshed) T.meshed else some T.meshed) = some T.modified ∧
    refineAll J.refinements T.modified = some T.refined ∧
    (∃ x, smoothMixed J.nearest L.env.norm J.cfg J.torsion J.laplace J.decay J.smoothing (T.refined, J.step) = some (T.smoothed, x)) ∧
    T.ok = (checkCompleteness L.env.eps J.thr D true T.smoothed).2 := by
  unfold generateMesh at h
  split at h
  · simp at h
  rename_i a ha
  split at h
  · simp at h
  · simp at h
  rename_i ok b hb
  split at h
  · simp at h
  rename_i c hc
  split at h
  · simp at h
  rename_i d hd
  split at h
  · simp at h
  rename_i e he
  simp only [Res.done.injEq] at h
  rw [← h]
  exact ⟨ha, ⟨ok, hb⟩, hc, hd, ⟨e.2, he⟩, rfl⟩

/-- **C161.** A run of the application for a domain with quad layers, "Triangulation" or "Tri-to-Quad", refinements and
smoothing, in which the triangulation used up the front: the mesh is a complete mesh of the domain after every step
up to the smoothing, and after the smoothing unless it folded a quad (C159); then the application reports success. -/
theorem C161_application {L : LEnv K} (he : 0 < L.env.eps) (hq : QueryExact L.env) (hso : SortOK L.env)
    (hn : ∀ p, 0 ≤ L.env.norm p ∧ Pt.normSq p ≤ L.env.norm p * L.env.norm p) {s0 : St K} (h0 : Bare s0) (hb : BdryFlagged s0)
    (ha0 : s0.area = 0) {fuel : Nat} {J : Job K} {D : Dom.Domain K} {T : Trace K} (h : generateMesh L fuel J D s0 = .done T)
    (hfine : LayersFine L fuel J.layers s0) (hwell : MeshedWell L.env J.par 0 fuel T.layered)
    (hok : triangulate L.env J.par 0 fuel J.ix1 T.layered = .ret true T.meshed)
    (hmod : J.toQuad = true → LeftFacets L.env.eps T.meshed ∧ (J.order T.meshed).Perm (triEdges (setupConnectivity L.env.eps T.meshed)))
    (hconv : J.refinements = 0 ∨ ConvexElements T.modified) (hfold : Unfolded T.smoothed) :
    MeshOf s0 T.meshed ∧ MeshOf s0 T.modified ∧ MeshOf s0 T.refined ∧ MeshOf s0 T.smoothed ∧
    (LeftFacets L.env.eps T.smoothed → 0 < J.thr → Dom.area D = enclosed s0.pos (pairs s0 .bdry) →
      (Dom.extent D).1.1 ≠ (Dom.extent D).1.2 → (Dom.extent D).2.1 ≠ (Dom.extent D).2.2 → T.ok = true) := by
  obtain ⟨h1, -, h3, h4, ⟨x, h5⟩, h6⟩ := generateMesh_steps h
  obtain ⟨m1, a1⟩ := C160_complete he hq hso hn h0 hb (layerAll_staged .prepared hfine h1) hwell hok
  have key : MeshOf s0 T.modified ∧ T.modified.area = T.meshed.area := by
    by_cases ht : J.toQuad = true
    · rw [if_pos ht] at h3
      obtain ⟨k1, k2⟩ := hmod ht
      obtain ⟨v, g1, g2, -, g4, g5, g6⟩ := C154_modify J.ix2 m1.complete m1.len m1.fresh k1 k2
      rw [h3] at g1
      obtain rfl := Option.some.inj g1
      exact ⟨coarsened_meshOf m1 g2 g4 g5 g6, area_tri2quad h3⟩
    · rw [if_neg ht] at h3
      rw [← Option.some.inj h3]
      exact ⟨m1, rfl⟩
  obtain ⟨m3, a3, -⟩ := refineAll_mesh key.1 hconv h4
  have m4 := (C159_mixed_partial m3 h5).2 hfold
  have sp := (mixed_facts m3.complete m3.len m3.fresh h5).1
  refine ⟨m1, key.1, m3, m4, fun hl hthr harea hx hy => ?_⟩
  rw [h6]
  refine C144_conforming_passes hthr m4.complete.toConforming hl ?_ hx hy
  rw [sp.area]
  show T.refined.area = _
  rw [a3, key.2, a1, ha0, zero_add, harea]

/-- **C161.** Without quad layers, refinements and "Tri-to-Quad" (triangle meshes, any number of smoothing iterations)
nothing has to be known of the smoothing. -/
theorem C161_triangles {L : LEnv K} (he : 0 < L.env.eps) (hq : QueryExact L.env) (hso : SortOK L.env)
    (hn : ∀ p, 0 ≤ L.env.norm p ∧ Pt.normSq p ≤ L.env.norm p * L.env.norm p) {s0 : St K} (h0 : Bare s0) (hb : BdryFlagged s0)
    (ha0 : s0.area = 0) {fuel : Nat} {J : Job K} {D : Dom.Domain K} {T : Trace K} (h : generateMesh L fuel J D s0 = .done T)
    (hj : J.layers = [] ∧ J.toQuad = false ∧ J.refinements = 0) (hwell : MeshedWell L.env J.par 0 fuel s0)
    (hok : triangulate L.env J.par 0 fuel J.ix1 s0 = .ret true T.meshed) :
    T.smoothed.quads = [] ∧ MeshOf s0 T.smoothed ∧
    (LeftFacets L.env.eps T.smoothed → 0 < J.thr → Dom.area D = enclosed s0.pos (pairs s0 .bdry) →
      (Dom.extent D).1.1 ≠ (Dom.extent D).1.2 → (Dom.extent D).2.1 ≠ (Dom.extent D).2.2 → T.ok = true) := by
  obtain ⟨j1, j2, j3⟩ := hj
  obtain ⟨h1, -, h3, h4, ⟨x, h5⟩, -⟩ := generateMesh_steps h
  rw [j1] at h1
  obtain rfl : s0 = T.layered := by simpa [layerAll] using h1
  rw [j2] at h3
  obtain h3 : T.meshed = T.modified := by simpa using h3
  rw [j3] at h4
  obtain h4 : T.modified = T.refined := by simpa [refineAll] using h4
  have hq0 : T.meshed.quads = [] := by
    have := hok
    unfold triangulate at this
    split_ifs at this
    · simp at this
    · split at this
      · simp at this
      · simp at this
      · rename_i ok u c hg
        split at this
        · simp at this
        · rename_i t' hi
          simp only [Out.ret.injEq] at this
          obtain ⟨rfl, rfl⟩ := this
          obtain ⟨hw, hres, hf⟩ := generate_work he hq hso hn h0 .prepared hwell hg
          have hf := (hf rfl).resolve_right (fun x => absurd x.1 (lt_irrefl 0))
          rw [finish_complete hf] at hi
          refine noQuads_improve ?_ hi
          have hws := (work_inv he hq hso hn h0 (.start : Work L T.layered _)).mesh.wf
          obtain ⟨⟨log, hr, -⟩, -⟩ := C41_limit he (queryExact_live hq) hso J.par hws (generate_front hg) hg
          obtain ⟨d1, d2, -⟩ := start_bare L.env.eps h0.wf h0.tris h0.quads h0.intr h0.front h0.null
          obtain ⟨-, fr⟩ := run_frame he (queryExact_live hq) hso hws hr
          rw [fr.quads, d2.quads, h0.quads]
  have hsm : T.smoothed.quads = [] := by
    obtain ⟨m1, -⟩ := C160_complete he hq hso hn h0 hb .prepared hwell hok
    rw [← h4, ← h3] at h5
    rw [(mixed_facts m1.complete m1.len m1.fresh h5).1.quads, hq0]
  obtain ⟨-, -, -, k4, k5⟩ := C161_application he hq hso hn h0 hb ha0 h (by rw [j1]; trivial) hwell hok (by rw [j2]; simp) (Or.inl j3)
    (fun q hq' => by rw [hsm] at hq'; simp at hq')
  exact ⟨hsm, k4, k5⟩

/-! ### The unit square -/

namespace APEx
/-- "Tri-to-Quad", one refinement, one iteration of smoothing. -/
def job : Job ℚ where
  layers := []
  toQuad := true
  refinements := 1
  smoothing := 1
  par := TGEx.par
  ix1 := fun _ => 0
  ix2 := fun _ => 0
  order := fun b => triEdges (setupConnectivity FUEx.env.eps b)
  nearest := SMEx.noEdge
  cfg := SMEx.cfg false GNEx.sqMesh
  torsion := laplaceRule
  laplace := laplaceRule
  decay := 1
  step := 3 / 4
  thr := 1 / 1000
/-- "Triangulation", two iterations of smoothing. -/
def plain : Job ℚ := { job with toQuad := false, refinements := 0, smoothing := 2 }

/-- The conditions of `MeshedWell`, without those for edges that do not meet the triangle. -/
def wellOK (env : FU.Env ℚ) (s0 u : St ℚ) : Bool :=
  (u.verts.all fun a => u.verts.all fun b => u.verts.all fun c =>
    let x := side (u.pos a) (u.pos b) (u.pos c); decide (env.eps ≤ x * x) || decide (x = 0)) &&
  (u.tris.all fun t => match (u.F (.tri t)).corners with
    | [a, b, c] => (usedEdges s0 u).all fun e =>
      let d := Pt.smul (1 / 2) (u.pos e.1 + u.pos e.2) - triCentroid (u.pos a) (u.pos b) (u.pos c)
      let r := checkRange env (u.pos a) (u.pos b) (u.pos c)
      decide (Pt.normSq d < r * r)
    | _ => true)

theorem well_of {env : FU.Env ℚ} {s0 u : St ℚ} (h : wellOK env s0 u = true) : Resolved env.eps u ∧ Reaching env s0 u := by
  unfold wellOK at h
  simp only [Bool.and_eq_true, List.all_eq_true, Bool.or_eq_true, decide_eq_true_eq] at h
  refine ⟨fun a ha b hb c hc hx => (h.1 a ha b hb c hc).resolve_left (not_le.mpr hx), fun t ht _ a b c hc e he _ => ?_⟩
  have := h.2 t ht
  rw [hc] at this
  simp only [List.all_eq_true, decide_eq_true_eq] at this
  exact this e he

theorem sq_well : MeshedWell FUEx.env TGEx.par 0 20 GNEx.sqMesh := by
  intro ok u c hg
  have key : (match TG.generate FUEx.env TGEx.par 0 20 (startStep FUEx.env.eps GNEx.sqMesh) with
    | .ret _ u _ => wellOK FUEx.env (startStep FUEx.env.eps GNEx.sqMesh) u
    | _ => false) = true := by decide +kernel
  rw [hg] at key
  exact well_of key

/-- The triangulated square. -/
def meshed : St ℚ := match triangulate FUEx.env TGEx.par 0 20 (fun _ => 0) GNEx.sqMesh with
  | .ret _ t => t
  | _ => GNEx.sqMesh
theorem sq_true : triangulate FUEx.env TGEx.par 0 20 (fun _ => 0) GNEx.sqMesh = .ret true meshed := by
  have key : (match triangulate FUEx.env TGEx.par 0 20 (fun _ => 0) GNEx.sqMesh with
    | .ret ok _ => ok
    | _ => false) = true := by decide +kernel
  unfold meshed
  rcases h : triangulate FUEx.env TGEx.par 0 20 (fun _ => 0) GNEx.sqMesh with ⟨ok, t⟩ | _ | _
  · rw [h] at key
    obtain rfl : ok = true := key
    rfl
  · rw [h] at key; simp at key
  · rw [h] at key; simp at key

/-- The run of the application. -/
def trace (J : Job ℚ) : Trace ℚ := match generateMesh FNEx.Lf 20 J WEx.sqDom GNEx.sqMesh with
  | .done T => T
  | _ => ⟨St.empty 1, St.empty 1, St.empty 1, St.empty 1, St.empty 1, false⟩
theorem done_of {J : Job ℚ} (h : (trace J).ok = true) : generateMesh FNEx.Lf 20 J WEx.sqDom GNEx.sqMesh = .done (trace J) := by
  unfold trace at h ⊢
  rcases hg : generateMesh FNEx.Lf 20 J WEx.sqDom GNEx.sqMesh with T | _ | _
  · rfl
  · rw [hg] at h; simp at h
  · rw [hg] at h; simp at h
theorem trace_meshed {J : Job ℚ} (h : (trace J).ok = true) (hl : J.layers = []) (hp : J.par = TGEx.par) (hi : J.ix1 = fun _ => 0) :
    (trace J).layered = GNEx.sqMesh ∧ (trace J).meshed = meshed := by
  obtain ⟨h1, ⟨ok, h2⟩, -⟩ := generateMesh_steps (done_of h)
  rw [hl] at h1
  have h1 : GNEx.sqMesh = (trace J).layered := by simpa [layerAll] using h1
  rw [← h1, hp, hi] at h2
  refine ⟨h1.symm, ?_⟩
  have h2 := h2.symm.trans sq_true
  simp only [Out.ret.injEq] at h2
  exact h2.2

theorem unfolded_of {s : St ℚ} (h : (s.quads.all fun q => match (s.F (.quad q)).corners with
    | [a, b, c, d] => decide (0 < side (s.pos a) (s.pos b) (s.pos c)) && decide (0 < side (s.pos c) (s.pos d) (s.pos a))
    | _ => false) = true) : Unfolded s := by
  intro q hq a b c d hc
  simp only [List.all_eq_true] at h
  have := h q hq
  rw [hc] at this
  simp only [Bool.and_eq_true, decide_eq_true_eq] at this
  exact Or.inl this
end APEx

/-- `generate_elements` on the unit square: two triangles. -/
example : MeshOf GNEx.sqMesh APEx.meshed ∧ APEx.meshed.area = 1 ∧ APEx.meshed.tris.length = 2 := by
  obtain ⟨h1, h2⟩ := C160_complete (L := FNEx.Lf) FUEx.epsPos FUEx.exact FUEx.sortOK FUEx.norm_ok FNEx.sq_bare FNEx.sq_flagged .prepared
    APEx.sq_well APEx.sq_true
  exact ⟨h1, h2.trans (by decide +kernel), by decide +kernel⟩

/-- The application with "Tri-to-Quad": two triangles, one quad, four quads, smoothed; it reports success. -/
example : MeshOf GNEx.sqMesh (APEx.trace APEx.job).smoothed ∧ (APEx.trace APEx.job).ok = true ∧
    (APEx.trace APEx.job).meshed.tris.length = 2 ∧ (APEx.trace APEx.job).modified.quads.length = 1 ∧
    (APEx.trace APEx.job).refined.quads.length = 4 ∧ (APEx.trace APEx.job).smoothed.quads.length = 4 := by
  have hk : (APEx.trace APEx.job).ok = true := by decide +kernel
  obtain ⟨e1, e2⟩ := APEx.trace_meshed hk rfl rfl rfl
  obtain ⟨m1, m2, m3, m4, m5⟩ := C161_application (L := FNEx.Lf) FUEx.epsPos FUEx.exact FUEx.sortOK FUEx.norm_ok FNEx.sq_bare FNEx.sq_flagged
    (by decide +kernel) (APEx.done_of hk) trivial (by rw [e1]; exact APEx.sq_well) (by rw [e1, e2]; exact APEx.sq_true)
    (fun _ => ⟨by
      rw [e2]
      exact C48_left_geometry (C160_complete (L := FNEx.Lf) FUEx.epsPos FUEx.exact FUEx.sortOK FUEx.norm_ok FNEx.sq_bare FNEx.sq_flagged
        .prepared APEx.sq_well APEx.sq_true).1.complete.wf (shapes_of (by decide +kernel)), List.Perm.refl _⟩)
    (Or.inr (SMEx.convex_of (by decide +kernel))) (APEx.unfolded_of (by decide +kernel))
  exact ⟨m4, m5 (C48_left_geometry m4.complete.wf (shapes_of (by decide +kernel))) (by decide +kernel) (by decide +kernel) (by decide +kernel)
    (by decide +kernel), by decide +kernel, by decide +kernel, by decide +kernel, by decide +kernel⟩

/-- The application with "Triangulation". -/
example : MeshOf GNEx.sqMesh (APEx.trace APEx.plain).smoothed ∧ (APEx.trace APEx.plain).smoothed.tris.length = 2 := by
  have hk : (APEx.trace APEx.plain).ok = true := by decide +kernel
  obtain ⟨e1, e2⟩ := APEx.trace_meshed hk rfl rfl rfl
  exact ⟨(C161_triangles (L := FNEx.Lf) FUEx.epsPos FUEx.exact FUEx.sortOK FUEx.norm_ok FNEx.sq_bare FNEx.sq_flagged
    (by decide +kernel) (APEx.done_of hk) ⟨rfl, rfl, rfl⟩ APEx.sq_well (by rw [e2]; exact APEx.sq_true)).2.1, by decide +kernel⟩

namespace APEx
/-- Triangles of no shape are good enough. -/
def picky : FU.Env ℚ := { FUEx.env with minQuality := 10 }
def Lp : LEnv ℚ := { FNEx.Lf with env := picky }
theorem picky_exact : QueryExact picky := ⟨FUEx.exact.verts, FUEx.exact.tris, FUEx.exact.quads, FUEx.exact.front⟩
theorem picky_well : MeshedWell picky TGEx.par 0 20 GNEx.sqMesh := by
  intro ok u c hg
  have key : (match TG.generate picky TGEx.par 0 20 (startStep picky.eps GNEx.sqMesh) with
    | .ret _ u _ => wellOK picky (startStep picky.eps GNEx.sqMesh) u
    | _ => false) = true := by decide +kernel
  rw [hg] at key
  exact well_of key
theorem picky_false : ∃ t, triangulate picky TGEx.par 0 20 (fun _ => 0) GNEx.sqMesh = .ret false t := by
  have key : (match triangulate picky TGEx.par 0 20 (fun _ => 0) GNEx.sqMesh with
    | .ret ok _ => !ok
    | _ => false) = true := by decide +kernel
  rcases h : triangulate picky TGEx.par 0 20 (fun _ => 0) GNEx.sqMesh with ⟨ok, t⟩ | _ | _
  · rw [h] at key
    obtain rfl : ok = false := by simpa using key
    exact ⟨t, rfl⟩
  · rw [h] at key; simp at key
  · rw [h] at key; simp at key
/-- The exhaustive search on the unit square. -/
def exhausted : St ℚ := match exhaust FUEx.env 0 20 GNEx.sqMesh with
  | .ret _ t => t
  | _ => GNEx.sqMesh
theorem sq_exhausted : exhaust FUEx.env 0 20 GNEx.sqMesh = .ret true exhausted := by
  have key : (match exhaust FUEx.env 0 20 GNEx.sqMesh with
    | .ret ok _ => ok
    | _ => false) = true := by decide +kernel
  unfold exhausted
  rcases h : exhaust FUEx.env 0 20 GNEx.sqMesh with ⟨ok, t⟩ | _ | _
  · rw [h] at key
    obtain rfl : ok = true := key
    rfl
  · rw [h] at key; simp at key
  · rw [h] at key; simp at key
end APEx

/-- No triangle is accepted: the whole square is missing, and the call says so. -/
example : ∃ t u, triangulate APEx.picky TGEx.par 0 20 (fun _ => 0) GNEx.sqMesh = .ret false t ∧ u.es .front ≠ [] ∧
    t.area + enclosed u.pos (pairs u .front) = 1 := by
  obtain ⟨t, ht⟩ := APEx.picky_false
  obtain ⟨u, -, h2, -, h4, -⟩ := C160_incomplete (L := APEx.Lp) FUEx.epsPos APEx.picky_exact FUEx.sortOK FUEx.norm_ok FNEx.sq_bare .prepared
    (by decide +kernel) APEx.picky_well ht
  exact ⟨t, u, ht, h2, h4.trans (by decide +kernel)⟩

/-- The exhaustive search: two triangles as well. -/
example : MeshOf GNEx.sqMesh APEx.exhausted ∧ APEx.exhausted.tris.length = 2 := by
  refine ⟨(C160_exhaustive (L := FNEx.Lf) FUEx.epsPos FUEx.exact FUEx.sortOK FUEx.norm_ok FNEx.sq_bare FNEx.sq_flagged .prepared ?_
    APEx.sq_exhausted).1, by decide +kernel⟩
  intro ok u c hg
  have key : (match TG.generateExhaustive FUEx.env 0 20 (startStep FUEx.env.eps GNEx.sqMesh) with
    | .ret _ u _ => APEx.wellOK FUEx.env (startStep FUEx.env.eps GNEx.sqMesh) u
    | _ => false) = true := by decide +kernel
  have hg' : TG.generateExhaustive FUEx.env 0 20 (startStep FUEx.env.eps GNEx.sqMesh) = .ret ok u c := hg
  rw [hg'] at key
  exact APEx.well_of key

namespace APEx
/-- The size 3/2 everywhere. -/
def L32 : LEnv ℚ := { FNEx.Lf with env := FUEx.env32 }
theorem exact32 : QueryExact FUEx.env32 := ⟨FUEx.exact.verts, FUEx.exact.tris, FUEx.exact.quads, FUEx.exact.front⟩
def sizedOK (env : FU.Env ℚ) (s0 u : St ℚ) : Bool :=
  (u.verts.all fun a => u.verts.all fun b => u.verts.all fun c =>
    let x := side (u.pos a) (u.pos b) (u.pos c); decide (env.eps ≤ x * x) || decide (x = 0)) &&
  (u.tris.all fun t => match (u.F (.tri t)).corners with
    | [a, b, c] => decide (0 < env.rho (triCentroid (u.pos a) (u.pos b) (u.pos c))) &&
      ((a, b) :: (b, c) :: (c, a) :: usedEdges s0 u).all fun e =>
        decide (env.norm (u.pos e.2 - u.pos e.1) ≤ 4 / 3 * env.rho (triCentroid (u.pos a) (u.pos b) (u.pos c)))
    | _ => true)
theorem sized_of {env : FU.Env ℚ} {s0 u : St ℚ} (h : sizedOK env s0 u = true) : Resolved env.eps u ∧ Sized env s0 u := by
  unfold sizedOK at h
  rw [Bool.and_eq_true] at h
  constructor
  · have h1 := h.1
    simp only [List.all_eq_true, Bool.or_eq_true, decide_eq_true_eq] at h1
    exact fun a ha b hb c hc hx => (h1 a ha b hb c hc).resolve_left (not_le.mpr hx)
  · intro t ht _ a b c hc
    have h2 := List.all_eq_true.mp h.2 t ht
    rw [hc] at h2
    rw [Bool.and_eq_true, List.all_eq_true, decide_eq_true_eq] at h2
    exact ⟨h2.1, fun e he => of_decide_eq_true (h2.2 e he)⟩
end APEx

/-- The square with the size 3/2: the triangulation meets the conditions. -/
example : MeshedWell FUEx.env32 TGEx.par 0 20 GNEx.sqMesh ∧
    ∃ t, triangulate FUEx.env32 TGEx.par 0 20 (fun _ => 0) GNEx.sqMesh = .ret true t ∧ MeshOf GNEx.sqMesh t := by
  have hw : MeshedWell FUEx.env32 TGEx.par 0 20 GNEx.sqMesh := by
    refine C160_sized (L := APEx.L32) FUEx.epsPos APEx.exact32 FUEx.sortOK FUEx.norm_ok FNEx.sq_bare .prepared ?_
    intro ok u c hg
    have key : (match TG.generate FUEx.env32 TGEx.par 0 20 (startStep FUEx.env32.eps GNEx.sqMesh) with
      | .ret _ u _ => APEx.sizedOK FUEx.env32 (startStep FUEx.env32.eps GNEx.sqMesh) u
      | _ => false) = true := by decide +kernel
    have hg' : TG.generate FUEx.env32 TGEx.par 0 20 (startStep FUEx.env32.eps GNEx.sqMesh) = .ret ok u c := hg
    rw [hg'] at key
    exact APEx.sized_of key
  refine ⟨hw, ?_⟩
  have key : (match triangulate FUEx.env32 TGEx.par 0 20 (fun _ => 0) GNEx.sqMesh with
    | .ret ok _ => ok
    | _ => false) = true := by decide +kernel
  rcases h : triangulate FUEx.env32 TGEx.par 0 20 (fun _ => 0) GNEx.sqMesh with ⟨ok, t⟩ | _ | _
  · rw [h] at key
    obtain rfl : ok = true := key
    exact ⟨t, rfl, (C160_complete (L := APEx.L32) FUEx.epsPos APEx.exact32 FUEx.sortOK FUEx.norm_ok FNEx.sq_bare FNEx.sq_flagged .prepared
      hw h).1⟩
  · rw [h] at key; simp at key
  · rw [h] at key; simp at key

end TQ

#print axioms TQ.C160_complete
#print axioms TQ.C160_incomplete
#print axioms TQ.C160_defined
#print axioms TQ.C160_exhaustive
#print axioms TQ.C160_sized
#print axioms TQ.C161_application
#print axioms TQ.C161_triangles

import Verif.QuadLayer.Props
import Verif.QuadLayer.Ends
import Verif.FrontUpdate.Props
import Verif.Cleanup.Check
import Verif.Generator.Prepare
import Mathlib.Analysis.Real.Sqrt

/-! # Properties of the quad layers: violated properties, remaining partial results, and concrete cases -/

set_option linter.unusedSectionVars false

namespace TQ
open MS MS.St MeshSpec FUSpec MCSpec QLSpec FU QL TG

namespace QLEx

/-- Exact queries, 1-norm (exact for vectors along the axes), angles compared with 90 degrees. -/
def L : LEnv ℚ where
  env := { FUEx.env with eps := 1 / 1000000 }
  angleLe := fun a b => decide (0 ≤ Pt.dot a b)
  sinHalf := fun a b => if Pt.dot a b = 0 then 1 / 2 else 1
  cosAngle := fun a b => Pt.dot a b / ((|a.x| + |a.y|) * (|b.x| + |b.y|))
  rangeFactor := 11 / 10
  far := 10 ^ 10

theorem exact : QueryExact L.env where
  verts := fun s p r v => by simp [L, FUEx.env, List.mem_filter]
  tris := fun s p r v => by simp [L, FUEx.env, List.mem_filter]
  quads := fun s p r v => by simp [L, FUEx.env, List.mem_filter]
  front := fun s p r v => by simp [L, FUEx.env, List.mem_filter]
theorem sortOK : SortOK L.env := fun key l => FUEx.sortOK key l
theorem epsPos : 0 < L.env.eps := by decide +kernel

/-- A square of side 2 with eight boundary edges. -/
def sqr8 : St ℚ := MCEx.build [.v 0 0, .v 1 0, .v 2 0, .v 2 1, .v 2 2, .v 1 2, .v 0 2, .v 0 1,
  .bdry 0 1 1, .bdry 1 2 1, .bdry 2 3 2, .bdry 3 4 2, .bdry 4 5 3, .bdry 5 6 3, .bdry 6 7 4, .bdry 7 0 4] (St.empty 1)
/-- A rectangle of height 1/2. -/
def rect : St ℚ := MCEx.build [.v 0 0, .v 1 0, .v 2 0, .v 2 (1 / 2), .v 1 (1 / 2), .v 0 (1 / 2),
  .bdry 0 1 1, .bdry 1 2 1, .bdry 2 3 2, .bdry 3 4 2, .bdry 4 5 3, .bdry 5 0 3] (St.empty 1)
/-- A square with a triangular hole. -/
def nc : St ℚ := MCEx.build [.v 0 0, .v 1 0, .v 2 0, .v 2 2, .v 0 2, .v (6 / 10) (5 / 10), .v (9 / 10) (12 / 10),
  .v (5 / 10) (12 / 10), .bdry 0 1 1, .bdry 1 2 1, .bdry 2 3 1, .bdry 3 4 1, .bdry 4 0 1, .bdry 5 7 2, .bdry 7 6 2, .bdry 6 5 2]
  (St.empty 1)
/-- A rectangle with a short edge in the middle of its bottom. -/
def short : St ℚ := MCEx.build [.v 0 0, .v 1 0, .v (11 / 10) 0, .v (21 / 10) 0, .v (21 / 10) 2, .v 0 2,
  .bdry 0 1 1, .bdry 1 2 1, .bdry 2 3 1, .bdry 3 4 2, .bdry 4 5 3, .bdry 5 0 4] (St.empty 1)

/-- The front of a mesh. -/
def start (s : St ℚ) : St ℚ := MC.startStep L.env.eps s

theorem built_sqr8 : Built 1 sqr8 := MCEx.built_of _ _ Built.empty (by decide +kernel)
theorem built_rect : Built 1 rect := MCEx.built_of _ _ Built.empty (by decide +kernel)
theorem built_nc : Built 1 nc := MCEx.built_of _ _ Built.empty (by decide +kernel)
theorem built_short : Built 1 short := MCEx.built_of _ _ Built.empty (by decide +kernel)

theorem wf_start {s : St ℚ} (h : Built 1 s)
    (hk : s.tris = [] ∧ s.quads = [] ∧ s.es .intr = [] ∧ s.es .front = [] ∧ ∀ e ∈ s.es .bdry, (s.E e).fl = .null) : WF (start s) :=
  (start_bare _ (built_wf h) hk.1 hk.2.1 hk.2.2.1 hk.2.2.2.1 hk.2.2.2.2).1

theorem wf_sqr8 : WF (start sqr8) := wf_start built_sqr8 (by decide +kernel)
theorem wf_rect : WF (start rect) := wf_start built_rect (by decide +kernel)
theorem wf_nc : WF (start nc) := wf_start built_nc (by decide +kernel)
theorem wf_short : WF (start short) := wf_start built_short (by decide +kernel)

/-- Decidable form of `Good`. -/
def goodB : Ev ℚ → Bool
  | .tri e _ => decide ((e.b1, e.b2) ∈ e.front) && decide e.front.Nodup && e.front.all (fun x => decide ((x.2, x.1) ∉ e.front)) &&
      decide ((e.b1, e.v) ∉ e.front) && decide ((e.v, e.b2) ∉ e.front)
  | .split _ _ _ _ => true
  | .move _ => false

theorem good_of {l : List (Ev ℚ)} (h : l.all goodB = true) : ∀ x ∈ l, Good x := by
  intro x hx
  have := List.all_eq_true.mp h x hx
  cases x with
  | tri e =>
    simp only [goodB, Bool.and_eq_true, decide_eq_true_eq, List.all_eq_true] at this
    obtain ⟨⟨⟨⟨h1, h2⟩, h3⟩, h4⟩, h5⟩ := this
    exact ⟨h1, ⟨h2, fun a b hab => h3 (a, b) hab⟩, h4, h5⟩
  | split => trivial
  | move => cases this

/-- The result of `n` layers on the bottom of a mesh. -/
def run (n : Nat) (s : St ℚ) (xs xe : Pt ℚ) (ht : ℚ) : Option (St ℚ × Bool × List ℚ) := layers L 20 1 n (start s) xs xe ht
/-- Its final state. -/
def fin (n : Nat) (s : St ℚ) (xs xe : Pt ℚ) (ht : ℚ) : St ℚ := ((run n s xs xe ht).map (·.1)).getD s

theorem run_eq {n : Nat} {s : St ℚ} {xs xe : Pt ℚ} {ht : ℚ} (h : (run n s xs xe ht).isSome = true) :
    ∃ r, layers L 20 1 n (start s) xs xe ht = some r ∧ r.1 = fin n s xs xe ht := by
  cases hr : run n s xs xe ht with
  | none => rw [hr] at h; cases h
  | some r => exact ⟨r, hr, by unfold fin; rw [hr]; rfl⟩

theorem done1 : (run 1 sqr8 ⟨0, 0⟩ ⟨2, 0⟩ (1 / 2)).isSome = true := by decide +kernel
theorem good1 : (layersLog L 20 1 1 (start sqr8) ⟨0, 0⟩ ⟨2, 0⟩ (1 / 2)).all goodB = true := by decide +kernel
theorem enclosed1 : enclosed (start sqr8).pos (pairs (start sqr8) .front) = 4 := by decide +kernel
theorem area1 : (start sqr8).area = 0 ∧ meshArea (start sqr8) = 0 ∧ (fin 1 sqr8 ⟨0, 0⟩ ⟨2, 0⟩ (1 / 2)).area = 1 := by decide +kernel

/-- A mesh with a layer along the left wall. -/
def wall : St ℚ := ((generate L 20 1 1 sqr8 ⟨0, 2⟩ ⟨0, 0⟩ (1 / 2)).map (·.1)).getD sqr8
/-- After a second layer along the bottom. -/
def corner : St ℚ := ((generate L 20 1 1 wall ⟨1 / 2, 0⟩ ⟨2, 0⟩ (1 / 4)).map (·.1)).getD sqr8

end QLEx

/-! ### C44 -/

/-- `TQ.C44_base_edges_partial`, `TQ.C44_layer_partial`: the bottom of the square. -/
example : findEdges QLEx.L (QLEx.start QLEx.sqr8) ⟨0, 0⟩ ⟨2, 0⟩ = .yes 16 17 false ∧
    walk (QLEx.start QLEx.sqr8).nextEdge 17 20 16 = .ok [16, 17] ∧ IsPath (QLEx.start QLEx.sqr8).nextEdge 16 17 [16, 17] := by
  have h : walk (QLEx.start QLEx.sqr8).nextEdge 17 20 16 = .ok [16, 17] := by decide +kernel
  exact ⟨by decide +kernel, h, ((C44_base_edges_partial (by decide) _).mp h).1⟩

/-- **C44 is violated**: a layer on a single edge goes all around the front, and the edge is taken twice. -/
theorem C44_single_violated : WF (QLEx.start QLEx.sqr8) ∧
    findEdges QLEx.L (QLEx.start QLEx.sqr8) ⟨0, 0⟩ ⟨1, 0⟩ = .yes 16 16 false ∧
    ((QLEx.start QLEx.sqr8).E 16).v1 = 0 ∧ ((QLEx.start QLEx.sqr8).E 16).v2 = 1 ∧
    IsPath (QLEx.start QLEx.sqr8).nextEdge 16 16 [16] ∧
    walk (QLEx.start QLEx.sqr8).nextEdge 16 20 16 = .ok [16, 17, 18, 19, 20, 21, 22, 23, 16] ∧
    ¬ IsPath (QLEx.start QLEx.sqr8).nextEdge 16 16 [16, 17, 18, 19, 20, 21, 22, 23, 16] := by
  refine ⟨QLEx.wf_sqr8, by decide +kernel, by decide +kernel, by decide +kernel, ⟨rfl, rfl, fun i x y _ h => by simp at h, by simp⟩,
    by decide +kernel, fun h => ?_⟩
  exact absurd h.once (by decide)

/-! ### C45 -/

/-- `TQ.C45_heights`, `TQ.C45_smooth`: three edges of the lengths 1, 1/10, 1. -/
example : (mkLayer QLEx.L (QLEx.start QLEx.short) 1 [12, 13, 14]).h = [1, 1 / 10, 1] ∧
    (smoothLayer QLEx.L (QLEx.start QLEx.short) (mkLayer QLEx.L (QLEx.start QLEx.short) 1 [12, 13, 14])).h = [1, 7 / 10, 1] ∧
    (∀ e ∈ [12, 13, 14], 0 < len QLEx.L (QLEx.start QLEx.short) e) ∧ ∀ p, 0 < QLEx.L.env.rho p :=
  ⟨by decide +kernel, by decide +kernel, by decide +kernel, fun _ => one_pos⟩

/-- `TQ.C45_growth`: three layers are requested, two succeed. -/
example : ((layers QLEx.L 20 (3 / 2) 2 (QLEx.start QLEx.sqr8) ⟨0, 0⟩ ⟨2, 0⟩ (1 / 2)).map (·.2.2)) = some [1 / 2, 3 / 4] := by
  decide +kernel

/-! ### C46 -/

/-- `TQ.C46_next_partial`: the first vertex on the front is chosen from either side. -/
example : (∃ w, some w ∈ [(none, some 7), (some 37, none), (some 24, some 24)].map (·.1) ∧
      flagged (QLEx.fin 1 QLEx.sqr8 ⟨0, 0⟩ ⟨2, 0⟩ (1 / 2)) w) ∧
    nextEndings (QLEx.fin 1 QLEx.sqr8 ⟨0, 0⟩ ⟨2, 0⟩ (1 / 2)) false [(none, some 7), (some 37, none), (some 24, some 24)] = some (37, 24) := by
  refine ⟨⟨37, by simp, ?_⟩, by decide +kernel⟩
  unfold flagged; decide +kernel

/-- **C46 is violated**: the layer fills the rectangle and the front is empty, so no vertex is on it, and still
success is reported with new start and end positions. -/
theorem C46_next_violated : WF (QLEx.start QLEx.rect) ∧
    ∃ s a b, layer QLEx.L 20 (QLEx.start QLEx.rect) ⟨0, 0⟩ ⟨2, 0⟩ (1 / 2) = .done s a b ∧ s.es .front = [] ∧
      (∀ v, ¬ OnFront s v) ∧ s.quads.length = 2 := by
  refine ⟨QLEx.wf_rect, ?_⟩
  have h : (match layer QLEx.L 20 (QLEx.start QLEx.rect) ⟨0, 0⟩ ⟨2, 0⟩ (1 / 2) with
      | .done s _ _ => decide (s.es .front = []) && decide (s.quads.length = 2)
      | _ => false) = true := by decide +kernel
  split at h
  · rename_i s a b hl
    simp only [Bool.and_eq_true, decide_eq_true_eq] at h
    refine ⟨s, a, b, hl, h.1, fun v hv => ?_, h.2⟩
    unfold OnFront at hv
    rw [h.1] at hv
    simp at hv
  · cases h

/-- **C46 is violated**: when no projected vertex is flagged as vertex of the front, the last ones are used. -/
theorem C46_last_violated : let s := (((St.empty 1).addVertex ⟨0, 1⟩).addVertex ⟨1, 1⟩ : St ℚ)
    WF s ∧ (∀ v ∈ s.verts, ¬ flagged s v) ∧ nextEndings s false [(some 0, some 1)] = some (0, 1) := by
  refine ⟨wf_addVertex (wf_addVertex (wf_empty 1) _) _, ?_, by decide +kernel⟩
  unfold flagged
  decide +kernel

/-! ### C118 -/

namespace QLEx
/-- Real numbers with the exact vector functions. -/
noncomputable def R : LEnv ℝ where
  env := { eps := 1 / 1000, rho := fun _ => 1, inside := fun _ => true, bdryEdges := fun _ _ => [],
           norm := fun p => Real.sqrt (Pt.normSq p), maxAngle := fun _ _ _ => 0, minQuality := 0, maxCellAngle := 180, normFactor := 3,
           qVerts := fun _ _ _ => [], qTris := fun _ _ _ => [], qQuads := fun _ _ _ => [], qFront := fun _ _ _ => [],
           sort := fun _ l => l }
  angleLe := fun a b => decide (0 ≤ Pt.dot a b)
  sinHalf := fun _ _ => 1
  cosAngle := fun a b => Pt.dot a b / (Real.sqrt (Pt.normSq a) * Real.sqrt (Pt.normSq b))
  rangeFactor := 11 / 10
  far := 10 ^ 10

theorem normSq_nonneg (p : Pt ℝ) : 0 ≤ Pt.normSq p := by
  unfold Pt.normSq; nlinarith [mul_self_nonneg p.x, mul_self_nonneg p.y]

theorem exactR : ExactVec R where
  nonneg := fun p => Real.sqrt_nonneg _
  sq := fun p => Real.mul_self_sqrt (normSq_nonneg p)
  cos := fun a b => by
    show Pt.dot a b / (Real.sqrt (Pt.normSq a) * Real.sqrt (Pt.normSq b)) * (Real.sqrt (Pt.normSq a) * Real.sqrt (Pt.normSq b)) = _
    by_cases h : Real.sqrt (Pt.normSq a) * Real.sqrt (Pt.normSq b) = 0
    · have hz : ∀ p : Pt ℝ, Real.sqrt (Pt.normSq p) = 0 → p.x = 0 ∧ p.y = 0 := by
        intro p hp
        rw [Real.sqrt_eq_zero (normSq_nonneg p)] at hp
        unfold Pt.normSq at hp
        constructor <;> nlinarith [mul_self_nonneg p.x, mul_self_nonneg p.y]
      rw [h, mul_zero]
      unfold Pt.dot
      rcases mul_eq_zero.mp h with h | h <;> simp [(hz _ h).1, (hz _ h).2]
    · exact div_mul_cancel₀ _ h

/-- A front edge of length 2. -/
noncomputable def seg : St ℝ := (((St.empty 1).addVertex ⟨0, 0⟩).addVertex ⟨2, 0⟩).addEdge .front 0 1 1 0

theorem wf_seg : WF seg := wf_addEdge (wf_addVertex (wf_addVertex (wf_empty 1) _) _) _ _ _ (by decide) (by decide) (by decide)

theorem sqrt_of {x y : ℝ} (hy : 0 ≤ y) (h : x = y * y) : Real.sqrt x = y := by rw [h]; exact Real.sqrt_mul_self hy

theorem seg_place : ∃ s' p, place R seg 2 0 1 1 ⟨3 / 5, 4 / 5⟩ true = some (s', p) := by
  have e1 : seg.pos 0 = ⟨0, 0⟩ := rfl
  have e2 : seg.pos 1 = ⟨2, 0⟩ := rfl
  have e3 : len R seg 2 = 2 := by
    show Real.sqrt (Pt.normSq (seg.pos 1 - seg.pos 0)) = 2
    rw [e1, e2]
    exact sqrt_of (by norm_num) (by simp [Pt.normSq])
  have e4 : R.cosAngle (seg.pos 1 - seg.pos 0) (⟨3 / 5, 4 / 5⟩ - seg.pos 0) = 3 / 5 := by
    show Pt.dot _ _ / (Real.sqrt _ * Real.sqrt _) = 3 / 5
    rw [e1, e2, sqrt_of (y := 2) (by norm_num) (by simp [Pt.normSq]), sqrt_of (y := 1) (by norm_num) (by norm_num [Pt.normSq])]
    norm_num [Pt.dot]
  unfold place
  dsimp only
  rw [if_neg (by rw [e2]; norm_num [Pt.normSq]), if_pos (by rw [e3]; norm_num), e4, e3]
  simp only [if_true]
  unfold QL.split splitFront
  dsimp only
  rw [if_neg (by norm_num)]
  dsimp only
  have e5 : seg.getEdge .bdry (seg.E 2).v1 (seg.E 2).v2 = none := by rfl
  rw [e5]
  exact ⟨_, _, rfl⟩
end QLEx

/-- `TQ.C118_end_placed`: the edge from (0, 0) to (2, 0) is split at (3/5, 0) for the projected point (3/5, 4/5). -/
example : ∃ s' p, place QLEx.R QLEx.seg 2 0 1 1 ⟨3 / 5, 4 / 5⟩ true = some (s', p) ∧ p.x = 3 / 5 ∧ p.y = 0 := by
  obtain ⟨s', p, h⟩ := QLEx.seg_place
  refine ⟨s', p, h, ?_⟩
  have e3 : len QLEx.R QLEx.seg 2 = 2 := by
    show Real.sqrt (Pt.normSq (⟨2, 0⟩ - ⟨0, 0⟩ : Pt ℝ)) = 2
    exact QLEx.sqrt_of (by norm_num) (by simp [Pt.normSq])
  have := (C118_end_placed QLEx.exactR QLEx.wf_seg (e := 2) (v := 0) (q := 1) (by decide) rfl
    (by intro hc; exact absurd (congrArg Pt.x hc) (by show (2 : ℝ) ≠ 0; norm_num)) one_pos
    (by
      show Real.sqrt (Pt.normSq (⟨3 / 5, 4 / 5⟩ - ⟨0, 0⟩ : Pt ℝ)) = 1
      exact QLEx.sqrt_of (by norm_num) (by norm_num [Pt.normSq])) h).2.1
    (by show (1 : ℝ) * 1 ≤ Pt.normSq (⟨2, 0⟩ - ⟨3 / 5, 4 / 5⟩ : Pt ℝ); norm_num [Pt.normSq]) (by rw [e3]; norm_num)
  obtain ⟨⟨t, -, -, h1, h2⟩, -⟩ := this
  have e1 : QLEx.seg.pos 0 = ⟨0, 0⟩ := rfl
  have e2 : QLEx.seg.pos 1 = ⟨2, 0⟩ := rfl
  rw [e1, e2] at h1 h2
  have hy : p.y = 0 := by rw [h1]; simp
  refine ⟨?_, hy⟩
  unfold Pt.dot at h2
  simp only [Pt.sub_x, Pt.sub_y, sub_zero, mul_zero, add_zero] at h2
  linarith

/-- `TQ.C118_factor`: the neighbouring edge (0, 2) and the height 1 over the base edge (1, 0). -/
example : 0 < 1 * QLEx.R.cosAngle ⟨0, 2⟩ ⟨0, 1⟩ / QLEx.R.env.norm ⟨0, 2⟩ ∧ 1 * QLEx.R.cosAngle ⟨0, 2⟩ ⟨0, 1⟩ / QLEx.R.env.norm ⟨0, 2⟩ < 1 :=
  C118_factor QLEx.exactR (d := ⟨1, 0⟩) (l := 1) one_pos (QLEx.sqrt_of (by norm_num) (by norm_num [Pt.normSq]))
    (by apply Pt.ext' <;> simp) one_pos (by norm_num [Pt.cross])
    (by
      show 1 < Real.sqrt (Pt.normSq (⟨0, 2⟩ : Pt ℝ))
      rw [QLEx.sqrt_of (y := 2) (by norm_num) (by simp [Pt.normSq])]; norm_num)

/-! ### C119 -/

/-- `TQ.C119_tiling_partial`: a layer of height 1/2 on the bottom of the square takes the area 1 from the 4 that the
front encloses. -/
example : enclosed (QLEx.fin 1 QLEx.sqr8 ⟨0, 0⟩ ⟨2, 0⟩ (1 / 2)).pos (pairs (QLEx.fin 1 QLEx.sqr8 ⟨0, 0⟩ ⟨2, 0⟩ (1 / 2)) .front) = 3 ∧
    meshArea (QLEx.fin 1 QLEx.sqr8 ⟨0, 0⟩ ⟨2, 0⟩ (1 / 2)) = 1 := by
  obtain ⟨r, h, hr⟩ := QLEx.run_eq QLEx.done1
  obtain ⟨h1, h2, -⟩ := C119_tiling_partial QLEx.epsPos (FU.queryExact_live QLEx.exact) QLEx.sortOK QLEx.wf_sqr8 h
    (QLEx.good_of QLEx.good1)
  obtain ⟨a1, a2, a3⟩ := QLEx.area1
  rw [hr, a1, a2, a3] at h2
  rw [hr, a2, QLEx.enclosed1] at h1
  constructor <;> linarith

/-! ### C120 -/

/-- `TQ.C120_places_partial`: the corners keep their place. -/
example : ∀ v ∈ (QLEx.start QLEx.sqr8).verts,
    (QLEx.fin 1 QLEx.sqr8 ⟨0, 0⟩ ⟨2, 0⟩ (1 / 2)).pos v = (QLEx.start QLEx.sqr8).pos v := by
  obtain ⟨r, h, hr⟩ := QLEx.run_eq QLEx.done1
  have := C120_places_partial QLEx.epsPos (FU.queryExact_live QLEx.exact) QLEx.sortOK QLEx.wf_sqr8 h (QLEx.good_of QLEx.good1)
  rw [hr] at this
  exact fun v hv => (this.2 v hv).2

/-- **C120 is violated**: boundary vertices are moved; the vertices (2, 1) and (0, 1) of the square end at height 3/4. -/
theorem C120_places_violated : WF (QLEx.start QLEx.sqr8) ∧ (QLEx.run 1 QLEx.sqr8 ⟨0, 0⟩ ⟨2, 0⟩ (3 / 4)).map (·.2.1) = some true ∧
    3 ∈ QLEx.sqr8.verts ∧ (2, 3) ∈ pairs (QLEx.start QLEx.sqr8) .bdry ∧
    (QLEx.start QLEx.sqr8).pos 3 = ⟨2, 1⟩ ∧ (QLEx.fin 1 QLEx.sqr8 ⟨0, 0⟩ ⟨2, 0⟩ (3 / 4)).pos 3 = ⟨2, 3 / 4⟩ :=
  ⟨QLEx.wf_sqr8, by decide +kernel, by decide +kernel, by decide +kernel, by apply Pt.ext' <;> decide +kernel,
    by apply Pt.ext' <;> decide +kernel⟩

/-! ### C121 -/

/-- `TQ.C121_positive_partial`: the two quads on the bottom of the square. -/
example : (QLEx.fin 1 QLEx.sqr8 ⟨0, 0⟩ ⟨2, 0⟩ (1 / 2)).quads.length = 2 ∧ ElemPos (QLEx.fin 1 QLEx.sqr8 ⟨0, 0⟩ ⟨2, 0⟩ (1 / 2)) := by
  obtain ⟨r, h, hr⟩ := QLEx.run_eq QLEx.done1
  have := C121_positive_partial QLEx.epsPos (FU.queryExact_live QLEx.exact) QLEx.sortOK QLEx.wf_sqr8 h (QLEx.good_of QLEx.good1)
    (by
      have h : (QLEx.start QLEx.sqr8).tris = [] ∧ (QLEx.start QLEx.sqr8).quads = [] := by decide +kernel
      intro f hf
      cases f <;> simp [Live, h.1, h.2] at hf)
  rw [hr] at this
  exact ⟨by decide +kernel, this⟩

/-- **C121 is violated**: the quad on the first edge turns to the right in the corner (6/10, 5/10). -/
theorem C121_convex_violated : WF (QLEx.start QLEx.nc) ∧ (QLEx.run 1 QLEx.nc ⟨0, 0⟩ ⟨2, 0⟩ 1).map (·.2.1) = some true ∧
    let s := QLEx.fin 1 QLEx.nc ⟨0, 0⟩ ⟨2, 0⟩ 1
    (∃ q ∈ s.quads, (s.F (.quad q)).corners = [0, 1, 6, 5]) ∧ area2 (s.pos 6) (s.pos 5) (s.pos 0) < 0 :=
  ⟨QLEx.wf_nc, by decide +kernel, by decide +kernel, by decide +kernel⟩

/-! ### C122 -/

section
variable {K : Type*} [Field K] [LinearOrder K] [IsStrictOrderedRing K]

/-- **C122** (partial: splits of front edges on the boundary).  When the front edge that is split is an edge of the
boundary, then the boundary edge is split in the same vertex: front and boundary get the same two parts. -/
theorem C122_boundary_partial {s s' : St K} (h : WF s) {e n b : Nat} {sf : K} (he : e ∈ s.es .front)
    (hb : s.getEdge .bdry (s.E e).v1 (s.E e).v2 = some b) (hd : (s.E b).v1 = (s.E e).v1 ∧ (s.E b).v2 = (s.E e).v2)
    (hs : QL.split s e sf = some (s', n)) :
    Between (s'.pos n) (s.pos (s.E e).v1) (s.pos (s.E e).v2) ∧
    (((s.E e).v1, (s.E e).v2) :: pairs s' .front).Perm (pairs s .front ++ [((s.E e).v1, n), (n, (s.E e).v2)]) ∧
    (((s.E e).v1, (s.E e).v2) :: pairs s' .bdry).Perm (pairs s .bdry ++ [((s.E e).v1, n), (n, (s.E e).v2)]) := by
  obtain ⟨-, -, -, h4, h5, h6, h7, -, -, -, h8⟩ := split_spec h he hs
  rw [hb] at h8
  dsimp only at h8
  rw [hd.1, hd.2] at h8
  refine ⟨⟨1 - sf, by linarith, by linarith, ?_⟩, h7, h8⟩
  rw [h4]
  apply Pt.ext' <;> simp <;> ring

/-! ### C123 -/

/-- **C123** (partial: the first and the last base edge).  The layer is not higher than its base edge is long. -/
theorem C123_aspect_partial {L : LEnv K} {s : St K} {ht : K} {base : List Nat} (hh : 0 < ht) (hl : ∀ e ∈ base, 0 < len L s e)
    (hr : ∀ p, 0 < L.env.rho p) {i e : Nat} {h : K} (he : base[i]? = some e)
    (hi : (smoothLayer L s (mkLayer L s ht base)).h[i]? = some h) (hend : i = 0 ∨ i + 1 = base.length) : h ≤ len L s e := by
  rw [((C45_smooth hh hl hr).2 i e h he hi).2.2.2 hend]
  exact min_le_right _ _

/-! ### C124 -/

theorem closest_some {far : K} {s : St K} {p : Pt K} {e : Nat} (he : e ∈ s.es .front)
    (hf : Pt.normSq (p - s.pos (s.E e).v1) < far) : ∃ v, closest far s p = some v := by
  unfold closest
  have keep : ∀ (l : List Nat) (c : Option Nat × K), (∃ v, c.1 = some v) → ∃ v, (l.foldl (fun (c : Option Nat × K) e =>
      let d := Pt.normSq (p - s.pos (s.E e).v1)
      if d ≥ c.2 then c else (some (s.E e).v1, d)) c).1 = some v := by
    intro l
    induction l with
    | nil => intro c hc; exact hc
    | cons x l ih =>
      intro c hc
      rw [List.foldl_cons]
      apply ih
      dsimp only
      split_ifs
      · exact hc
      · exact ⟨_, rfl⟩
  have main : ∀ (l : List Nat), e ∈ l → ∀ (c : Option Nat × K), c.1.isSome = true ∨ c.2 = far → ∃ v, (l.foldl (fun (c : Option Nat × K) e =>
      let d := Pt.normSq (p - s.pos (s.E e).v1)
      if d ≥ c.2 then c else (some (s.E e).v1, d)) c).1 = some v := by
    intro l
    induction l with
    | nil => intro h; cases h
    | cons x l ih =>
      intro hl c hc
      rcases hc with hc | hc
      · exact keep _ c (Option.isSome_iff_exists.mp hc)
      · rw [List.foldl_cons]
        rcases List.mem_cons.mp hl with rfl | hl
        · dsimp only
          rw [if_neg (by rw [hc]; exact not_le.mpr hf)]
          exact keep _ _ ⟨_, rfl⟩
        · apply ih hl
          dsimp only
          split_ifs
          · exact Or.inr hc
          · exact Or.inl rfl
  exact main _ he _ (Or.inr rfl)

/-- **C124** (partial: the search for the start and end edges of a layer).  If the front is not empty, every start
vertex of a front edge is the end vertex of a front edge, and some vertex is nearer than the initial value of the
search, then no null pointer is dereferenced. -/
theorem C124_ends_partial {L : LEnv K} {s : St K} (hw : WF s) {xs xe : Pt K}
    (hc : ∀ e ∈ s.es .front, ∃ f ∈ s.es .front, (s.E f).v2 = (s.E e).v1)
    (h1 : ∃ e ∈ s.es .front, Pt.normSq (xs - s.pos (s.E e).v1) < L.far)
    (h2 : ∃ e ∈ s.es .front, Pt.normSq (xe - s.pos (s.E e).v1) < L.far) : findEdges L s xs xe ≠ .undef := by
  obtain ⟨e1, m1, d1⟩ := h1
  obtain ⟨e2, m2, d2⟩ := h2
  obtain ⟨a, ha⟩ := closest_some m1 d1
  obtain ⟨b, hb⟩ := closest_some m2 d2
  obtain ⟨x, hx, hxa⟩ := closest_mem ha
  obtain ⟨z, hz, hzb⟩ := closest_mem hb
  obtain ⟨y, hy, hyb⟩ := hc z hz
  have live : ∀ e ∈ s.es .front, (s.E e).list = .front ∧ e ∈ (s.V (s.E e).v1).edges ∧ e ∈ (s.V (s.E e).v2).edges := by
    intro e he
    obtain ⟨l1, m1, m2, -, -⟩ := (hw.ends _).2 e he
    have hl : LiveE s e := by unfold LiveE; rw [l1]; exact he
    exact ⟨l1, ((hw.edges _ m1).2 e).mpr ⟨hl, Or.inl rfl⟩, ((hw.edges _ m2).2 e).mpr ⟨hl, Or.inr rfl⟩⟩
  have f1 : ∃ es, edgeFrom s a = some es := by
    apply Option.isSome_iff_exists.mp
    unfold edgeFrom
    rw [List.find?_isSome]
    exact ⟨x, by rw [← hxa]; exact (live x hx).2.1, by simp [(live x hx).1, hxa]⟩
  have f2 : ∃ ee, edgeTo s b = some ee := by
    apply Option.isSome_iff_exists.mp
    unfold edgeTo
    rw [List.find?_isSome]
    exact ⟨y, by rw [← hzb, ← hyb]; exact (live y hy).2.2, by simp [(live y hy).1, hyb, hzb]⟩
  obtain ⟨es, hs⟩ := f1
  obtain ⟨ee, he⟩ := f2
  unfold findEdges
  rw [ha, hb]
  dsimp only
  rw [hs, he]
  dsimp only
  generalize reaches s.nextEdge ee (s.es .front).length es = o1
  generalize s.nextEdge es = o2
  generalize L.angleLe _ _ = o3
  by_cases hab : a = b <;> cases o1 <;> cases o2 <;> cases o3 <;> simp [hab]
end

/-- `TQ.C122_boundary_partial`: the right wall of the square is split at height 1/2. -/
example : (QLEx.start QLEx.sqr8).getEdge .bdry 2 3 = some 10 ∧
    ∃ s' n, QL.split (QLEx.start QLEx.sqr8) 18 (1 / 2) = some (s', n) ∧ ((2, 3) :: pairs s' .bdry).Perm
      (pairs (QLEx.start QLEx.sqr8) .bdry ++ [(2, n), (n, 3)]) := by
  have hb : (QLEx.start QLEx.sqr8).getEdge .bdry 2 3 = some 10 := by decide +kernel
  have hk : (QL.split (QLEx.start QLEx.sqr8) 18 (1 / 2)).isSome = true := by decide +kernel
  obtain ⟨⟨s', n⟩, hs⟩ := Option.isSome_iff_exists.mp hk
  have e1 : ((QLEx.start QLEx.sqr8).E 18).v1 = 2 ∧ ((QLEx.start QLEx.sqr8).E 18).v2 = 3 ∧ ((QLEx.start QLEx.sqr8).E 10).v1 = 2 ∧
    ((QLEx.start QLEx.sqr8).E 10).v2 = 3 := by decide +kernel
  refine ⟨hb, s', n, hs, ?_⟩
  have := (C122_boundary_partial (e := 18) (b := 10) QLEx.wf_sqr8 (by decide +kernel) (by rw [e1.1, e1.2.1]; exact hb)
    (by rw [e1.1, e1.2.1, e1.2.2.1, e1.2.2.2]; exact ⟨rfl, rfl⟩) hs).2.2
  rw [e1.1, e1.2.1] at this
  exact this

/-- **C122 is violated**: the layer along the bottom splits a side of the quad made by the layer along the left wall;
its new vertex hangs on the side from (1/2, 0) to (1/2, 1). -/
theorem C122_hanging_violated : (generate QLEx.L 20 1 1 QLEx.sqr8 ⟨0, 2⟩ ⟨0, 0⟩ (1 / 2)).map (·.2) = some true ∧
    (generate QLEx.L 20 1 1 QLEx.wall ⟨1 / 2, 0⟩ ⟨2, 0⟩ (1 / 4)).map (·.2) = some true ∧
    61 ∈ QLEx.corner.verts ∧ 50 ∈ QLEx.corner.quads ∧ (QLEx.corner.F (.quad 50)).corners = [7, 0, 29, 37] ∧
    Between (QLEx.corner.pos 61) (QLEx.corner.pos 29) (QLEx.corner.pos 37) := by
  have h : (61 ∈ QLEx.corner.verts ∧ 50 ∈ QLEx.corner.quads ∧ (QLEx.corner.F (.quad 50)).corners = [7, 0, 29, 37]) ∧
      (QLEx.corner.pos 61).x = (QLEx.corner.pos 29 + Pt.smul (1 / 4) (QLEx.corner.pos 37 - QLEx.corner.pos 29)).x ∧
      (QLEx.corner.pos 61).y = (QLEx.corner.pos 29 + Pt.smul (1 / 4) (QLEx.corner.pos 37 - QLEx.corner.pos 29)).y := by
    decide +kernel
  exact ⟨by decide +kernel, by decide +kernel, h.1.1, h.1.2.1, h.1.2.2, 1 / 4, by norm_num, by norm_num, Pt.ext' h.2.1 h.2.2⟩

/-- `TQ.C123_aspect_partial`: the first of the edges of the lengths 1, 1/10, 1. -/
example : (1 : ℚ) ≤ len QLEx.L (QLEx.start QLEx.short) 12 :=
  C123_aspect_partial (base := [12, 13, 14]) (i := 0) (ht := 1) one_pos (by decide +kernel) (fun _ => one_pos) rfl (by decide +kernel)
    (Or.inl rfl)

/-- **C123 is violated**: smoothing raises the height 1/10 over an edge of length 1/10 to 7/10. -/
theorem C123_aspect_violated : WF (QLEx.start QLEx.short) ∧
    findEdges QLEx.L (QLEx.start QLEx.short) ⟨0, 0⟩ ⟨21 / 10, 0⟩ = .yes 12 14 false ∧
    walk (QLEx.start QLEx.short).nextEdge 14 20 12 = .ok [12, 13, 14] ∧ len QLEx.L (QLEx.start QLEx.short) 13 = 1 / 10 ∧
    (smoothLayer QLEx.L (QLEx.start QLEx.short) (mkLayer QLEx.L (QLEx.start QLEx.short) 1 [12, 13, 14])).h = [1, 7 / 10, 1] :=
  ⟨QLEx.wf_short, by decide +kernel, by decide +kernel, by decide +kernel, by decide +kernel⟩

/-- `TQ.C124_ends_partial`: the front of the square. -/
example : findEdges QLEx.L (QLEx.start QLEx.sqr8) ⟨0, 0⟩ ⟨2, 0⟩ ≠ .undef :=
  C124_ends_partial QLEx.wf_sqr8 (by decide +kernel) (by decide +kernel) (by decide +kernel)

/-- **C124 is violated**: when the first of two layers fills the domain, the second one searches the empty front and
dereferences a null pointer. -/
theorem C124_null_violated : WF (QLEx.start QLEx.rect) ∧ (generate QLEx.L 20 2 1 QLEx.rect ⟨0, 0⟩ ⟨2, 0⟩ (1 / 2)).isNone = true :=
  ⟨QLEx.wf_rect, by decide +kernel⟩

end TQ

#print axioms TQ.C44_single_violated
#print axioms TQ.C46_next_violated
#print axioms TQ.C46_last_violated
#print axioms TQ.C120_places_violated
#print axioms TQ.C121_convex_violated
#print axioms TQ.C122_boundary_partial
#print axioms TQ.C123_aspect_partial
#print axioms TQ.C124_ends_partial
#print axioms TQ.C122_hanging_violated
#print axioms TQ.C123_aspect_violated
#print axioms TQ.C124_null_violated

import Verif.Smoothing.Laplace
import Mathlib.Tactic.FieldSimp
import Mathlib.Analysis.SpecialFunctions.Trigonometric.Inverse

/-! # Properties of the smoothing rules and their factors (C61, C62, C109-C111) -/

set_option linter.unusedSectionVars false
set_option linter.unusedSimpArgs false

namespace TQ
open TQ.MS TQ.MS.St TQ.MeshSpec TQ.MCSpec TQ.SmSpec TQ.RefSpec TQ.MC TQ.Sm
variable {K : Type*} [Field K] [LinearOrder K] [IsStrictOrderedRing K]

namespace SMEx
open TQ.MCEx
/-- A square of four triangles; the inner vertex belongs to a quad layer along the lower side. -/
def layer : St ℚ := flagged [(0, Flags.vOnBoundary), (1, Flags.vOnBoundary), (2, Flags.vOnBoundary), (3, Flags.vOnBoundary),
    (4, Flags.vInQuadLayer)]
  (build [.v 0 0, .v 4 0, .v 4 4, .v 0 4, .v 2 1, .bdry 0 1 1, .bdry 1 2 1, .bdry 2 3 1, .bdry 3 0 1,
    .intr 0 4, .intr 1 4, .intr 2 4, .intr 3 4, .tri 0 1 4 1, .tri 1 2 4 1, .tri 2 3 4 1, .tri 3 0 4 1] (St.empty 1))

theorem wf_layer : WF layer := wf_flagged _ _ (built_wf (built_of _ _ Built.empty (by decide +kernel)))

theorem conforming_layer : Conforming layer :=
  conforming_of (proper_of wf_layer (by decide +kernel) (by decide +kernel) (by decide +kernel)) (by decide +kernel) (by decide +kernel)
    (by decide +kernel)

/-- The edge 5 is the lower side of the square. -/
def lower : St ℚ → Pt ℚ → Option Nat := fun _ _ => some 5
end SMEx

/-! ## C61: layer heights under quad layer smoothing -/

/-- The directions to the boundary have no influence on the result: neither the nearest edges nor their
distances matter. -/
theorem C61_unused (nearest nearest' : St K → Pt K → Option Nat) (norm norm' : Pt K → K) (c : SmoothCfg K) (rule : Rule K)
    (decay : K) (n : Nat) (r : St K × K) : smooth nearest norm c rule decay n r = smooth nearest' norm' c rule decay n r := by
  unfold smooth
  refine smoothLoop_dirs (fun i hi => ?_) n _
  unfold vertexConn at hi
  rw [List.length_map] at hi
  rw [layerDirs_zero nearest norm c _ hi, layerDirs_zero nearest' norm' c _ hi]

/-- Partial: an iteration that is given a unit direction moves a layer vertex orthogonally to it.  Missing: the
directions given are the zero vector. -/
theorem C61_projection_partial {c : SmoothCfg K} {rule : Rule K} {dirs : List (Pt K)} {step : K} {s t : St K} {v i : Nat}
    {ns : List Nat} {d : Pt K} (hl : (s.V v).props &&& Flags.vInQuadLayer ≠ 0) (hd : dirs[i]? = some d) (hu : d.x ^ 2 + d.y ^ 2 = 1)
    (h : smoothVertex c rule dirs step s ((v, ns), i) = some t) : Pt.dot (t.pos v - s.pos v) d = 0 := by
  have same : Pt.dot (s.pos v - s.pos v) d = 0 := by unfold Pt.dot; simp
  unfold smoothVertex at h
  dsimp only at h
  by_cases hk : s.keeps c v = true
  · rw [if_pos hk] at h; cases h; exact same
  · rw [if_neg hk, if_pos (by unfold Flags.has; simpa using hl), hd] at h
    dsimp only at h
    cases hr : rule s v ns with
    | none => rw [hr] at h; cases h; exact same
    | some delta =>
      rw [hr] at h
      dsimp only at h
      split_ifs at h
      · cases h
        rw [pos_setPos, if_pos rfl]
        simp only [Pt.dot, Pt.smul, Pt.sub_x, Pt.sub_y, Pt.add_x, Pt.add_y]
        linear_combination (-step * (delta.x * d.x + delta.y * d.y)) * hu
      · cases h
        rw [pos_setPos, if_pos rfl]; exact same
      · cases h; exact same

/-- A layer vertex at height 1 over the lower side (the nearest edge, given to the smoothing) ends at height 7/4
although the heights of layer vertices should be kept. -/
theorem C61_violated : ∃ s : St ℚ, Conforming s ∧ (s.V 4).props &&& Flags.vInQuadLayer ≠ 0 ∧
    s.towardsEdge SMEx.sup 4 5 = ⟨0, -1⟩ ∧
    ∃ r, smooth SMEx.lower SMEx.sup (SMEx.cfg true s) laplaceRule 1 1 (s, 3 / 4) = some r ∧
      Pt.dot (r.1.pos 4 - s.pos 4) (s.towardsEdge SMEx.sup 4 5) = - (3 / 4) := by
  obtain ⟨r, hr, _⟩ := C58_smooth SMEx.lower SMEx.sup (SMEx.cfg true SMEx.layer) laplaceRule 1 1 SMEx.wf_layer (3 / 4)
  refine ⟨SMEx.layer, SMEx.conforming_layer, by decide +kernel, by apply Pt.ext' <;> decide +kernel, r, hr, ?_⟩
  have key : (match smooth SMEx.lower SMEx.sup (SMEx.cfg true SMEx.layer) laplaceRule 1 1 (SMEx.layer, 3 / 4) with
    | none => false
    | some r => decide (Pt.dot (r.1.pos 4 - SMEx.layer.pos 4) (SMEx.layer.towardsEdge SMEx.sup 4 5) = - (3 / 4))) = true := by decide +kernel
  rw [hr] at key
  simpa using key

/-! ## C62: relaxation factors -/

/-- The iterations of Laplace and torsion smoothing use the factors `e, -e·decay, e·decay², …`; the factor that
is left for the next call continues the sequence. -/
theorem C62_factors (c : SmoothCfg K) (rule : Rule K) (dirs : List (Pt K)) (decay : K) (conn : List (Nat × List Nat)) :
    ∀ (n : Nat) (s : St K) (e : K), smoothLoop c rule dirs decay conn n (s, e) =
      (loopM (fun t f => smoothIter c rule dirs f conn t) s ((List.range n).map fun k => e * (-decay) ^ k)).map
        fun t => (t, e * (-decay) ^ n) := by
  intro n
  induction n with
  | zero => intro s e; simp [smoothLoop, loopM]
  | succ n ih =>
    intro s e
    rw [smoothLoop_succ, List.range_succ_eq_map, List.map_cons, List.map_map]
    unfold loopM
    rw [pow_zero, mul_one]
    cases smoothIter c rule dirs e conn s with
    | none => rfl
    | some t =>
      dsimp only
      rw [ih t (e * -decay)]
      have h1 : ((fun k => e * (-decay) ^ k) ∘ Nat.succ) = fun k => e * -decay * (-decay) ^ k := by
        funext k; simp only [Function.comp]; rw [pow_succ]; ring
      have h2 : e * -decay * (-decay) ^ n = e * (-decay) ^ (n + 1) := by rw [pow_succ]; ring
      rw [h1, h2]

/-- Mixed smoothing: the factors `e, e·decay, …` without change of sign, each for a torsion and a Laplace
iteration. -/
theorem C62_mixed (c : SmoothCfg K) (r1 r2 : Rule K) (dirs : List (Pt K)) (decay : K) (conn : List (Nat × List Nat)) :
    ∀ (n : Nat) (s : St K) (e : K), mixedLoop c r1 r2 dirs decay conn n (s, e) =
      (loopM (fun t f => (smoothIter c r1 dirs f conn t).bind (smoothIter c r2 dirs f conn)) s
        ((List.range n).map fun k => e * decay ^ k)).map fun t => (t, e * decay ^ n) := by
  intro n
  induction n with
  | zero => intro s e; simp [mixedLoop, loopM]
  | succ n ih =>
    intro s e
    rw [List.range_succ_eq_map, List.map_cons, List.map_map]
    unfold loopM mixedLoop
    rw [pow_zero, mul_one]
    cases smoothIter c r1 dirs e conn s with
    | none => rfl
    | some t =>
      dsimp only [Option.bind_some]
      cases smoothIter c r2 dirs e conn t with
      | none => rfl
      | some u =>
        dsimp only
        rw [ih u (e * decay)]
        have h1 : ((fun k => e * decay ^ k) ∘ Nat.succ) = fun k => e * decay * decay ^ k := by
          funext k; simp only [Function.comp]; rw [pow_succ]; ring
        have h2 : e * decay * decay ^ n = e * decay ^ (n + 1) := by rw [pow_succ]; ring
        rw [h1, h2]

/-- The factors of `smooth(a)` and a following `smooth(b)` are those of `smooth(a + b)`. -/
theorem C62_compose (e decay : K) (a b : Nat) :
    ((List.range (a + b)).map fun k => e * (-decay) ^ k) =
      ((List.range a).map fun k => e * (-decay) ^ k) ++ (List.range b).map fun k => e * (-decay) ^ a * (-decay) ^ k := by
  rw [List.range_add, List.map_append, List.map_map]
  congr 1
  refine List.map_congr_left fun k _ => ?_
  simp only [Function.comp]
  rw [pow_add]; ring

/-- For Laplace smoothing the meshes agree too: `smooth(a)` then `smooth(b)` on the same object ends with the
mesh of `smooth(a + b)` up to facet pointers, whatever order the neighbours are sorted in. -/
theorem C62_laplace {nearest : St K → Pt K → Option Nat} {norm : Pt K → K} {c : SmoothCfg K} (ho : ∀ t v l, (c.order t v l).Perm l)
    {decay : K} {a b : Nat} {s : St K} {e : K} {r1 r2 : St K × K} (h : WF s)
    (h1 : smooth nearest norm c laplaceRule decay a (s, e) = some r1) (h2 : smooth nearest norm c laplaceRule decay b r1 = some r2) :
    ∃ r, smooth nearest norm c laplaceRule decay (a + b) (s, e) = some r ∧ SameButPointers r2.1 r.1 ∧ r.2 = r2.2 := by
  obtain ⟨r1', h1', hp, _⟩ := C58_smooth nearest norm c laplaceRule decay a h e
  rw [h1] at h1'; cases h1'
  have w1 := sp_wf hp h
  have hb1 := setup_sbp c.eps w1
  have hb0 := setup_sbp c.eps h
  unfold smooth at h1 h2 ⊢
  dsimp only at h1 h2 ⊢
  rw [smoothLoop_add, h1]
  dsimp only
  have back : SameButPointers (setupConnectivity c.eps r1.1) r1.1 := by
    refine ⟨hb1.verts.symm, hb1.V.symm, hb1.es.symm, hb1.tris.symm, hb1.quads.symm, hb1.nxt.symm, hb1.area.symm, hb1.color.symm,
      fun x => ?_, fun x => ?_⟩
    · obtain ⟨a1, a2, a3, a4, a5, a6⟩ := hb1.ends x
      exact ⟨a1.symm, a2.symm, a3.symm, a4.symm, a5.symm, a6.symm⟩
    · obtain ⟨a1, a2, a3, a4⟩ := hb1.corners x
      exact ⟨a1.symm, a2.symm, a3.symm, a4.symm⟩
  have hv : (setupConnectivity c.eps r1.1).verts = (setupConnectivity c.eps s).verts := by
    rw [hb1.verts, hb0.verts, hp.verts]
  have places : SameButPlaces (setupConnectivity c.eps r1.1) (setupConnectivity c.eps s) := by
    have b0 := sp_of_sbp hb0
    have b1 := sp_of_sbp back
    have p' : SameButPlaces r1.1 s := by
      refine ⟨hp.verts.symm, fun x => ?_, hp.es.symm, hp.tris.symm, hp.quads.symm, hp.nxt.symm, hp.area.symm, hp.color.symm,
        fun x => ?_, fun x => ?_⟩
      · obtain ⟨a1, a2, a3⟩ := hp.V x
        exact ⟨a1.symm, a2.symm, a3.symm⟩
      · obtain ⟨a1, a2, a3, a4, a5, a6⟩ := hp.ends x
        exact ⟨a1.symm, a2.symm, a3.symm, a4.symm, a5.symm, a6.symm⟩
      · obtain ⟨a1, a2, a3, a4⟩ := hp.corners x
        exact ⟨a1.symm, a2.symm, a3.symm, a4.symm⟩
    exact sp_trans b1 (sp_trans p' b0)
  refine smoothLoop_rel (conn_rel ho places) (fun i hi => ?_) b _ _ _ _ back h2
  unfold vertexConn at hi
  rw [List.length_map] at hi
  rw [layerDirs_zero nearest norm c _ hi, layerDirs_zero nearest norm c _ (hv ▸ hi)]

/-- two calls with one iteration and one call with two end at the same places -/
example : SMEx.places (smooth SMEx.noEdge SMEx.sup (SMEx.cfg false SMEx.fan) laplaceRule 1 2 (SMEx.fan, 3 / 4)) =
    [(0, 0), (4, 0), (4, 4), (0, 4), (25 / 16, 25 / 16)] ∧
    SMEx.places ((smooth SMEx.noEdge SMEx.sup (SMEx.cfg false SMEx.fan) laplaceRule 1 1 (SMEx.fan, 3 / 4)).bind
      (smooth SMEx.noEdge SMEx.sup (SMEx.cfg false SMEx.fan) laplaceRule 1 1)) =
    [(0, 0), (4, 0), (4, 4), (0, 4), (25 / 16, 25 / 16)] := by decide +kernel

/-! ## C109: the target of Laplace smoothing -/

theorem foldl_pos (s : St K) : ∀ (ns : List Nat) (p : Pt K),
    (ns.foldl (fun p w => p + s.pos w) p).x = p.x + (ns.map fun w => (s.pos w).x).sum ∧
    (ns.foldl (fun p w => p + s.pos w) p).y = p.y + (ns.map fun w => (s.pos w).y).sum := by
  intro ns
  induction ns with
  | nil => intro p; simp
  | cons w ns ih =>
    intro p
    rw [List.foldl_cons, (ih _).1, (ih _).2]
    simp only [Pt.add_x, Pt.add_y, List.map_cons, List.sum_cons]
    constructor <;> ring

theorem laplace_some (s : St K) (v : Nat) {ns : List Nat} (hn : ns ≠ []) : ∃ d, laplaceRule s v ns = some d ∧
    (ns.length : K) * ((s.pos v).x + d.x) = (ns.map fun w => (s.pos w).x).sum ∧
    (ns.length : K) * ((s.pos v).y + d.y) = (ns.map fun w => (s.pos w).y).sum := by
  have h0 : (ns.length : K) ≠ 0 := by
    rw [Nat.cast_ne_zero]
    exact fun h => hn (List.length_eq_zero_iff.mp h)
  have hf := foldl_pos s ns 0
  refine ⟨_, by unfold laplaceRule; rw [if_neg hn], ?_, ?_⟩
  · simp only [Pt.sub_x, Pt.smul, hf.1]
    simp only [Pt.zero_x, zero_add]
    field_simp
    ring
  · simp only [Pt.sub_y, Pt.smul, hf.2]
    simp only [Pt.zero_y, zero_add]
    field_simp
    ring

/-- Partial: for an interior vertex with triangles only, the displacement points to the mean of its neighbours.
Missing: vertices with quads. -/
theorem C109_mean_partial {s : St K} (h : Conforming s) {v : Nat} (hv : v ∈ s.verts)
    (ht : ∀ f ∈ (s.V v).facets, (s.F f).corners.length = 3) (hb : ∀ e ∈ s.es .bdry, (s.E e).v1 ≠ v ∧ (s.E e).v2 ≠ v)
    {N : List Nat} (hn : N.Nodup) (h0 : N ≠ []) (hN : ∀ w, w ∈ N ↔ ∃ e ∈ s.es .intr, Connects s e v w)
    {ns : List Nat} (hp : ns.Perm (s.starNbrs v)) : ∃ d, laplaceRule s v ns = some d ∧
      (N.length : K) * ((s.pos v).x + d.x) = (N.map fun w => (s.pos w).x).sum ∧
      (N.length : K) * ((s.pos v).y + d.y) = (N.map fun w => (s.pos w).y).sum := by
  have hp2 := hp.trans (star_twice h hv ht hb hn hN)
  have hne : ns ≠ [] := by
    rintro rfl
    have := hp2.length_eq
    simp only [List.length_nil, List.length_append] at this
    exact h0 (List.length_eq_zero_iff.mp (by omega))
  obtain ⟨d, h1, h2, h3⟩ := laplace_some s v hne
  refine ⟨d, h1, ?_, ?_⟩
  · rw [(hp2.map fun w => (s.pos w).x).sum_eq, hp2.length_eq, List.length_append, List.map_append, List.sum_append, Nat.cast_add] at h2
    linear_combination h2 / 2
  · rw [(hp2.map fun w => (s.pos w).y).sum_eq, hp2.length_eq, List.length_append, List.map_append, List.sum_append, Nat.cast_add] at h3
    linear_combination h3 / 2

example : Conforming SMEx.fan ∧ (SMEx.fan.starNbrs 4).length = 8 ∧
    (∀ f ∈ (SMEx.fan.V 4).facets, (SMEx.fan.F f).corners.length = 3) ∧ (∀ e ∈ SMEx.fan.es .bdry, (SMEx.fan.E e).v1 ≠ 4 ∧ (SMEx.fan.E e).v2 ≠ 4) :=
  ⟨SMEx.conforming_fan, by decide +kernel, by decide +kernel, by decide +kernel⟩

/-- Around quads the target is neither the mean of the vertices connected by edges nor that of all vertices of
the neighbouring elements: those connected by edges count twice, those across a quad once. -/
theorem C109_violated : Conforming SMEx.cross ∧
    (match laplaceRule SMEx.cross 8 (SMEx.cross.starNbrs 8) with
      | none => false
      | some d => decide ((SMEx.cross.pos 8 + d).x = 11 / 12)) = true ∧
    (4 : ℚ) * (11 / 12) ≠ ([0, 2, 4, 6].map fun w => (SMEx.cross.pos w).x).sum ∧
    (8 : ℚ) * (11 / 12) ≠ ([0, 1, 2, 3, 4, 5, 6, 7].map fun w => (SMEx.cross.pos w).x).sum :=
  ⟨SMEx.conforming_cross, by decide +kernel, by decide +kernel, by decide +kernel⟩

/-! ## C110: iterations bring vertices closer to their target -/

/-- One turn of Laplace smoothing leaves a vertex or multiplies its distance vector to the target by `1 - step`. -/
theorem C110_step_partial {c : SmoothCfg K} {dirs : List (Pt K)} {step : K} {s t : St K} {v i : Nat} {ns : List Nat} {d : Pt K}
    (hd : dirs[i]? = some 0) (hr : laplaceRule s v ns = some d) (h : smoothVertex c laplaceRule dirs step s ((v, ns), i) = some t) :
    t.pos v = s.pos v ∨ t.pos v - (s.pos v + d) = Pt.smul (1 - step) (s.pos v - (s.pos v + d)) := by
  unfold smoothVertex at h
  dsimp only at h
  by_cases hk : s.keeps c v = true
  · rw [if_pos hk] at h; cases h; exact Or.inl rfl
  · rw [if_neg hk, hd, ite_self, hr] at h
    dsimp only at h
    split_ifs at h
    · cases h
      right
      rw [pos_setPos, if_pos rfl]
      apply Pt.ext' <;> simp [Pt.dot, Pt.smul] <;> ring
    · cases h; left; rw [pos_setPos, if_pos rfl]
    · cases h; exact Or.inl rfl

/-- With a factor between 0 and 2 the vertex is not farther from its target after the turn, with a negative
factor (every second iteration, C62) it is not nearer. -/
theorem C110_distance_partial {c : SmoothCfg K} {dirs : List (Pt K)} {step : K} {s t : St K} {v i : Nat} {ns : List Nat} {d : Pt K}
    (hd : dirs[i]? = some 0) (hr : laplaceRule s v ns = some d) (h : smoothVertex c laplaceRule dirs step s ((v, ns), i) = some t) :
    (0 ≤ step → step ≤ 2 → Pt.normSq (t.pos v - (s.pos v + d)) ≤ Pt.normSq (s.pos v - (s.pos v + d))) ∧
    (step ≤ 0 → Pt.normSq (s.pos v - (s.pos v + d)) ≤ Pt.normSq (t.pos v - (s.pos v + d))) := by
  rcases C110_step_partial hd hr h with h1 | h1
  · rw [h1]; exact ⟨fun _ _ => le_refl _, fun _ => le_refl _⟩
  · rw [h1]
    generalize s.pos v - (s.pos v + d) = q
    have e : Pt.normSq (Pt.smul (1 - step) q) = (1 - step) ^ 2 * Pt.normSq q := by simp [Pt.normSq, Pt.smul]; ring
    have hq : 0 ≤ Pt.normSq q := by unfold Pt.normSq; nlinarith [mul_self_nonneg q.x, mul_self_nonneg q.y]
    rw [e]
    constructor
    · intro h0 h2
      nlinarith [mul_nonneg h0 (sub_nonneg.mpr h2)]
    · intro h0
      nlinarith [mul_nonneg (neg_nonneg.mpr h0) hq, mul_nonneg (mul_nonneg (neg_nonneg.mpr h0) (neg_nonneg.mpr h0)) hq]

/-- More iterations are not better: the fixed corners of a square are the only neighbours, and the inner vertex
is farther from their mean (2, 2) after two iterations than after one. -/
theorem C110_violated : ∃ s : St ℚ, Conforming s ∧ ∃ r1 r2,
    smooth SMEx.noEdge SMEx.sup (SMEx.cfg false s) laplaceRule 1 1 (s, 3 / 4) = some r1 ∧
    smooth SMEx.noEdge SMEx.sup (SMEx.cfg false s) laplaceRule 1 2 (s, 3 / 4) = some r2 ∧
    Pt.normSq (r1.1.pos 4 - ⟨2, 2⟩) < Pt.normSq (r2.1.pos 4 - ⟨2, 2⟩) := by
  obtain ⟨r1, h1, _⟩ := C58_smooth SMEx.noEdge SMEx.sup (SMEx.cfg false SMEx.fan) laplaceRule 1 1 SMEx.wf_fan (3 / 4)
  obtain ⟨r2, h2, _⟩ := C58_smooth SMEx.noEdge SMEx.sup (SMEx.cfg false SMEx.fan) laplaceRule 1 2 SMEx.wf_fan (3 / 4)
  refine ⟨SMEx.fan, SMEx.conforming_fan, r1, r2, h1, h2, ?_⟩
  have key : (match smooth SMEx.noEdge SMEx.sup (SMEx.cfg false SMEx.fan) laplaceRule 1 1 (SMEx.fan, 3 / 4),
      smooth SMEx.noEdge SMEx.sup (SMEx.cfg false SMEx.fan) laplaceRule 1 2 (SMEx.fan, 3 / 4) with
    | some r1, some r2 => decide (Pt.normSq (r1.1.pos 4 - ⟨2, 2⟩) < Pt.normSq (r2.1.pos 4 - ⟨2, 2⟩))
    | _, _ => false) = true := by decide +kernel
  rw [h1, h2] at key
  simpa using key

/-! ## C111: torsion smoothing and equal angles -/

/-- Four neighbours at equal angles, each listed once per element: torsion smoothing moves the vertex towards
the mean of the neighbours by the share `1 - cos(angle_factor · angle)` although the angles are balanced. -/
theorem C111_drift (sn cs : K → K) (angle : Pt K → Pt K → K) (af al : K) (hs : ∀ x, sn (-x) = - sn x) (hc : ∀ x, cs (-x) = cs x)
    {s : St K} {v a b c d : Nat}
    (h0a : angle (s.pos v - s.pos a) (s.pos v - s.pos a) = 0) (h0b : angle (s.pos v - s.pos b) (s.pos v - s.pos b) = 0)
    (h0c : angle (s.pos v - s.pos c) (s.pos v - s.pos c) = 0) (h0d : angle (s.pos v - s.pos d) (s.pos v - s.pos d) = 0)
    (h1 : angle (s.pos v - s.pos a) (s.pos v - s.pos b) = al) (h1' : angle (s.pos v - s.pos b) (s.pos v - s.pos a) = al)
    (h2 : angle (s.pos v - s.pos b) (s.pos v - s.pos c) = al) (h2' : angle (s.pos v - s.pos c) (s.pos v - s.pos b) = al)
    (h3 : angle (s.pos v - s.pos c) (s.pos v - s.pos d) = al) (h3' : angle (s.pos v - s.pos d) (s.pos v - s.pos c) = al)
    (h4 : angle (s.pos v - s.pos d) (s.pos v - s.pos a) = al) (h4' : angle (s.pos v - s.pos a) (s.pos v - s.pos d) = al) :
    torsionRule sn cs angle af s v [a, a, b, b, c, c, d, d] = some (Pt.smul (1 - cs (af * al))
      (Pt.smul (1 / 4) (s.pos a + s.pos b + s.pos c + s.pos d) - s.pos v)) := by
  have e1 : af * (0 - al) = - (af * al) := by ring
  have e2 : af * (al - 0) = af * al := by ring
  unfold torsionRule
  rw [if_neg (by simp)]
  congr 1
  simp [List.zipIdx, torsionTerm, h0a, h0b, h0c, h0d, h1, h1', h2, h2', h3, h3', h4, h4', e1, e2, hs, hc]
  apply Pt.ext' <;> simp [Pt.smul, hs, hc] <;> ring

/-- `angle` (src/utils/VecND.h:512-516) over the reals; the clamp has no effect in exact arithmetic. -/
noncomputable def realAngle (p q : Pt ℝ) : ℝ := Real.arccos (Pt.dot p q / (Real.sqrt (Pt.normSq p) * Real.sqrt (Pt.normSq q)))

/-- A vertex at the origin with neighbours in the four directions of the axes (all angles 90 degrees) at the
distances 1, 1, 3, 1; torsion smoothing with the default angle factor 1/2 moves it. -/
theorem C111_violated {s : St ℝ} (h0 : s.pos 0 = ⟨0, 0⟩) (h1 : s.pos 1 = ⟨1, 0⟩) (h2 : s.pos 2 = ⟨0, 1⟩) (h3 : s.pos 3 = ⟨-3, 0⟩)
    (h4 : s.pos 4 = ⟨0, -1⟩) :
    (∀ i ∈ [(1, 2), (2, 3), (3, 4), (4, 1)], realAngle (s.pos 0 - s.pos i.1) (s.pos 0 - s.pos i.2) = Real.pi / 2) ∧
    ∃ d, torsionRule Real.sin Real.cos realAngle (1 / 2) s 0 [1, 1, 2, 2, 3, 3, 4, 4] = some d ∧ d.x < 0 := by
  have r : ∀ p q : Pt ℝ, Pt.dot p q = 0 → realAngle p q = Real.pi / 2 := by
    intro p q h; unfold realAngle; rw [h, zero_div, Real.arccos_zero]
  have z : ∀ p : Pt ℝ, 0 < Pt.normSq p → realAngle p p = 0 := by
    intro p h
    unfold realAngle
    rw [Real.mul_self_sqrt h.le, show Pt.dot p p = Pt.normSq p from rfl, div_self h.ne', Real.arccos_one]
  refine ⟨?_, _, C111_drift Real.sin Real.cos realAngle (1 / 2) (Real.pi / 2) Real.sin_neg Real.cos_neg
    (z _ ?_) (z _ ?_) (z _ ?_) (z _ ?_) (r _ _ ?_) (r _ _ ?_) (r _ _ ?_) (r _ _ ?_) (r _ _ ?_) (r _ _ ?_) (r _ _ ?_) (r _ _ ?_), ?_⟩
  · intro i hi
    apply r
    simp only [List.mem_cons, List.not_mem_nil, or_false] at hi
    rcases hi with rfl | rfl | rfl | rfl <;> simp [h0, h1, h2, h3, h4, Pt.dot]
  any_goals (simp only [h0, h1, h2, h3, h4, Pt.dot, Pt.normSq, Pt.sub_x, Pt.sub_y]; norm_num)
  rw [show (1 / 2 : ℝ) * (Real.pi / 2) = Real.pi / 4 by ring, Real.cos_pi_div_four]
  have : Real.sqrt 2 < 2 := by
    rw [Real.sqrt_lt' (by norm_num)]; norm_num
  linarith

example : ∃ s : St ℝ, s.pos 0 = ⟨0, 0⟩ ∧ s.pos 1 = ⟨1, 0⟩ ∧ s.pos 2 = ⟨0, 1⟩ ∧ s.pos 3 = ⟨-3, 0⟩ ∧ s.pos 4 = ⟨0, -1⟩ :=
  ⟨((((((St.empty 1).addVertex ⟨0, 0⟩).addVertex ⟨1, 0⟩).addVertex ⟨0, 1⟩).addVertex ⟨-3, 0⟩).addVertex ⟨0, -1⟩), by
    simp [St.empty, addVertex, pos, upd]⟩

end TQ

#print axioms TQ.C61_unused
#print axioms TQ.C61_projection_partial
#print axioms TQ.C61_violated
#print axioms TQ.C62_factors
#print axioms TQ.C62_mixed
#print axioms TQ.C62_compose
#print axioms TQ.C62_laplace
#print axioms TQ.C109_mean_partial
#print axioms TQ.C109_violated
#print axioms TQ.C110_step_partial
#print axioms TQ.C110_distance_partial
#print axioms TQ.C110_violated
#print axioms TQ.C111_drift
#print axioms TQ.C111_violated

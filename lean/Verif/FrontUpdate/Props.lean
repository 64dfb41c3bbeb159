import Verif.FrontUpdate.Count
import Verif.FrontUpdate.Best
import Verif.FrontUpdate.Tiling
import Verif.Domain.Props
import Mathlib.Data.List.Sort
import Mathlib.Analysis.Real.Sqrt
import Mathlib.Tactic.Linarith
import Mathlib.Algebra.Order.Field.Rat

/-! # Properties C34-C40, C90-C92: updating the advancing front -/

set_option linter.unusedSectionVars false

namespace TQ
open MS MeshSpec FUSpec FU MS.St
variable {K : Type*} [Field K] [LinearOrder K] [IsStrictOrderedRing K]

/-! ### A concrete environment and concrete histories -/

namespace FUEx

/-- Exact queries, 1-norm, no limits on quality and angle. -/
def env : Env ℚ where
  eps := 1 / 1000
  rho := fun _ => 1
  inside := fun _ => true
  bdryEdges := fun _ _ => []
  norm := fun p => |p.x| + |p.y|
  maxAngle := fun _ _ _ => 0
  minQuality := 0
  maxCellAngle := 180
  normFactor := 3
  qVerts := fun s p r => s.verts.filter fun v => decide (Pt.normSq (s.pos v - p) < r * r)
  qTris := fun s p r => s.tris.filter fun t => decide (Pt.normSq (s.fCentroid (.tri t) - p) < r * r)
  qQuads := fun s p r => s.quads.filter fun t => decide (Pt.normSq (s.fCentroid (.quad t) - p) < r * r)
  qFront := fun s p r => (s.es .front).filter fun e =>
    decide (Pt.normSq (Pt.smul (1 / 2) (s.pos (s.E e).v1 + s.pos (s.E e).v2) - p) < r * r)
  sort := fun key l => l.insertionSort fun a b => key b ≤ key a

theorem exact : QueryExact env where
  verts := fun s p r v => by simp [env, List.mem_filter]
  tris := fun s p r v => by simp [env, List.mem_filter]
  quads := fun s p r v => by simp [env, List.mem_filter]
  front := fun s p r v => by simp [env, List.mem_filter]

theorem sortOK : SortOK env := by
  intro key l
  refine ⟨List.perm_insertionSort _ _, ?_⟩
  haveI : Std.Total (fun a b : Nat => key b ≤ key a) := ⟨fun a b => le_total _ _⟩
  haveI : IsTrans Nat (fun a b : Nat => key b ≤ key a) := ⟨fun a b c h1 h2 => le_trans h2 h1⟩
  exact List.pairwise_insertionSort (r := fun a b : Nat => key b ≤ key a) l

theorem epsPos : 0 < env.eps := by decide +kernel

/-- A vertex on the front. -/
def fv (s : St ℚ) (x y : ℚ) : St ℚ := (s.addVertex ⟨x, y⟩).setProps s.nxt (Flags.add · Flags.vOnFront)
/-- A front edge on the boundary. -/
def fe (s : St ℚ) (a b : Nat) : St ℚ := s.addEdge .front a b 1 (Flags.add 0 Flags.eOnBoundary)

theorem wf_fv {s : St ℚ} (h : WF s) (x y : ℚ) : WF (fv s x y) := wf_setProps (wf_addVertex h _) _ _

/-- The unit square; vertices 0-3, front edges 4-7. -/
def square : St ℚ :=
  fe (fe (fe (fe (fv (fv (fv (fv (St.empty 1) 0 0) 1 0) 1 1) 0 1) 0 1) 1 2) 2 3) 3 0

theorem wf_square : WF square := by
  unfold square fe
  refine wf_addEdge (wf_addEdge (wf_addEdge (wf_addEdge
    (wf_fv (wf_fv (wf_fv (wf_fv (wf_empty 1) _ _) _ _) _ _) _ _) _ _ _ ?_ ?_ ?_) _ _ _ ?_ ?_ ?_) _ _ _ ?_ ?_ ?_)
    _ _ _ ?_ ?_ ?_ <;> decide +kernel

/-- After the first triangle, on the edge 0 → 1. -/
def square1 : St ℚ := (updateFront env square 4 ⟨1/2, 3/4⟩ ⟨1/2, 3/4⟩ 2).1
/-- After the second triangle, on the new front edge. -/
def square2 : St ℚ := (updateFront env square1 10 ⟨1/2, 3/4⟩ ⟨1/2, 3/4⟩ 2).1

theorem step1 : (updateFront env square 4 ⟨1/2, 3/4⟩ ⟨1/2, 3/4⟩ 2).2 = some 8 := by decide +kernel
theorem step2 : (updateFront env square1 10 ⟨1/2, 3/4⟩ ⟨1/2, 3/4⟩ 2).2 = some 12 := by decide +kernel

theorem pair_eq {α β : Type*} {x : α × β} {b : β} (h : x.2 = b) : x = (x.1, b) := by rw [← h]

/-- The history of the two steps. -/
def log : List Entry := [⟨[(0, 1), (1, 2), (2, 3), (3, 0)], 0, 1, 2⟩, ⟨[(2, 3), (3, 0), (0, 2)], 0, 2, 3⟩]

theorem run2 : Run env square log square2 := by
  have r1 : Run env square ([] ++ [⟨pairs square .front, (square.E 4).v1, (square.E 4).v2, 2⟩]) square1 :=
    Run.update Run.start (by decide +kernel) (pair_eq step1) (by decide +kernel)
  have r2 := Run.update (np := ⟨1/2, 3/4⟩) (sp := ⟨1/2, 3/4⟩) (r := 2) (v := 3) r1 (by decide +kernel) (pair_eq step2)
    (by decide +kernel)
  have e : ([] ++ [⟨pairs square .front, (square.E 4).v1, (square.E 4).v2, 2⟩] : List Entry) ++
      [⟨pairs square1 .front, (square1.E 10).v1, (square1.E 10).v2, 3⟩] = log := by
    have e1 : pairs square .front = [(0, 1), (1, 2), (2, 3), (3, 0)] := by decide +kernel
    have e2 : pairs square1 .front = [(2, 3), (3, 0), (0, 2)] := by decide +kernel
    have e3 : (square.E 4).v1 = 0 ∧ (square.E 4).v2 = 1 ∧ (square1.E 10).v1 = 0 ∧ (square1.E 10).v2 = 2 := by decide +kernel
    rw [e1, e2, e3.1, e3.2.1, e3.2.2.1, e3.2.2.2]; rfl
  rw [e] at r2
  exact r2

theorem oriented2 : AllOriented log := by
  intro e he
  simp only [log, List.mem_cons, List.not_mem_nil, or_false] at he
  rcases he with rfl | rfl <;> (constructor <;> decide)

end FUEx

/-! ### C34: conservation of area -/

/-- The weight of the area law. -/
def halfCross (a b : Nat × Pt K) : K := 1 / 2 * Pt.cross a.2 b.2

theorem halfCross_anti (a b : Nat × Pt K) : halfCross a b = - halfCross b a := by
  unfold halfCross Pt.cross; ring

theorem enclosed_eq (s : St K) (es : List (Nat × Nat)) : enclosed s.pos es = wsum halfCross s es := rfl

theorem run_area {env : Env K} (he : 0 < env.eps) (hq : QueryLive env) (hs : SortOK env) {s0 : St K} (h0 : WF s0)
    {log : List Entry} {s : St K} (hr : Run env s0 log s) :
    s.area - wsum halfCross s (sides s) = s0.area - wsum halfCross s0 (sides s0) := by
  refine (run_induct he hq hs h0 (fun _ s => s.area - wsum halfCross s (sides s) = s0.area - wsum halfCross s0 (sides s0))
    rfl ?_ ?_ ?_ hr).2
  · intro log s s' base v t hwf _ ih hd _
    rw [← ih, done_sides hd, wsum_append, hd.area]
    have c2 : wsum halfCross s' (sides s) = wsum halfCross s (sides s) :=
      wsum_congr halfCross fun e he => ⟨hd.pos _ (sides_verts hwf e he).1, hd.pos _ (sides_verts hwf e he).2⟩
    rw [c2]
    have : wsum halfCross s' [((s.E base).v1, (s.E base).v2), ((s.E base).v2, v), (v, (s.E base).v1)] =
        triArea (s'.pos (s.E base).v1) (s'.pos (s.E base).v2) (s'.pos v) := by
      unfold wsum halfCross triArea Pt.cross
      simp only [List.map_cons, List.map_nil, List.sum_cons, List.sum_nil, Pt.sub_x, Pt.sub_y]
      ring
    rw [this]; ring
  · intro log s s' hwf _ ih hsame
    rw [← ih, same_sides hsame, hsame.area]
    congr 1
    exact wsum_congr halfCross fun e he => ⟨same_pos hsame (sides_verts hwf e he).1, same_pos hsame (sides_verts hwf e he).2⟩
  · intro log s l _ ih _
    rw [← ih]; rfl

/-- **C34.** Mesh area plus signed area enclosed by the remaining front is constant over every sequence of
steps whose side edges run along the front. -/
theorem C34_area_conserved {env : Env K} (he : 0 < env.eps) (hq : QueryLive env) (hs : SortOK env) {s0 : St K}
    (h0 : WF s0) {log : List Entry} {s : St K} (hr : Run env s0 log s) (ho : AllOriented log) :
    s.area + enclosed s.pos (pairs s .front) = s0.area + enclosed s0.pos (pairs s0 .front) := by
  have h1 := run_additive he hq hs h0 halfCross halfCross_anti hr ho
  have h2 := run_area he hq hs h0 hr
  rw [enclosed_eq, enclosed_eq]
  linarith

/-- Sum of the areas of the triangles. -/
def sumTriAreas (s : St K) : K := (s.tris.map fun t => s.fArea (.tri t)).sum

/-- **C34.** The recorded mesh area grows by exactly the areas of the new triangles, in every history (no
orientation needed). -/
theorem C34_area_is_sum {env : Env K} (he : 0 < env.eps) (hq : QueryLive env) (hs : SortOK env) {s0 : St K}
    (h0 : WF s0) {log : List Entry} {s : St K} (hr : Run env s0 log s) :
    s.area - sumTriAreas s = s0.area - sumTriAreas s0 := by
  have key : ∀ {s : St K}, WF s → wsum halfCross s (sides s) = sumTriAreas s := by
    intro s h
    unfold wsum sumTriAreas sides triCorners
    have : ∀ ts : List Nat, (∀ t ∈ ts, t ∈ s.tris) →
        (((ts.map fun t => (s.F (.tri t)).corners).flatMap bdryOf).map
          fun e => halfCross (e.1, s.pos e.1) (e.2, s.pos e.2)).sum = (ts.map fun t => s.fArea (.tri t)).sum := by
      intro ts
      induction ts with
      | nil => intro _; simp
      | cons t ts ih =>
        intro hm
        rw [List.map_cons, List.flatMap_cons, List.map_append, List.sum_append, ih (fun u hu => hm u (by simp [hu])),
          List.map_cons, List.sum_cons]
        congr 1
        have hlen := h.tcor t (hm t (by simp))
        match hcs : (s.F (.tri t)).corners with
        | [a, b, c] =>
          have hb : (bdryOf [a, b, c]).map (fun e => halfCross (e.1, s.pos e.1) (e.2, s.pos e.2)) =
            [halfCross (a, s.pos a) (b, s.pos b), halfCross (b, s.pos b) (c, s.pos c),
              halfCross (c, s.pos c) (a, s.pos a)] := rfl
          rw [hb]
          unfold fArea
          rw [hcs]
          unfold halfCross triArea Pt.cross
          simp only [List.sum_cons, List.sum_nil, Pt.sub_x, Pt.sub_y]
          ring
        | [] => rw [hcs] at hlen; simp at hlen
        | [_] => rw [hcs] at hlen; simp at hlen
        | [_, _] => rw [hcs] at hlen; simp at hlen
        | _ :: _ :: _ :: _ :: _ => rw [hcs] at hlen; simp at hlen
    exact this s.tris fun _ h => h
  have hw := (run_induct he hq hs h0 (fun _ _ => True) trivial (fun _ _ _ _ _ _ _ _ _ _ _ => trivial)
    (fun _ _ _ _ _ _ _ => trivial) (fun _ _ _ _ _ _ => trivial) hr).1
  have := run_area he hq hs h0 hr
  rw [key hw, key h0] at this
  exact this

/-- The square: after one step area 1/2 and the front encloses 1/2, after two steps area 1. -/
example : FUEx.square1.area = 1 / 2 ∧ enclosed FUEx.square1.pos (pairs FUEx.square1 .front) = 1 / 2 ∧
    FUEx.square2.area = 1 ∧ enclosed FUEx.square2.pos (pairs FUEx.square2 .front) = 0 ∧
    enclosed FUEx.square.pos (pairs FUEx.square .front) = 1 ∧ FUEx.square.area = 0 := by
  decide +kernel

example : FUEx.square2.area + enclosed FUEx.square2.pos (pairs FUEx.square2 .front) =
    FUEx.square.area + enclosed FUEx.square.pos (pairs FUEx.square .front) :=
  C34_area_conserved FUEx.epsPos (queryExact_live FUEx.exact) FUEx.sortOK FUEx.wf_square FUEx.run2 FUEx.oriented2

/-! ### C35: an emptied front -/

/-- The weight of the boundary law. -/
def chainW (a b : Nat) (x y : Nat × Pt K) : Int :=
  (if x.1 = a ∧ y.1 = b then 1 else 0) - (if x.1 = b ∧ y.1 = a then 1 else 0)

theorem chainW_anti (a b : Nat) (x y : Nat × Pt K) : chainW a b x y = - chainW a b y x := by
  unfold chainW
  have e1 : (y.1 = a ∧ x.1 = b) ↔ (x.1 = b ∧ y.1 = a) := and_comm
  have e2 : (y.1 = b ∧ x.1 = a) ↔ (x.1 = a ∧ y.1 = b) := and_comm
  simp only [e1, e2]; ring

theorem chain_eq (s : St K) (es : List (Nat × Nat)) (a b : Nat) : chain es a b = wsum (chainW a b) s es := by
  unfold chain wsum
  induction es with
  | nil => simp
  | cons e es ih =>
    rw [List.count_cons, List.count_cons, List.map_cons, List.sum_cons, ← ih]
    obtain ⟨x, y⟩ := e
    unfold chainW
    simp only [beq_iff_eq, Prod.mk.injEq]
    push_cast
    ring

/-- **C35.** In every reachable state the boundary of the triangles (as a chain of directed edges, where an
edge and its reverse cancel) together with the remaining front is the initial front (plus the boundary of
the triangles present before). -/
theorem C35_chain {env : Env K} (he : 0 < env.eps) (hq : QueryLive env) (hs : SortOK env) {s0 : St K}
    (h0 : WF s0) {log : List Entry} {s : St K} (hr : Run env s0 log s) (ho : AllOriented log) (a b : Nat) :
    chain (pairs s .front) a b + chain (sides s) a b = chain (pairs s0 .front) a b + chain (sides s0) a b := by
  have := run_additive he hq hs h0 (chainW a b) (chainW_anti a b) hr ho
  rw [chain_eq s, chain_eq s, chain_eq s0, chain_eq s0]
  exact this

/-- **C35.** When a front without triangles has been meshed completely, the mesh area has grown by the area
enclosed by the initial front, and the boundary of the triangles is exactly the initial front. -/
theorem C35_complete {env : Env K} (he : 0 < env.eps) (hq : QueryLive env) (hs : SortOK env) {s0 : St K}
    (h0 : WF s0) (ht : s0.tris = []) {log : List Entry} {s : St K} (hr : Run env s0 log s) (ho : AllOriented log)
    (hf : s.es .front = []) :
    s.area = s0.area + enclosed s0.pos (pairs s0 .front) ∧ ∀ a b, chain (sides s) a b = chain (pairs s0 .front) a b := by
  have hp : pairs s .front = [] := by unfold pairs; rw [hf]; rfl
  have hsd : sides s0 = [] := by unfold sides triCorners; rw [ht]; rfl
  constructor
  · have := C34_area_conserved he hq hs h0 hr ho
    rw [hp] at this
    simpa [enclosed] using this
  · intro a b
    have := C35_chain he hq hs h0 hr ho a b
    rw [hp, hsd] at this
    simpa [chain] using this

example : FUEx.square2.es .front = [] ∧ FUEx.square.tris = [] ∧ triCorners FUEx.square2 = [[0, 1, 2], [0, 2, 3]] := by
  decide +kernel

example : FUEx.square2.area = FUEx.square.area + enclosed FUEx.square.pos (pairs FUEx.square .front) :=
  (C35_complete FUEx.epsPos (queryExact_live FUEx.exact) FUEx.sortOK FUEx.wf_square (by decide +kernel) FUEx.run2
    FUEx.oriented2 (by decide +kernel)).1

/-! ### C36: balance -/

/-- The weight of the balance law. -/
def balW (v : Nat) (x y : Nat × Pt K) : Int := (if x.1 = v then 1 else 0) - (if y.1 = v then 1 else 0)

theorem balW_sum (s : St K) (es : List (Nat × Nat)) (v : Nat) :
    wsum (balW v) s es = (es.countP (fun e => decide (e.1 = v)) : Int) - es.countP (fun e => decide (e.2 = v)) := by
  unfold wsum
  induction es with
  | nil => simp
  | cons e es ih =>
    rw [List.map_cons, List.sum_cons, ih, List.countP_cons, List.countP_cons]
    unfold balW
    by_cases h1 : e.1 = v <;> by_cases h2 : e.2 = v <;> simp [h1, h2] <;> ring

theorem sides_balanced {s : St K} (h : WF s) (v : Nat) : wsum (balW v) s (sides s) = 0 := by
  unfold wsum sides triCorners
  have : ∀ ts : List Nat, (∀ t ∈ ts, t ∈ s.tris) →
      (((ts.map fun t => (s.F (.tri t)).corners).flatMap bdryOf).map
        fun e => balW v (e.1, s.pos e.1) (e.2, s.pos e.2)).sum = 0 := by
    intro ts
    induction ts with
    | nil => intro _; simp
    | cons t ts ih =>
      intro hm
      rw [List.map_cons, List.flatMap_cons, List.map_append, List.sum_append, ih (fun u hu => hm u (by simp [hu]))]
      have hlen := h.tcor t (hm t (by simp))
      match hcs : (s.F (.tri t)).corners with
      | [a, b, c] =>
        have hb : (bdryOf [a, b, c]).map (fun e => balW v (e.1, s.pos e.1) (e.2, s.pos e.2)) =
          [balW v (a, s.pos a) (b, s.pos b), balW v (b, s.pos b) (c, s.pos c), balW v (c, s.pos c) (a, s.pos a)] := rfl
        rw [hb]
        simp only [List.sum_cons, List.sum_nil, balW]
        ring
      | [] => rw [hcs] at hlen; simp at hlen
      | [_] => rw [hcs] at hlen; simp at hlen
      | [_, _] => rw [hcs] at hlen; simp at hlen
      | _ :: _ :: _ :: _ :: _ => rw [hcs] at hlen; simp at hlen
  exact this s.tris fun _ h => h

/-- **C36 (partial).** Steps whose side edges run along the front keep the front balanced.  Missing: the
code looks side edges up without direction, so this hypothesis is not enforced, see
`C36_balance_violated`. -/
theorem C36_balance_partial {env : Env K} (he : 0 < env.eps) (hq : QueryLive env) (hs : SortOK env) {s0 : St K}
    (h0 : WF s0) {log : List Entry} {s : St K} (hr : Run env s0 log s) (ho : AllOriented log)
    (hb : FUSpec.Balanced (pairs s0 .front)) : FUSpec.Balanced (pairs s .front) := by
  have hw := (run_induct he hq hs h0 (fun _ _ => True) trivial (fun _ _ _ _ _ _ _ _ _ _ _ => trivial)
    (fun _ _ _ _ _ _ _ => trivial) (fun _ _ _ _ _ _ => trivial) hr).1
  intro v
  have := run_additive he hq hs h0 (balW v) (fun x y => by unfold balW; ring) hr ho
  rw [sides_balanced hw, sides_balanced h0, balW_sum, balW_sum] at this
  have := hb v
  omega

example : FUSpec.Balanced (pairs FUEx.square1 .front) ∧ pairs FUEx.square1 .front = [(2, 3), (3, 0), (0, 2)] := by
  have e : pairs FUEx.square1 .front = [(2, 3), (3, 0), (0, 2)] := by decide +kernel
  refine ⟨?_, e⟩
  rw [e]; intro v
  simp only [List.countP_cons, List.countP_nil]
  by_cases h0 : 0 = v
  · subst h0; decide
  · by_cases h2 : 2 = v
    · subst h2; decide
    · by_cases h3 : 3 = v
      · subst h3; decide
      · simp [h0, h2, h3]

namespace FUEx
/-- Two slits 0 ⇄ 1 and 0 ⇄ 2 that start in the same vertex. -/
def slits : St ℚ := fe (fe (fe (fe (fv (fv (fv (St.empty 1) 0 0) 1 0) 0 1) 0 1) 1 0) 0 2) 2 0
theorem wf_slits : WF slits := by
  unfold slits fe
  refine wf_addEdge (wf_addEdge (wf_addEdge (wf_addEdge
    (wf_fv (wf_fv (wf_fv (wf_empty 1) _ _) _ _) _ _) _ _ _ ?_ ?_ ?_) _ _ _ ?_ ?_ ?_) _ _ _ ?_ ?_ ?_)
    _ _ _ ?_ ?_ ?_ <;> decide +kernel
end FUEx

/-- **C36 is violated**: an undirected lookup may take the edge in the wrong direction; a balanced front
becomes unbalanced in a successful step. -/
theorem C36_balance_violated : WF FUEx.slits ∧ (3 : Nat) ∈ FUEx.slits.es .front ∧ 2 ∈ FUEx.slits.verts ∧
    pairs FUEx.slits .front = [(0, 1), (1, 0), (0, 2), (2, 0)] ∧
    (updateFrontExhaustive FUEx.env FUEx.slits 3 2).2 = some 7 ∧
    pairs (updateFrontExhaustive FUEx.env FUEx.slits 3 2).1 .front = [(1, 0), (2, 0), (2, 1)] ∧
    ¬ FUSpec.Balanced [(1, 0), (2, 0), (2, 1)] := by
  refine ⟨FUEx.wf_slits, by decide +kernel, by decide +kernel, by decide +kernel, by decide +kernel, by decide +kernel, ?_⟩
  intro h
  exact absurd (h 0) (by decide)

/-! ### C37: interior edges -/

/-- **C37.** For every pair of vertices, over every history without ghost edges in the front (no orientation
needed): sides of triangles between them + front edges on the boundary = 2 · interior edges + front edges
in the interior, up to what was there in the beginning. -/
theorem C37_sides_counted {env : Env K} (he : 0 < env.eps) (hq : QueryLive env) (hs : SortOK env) {s0 : St K}
    (h0 : WF s0) (hg : NoGhost s0) {log : List Entry} {s : St K} (hr : Run env s0 log s) (a b : Nat) :
    connecting (sides s) a b + connecting (frontOf s false) a b +
      (2 * connecting (pairs s0 .intr) a b + connecting (frontOf s0 true) a b) =
    2 * connecting (pairs s .intr) a b + connecting (frontOf s true) a b +
      (connecting (sides s0) a b + connecting (frontOf s0 false) a b) := by
  have := (run_count he hq hs h0 hg hr).2 a b
  unfold jconst at this
  rw [jsum_trips, jsum_trips] at this
  omega

theorem frontOf_all {s : St K} {i : Bool} (h : ∀ e ∈ s.es .front, s.isInterior e = i) : frontOf s i = pairs s .front ∧
    frontOf s (!i) = [] := by
  unfold frontOf pairs
  constructor
  · rw [List.filter_eq_self.mpr]
    intro e he; rw [h e he]; simp
  · rw [List.filter_eq_nil_iff.mpr]
    · rfl
    · intro e he; rw [h e he]; cases i <;> simp

/-- **C37.** After a front of boundary edges has been meshed completely, the number of triangle sides
between two vertices is twice the number of interior edges between them plus the number of boundary edges
of the initial front between them. -/
theorem C37_complete {env : Env K} (he : 0 < env.eps) (hq : QueryLive env) (hs : SortOK env) {s0 : St K}
    (h0 : WF s0) (ht : s0.tris = []) (hi : s0.es .intr = []) (hg : NoGhost s0)
    (hbd : ∀ e ∈ s0.es .front, s0.isInterior e = false)
    {log : List Entry} {s : St K} (hr : Run env s0 log s) (hf : s.es .front = []) (a b : Nat) :
    connecting (sides s) a b = 2 * connecting (pairs s .intr) a b + connecting (pairs s0 .front) a b := by
  have := C37_sides_counted he hq hs h0 hg hr a b
  obtain ⟨f1, f2⟩ := frontOf_all hbd
  simp only [Bool.not_false] at f2
  have f3 : frontOf s true = [] := by unfold frontOf; rw [hf]; rfl
  have f4 : frontOf s false = [] := by unfold frontOf; rw [hf]; rfl
  have f5 : pairs s0 .intr = [] := by unfold pairs; rw [hi]; rfl
  have f6 : sides s0 = [] := by unfold sides triCorners; rw [ht]; rfl
  have f7 : connecting [] a b = 0 := rfl
  rw [f1, f2, f3, f4, f5, f6, f7] at this
  omega

/-- **C37.** So two triangles with a common side, which belongs to no third triangle and is not on the
boundary, share exactly one interior edge; a side of only one triangle is on the boundary and has no
interior edge. -/
theorem C37_one_interior_edge {env : Env K} (he : 0 < env.eps) (hq : QueryLive env) (hs : SortOK env) {s0 : St K}
    (h0 : WF s0) (ht : s0.tris = []) (hi : s0.es .intr = []) (hg : NoGhost s0)
    (hbd : ∀ e ∈ s0.es .front, s0.isInterior e = false)
    {log : List Entry} {s : St K} (hr : Run env s0 log s) (hf : s.es .front = []) (a b : Nat) :
    (connecting (sides s) a b = 2 → connecting (pairs s0 .front) a b = 0 → connecting (pairs s .intr) a b = 1) ∧
    (connecting (sides s) a b = 1 → connecting (pairs s0 .front) a b = 1 ∧ connecting (pairs s .intr) a b = 0) := by
  have := C37_complete he hq hs h0 ht hi hg hbd hr hf a b
  omega

/-- The diagonal of the square: two sides, one interior edge; the bottom: one side, no interior edge. -/
example : connecting (sides FUEx.square2) 0 2 = 2 ∧ connecting (pairs FUEx.square2 .intr) 0 2 = 1 ∧
    connecting (sides FUEx.square2) 0 1 = 1 ∧ connecting (pairs FUEx.square2 .intr) 0 1 = 0 ∧
    connecting (pairs FUEx.square .front) 1 0 = 1 := by decide +kernel

example : connecting (sides FUEx.square2) 0 2 = 2 * connecting (pairs FUEx.square2 .intr) 0 2 +
    connecting (pairs FUEx.square .front) 0 2 :=
  C37_complete FUEx.epsPos (queryExact_live FUEx.exact) FUEx.sortOK FUEx.wf_square (by decide +kernel)
    (by decide +kernel) (by unfold NoGhost; decide +kernel) (by decide +kernel) FUEx.run2 (by decide +kernel) 0 2

/-! ### C38: the best triangle -/

/-- **C38.** The candidates are exactly the admissible triangles; if there is one, a candidate of maximal
quality is chosen, all others have been removed, and nothing else has changed; none is chosen iff there is
no admissible one. -/
theorem C38_best_triangle {env : Env K} (he : 0 < env.eps) (hq : QueryExact env) (hs : SortOK env) {s : St K}
    (h : WF s) {base : Nat} (hb : base ∈ s.es .front) (xy : Pt K) (range : K) :
    let r := createPossible env s base xy range
    let b1 := (s.E base).v1
    let b2 := (s.E base).v2
    (chooseBest env r.1 r.2 = none ↔ ∀ v, ¬ Candidate env s b1 b2 xy range v) ∧
    ∀ s1 t, chooseBest env r.1 r.2 = some (s1, t) →
      ∃ v, Candidate env s b1 b2 xy range v ∧ (s1.F (.tri t)).corners = [b1, b2, v] ∧
        (∀ w, Candidate env s b1 b2 xy range w → quality3 env s b1 b2 w ≤ quality3 env s b1 b2 v) ∧
        s1.tris = s.tris ++ [t] ∧ t ∉ s.tris ∧ s1.verts = s.verts ∧ s1.es = s.es ∧ s1.E = s.E ∧
        s1.quads = s.quads ∧ s1.area = s.area ∧ ∀ f, Live s f → s1.F f = s.F f := by
  intro r b1 b2
  have hl : Loop env s b1 b2 (env.qVerts s xy range) r.1 r.2 := createPossible_loop he hq h hb xy range
  have hcand : ∀ v, Candidate env s b1 b2 xy range v ↔
      v ∈ env.qVerts s xy range ∧ Eligible env s b1 b2 v ∧ ValidTriangle env s b1 b2 v := by
    intro v
    constructor
    · rintro ⟨m, n, f, o, va⟩
      exact ⟨(hq.verts _ _ _ _).mpr ⟨m, n⟩, ⟨f, o⟩, va⟩
    · rintro ⟨m, ⟨f, o⟩, va⟩
      obtain ⟨m1, m2⟩ := (hq.verts _ _ _ _).mp m
      exact ⟨m1, m2, f, o, va⟩
  constructor
  · rw [chooseBest_none hs]
    constructor
    · intro hts v hv
      obtain ⟨m, e, va⟩ := (hcand v).mp hv
      obtain ⟨t, ht, _⟩ := hl.complete v m e va
      rw [hts] at ht; simp at ht
    · intro hno
      cases hts : r.2 with
      | nil => rfl
      | cons t ts =>
        exfalso
        obtain ⟨v, m, _, e, va⟩ := hl.sound t (by rw [hts]; simp)
        exact hno v ((hcand v).mpr ⟨m, e, va⟩)
  · intro s1 t hch
    obtain ⟨ht, c1, hbest⟩ := chooseBest_some hs h hl.cand hch
    obtain ⟨v, m, hcor, e, va⟩ := hl.sound t ht
    have hF1 : s1.F = r.1.F := by
      unfold chooseBest at hch
      split at hch
      · simp at hch
      · simp only [Option.some.injEq, Prod.mk.injEq] at hch
        rw [← hch.1]
        have : ∀ (rs : List Nat) (x : St K), (rs.foldl St.removeTri x).F = x.F := by
          intro rs
          induction rs with
          | nil => intro x; rfl
          | cons r rs ih => intro x; rw [List.foldl_cons, ih]; rfl
        exact this _ _
    refine ⟨v, (hcand v).mpr ⟨m, e, va⟩, by rw [hF1]; exact hcor, ?_, c1.tris, ?_, c1.verts, c1.es, c1.E, c1.quads,
      c1.area, c1.F⟩
    · intro w hw
      obtain ⟨m', e', va'⟩ := (hcand w).mp hw
      obtain ⟨u, hu, hcu⟩ := hl.complete w m' e' va'
      have := hbest u hu
      rw [cand_key hl.cand hcu, cand_key hl.cand hcor] at this
      exact this
    · intro hm
      exact absurd (lt_of_lt_of_le (h.tlt t hm) (c1.cor t (by simp)).1) (lt_irrefl _)

/-- Two candidates on the bottom of the square, one is chosen; with search radius 1/2 there is none. -/
example : (createPossible FUEx.env FUEx.square 4 ⟨1/2, 3/4⟩ 2).2 = [8, 9] ∧
    ((chooseBest FUEx.env (createPossible FUEx.env FUEx.square 4 ⟨1/2, 3/4⟩ 2).1
      (createPossible FUEx.env FUEx.square 4 ⟨1/2, 3/4⟩ 2).2).map fun x => (x.1.tris, x.2)) = some ([8], 8) ∧
    (createPossible FUEx.env FUEx.square 4 ⟨1/2, 3/4⟩ (1/2)).2 = [] := by decide +kernel

/-! ### C39: failure leaves no trace -/

/-- **C39.** If `update_front` or `update_front_exhaustive` finds no triangle, the mesh and the front are
unchanged: vertices, edges and elements with all their data, and the area. -/
theorem C39_failed_update {env : Env K} (he : 0 < env.eps) (hq : QueryLive env) (hs : SortOK env) {s s' : St K}
    (h : WF s) {base : Nat} (hb : base ∈ s.es .front) :
    (∀ np sp r, updateFront env s base np sp r = (s', none) → SameMesh s s') ∧
    (∀ v ∈ s.verts, updateFrontExhaustive env s base v = (s', none) → SameMesh s s') := by
  constructor
  · intro np sp r hu
    have ho := updateFront_outcome he hq hs h hb np sp r
    rw [hu] at ho
    cases ho with
    | fail same _ _ => exact same
  · intro v hv hu
    have ho := updateFrontExhaustive_outcome he h hb hv
    rw [hu] at ho
    cases ho with
    | fail same _ _ => exact same

/-- A failing step: the new vertex would lie below the edge and no vertex is in range. -/
example : (updateFront FUEx.env FUEx.square 4 ⟨1/2, -3/4⟩ ⟨1/2, -3/4⟩ (1/2)).2 = none ∧
    (updateFront FUEx.env FUEx.square 4 ⟨1/2, -3/4⟩ ⟨1/2, -3/4⟩ (1/2)).1.nxt = 10 ∧
    FUEx.square.nxt = 8 := by decide +kernel

/-! ### C40: the flag `on_front` -/

/-- **C40 is violated**: after the last triangle the front is empty but three vertices still carry
`on_front`; already after the first step vertex 1 does although it has no front edge any more. -/
theorem C40_on_front_violated :
    (Run FUEx.env FUEx.square FUEx.log FUEx.square2 ∧ FUEx.square2.es .front = [] ∧
      flagged FUEx.square2 0 ∧ flagged FUEx.square2 1 ∧ flagged FUEx.square2 2) ∧
    (flagged FUEx.square1 1 ∧ ¬ OnFront FUEx.square1 1) := by
  refine ⟨⟨FUEx.run2, ?_⟩, ?_, ?_⟩
  · unfold flagged; decide +kernel
  · unfold flagged; decide +kernel
  · unfold OnFront; decide +kernel

/-- **C40 (partial).** One step: the third vertex carries the flag iff it has a front edge, the two vertices
of the base edge always carry it, all others keep theirs.  Missing: the flag of the vertices of the base
edge is not removed when the base edge was their last front edge (see `C40_on_front_violated`). -/
theorem C40_step_partial {s : St K} (h : WF s) {base v : Nat} (t : Nat) (hb : base ∈ s.es .front)
    (hv : v ∈ s.verts) (h1 : v ≠ (s.E base).v1) (h2 : v ≠ (s.E base).v2) :
    (flagged (advanceFront s base v t) v ↔ OnFront (advanceFront s base v t) v) ∧
    flagged (advanceFront s base v t) (s.E base).v1 ∧ flagged (advanceFront s base v t) (s.E base).v2 ∧
    ∀ w, w ≠ v → w ≠ (s.E base).v1 → w ≠ (s.E base).v2 → (flagged (advanceFront s base v t) w ↔ flagged s w) :=
  advance_flags h t hb hv h1 h2

/-- **C40 (partial).** Over all histories: every vertex with a front edge carries the flag, so the search for
candidates misses no front vertex. -/
theorem C40_front_flagged_partial {env : Env K} (he : 0 < env.eps) (hq : QueryLive env) (hs : SortOK env) {s0 : St K}
    (h0 : WF s0) (hf : ∀ v, OnFront s0 v → flagged s0 v) {log : List Entry} {s : St K} (hr : Run env s0 log s) :
    ∀ v, OnFront s v → flagged s v := by
  refine (run_induct he hq hs h0 (fun _ s => ∀ v, OnFront s v → flagged s v) hf ?_ ?_ ?_ hr).2
  · rintro log s s' base v t hwf hb ih hd ⟨s1, hp, rfl⟩ w hw
    have hb' : base ∈ s1.es .front := by rw [hp.es]; exact hb
    have hE : s1.E base = s.E base := by rw [hp.E]
    have hn := hp.ndp
    simp only [List.nodup_cons, List.mem_cons, List.not_mem_nil, or_false, not_or] at hn
    have n1 : v ≠ (s1.E base).v1 := by rw [hE]; exact Ne.symm hn.1.2
    have n2 : v ≠ (s1.E base).v2 := by rw [hE]; exact Ne.symm hn.2.1
    obtain ⟨f1, f2, f3, f4⟩ := advance_flags hp.wf t hb' hp.vmem n1 n2
    by_cases c1 : w = v
    · subst c1; exact f1.mpr hw
    by_cases c2 : w = (s1.E base).v1
    · subst c2; exact f2
    by_cases c3 : w = (s1.E base).v2
    · subst c3; exact f3
    rw [f4 w c1 c2 c3]
    obtain ⟨rest, r1, r2⟩ := advanceFront_trips hp.wf t hb' hp.vmem n1 n2
    have hold : OnFront s w := by
      rw [onFront_iff] at hw
      obtain ⟨x, hx, hxw⟩ := hw
      rw [r2.mem_iff, List.mem_append, List.mem_append] at hx
      rw [onFront_iff, ← prep_trips hp]
      rcases hx with (hx | hx) | hx
      · exfalso
        unfold created at hx
        split at hx
        · simp at hx
        · simp only [List.mem_singleton] at hx; subst hx
          rcases hxw with hh | hh
          · exact c2 hh.symm
          · exact c1 hh.symm
      · exfalso
        unfold created at hx
        split at hx
        · simp at hx
        · simp only [List.mem_singleton] at hx; subst hx
          rcases hxw with hh | hh
          · exact c1 hh.symm
          · exact c3 hh.symm
      · exact ⟨x, r1.mem_iff.mpr (by simp [hx]), hxw⟩
    have hmem : w ∈ s.verts := by
      obtain ⟨e, hee, hh⟩ := hold
      obtain ⟨_, a1, a2, _⟩ := (hwf.ends _).2 e hee
      rcases hh with rfl | rfl
      · exact a1
      · exact a2
    have := ih w hold
    unfold flagged at this ⊢
    rw [(hp.V w hmem).2.1]; exact this
  · intro log s s' hwf _ ih hsame w hw
    have hmem : w ∈ s.verts := by
      obtain ⟨e, hee, hh⟩ := hw
      rw [hsame.es] at hee
      rw [hsame.edata] at hh
      obtain ⟨_, a1, a2, _⟩ := (hwf.ends _).2 e hee
      rcases hh with rfl | rfl
      · exact a1
      · exact a2
    have hold : OnFront s w := by
      obtain ⟨e, hee, hh⟩ := hw
      rw [hsame.es] at hee
      rw [hsame.edata] at hh
      exact ⟨e, hee, hh⟩
    have := ih w hold
    unfold flagged at this ⊢
    rw [hsame.vdata w hmem]; exact this
  · intro log s l _ ih hl w hw
    refine ih w ?_
    obtain ⟨e, hee, hh⟩ := hw
    have : e ∈ l := by simpa [FUSpec.reorder, upd] using hee
    exact ⟨e, hl.mem_iff.mp this, hh⟩

example : (∀ v, OnFront FUEx.square v → flagged FUEx.square v) ∧ OnFront FUEx.square1 3 := by
  refine ⟨?_, by unfold OnFront; decide +kernel⟩
  rintro v ⟨e, he, hh⟩
  have hv : v ∈ FUEx.square.verts := by
    obtain ⟨_, a1, a2, _⟩ := (FUEx.wf_square.ends _).2 e he
    rcases hh with rfl | rfl
    · exact a1
    · exact a2
  have : ∀ v ∈ FUEx.square.verts, flagged FUEx.square v := by unfold flagged; decide +kernel
  exact this v hv

/-! ### C90: the triangles tile the domain -/

/-- The weight of the covering law. -/
def windW (p : Pt K) (a b : Nat × Pt K) : Int := crossing p a.2 b.2

/-- **C90.** In every reachable state and for every point on no line through a side of a triangle: the
number of triangles around the point plus the winding number of the remaining front is the winding number
of the initial front (the mesh had no triangles before). -/
theorem C90_cover {env : Env K} (he : 0 < env.eps) (hq : QueryLive env) (hs : SortOK env) {s0 : St K}
    (h0 : WF s0) (ht : s0.tris = []) {log : List Entry} {s : St K} (hr : Run env s0 log s) (ho : AllOriented log)
    {p : Pt K} (hg : Generic s p) :
    (s.tris.countP (Covers s p) : Int) + winding s.pos (pairs s .front) p = winding s0.pos (pairs s0 .front) p := by
  have h1 := run_additive he hq hs h0 (windW p) (fun a b => crossing_anti p a.2 b.2) hr ho
  obtain ⟨hw, hc⟩ := run_ccw he hq hs h0 (by intro t htt; rw [ht] at htt; simp at htt) hr
  have h2 := winding_sides hw hc hg
  have hsd : sides s0 = [] := by unfold sides triCorners; rw [ht]; rfl
  rw [hsd] at h1
  rw [← h2, winding_eq, winding_eq, winding_eq]
  have e : wsum (windW p) s0 [] = 0 := rfl
  rw [e, add_zero] at h1
  rw [add_comm]
  exact h1

/-- **C90.** When the front is used up, every point is inside as many triangles as the initial front winds
around it: for a front that winds once around the domain and not around its outside, every point of the
domain lies in exactly one triangle and no triangle reaches outside (up to points on the lines through
sides). -/
theorem C90_tiling {env : Env K} (he : 0 < env.eps) (hq : QueryLive env) (hs : SortOK env) {s0 : St K}
    (h0 : WF s0) (ht : s0.tris = []) {log : List Entry} {s : St K} (hr : Run env s0 log s) (ho : AllOriented log)
    (hf : s.es .front = []) {p : Pt K} (hg : Generic s p) :
    (s.tris.countP (Covers s p) : Int) = winding s0.pos (pairs s0 .front) p := by
  have := C90_cover he hq hs h0 ht hr ho hg
  have hp : pairs s .front = [] := by unfold pairs; rw [hf]; rfl
  rw [hp] at this
  simpa [winding] using this

/-- In the square: a point inside is covered once, a point outside is not covered. -/
example : winding FUEx.square.pos (pairs FUEx.square .front) ⟨1/2, 1/4⟩ = 1 ∧
    winding FUEx.square.pos (pairs FUEx.square .front) ⟨3/2, 1/4⟩ = 0 ∧
    winding FUEx.square.pos (pairs FUEx.square .front) ⟨-1/2, 1/4⟩ = 0 ∧
    FUEx.square2.tris.countP (Covers FUEx.square2 ⟨1/2, 1/4⟩) = 1 := by decide +kernel

example : (FUEx.square2.tris.countP (Covers FUEx.square2 ⟨1/2, 1/4⟩) : Int) =
    winding FUEx.square.pos (pairs FUEx.square .front) ⟨1/2, 1/4⟩ :=
  C90_tiling FUEx.epsPos (queryExact_live FUEx.exact) FUEx.sortOK FUEx.wf_square (by decide +kernel) FUEx.run2
    FUEx.oriented2 (by decide +kernel) (by unfold Generic; decide +kernel)

/-! ### C91: no vertex in a new triangle -/

/-- **C91.** A new triangle contains no vertex of the mesh other than its corners, neither inside nor on its
sides: the search radius of the vertex check is large enough. -/
theorem C91_no_vertex_inside {env : Env K} (he : 0 < env.eps) (hq : QueryExact env) (hs : SortOK env)
    (hn : ∀ p, 0 ≤ env.norm p ∧ Pt.normSq p ≤ env.norm p * env.norm p) {s s' : St K} (h : WF s) {base t : Nat} (hb : base ∈ s.es .front)
    (hu : (∃ np sp r, updateFront env s base np sp r = (s', some t)) ∨
      ∃ v ∈ s.verts, updateFrontExhaustive env s base v = (s', some t)) :
    ∃ v, (s'.F (.tri t)).corners = [(s.E base).v1, (s.E base).v2, v] ∧
      ∀ w ∈ s'.verts, w ≠ (s.E base).v1 → w ≠ (s.E base).v2 → w ≠ v →
        ¬ (0 ≤ side (s'.pos (s.E base).v1) (s'.pos (s.E base).v2) (s'.pos w) ∧
           0 ≤ side (s'.pos (s.E base).v2) (s'.pos v) (s'.pos w) ∧
           0 ≤ side (s'.pos v) (s'.pos (s.E base).v1) (s'.pos w)) := by
  have main : ∀ v sv, Judged env s s' sv (s.E base).v1 (s.E base).v2 v →
      ∀ w ∈ s'.verts, w ≠ (s.E base).v1 → w ≠ (s.E base).v2 → w ≠ v →
        ¬ (0 ≤ side (s'.pos (s.E base).v1) (s'.pos (s.E base).v2) (s'.pos w) ∧
           0 ≤ side (s'.pos (s.E base).v2) (s'.pos v) (s'.pos w) ∧
           0 ≤ side (s'.pos v) (s'.pos (s.E base).v1) (s'.pos w)) := by
    rintro v sv hj w hw n1 n2 n3 ⟨d1, d2, d3⟩
    simp only [← hj.pos] at d1 d2 d3
    have hv := hj.valid
    have hA : 0 < side (sv.pos (s.E base).v1) (sv.pos (s.E base).v2) (sv.pos v) := by
      have := hv.area
      unfold GeoSpec.triArea at this
      unfold side
      linarith
    have hle : ∀ x y : Pt K, ∀ M, env.norm (y - x) ≤ M → Pt.normSq (y - x) ≤ M * M := by
      intro x y M hM
      obtain ⟨q1, q2⟩ := hn (y - x)
      exact le_trans q2 (mul_self_le_mul_self q1 hM)
    have hR := le_max_right (2 * env.rho (triCentroid (sv.pos (s.E base).v1) (sv.pos (s.E base).v2) (sv.pos v)))
      (max (max (env.norm (sv.pos (s.E base).v2 - sv.pos (s.E base).v1)) (env.norm (sv.pos v - sv.pos (s.E base).v2)))
        (env.norm (sv.pos (s.E base).v1 - sv.pos v)))
    have hM : 0 < checkRange env (sv.pos (s.E base).v1) (sv.pos (s.E base).v2) (sv.pos v) :=
      lt_of_lt_of_le (lt_of_lt_of_le hv.lengths.1 (le_trans (le_max_left _ _) (le_max_left _ _))) hR
    have hnear := inside_near hA d1 d2 d3 hM
      (hle _ _ _ (le_trans (le_trans (le_max_left _ _) (le_max_left _ _)) hR))
      (hle _ _ _ (le_trans (le_trans (le_max_right _ _) (le_max_left _ _)) hR))
      (hle _ _ _ (le_trans (le_max_right _ _) hR))
    have := hv.verts w (by rw [hj.verts]; exact hw) n1 n2 n3 hnear
    rw [inOn_of_sides he d1 d2 d3] at this
    simp at this
  rcases hu with ⟨np, sp, r, hu⟩ | ⟨v, hv, hu⟩
  · obtain ⟨v, sv, hc, _, hj⟩ := updateFront_judged he hq hs h hb hu
    exact ⟨v, hc, main v sv hj⟩
  · obtain ⟨hc, _, hj⟩ := updateFrontExhaustive_judged he hq h hb hv hu
    exact ⟨v, hc, main v s hj⟩

/-- The hypotheses hold for the first step in the square (the 1-norm bounds the length). -/
example : ∃ v, (FUEx.square1.F (.tri 8)).corners = [0, 1, v] ∧
    ∀ w ∈ FUEx.square1.verts, w ≠ 0 → w ≠ 1 → w ≠ v →
      ¬ (0 ≤ side (FUEx.square1.pos 0) (FUEx.square1.pos 1) (FUEx.square1.pos w) ∧
         0 ≤ side (FUEx.square1.pos 1) (FUEx.square1.pos v) (FUEx.square1.pos w) ∧
         0 ≤ side (FUEx.square1.pos v) (FUEx.square1.pos 0) (FUEx.square1.pos w)) :=
  C91_no_vertex_inside FUEx.epsPos FUEx.exact FUEx.sortOK (fun p => by
    constructor
    · exact add_nonneg (abs_nonneg _) (abs_nonneg _)
    · change p.x * p.x + p.y * p.y ≤ (|p.x| + |p.y|) * (|p.x| + |p.y|)
      have h1 := abs_mul_abs_self p.x
      have h2 := abs_mul_abs_self p.y
      have h3 := mul_nonneg (abs_nonneg p.x) (abs_nonneg p.y)
      linarith) FUEx.wf_square (base := 4) (by decide +kernel)
    (Or.inl ⟨_, _, _, FUEx.pair_eq FUEx.step1⟩)

/-! ### C92: the shape factor -/

/-- The constant of the code (src/algorithm/FacetGeometry.h:116) fulfils the hypotheses below. -/
example : (0 : ℚ) ≤ 34641016151377544 / 10 ^ 16 ∧
    (34641016151377544 / 10 ^ 16 : ℚ) * (34641016151377544 / 10 ^ 16) ≤ 12 := by norm_num

theorem shape_bound (c : K) (hc : 0 ≤ c) (hc2 : c * c ≤ 12) (p q r : Pt K) :
    c * triArea p q r ≤ 1 / 2 * (Pt.normSq (q - p) + Pt.normSq (r - q) + Pt.normSq (p - r)) := by
  unfold triArea Pt.cross Pt.normSq
  simp only [Pt.sub_x, Pt.sub_y]
  obtain ⟨a, ha⟩ : ∃ a, a = q.x - p.x := ⟨_, rfl⟩
  obtain ⟨b, hb⟩ : ∃ b, b = q.y - p.y := ⟨_, rfl⟩
  obtain ⟨d, hd⟩ : ∃ d, d = r.x - p.x := ⟨_, rfl⟩
  obtain ⟨e, he⟩ : ∃ e, e = r.y - p.y := ⟨_, rfl⟩
  have h1 : r.x - q.x = d - a := by rw [ha, hd]; ring
  have h2 : r.y - q.y = e - b := by rw [hb, he]; ring
  have h3 : p.x - r.x = -d := by rw [hd]; ring
  have h4 : p.y - r.y = -e := by rw [he]; ring
  rw [h1, h2, h3, h4, ← ha, ← hb, ← hd, ← he]
  have hS : 0 ≤ 1 / 2 * (a * a + b * b + ((d - a) * (d - a) + (e - b) * (e - b)) + (-d * -d + -e * -e)) := by
    have := mul_self_nonneg a
    have := mul_self_nonneg b
    have := mul_self_nonneg d
    have := mul_self_nonneg e
    have := mul_self_nonneg (d - a)
    have := mul_self_nonneg (e - b)
    linarith
  refine le_of_sq_le_sq ?_ hS
  have hx := mul_self_nonneg (a * e - b * d)
  have hm : c * c * ((a * e - b * d) * (a * e - b * d)) ≤ 12 * ((a * e - b * d) * (a * e - b * d)) :=
    mul_le_mul_of_nonneg_right hc2 hx
  have g1 := mul_self_nonneg (2 * (a * d + b * e) - (a * a + b * b + (d * d + e * e)) / 2)
  have g2 := mul_self_nonneg (a * a + b * b - (d * d + e * e))
  have key : (1 / 2 * (a * a + b * b + ((d - a) * (d - a) + (e - b) * (e - b)) + (-d * -d + -e * -e))) ^ 2 =
      3 * ((a * e - b * d) * (a * e - b * d)) +
      (2 * (a * d + b * e) - (a * a + b * b + (d * d + e * e)) / 2) * (2 * (a * d + b * e) - (a * a + b * b + (d * d + e * e)) / 2) +
      3 / 4 * ((a * a + b * b - (d * d + e * e)) * (a * a + b * b - (d * d + e * e))) := by ring
  rw [key]
  have : (c * (1 / 2 * (a * e - b * d))) ^ 2 = 1 / 4 * (c * c * ((a * e - b * d) * (a * e - b * d))) := by ring
  rw [this]
  linarith

theorem cppMIN_ratio {l h : K} (hl : 0 < l) (hh : 0 < h) : 0 < cppMIN (l / h) (h / l) ∧ cppMIN (l / h) (h / l) ≤ 1 := by
  have h1 : 0 < l / h := div_pos hl hh
  have h2 : 0 < h / l := div_pos hh hl
  unfold cppMIN
  split_ifs with hc
  · refine ⟨h1, ?_⟩
    rcases le_total l h with h3 | h3
    · exact (div_le_one hh).mpr h3
    · exact le_trans (le_of_lt hc) ((div_le_one hl).mpr h3)
  · refine ⟨h2, ?_⟩
    rcases le_total l h with h3 | h3
    · exact le_trans (not_lt.mp hc) ((div_le_one hh).mpr h3)
    · exact (div_le_one hl).mpr h3

/-- **C92 (partial).** The shape factor of a triangle with positive area lies in `(0, 1/2]`, and the quality
in `(0, shape factor]`.  Missing: the documented value 1 of equilateral triangles is not reached (see
`C92_equilateral_violated`). -/
theorem C92_shape_range_partial {env : Env K} (hc : 0 < env.normFactor) (hc2 : env.normFactor * env.normFactor ≤ 12)
    (hn : ∀ p, Pt.normSq p ≤ env.norm p * env.norm p) {p q r : Pt K} (hA : 0 < triArea p q r)
    (hl : 0 < edgeLength env p q ∧ 0 < edgeLength env q r ∧ 0 < edgeLength env r p) :
    (0 < shapeFactor env p q r ∧ shapeFactor env p q r ≤ 1 / 2) ∧
    ∀ h, 0 < h → 0 < quality env h p q r ∧ quality env h p q r ≤ shapeFactor env p q r := by
  obtain ⟨l1, l2, l3⟩ := hl
  have hs : 0 < shapeFactor env p q r ∧ shapeFactor env p q r ≤ 1 / 2 := by
    unfold shapeFactor
    have hS : 0 < edgeLength env p q * edgeLength env p q + edgeLength env q r * edgeLength env q r +
        edgeLength env r p * edgeLength env r p :=
      add_pos (add_pos (mul_pos l1 l1) (mul_pos l2 l2)) (mul_pos l3 l3)
    dsimp only
    rw [if_pos hS]
    refine ⟨div_pos (mul_pos hc hA) hS, ?_⟩
    rw [div_le_iff₀ hS]
    refine le_trans (shape_bound _ (le_of_lt hc) hc2 p q r) ?_
    refine mul_le_mul_of_nonneg_left ?_ (by positivity)
    exact add_le_add (add_le_add (hn _) (hn _)) (hn _)
  refine ⟨hs, fun h hh => ?_⟩
  obtain ⟨a1, b1⟩ := cppMIN_ratio l1 hh
  obtain ⟨a2, b2⟩ := cppMIN_ratio l2 hh
  obtain ⟨a3, b3⟩ := cppMIN_ratio l3 hh
  unfold quality
  dsimp only
  refine ⟨mul_pos (mul_pos (mul_pos hs.1 a1) a2) a3, ?_⟩
  have m1 := mul_le_of_le_one_right (le_of_lt hs.1) b1
  have p1 := mul_pos hs.1 a1
  have m2 := mul_le_of_le_one_right (le_of_lt p1) b2
  have p2 := mul_pos p1 a2
  have m3 := mul_le_of_le_one_right (le_of_lt p2) b3
  linarith

/-- **C92 (violated).** The comment in the code promises the shape factor 1 for equilateral triangles.  With
exact arithmetic (`norm_factor` the root of 12) every equilateral triangle has the shape factor 1/2. -/
theorem C92_equilateral_violated {env : Env K} (hc : 0 ≤ env.normFactor) (hc2 : env.normFactor * env.normFactor = 12)
    (hn : ∀ p, env.norm p * env.norm p = Pt.normSq p) {p q r : Pt K} (hA : 0 < triArea p q r)
    (e1 : Pt.normSq (r - q) = Pt.normSq (q - p)) (e2 : Pt.normSq (p - r) = Pt.normSq (q - p)) :
    shapeFactor env p q r = 1 / 2 := by
  have hsq : (env.normFactor * triArea p q r) ^ 2 = (3 / 2 * Pt.normSq (q - p)) ^ 2 := by
    have : (env.normFactor * triArea p q r) ^ 2 = 12 * (triArea p q r) ^ 2 := by
      rw [← hc2]; ring
    rw [this]
    have hd : Pt.normSq (q - p) = 2 * ((q.x - p.x) * (r.x - p.x) + (q.y - p.y) * (r.y - p.y)) := by
      have : Pt.normSq (r - q) = Pt.normSq (q - p) + Pt.normSq (p - r) -
          2 * ((q.x - p.x) * (r.x - p.x) + (q.y - p.y) * (r.y - p.y)) := by
        simp only [Pt.normSq, Pt.sub_x, Pt.sub_y]; ring
      linarith
    have hl : triArea p q r ^ 2 = 1 / 4 * (Pt.normSq (q - p) * Pt.normSq (p - r) -
        ((q.x - p.x) * (r.x - p.x) + (q.y - p.y) * (r.y - p.y)) ^ 2) := by
      unfold triArea Pt.cross
      simp only [Pt.normSq, Pt.sub_x, Pt.sub_y]; ring
    rw [hl, e2]
    have : (q.x - p.x) * (r.x - p.x) + (q.y - p.y) * (r.y - p.y) = Pt.normSq (q - p) / 2 := by linarith
    rw [this]; ring
  have hN : 0 ≤ Pt.normSq (q - p) := normSq_nonneg _
  have heq : env.normFactor * triArea p q r = 3 / 2 * Pt.normSq (q - p) :=
    (pow_left_inj₀ (mul_nonneg hc (le_of_lt hA)) (by positivity) two_ne_zero).mp hsq
  have hcp : 0 < env.normFactor := lt_of_le_of_ne hc (by rintro h0; rw [← h0] at hc2; norm_num at hc2)
  have hNp : 0 < Pt.normSq (q - p) := by
    have := mul_pos hcp hA
    linarith
  unfold shapeFactor edgeLength
  dsimp only
  rw [hn, hn, hn, e1, e2, if_pos (by linarith), heq]
  rw [div_eq_iff (by linarith)]
  ring

/-- **C92.** A consequence: with a limit `min_cell_quality` above 1/2 no triangle is ever accepted. -/
theorem C92_quality_limit {env : Env K} (hc : 0 < env.normFactor) (hc2 : env.normFactor * env.normFactor ≤ 12)
    (hn : ∀ p, Pt.normSq p ≤ env.norm p * env.norm p) (hr : ∀ x, 0 < env.rho x) (hm : 1 / 2 < env.minQuality)
    (s : St K) (t a b c : Nat) : triangleIsValid env s t a b c = false := by
  unfold triangleIsValid
  dsimp only
  by_cases hv : checkValidity env (s.pos a) (s.pos b) (s.pos c) = true
  · have hv' := hv
    unfold checkValidity at hv
    split_ifs at hv with h1 h2
    · simp only [not_or, not_le] at h1 h2
      obtain ⟨⟨_, u1⟩, u2⟩ := C92_shape_range_partial hc hc2 hn h1 h2
      have hq := (u2 (env.rho (triCentroid (s.pos a) (s.pos b) (s.pos c))) (hr _)).2
      have : quality env (env.rho (triCentroid (s.pos a) (s.pos b) (s.pos c))) (s.pos a) (s.pos b) (s.pos c) <
          env.minQuality := by linarith
      rw [hv']
      simp only [this, if_true]
      split_ifs <;> rfl
  · simp only [Bool.not_eq_true] at hv
    rw [hv]; rfl

/-- A triangle over the rationals with positive shape factor (the norm is an upper bound of the length). -/
example : triArea (⟨0, 0⟩ : Pt ℚ) ⟨1, 0⟩ ⟨1/2, 1⟩ = 1 / 2 ∧
    shapeFactor FUEx.env ⟨0, 0⟩ ⟨1, 0⟩ ⟨1/2, 1⟩ = 3 / 11 := by decide +kernel

/-- An equilateral triangle over the reals with exact `norm_factor` and Euclidean length. -/
noncomputable def FUEx.renv : Env ℝ where
  eps := 1 / 1000
  rho := fun _ => 1
  inside := fun _ => true
  bdryEdges := fun _ _ => []
  norm := fun p => Real.sqrt (Pt.normSq p)
  maxAngle := fun _ _ _ => 0
  minQuality := 0
  maxCellAngle := 180
  normFactor := Real.sqrt 12
  qVerts := fun _ _ _ => []
  qTris := fun _ _ _ => []
  qQuads := fun _ _ _ => []
  qFront := fun _ _ _ => []
  sort := fun _ l => l

example : shapeFactor FUEx.renv ⟨0, 0⟩ ⟨1, 0⟩ ⟨1/2, Real.sqrt 3 / 2⟩ = 1 / 2 := by
  have h3 : Real.sqrt 3 * Real.sqrt 3 = 3 := Real.mul_self_sqrt (by norm_num)
  refine C92_equilateral_violated (Real.sqrt_nonneg _) (Real.mul_self_sqrt (by norm_num))
    (fun p => Real.mul_self_sqrt (normSq_nonneg p)) ?_ ?_ ?_
  · have : 0 < Real.sqrt 3 := Real.sqrt_pos.mpr (by norm_num)
    unfold triArea Pt.cross
    simp only [Pt.sub_x, Pt.sub_y]
    linarith
  · simp only [Pt.normSq, Pt.sub_x, Pt.sub_y]; linarith
  · simp only [Pt.normSq, Pt.sub_x, Pt.sub_y]; linarith

end TQ

#print axioms TQ.C34_area_conserved
#print axioms TQ.C34_area_is_sum
#print axioms TQ.C35_chain
#print axioms TQ.C35_complete
#print axioms TQ.C36_balance_partial
#print axioms TQ.C36_balance_violated
#print axioms TQ.C37_sides_counted
#print axioms TQ.C37_complete
#print axioms TQ.C37_one_interior_edge
#print axioms TQ.C38_best_triangle
#print axioms TQ.C39_failed_update
#print axioms TQ.C40_on_front_violated
#print axioms TQ.C40_step_partial
#print axioms TQ.C40_front_flagged_partial
#print axioms TQ.C90_cover
#print axioms TQ.C90_tiling
#print axioms TQ.C91_no_vertex_inside

#print axioms TQ.C92_shape_range_partial
#print axioms TQ.C92_equilateral_violated
#print axioms TQ.C92_quality_limit

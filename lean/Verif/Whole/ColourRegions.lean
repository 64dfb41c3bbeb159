import Verif.Whole.Colours
import Verif.Whole.UnionProps
import Verif.Whole.AppRun

/-! # Lemmas: the regions covered by the elements of one colour -/

set_option linter.unusedSectionVars false
set_option linter.unusedSimpArgs false

namespace TQ.Whole
open TQ TQ.MS TQ.MS.St TQ.MeshSpec TQ.FUSpec TQ.MCSpec TQ.WholeSpec TQ.FU TQ.Sm TQ.MC TQ.RefSpec TQ.CleanSpec TQ.MM TQ.MergeSpec TQ.SmSpec TQ.AM
variable {K : Type*} [Field K] [LinearOrder K] [IsStrictOrderedRing K]

/-! ### Sums over chains -/

/-- Sums depend only on the edges that are not passed in both directions. -/
theorem sum_zero_of_chain {u : Nat × Nat → Int} (anti : ∀ a b, u (a, b) = - u (b, a)) {l : List (Nat × Nat)}
    (h : ∀ a b, chain l a b ≠ 0 → u (a, b) = 0) : (l.map u).sum = 0 := by
  have hs : (l.map u).sum = ((l.filter fun e => decide (u e ≠ 0)).map u).sum := by
    clear h
    induction l with
    | nil => rfl
    | cons e l ih =>
      rw [List.map_cons, List.sum_cons, ih, List.filter_cons]
      by_cases he : u e = 0
      · simp [he]
      · simp [he]
  rw [hs]
  refine sum_of_cancel anti _ _ le_rfl fun a b => ?_
  by_cases hu : u (a, b) = 0
  · have hv : u (b, a) = 0 := by have := anti a b; omega
    unfold chain
    rw [List.count_eq_zero.mpr, List.count_eq_zero.mpr]
    · rfl
    · simp [hv]
    · simp [hu]
  · have hv : u (b, a) ≠ 0 := by have := anti a b; omega
    have hc : chain l a b = 0 := by
      by_contra hn
      exact hu (h a b hn)
    unfold chain at hc ⊢
    rw [List.count_filter (by simpa using hu), List.count_filter (by simpa using hv)]
    exact hc

theorem sum_sub (l : List (Nat × Nat)) (u v : Nat × Nat → Int) : (l.map fun e => u e - v e).sum = (l.map u).sum - (l.map v).sum := by
  induction l with
  | nil => rfl
  | cons e l ih => rw [List.map_cons, List.sum_cons, ih, List.map_cons, List.sum_cons, List.map_cons, List.sum_cons]; ring

theorem fix_bit : ∀ x : BitVec 8, (x &&& Flags.vIsFixed ≠ 0) = (x.getLsbD 2 = true) := by
  unfold Flags.vIsFixed; decide

theorem fix_or (p1 p2 : BitVec 8) (h : p1 &&& Flags.vIsFixed ≠ 0 ∨ p2 &&& Flags.vIsFixed ≠ 0) : (p1 ||| p2) &&& Flags.vIsFixed ≠ 0 := by
  rw [fix_bit, fix_bit] at h
  rw [fix_bit, BitVec.getLsbD_or]
  rcases h with h | h <;> rw [h] <;> simp

theorem fix_mid' (p1 p2 : BitVec 8) (h : p1 &&& Flags.vIsFixed ≠ 0) : (0 ||| p1 ||| p2) &&& Flags.vIsFixed ≠ 0 :=
  fix_or _ _ (Or.inl (fix_or _ _ (Or.inr h)))

theorem fix_mid (p1 p2 : BitVec 8) (h : p1 &&& Flags.vIsFixed ≠ 0) : ((0 ||| p1 ||| p2) &&& ~~~ Flags.vOnBoundary) &&& Flags.vIsFixed ≠ 0 := by
  have e : ∀ x : BitVec 8, x.getLsbD 2 = true → (x &&& ~~~ Flags.vOnBoundary).getLsbD 2 = true := by
    intro x hx
    rw [BitVec.getLsbD_and, hx]
    decide
  rw [fix_bit]
  refine e _ ?_
  rw [← fix_bit]
  exact fix_mid' p1 p2 h

/-- Passing `a → b`, counted with sign. -/
def unit (a b : Nat) (e : Nat × Nat) : Int := (if e = (a, b) then 1 else 0) - if e = (b, a) then 1 else 0

theorem unit_anti (x y a b : Nat) : unit x y (a, b) = - unit x y (b, a) := by
  unfold unit
  have e1 : ((b, a) = (x, y)) = ((a, b) = (y, x)) := by simp only [Prod.mk.injEq, and_comm]
  have e2 : ((b, a) = (y, x)) = ((a, b) = (x, y)) := by simp only [Prod.mk.injEq, and_comm]
  simp only [e1, e2]
  ring

theorem chain_unit (l : List (Nat × Nat)) (a b : Nat) : chain l a b = (l.map (unit a b)).sum := by
  unfold chain
  induction l with
  | nil => rfl
  | cons e l ih =>
    rw [List.map_cons, List.sum_cons, ← ih, List.count_cons, List.count_cons]
    unfold unit
    simp only [beq_iff_eq]
    push_cast
    ring

theorem unit_ne {x y : Nat} {e : Nat × Nat} (h : unit x y e ≠ 0) : e = (x, y) ∨ e = (y, x) := by
  unfold unit at h
  by_contra hn
  rw [not_or] at hn
  exact h (by rw [if_neg hn.1, if_neg hn.2]; rfl)

theorem chain_mem {l : List (Nat × Nat)} {a b : Nat} (h : chain l a b ≠ 0) : (a, b) ∈ l ∨ (b, a) ∈ l := by
  by_contra hn
  rw [not_or] at hn
  unfold chain at h
  rw [List.count_eq_zero.mpr hn.1, List.count_eq_zero.mpr hn.2] at h
  exact h rfl

/-! ### Sides of the elements of a colour -/

/-- The sides of the elements of colour `k`. -/
def colSides (k : Int) (s : St K) : List (Nat × Nat) := ((facets s).filter fun f => decide ((s.F f).color = k)).flatMap fun f => sidesOf (s.F f).corners

theorem sum_filter {α : Type*} (l : List α) (p : α → Prop) [DecidablePred p] (g : α → Int) : ((l.filter fun x => decide (p x)).map g).sum = (l.map fun x => if p x then g x else 0).sum := by
  induction l with
  | nil => rfl
  | cons x l ih =>
    rw [List.filter_cons, List.map_cons, List.sum_cons, ← ih]
    by_cases h : p x
    · simp [h]
    · simp [h]

theorem col_sum (k : Int) (s : St K) (w : Nat × Nat → Int) :
    ((colSides k s).map w).sum = ((facets s).map fun f => if (s.F f).color = k then ((sidesOf (s.F f).corners).map w).sum else 0).sum := by
  unfold colSides
  rw [sum_flatMapI, sum_filter]

theorem colSides_covered {k : Int} {s : St K} {e : Nat × Nat} (h : e ∈ colSides k s) : Covered s e.1 e.2 := by
  unfold colSides at h
  obtain ⟨f, hf, he⟩ := List.mem_flatMap.mp h
  rw [List.mem_filter] at hf
  exact ⟨f, mem_facets.mp hf.1, mem_sidesOf.mp he⟩

theorem covered_verts {s : St K} (h : WF s) {a b : Nat} (hc : Covered s a b) : a ∈ s.verts ∧ b ∈ s.verts := by
  obtain ⟨f, hf, hs⟩ := hc
  have hv := (h.cor f hf).2
  have := mem_sidesOf.mpr (show HasSide s f (a, b).1 (a, b).2 from hs)
  rcases corners_cases h hf with ⟨x, y, z, hc⟩ | ⟨x, y, z, v, hc⟩
  · rw [hc, sides3] at this
    rw [hc] at hv
    simp only [List.mem_cons, List.not_mem_nil, or_false, Prod.mk.injEq] at this
    rcases this with ⟨rfl, rfl⟩ | ⟨rfl, rfl⟩ | ⟨rfl, rfl⟩ <;> exact ⟨hv _ (by simp), hv _ (by simp)⟩
  · rw [hc, sides4] at this
    rw [hc] at hv
    simp only [List.mem_cons, List.not_mem_nil, or_false, Prod.mk.injEq] at this
    rcases this with ⟨rfl, rfl⟩ | ⟨rfl, rfl⟩ | ⟨rfl, rfl⟩ | ⟨rfl, rfl⟩ <;> exact ⟨hv _ (by simp), hv _ (by simp)⟩

/-- The vertex is marked as fixed. -/
def Fix (s : St K) (v : Nat) : Prop := (s.V v).props &&& Flags.vIsFixed ≠ 0

/-- The vertices are the ends of a boundary edge. -/
def OnRim (s : St K) (a b : Nat) : Prop := (a, b) ∈ pairs s .bdry ∨ (b, a) ∈ pairs s .bdry

/-- Sides between elements of different colours are boundary edges or between fixed vertices. -/
def Guarded (s : St K) : Prop := ∀ k a b, chain (colSides k s) a b ≠ 0 → OnRim s a b ∨ (Fix s a ∧ Fix s b)

/-- `reg k` is the winding number of the region of colour `k`. -/
structure Painted (reg : Int → Pt K → Int) (s : St K) : Prop where
  region : ∀ k p, winding s.pos (colSides k s) p = reg k p
  guarded : Guarded s
  nonneg : ∀ f, Live s f → 0 ≤ (s.F f).color

theorem rim_swap {s : St K} {a b : Nat} (h : OnRim s a b) : OnRim s b a := h.symm

theorem crossing_anti' (pos : Nat → Pt K) (p : Pt K) (a b : Nat) : (fun e : Nat × Nat => crossing p (pos e.1) (pos e.2)) (a, b) = -(fun e : Nat × Nat => crossing p (pos e.1) (pos e.2)) (b, a) :=
  crossing_anti p _ _

/-! ### A mesh of one colour -/

theorem painted_first {s : St K} (h : Conforming s) {κ : Int} (hκ : 0 ≤ κ) (hc : Col κ s) :
    Painted (fun k p => if k = κ then winding s.pos (pairs s .bdry) p else 0) s := by
  have live : ∀ f, Live s f → (s.F f).color = κ := by
    intro f hf
    rcases hc.2 f with h1 | h1
    · rcases corners_cases h.wf hf with ⟨x, y, z, hh⟩ | ⟨x, y, z, v, hh⟩ <;> rw [hh] at h1 <;> simp at h1
    · exact h1
  have same : colSides κ s = allSides s := by
    unfold colSides allSides
    rw [List.filter_eq_self.mpr]
    intro f hf
    simpa using live f (mem_facets.mp hf)
  have other : ∀ k, k ≠ κ → colSides k s = [] := by
    intro k hk
    unfold colSides
    rw [List.filter_eq_nil_iff.mpr]
    · rfl
    intro f hf
    simpa [live f (mem_facets.mp hf)] using Ne.symm hk
  refine ⟨fun k p => ?_, fun k a b hn => ?_, fun f hf => by rw [live f hf]; exact hκ⟩
  · by_cases hk : k = κ
    · subst hk
      rw [if_pos rfl, same, conforming_winding h]
    · rw [if_neg hk, other k hk]
      simp [winding]
  · by_cases hk : k = κ
    · subst hk
      rw [same, conforming_chain h] at hn
      exact Or.inl (chain_mem hn)
    · rw [other k hk] at hn
      exact absurd rfl hn

/-! ### Other places of the vertices -/

theorem painted_places {reg : Int → Pt K → Int} {s t : St K} (h : Painted reg s) (hf : BdryFlagged s) {l : Bool} (hp : SameButPlaces s t)
    (hq : ∀ v, Pinned l s v → t.pos v = s.pos v) : Painted reg t := by
  have hfc : facets t = facets s := by unfold facets; rw [hp.tris, hp.quads]
  have e1 : ∀ k, colSides k t = colSides k s := by
    intro k
    unfold colSides
    rw [hfc]
    simp only [(hp.corners _).1, (hp.corners _).2.1]
  have e2 : pairs t .bdry = pairs s .bdry := (places_bdry hf hp hq).1
  refine ⟨fun k p => ?_, fun k a b hn => ?_, fun f hl => ?_⟩
  · rw [e1, ← h.region k p, winding_eq, winding_eq]
    have := sum_zero_of_chain (u := fun e => crossing p (t.pos e.1) (t.pos e.2) - crossing p (s.pos e.1) (s.pos e.2)) (l := colSides k s)
      (fun a b => by
        have h1 := crossing_anti p (t.pos a) (t.pos b)
        have h2 := crossing_anti p (s.pos a) (s.pos b)
        dsimp only
        omega)
      (fun a b hn => by
        have key : t.pos a = s.pos a ∧ t.pos b = s.pos b := by
          rcases h.guarded k a b hn with (hr | hr) | ⟨ha, hb⟩
          · exact (places_bdry hf hp hq).2 _ hr
          · exact ((places_bdry hf hp hq).2 _ hr).symm
          · exact ⟨hq a (Or.inl ha), hq b (Or.inl hb)⟩
        dsimp only
        rw [key.1, key.2]; ring)
    rw [sum_sub] at this
    omega
  · rw [e1] at hn
    unfold OnRim Fix
    rw [e2, (hp.V a).1, (hp.V b).1]
    exact h.guarded k a b hn
  · rw [(hp.corners f).2.1]
    exact h.nonneg f ((sp_live hp f).mp hl)

/-! ### Refinement -/

section
open Classical in
/-- The vertex in the middle of a side. -/
noncomputable def onSide (s : St K) (N : Names) (e : Nat × Nat) : Nat :=
  if Covered s e.1 e.2 then N.mid (N.edge e.1 e.2) else if Covered s e.2 e.1 then N.mid (N.edge e.2 e.1) else 0

variable {s t : St K} {N : Names} (R : Refined s t N) (h : Conforming s)
include R h

theorem edge_eq {e e' a b : Nat} (he : e ∈ s.es .intr ∨ e ∈ s.es .bdry) (he' : e' ∈ s.es .intr ∨ e' ∈ s.es .bdry) (h1 : Connects s e a b) (h2 : Connects s e' a b) : e = e' := by
  refine h.unique e he e' he' ?_
  unfold SameEnds
  rcases h1 with ⟨h1, h3⟩ | ⟨h1, h3⟩ <;> rcases h2 with ⟨h2, h4⟩ | ⟨h2, h4⟩ <;> rw [h1, h2, h3, h4] <;> simp

theorem connects_swap {e a b : Nat} (h1 : Connects s e a b) : Connects s e b a := h1.symm

theorem onSide_swap (a b : Nat) : onSide s N (a, b) = onSide s N (b, a) := by
  unfold onSide
  by_cases h1 : Covered s a b <;> by_cases h2 : Covered s b a <;> simp only [h1, h2, if_true, if_false]
  obtain ⟨k1, k2⟩ := R.edge a b h1
  obtain ⟨k3, k4⟩ := R.edge b a h2
  rw [edge_eq R h k1 k3 k2 k4.symm]

theorem onSide_covered {a b : Nat} (h1 : Covered s a b) : onSide s N (a, b) = N.mid (N.edge a b) := by
  unfold onSide
  simp only [h1, if_true]

/-- Sums over the sides of the sub quads. -/
theorem refined_sum (k : Int) {w : Nat × Nat → Int} (anti : ∀ a b, w (a, b) = - w (b, a)) :
    ((colSides k t).map w).sum = ((colSides k s).map fun e => w (e.1, onSide s N e) + w (onSide s N e, e.2)).sum := by
  rw [col_sum, col_sum]
  have hf : facets t = (facets s).flatMap fun f => (List.range (s.F f).corners.length).map fun i => FRef.quad (N.sub f i) := by
    unfold facets
    rw [R.tris, R.quads]
    simp only [List.map_nil, List.nil_append, List.map_flatMap, List.map_map]
    rfl
  rw [hf, sum_flatMapI]
  congr 1
  refine List.map_congr_left fun f hm => ?_
  have hl := mem_facets.mp hm
  have cov : ∀ e ∈ sidesOf (s.F f).corners, onSide s N e = N.mid (N.edge e.1 e.2) := fun e he =>
    onSide_covered R h ⟨f, hl, mem_sidesOf.mp he⟩
  have sub := R.subs f hl
  rcases corners_cases h.wf hl with ⟨a, b, c, hc⟩ | ⟨a, b, c, d, hc⟩
  · rw [hc] at sub cov ⊢
    rw [sides3] at cov ⊢
    obtain ⟨s01, s02, -⟩ := sub 0 _ rfl
    obtain ⟨s11, s12, -⟩ := sub 1 _ rfl
    obtain ⟨s21, s22, -⟩ := sub 2 _ rfl
    have r3 : List.range [a, b, c].length = [0, 1, 2] := rfl
    rw [r3]
    simp only [List.map_cons, List.map_nil, List.sum_cons, List.sum_nil, s01, s02, s11, s12, s21, s22, sides4]
    rw [cov (b, c) (by simp), cov (c, a) (by simp), cov (a, b) (by simp)]
    split_ifs with hk
    · have a1 := anti (N.mid (N.edge a b)) (N.ctr f)
      have a2 := anti (N.mid (N.edge b c)) (N.ctr f)
      have a3 := anti (N.mid (N.edge c a)) (N.ctr f)
      linarith
    · rfl
  · rw [hc] at sub cov ⊢
    rw [sides4] at cov ⊢
    obtain ⟨s01, s02, -⟩ := sub 0 _ rfl
    obtain ⟨s11, s12, -⟩ := sub 1 _ rfl
    obtain ⟨s21, s22, -⟩ := sub 2 _ rfl
    obtain ⟨s31, s32, -⟩ := sub 3 _ rfl
    have r4 : List.range [a, b, c, d].length = [0, 1, 2, 3] := rfl
    rw [r4]
    simp only [List.map_cons, List.map_nil, List.sum_cons, List.sum_nil, s01, s02, s11, s12, s21, s22, s31, s32, sides4]
    rw [cov (b, c) (by simp), cov (c, d) (by simp), cov (d, a) (by simp), cov (a, b) (by simp)]
    split_ifs with hk
    · have a1 := anti (N.mid (N.edge a b)) (N.ctr f)
      have a2 := anti (N.mid (N.edge b c)) (N.ctr f)
      have a3 := anti (N.mid (N.edge c d)) (N.ctr f)
      have a4 := anti (N.mid (N.edge d a)) (N.ctr f)
      linarith
    · rfl

theorem painted_refined {reg : Int → Pt K → Int} (hp : Painted reg s) : Painted reg t := by
  have anti2 : ∀ {w : Nat × Nat → Int}, (∀ a b, w (a, b) = - w (b, a)) → ∀ a b,
      (fun e : Nat × Nat => w (e.1, onSide s N e) + w (onSide s N e, e.2)) (a, b) = -(fun e : Nat × Nat => w (e.1, onSide s N e) + w (onSide s N e, e.2)) (b, a) := by
    intro w anti a b
    dsimp only
    rw [onSide_swap R h b a, anti b, anti (onSide s N (a, b)) a]
    ring
  refine ⟨fun k p => ?_, fun k x y hn => ?_, fun f hl => ?_⟩
  · rw [← hp.region k p, winding_eq, winding_eq, refined_sum R h k (crossing_anti' t.pos p)]
    congr 1
    refine List.map_congr_left fun e he => ?_
    have hc := colSides_covered he
    obtain ⟨hv1, hv2⟩ := covered_verts h.wf hc
    obtain ⟨k1, k2⟩ := R.edge e.1 e.2 hc
    rw [onSide_covered R h hc]
    dsimp only
    rw [(R.old _ hv1).1, (R.old _ hv2).1]
    refine crossing_between ?_
    have hm : 2 * (t.pos (N.mid (N.edge e.1 e.2))).x = (s.pos (s.E (N.edge e.1 e.2)).v1).x + (s.pos (s.E (N.edge e.1 e.2)).v2).x ∧
        2 * (t.pos (N.mid (N.edge e.1 e.2))).y = (s.pos (s.E (N.edge e.1 e.2)).v1).y + (s.pos (s.E (N.edge e.1 e.2)).v2).y := by
      rcases k1 with k1 | k1
      · exact R.midPos .intr (by decide) _ k1
      · exact R.midPos .bdry (by decide) _ k1
    obtain ⟨m1, m2⟩ := hm
    refine ⟨1 / 2, by norm_num, by norm_num, ?_⟩
    rcases k2 with ⟨k2, k3⟩ | ⟨k2, k3⟩ <;> rw [k2, k3] at m1 m2 <;> apply Pt.ext'
    · show _ = (s.pos e.1).x + 1 / 2 * ((s.pos e.2).x - (s.pos e.1).x)
      linear_combination 1 / 2 * m1
    · show _ = (s.pos e.1).y + 1 / 2 * ((s.pos e.2).y - (s.pos e.1).y)
      linear_combination 1 / 2 * m2
    · show _ = (s.pos e.1).x + 1 / 2 * ((s.pos e.2).x - (s.pos e.1).x)
      linear_combination 1 / 2 * m1
    · show _ = (s.pos e.1).y + 1 / 2 * ((s.pos e.2).y - (s.pos e.1).y)
      linear_combination 1 / 2 * m2
  · rw [chain_unit, refined_sum R h k (unit_anti x y)] at hn
    have : ∃ a b, chain (colSides k s) a b ≠ 0 ∧ unit x y (a, onSide s N (a, b)) + unit x y (onSide s N (a, b), b) ≠ 0 := by
      by_contra hno
      push Not at hno
      exact hn (sum_zero_of_chain (anti2 (unit_anti x y)) hno)
    obtain ⟨a, b, hc, hu⟩ := this
    have hm : ∃ e, (e ∈ s.es .intr ∨ e ∈ s.es .bdry) ∧ Connects s e a b ∧ onSide s N (a, b) = N.mid e ∧ a ∈ s.verts ∧ b ∈ s.verts := by
      rcases chain_mem hc with h1 | h1
      · obtain ⟨k1, k2⟩ := R.edge a b (colSides_covered h1)
        obtain ⟨v1, v2⟩ := covered_verts h.wf (colSides_covered h1)
        exact ⟨_, k1, k2, onSide_covered R h (colSides_covered h1), v1, v2⟩
      · obtain ⟨k1, k2⟩ := R.edge b a (colSides_covered h1)
        obtain ⟨v1, v2⟩ := covered_verts h.wf (colSides_covered h1)
        exact ⟨_, k1, k2.symm, by rw [onSide_swap R h]; exact onSide_covered R h (colSides_covered h1), v2, v1⟩
    obtain ⟨e, he, hcon, hmid, va, vb⟩ := hm
    rw [hmid] at hu
    have good : (OnRim t a (N.mid e) ∨ (Fix t a ∧ Fix t (N.mid e))) ∧ (OnRim t (N.mid e) b ∨ (Fix t (N.mid e) ∧ Fix t b)) := by
      rcases hp.guarded k a b hc with hr | ⟨fa, fb⟩
      · have heb : e ∈ s.es .bdry := by
          have : ∃ e' ∈ s.es .bdry, Connects s e' a b := by
            rcases hr with hr | hr
            · obtain ⟨e', h1, h2⟩ := List.mem_map.mp hr
              simp only [Prod.mk.injEq] at h2
              exact ⟨e', h1, Or.inl h2⟩
            · obtain ⟨e', h1, h2⟩ := List.mem_map.mp hr
              simp only [Prod.mk.injEq] at h2
              exact ⟨e', h1, Or.inr h2⟩
          obtain ⟨e', h1, h2⟩ := this
          rw [edge_eq R h he (Or.inr h1) hcon h2]; exact h1
        have q1 : (N.half e).1 ∈ t.es .bdry := by rw [R.bdry]; exact List.mem_flatMap.mpr ⟨e, heb, by simp⟩
        have q2 : (N.half e).2 ∈ t.es .bdry := by rw [R.bdry]; exact List.mem_flatMap.mpr ⟨e, heb, by simp⟩
        obtain ⟨⟨r1, r2⟩, r3, r4⟩ := R.halves .bdry (by decide) e heb
        have p1 := mem_pairs_of q1
        have p2 := mem_pairs_of q2
        rw [r1, r2] at p1
        rw [r3, r4] at p2
        rcases hcon with ⟨c1, c2⟩ | ⟨c1, c2⟩ <;> rw [c1] at p1 <;> rw [c2] at p2
        · exact ⟨Or.inl (Or.inl p1), Or.inl (Or.inl p2)⟩
        · exact ⟨Or.inl (Or.inr p2), Or.inl (Or.inr p1)⟩
      · have f1 : Fix t a := by unfold Fix; rw [(R.old a va).2]; exact fa
        have f2 : Fix t b := by unfold Fix; rw [(R.old b vb).2]; exact fb
        have f3 : Fix t (N.mid e) := by
          have k3 : (s.V (s.E e).v1).props &&& Flags.vIsFixed ≠ 0 ∧ (s.V (s.E e).v2).props &&& Flags.vIsFixed ≠ 0 := by
            rcases hcon with ⟨c1, c2⟩ | ⟨c1, c2⟩ <;> rw [c1, c2]
            · exact ⟨fa, fb⟩
            · exact ⟨fb, fa⟩
          unfold Fix
          rcases he with he | he
          · rw [R.midIntr e he]
            unfold allProps
            simp only [List.foldl_cons, List.foldl_nil]
            generalize (s.V (s.E e).v1).props = p1 at k3 ⊢
            generalize (s.V (s.E e).v2).props = p2 at k3 ⊢
            exact fix_mid p1 p2 k3.1
          · rw [R.midBdry e he]
            unfold allProps
            simp only [List.foldl_cons, List.foldl_nil]
            generalize (s.V (s.E e).v1).props = p1 at k3 ⊢
            generalize (s.V (s.E e).v2).props = p2 at k3 ⊢
            exact fix_mid' p1 p2 k3.1
        exact ⟨Or.inr ⟨f1, f3⟩, Or.inr ⟨f3, f2⟩⟩
    have hu' : unit x y (a, N.mid e) ≠ 0 ∨ unit x y (N.mid e, b) ≠ 0 := by
      by_contra hno
      push Not at hno
      exact hu (by rw [hno.1, hno.2]; rfl)
    rcases hu' with hu | hu
    · rcases unit_ne hu with h1 | h1 <;> simp only [Prod.mk.injEq] at h1 <;> obtain ⟨rfl, rfl⟩ := h1
      · exact good.1
      · exact good.1.imp rim_swap And.symm
    · rcases unit_ne hu with h1 | h1 <;> simp only [Prod.mk.injEq] at h1 <;> obtain ⟨rfl, rfl⟩ := h1
      · exact good.2
      · exact good.2.imp rim_swap And.symm
  · cases f with
    | null => exact absurd hl (by simp [Live])
    | tri x => simp [Live, R.tris] at hl
    | quad q =>
      have hq : q ∈ t.quads := hl
      rw [R.quads] at hq
      obtain ⟨f, hf, hi⟩ := List.mem_flatMap.mp hq
      obtain ⟨i, hj, rfl⟩ := List.mem_map.mp hi
      have hl := mem_facets.mp hf
      have : ∃ p, (around (s.F f).corners)[i]? = some p := by
        rw [List.mem_range] at hj
        rcases corners_cases h.wf hl with ⟨a, b, c, hc⟩ | ⟨a, b, c, d, hc⟩ <;> rw [hc] at hj ⊢ <;>
          exact ⟨_, List.getElem?_eq_getElem (by simpa [around] using hj)⟩
      obtain ⟨p, hp'⟩ := this
      rw [(R.subs f hl i p hp').2.1]
      exact hp.nonneg f hl

end

/-- Refinements, done or refused. -/
theorem painted_refineAll {reg : Int → Pt K → Int} {s0 : St K} : ∀ {n : Nat} {s t : St K}, MeshOf s0 s → (n = 0 ∨ ConvexElements s) → refineAll n s = some t →
    Painted reg s → Painted reg t
  | 0, s, t, h, _, hr, hp => by
    simp only [refineAll, Option.some.injEq] at hr
    rw [← hr]; exact hp
  | n + 1, s, t, h, hc, hr, hp => by
    have hc := hc.resolve_left (Nat.succ_ne_zero n)
    simp only [refineAll, Option.bind_eq_some_iff] at hr
    obtain ⟨⟨u, b⟩, h1, h2⟩ := hr
    by_cases ht : NoTwins s
    · obtain ⟨v, N, k1, k2, k3, k4, k5⟩ := C157_refine h ht hc
      rw [h1] at k1
      simp only [Option.some.injEq, Prod.mk.injEq] at k1
      obtain ⟨rfl, rfl⟩ := k1
      exact painted_refineAll k3 (Or.inr k5) h2 (painted_refined k2 h.complete.toConforming hp)
    · have := C56_refused ht
      rw [h1] at this
      simp only [Option.some.injEq, Prod.mk.injEq] at this
      obtain ⟨rfl, rfl⟩ := this
      exact painted_refineAll h (Or.inr hc) h2 hp

/-! ### Merging -/

theorem fix_flags (t : St K) (P : Prop) [Decidable P] (v : Nat) (p : BitVec 8) (h : P ∨ p &&& Flags.vIsFixed ≠ 0) : mergedFlags t P v p &&& Flags.vIsFixed ≠ 0 := by
  have e : ∀ x : BitVec 8, ((x &&& ~~~ Flags.vOnBoundary) ||| Flags.vIsFixed) &&& Flags.vIsFixed ≠ 0 := fun x => fix_or _ _ (Or.inr (by decide))
  unfold mergedFlags
  by_cases hP : P
  · simp only [hP, if_true]
    split_ifs
    · exact fix_or _ _ (Or.inl (e p))
    · exact e p
  · simp only [hP, if_false]
    have h := h.resolve_left hP
    split_ifs
    · exact fix_or _ _ (Or.inl h)
    · exact h

section
variable {w w' : World K} {ri di : Nat} {φ : Nat → Nat} {κ : FRef → FRef} {ρ δ : Nat → Nat} (G : Glued w w' ri di φ κ ρ δ)
include G

theorem merged_sum (k : Int) (hn : ∀ f, Live (w di) f → 0 ≤ ((w di).F f).color) (ω : Nat × Nat → Int) :
    ((colSides k (w' ri)).map ω).sum = ((colSides k (w ri)).map ω).sum + ((colSides k (w di)).map fun e => ω (φ e.1, φ e.2)).sum := by
  have old : ∀ f, Live (w ri) f → (if ((w' ri).F f).color = k then ((sidesOf ((w' ri).F f).corners).map ω).sum else 0) =
      if ((w ri).F f).color = k then ((sidesOf ((w ri).F f).corners).map ω).sum else 0 := by
    intro f hf
    rw [(G.corners_old hf).1, (G.mer.oldF f hf).2.1]
  have new : ∀ f, Live (w di) f → (if ((w' ri).F (κ f)).color = k then ((sidesOf ((w' ri).F (κ f)).corners).map ω).sum else 0) =
      if ((w di).F f).color = k then ((sidesOf ((w di).F f).corners).map fun e => ω (φ e.1, φ e.2)).sum else 0 := by
    intro f hf
    obtain ⟨h1, -⟩ := G.corners_new hf
    rw [h1, (G.copies f hf).2.2.1, if_neg (not_lt.mpr (hn f hf))]
    rcases corners_cases G.adj.donor.wf hf with ⟨x, y, z, hc⟩ | ⟨x, y, z, v, hc⟩ <;> rw [hc]
    · simp only [List.map_cons, List.map_nil]
      rw [sides3, sides3]; simp
    · simp only [List.map_cons, List.map_nil]
      rw [sides4, sides4]; simp
  rw [col_sum, col_sum, col_sum]
  unfold facets
  rw [G.tris, G.quads]
  simp only [List.map_append, List.sum_append, List.map_map, Function.comp_def]
  rw [List.map_congr_left (l := (w ri).tris) (fun t ht => old (.tri t) ht), List.map_congr_left (l := (w ri).quads) (fun t ht => old (.quad t) ht),
    List.map_congr_left (l := (w di).tris) (fun t ht => new (.tri t) ht), List.map_congr_left (l := (w di).quads) (fun t ht => new (.quad t) ht)]
  ring

theorem fix_old {v : Nat} (hv : v ∈ (w ri).verts) (h : OnIface w ri di v ∨ Fix (w ri) v) : Fix (w' ri) v := by
  unfold Fix
  rw [(G.mer.old v hv).2]
  exact fix_flags _ _ _ _ h

theorem iface_end {v : Nat} (h : OnIface w di ri v) : OnIface w ri di (φ v) := by
  obtain ⟨e, he, ⟨e', ht⟩, hv⟩ := h
  obtain ⟨k1, k2⟩ := G.adj.back e he e' ht
  obtain ⟨g1, g2⟩ := G.mer.glue e' k1 e k2
  refine ⟨e', k1, ⟨e, k2⟩, ?_⟩
  rcases hv with rfl | rfl
  · exact Or.inr g1.symm
  · exact Or.inl g2.symm

theorem fix_new {v : Nat} (hv : v ∈ (w di).verts) (h : OnIface w di ri v ∨ Fix (w di) v) : Fix (w' ri) (φ v) := by
  by_cases hi : OnIface w di ri v
  · exact fix_old G ((G.mer.shared v hv).mpr hi) (Or.inl (iface_end G hi))
  · unfold Fix
    rw [G.mer.props v hv hi]
    exact fix_flags _ _ _ _ (Or.inr (h.resolve_left hi))

theorem rim_old {a b : Nat} (h : OnRim (w ri) a b) (ha : a ∈ (w ri).verts) (hb : b ∈ (w ri).verts) : OnRim (w' ri) a b ∨ (Fix (w' ri) a ∧ Fix (w' ri) b) := by
  have key : ∀ {a b : Nat}, (a, b) ∈ pairs (w ri) .bdry → a ∈ (w ri).verts → b ∈ (w ri).verts → (a, b) ∈ pairs (w' ri) .bdry ∨ (Fix (w' ri) a ∧ Fix (w' ri) b) := by
    intro a b h ha hb
    obtain ⟨e, he, h2⟩ := List.mem_map.mp h
    simp only [Prod.mk.injEq] at h2
    by_cases hi : Iface w ri di e
    · exact Or.inr ⟨fix_old G ha (Or.inl ⟨e, he, hi, Or.inl h2.1⟩), fix_old G hb (Or.inl ⟨e, he, hi, Or.inr h2.2⟩)⟩
    · left
      rw [union_pairs G, List.mem_append, List.mem_map]
      exact Or.inl ⟨e, List.mem_filter.mpr ⟨he, by simpa using hi⟩, by rw [h2.1, h2.2]⟩
  rcases h with h | h
  · exact (key h ha hb).imp Or.inl id
  · exact (key h hb ha).imp Or.inr And.symm

theorem rim_new {a b : Nat} (h : OnRim (w di) a b) (ha : a ∈ (w di).verts) (hb : b ∈ (w di).verts) : OnRim (w' ri) (φ a) (φ b) ∨ (Fix (w' ri) (φ a) ∧ Fix (w' ri) (φ b)) := by
  have key : ∀ {a b : Nat}, (a, b) ∈ pairs (w di) .bdry → a ∈ (w di).verts → b ∈ (w di).verts →
      (φ a, φ b) ∈ pairs (w' ri) .bdry ∨ (Fix (w' ri) (φ a) ∧ Fix (w' ri) (φ b)) := by
    intro a b h ha hb
    obtain ⟨e, he, h2⟩ := List.mem_map.mp h
    simp only [Prod.mk.injEq] at h2
    by_cases hi : Iface w di ri e
    · exact Or.inr ⟨fix_new G ha (Or.inl ⟨e, he, hi, Or.inl h2.1⟩), fix_new G hb (Or.inl ⟨e, he, hi, Or.inr h2.2⟩)⟩
    · left
      rw [union_pairs G, List.mem_append, List.mem_map, List.mem_map]
      exact Or.inr ⟨e, List.mem_filter.mpr ⟨he, by simpa using hi⟩, by rw [h2.1, h2.2]⟩
  rcases h with h | h
  · exact (key h ha hb).imp Or.inl id
  · exact (key h hb ha).imp Or.inr And.symm

theorem painted_merge {r1 r2 : Int → Pt K → Int} (hR : Painted r1 (w ri)) (hD : Painted r2 (w di)) : Painted (fun k p => r1 k p + r2 k p) (w' ri) := by
  have ver : ∀ {s : St K}, WF s → ∀ {k a b}, chain (colSides k s) a b ≠ 0 → a ∈ s.verts ∧ b ∈ s.verts := by
    intro s hw k a b hc
    rcases chain_mem hc with h | h
    · exact covered_verts hw (colSides_covered h)
    · exact (covered_verts hw (colSides_covered h)).symm
  refine ⟨fun k p => ?_, fun k x y hn => ?_, fun f hf => ?_⟩
  · rw [← hR.region k p, ← hD.region k p, winding_eq, winding_eq, winding_eq, merged_sum G k hD.nonneg]
    congr 2
    · refine List.map_congr_left fun e he => ?_
      obtain ⟨v1, v2⟩ := covered_verts G.adj.receiver.wf (colSides_covered he)
      rw [(G.mer.old _ v1).1, (G.mer.old _ v2).1]
    · refine List.map_congr_left fun e he => ?_
      obtain ⟨v1, v2⟩ := covered_verts G.adj.donor.wf (colSides_covered he)
      dsimp only
      rw [G.mer.pos _ v1, G.mer.pos _ v2]
  · rw [chain_unit, merged_sum G k hD.nonneg] at hn
    by_cases h1 : ((colSides k (w ri)).map (unit x y)).sum = 0
    · rw [h1, zero_add] at hn
      have : ∃ a b, chain (colSides k (w di)) a b ≠ 0 ∧ unit x y (φ a, φ b) ≠ 0 := by
        by_contra hno
        push Not at hno
        exact hn (sum_zero_of_chain (u := fun e => unit x y (φ e.1, φ e.2)) (fun a b => unit_anti x y _ _) hno)
      obtain ⟨a, b, hc, hu⟩ := this
      obtain ⟨va, vb⟩ := ver G.adj.donor.wf hc
      have hg : OnRim (w' ri) (φ a) (φ b) ∨ (Fix (w' ri) (φ a) ∧ Fix (w' ri) (φ b)) := by
        rcases hD.guarded k a b hc with h | h
        · exact rim_new G h va vb
        · exact Or.inr ⟨fix_new G va (Or.inr h.1), fix_new G vb (Or.inr h.2)⟩
      rcases unit_ne hu with h | h <;> simp only [Prod.mk.injEq] at h <;> rw [h.1, h.2] at hg
      · exact hg
      · exact hg.imp rim_swap And.symm
    · rw [← chain_unit] at h1
      obtain ⟨va, vb⟩ := ver G.adj.receiver.wf h1
      rcases hR.guarded k x y h1 with h | h
      · exact rim_old G h va vb
      · exact Or.inr ⟨fix_old G va (Or.inr h.1), fix_old G vb (Or.inr h.2)⟩
  · rcases G.live.mp hf with h | ⟨g, h, rfl⟩
    · rw [(G.mer.oldF f h).2.1]; exact hR.nonneg f h
    · rw [(G.copies g h).2.2.1, if_neg (not_lt.mpr (hD.nonneg g h))]; exact hD.nonneg g h

end

/-! ### Links do not matter -/

theorem painted_twins {reg : Int → Pt K → Int} {s t : St K} (hp : Painted reg s) (h : SameButTwins s t) : Painted reg t := by
  have e1 : ∀ k, colSides k t = colSides k s := by intro k; rw [h.1]; rfl
  have e2 : pairs t .bdry = pairs s .bdry := by
    have hes : t.es .bdry = s.es .bdry := by rw [h.1]
    unfold pairs
    rw [hes]
    refine List.map_congr_left fun e _ => ?_
    rw [h.2 e]
  have e3 : ∀ v, (t.V v) = s.V v := by intro v; rw [h.1]
  have e4 : t.pos = s.pos := by rw [h.1]; rfl
  have e5 : ∀ f, t.F f = s.F f := by intro f; rw [h.1]
  have e6 : ∀ f, Live t f ↔ Live s f := by intro f; rw [h.1]; exact Iff.rfl
  refine ⟨fun k p => by rw [e4, e1]; exact hp.region k p, fun k a b hn => ?_, fun f hf => by rw [e5]; exact hp.nonneg f ((e6 f).mp hf)⟩
  rw [e1] at hn
  unfold OnRim Fix
  rw [e2, e3, e3]
  exact hp.guarded k a b hn

/-! ### Pieces of a colour -/

theorem col_pieces (k : Int) {s : St K} (h : WF s) {w : Nat × Nat → Int} (anti : ∀ a b, w (a, b) = - w (b, a)) :
    ((colSides k s).map w).sum = ((pieces s).map fun x => if (s.F x.1).color = k then ((pieceSides x).map w).sum else 0).sum := by
  rw [col_sum]
  unfold pieces
  rw [sum_flatMapI]
  congr 1
  refine List.map_congr_left fun f hf => ?_
  rcases corners_cases h (mem_facets.mp hf) with ⟨x, y, z, hc⟩ | ⟨x, y, z, v, hc⟩
  · rw [hc, sides3]
    simp only [halves, pieceSides, List.map_cons, List.map_nil, List.sum_cons, List.sum_nil]
    split_ifs <;> ring
  · rw [hc, sides4]
    simp only [halves]
    by_cases hk : (s.F f).color = k
    · simp only [hk, if_true]
      split_ifs
      · simp only [pieceSides, List.map_cons, List.map_nil, List.sum_cons, List.sum_nil, hk, if_true]
        have := anti x z
        linarith
      · simp only [pieceSides, List.map_cons, List.map_nil, List.sum_cons, List.sum_nil, hk, if_true]
        have := anti y v
        linarith
    · simp only [hk, if_false]
      split_ifs <;> simp [hk]

/-- The winding number of the sides of one colour counts the pieces of that colour around the point. -/
theorem winding_colour (k : Int) {s : St K} (h : WF s) (hc : ∀ x ∈ pieces s, 0 < side (s.pos x.2.1) (s.pos x.2.2.1) (s.pos x.2.2.2))
    {p : Pt K} (hg : ∀ x ∈ pieces s, ∀ e ∈ pieceSides x, side (s.pos e.1) (s.pos e.2) p ≠ 0) :
    winding s.pos (colSides k s) p = (pieces s).countP fun x => decide ((s.F x.1).color = k ∧ InPiece s p x) := by
  rw [winding_eq, col_pieces k h (w := fun e => crossing p (s.pos e.1) (s.pos e.2)) (fun a b => crossing_anti p _ _)]
  generalize pieces s = l at hc hg
  induction l with
  | nil => rfl
  | cons x l ih =>
    rw [List.map_cons, List.sum_cons, ih (fun y hy => hc y (List.mem_cons_of_mem _ hy)) (fun y hy => hg y (List.mem_cons_of_mem _ hy)),
      List.countP_cons]
    have hx := hg x (by simp)
    have := triangle_winding (hc x (by simp)) (hx (x.2.1, x.2.2.1) (by simp [pieceSides])) (hx (x.2.2.1, x.2.2.2) (by simp [pieceSides]))
      (hx (x.2.2.2, x.2.1) (by simp [pieceSides]))
    have this' : _ = if InPiece s p x then (1 : Int) else 0 := this
    by_cases hk : (s.F x.1).color = k
    · simp only [hk, if_true, true_and, pieceSides, List.map_cons, List.map_nil, List.sum_cons, List.sum_nil, decide_eq_true_eq]
      push_cast
      rw [← this']
      ring
    · simp [hk]

/-- A point in a piece of a colour is in the region of that colour. -/
theorem colour_in {s : St K} (h : Complete s) {p : Pt K} {x : FRef × Nat × Nat × Nat} (hx : x ∈ pieces s) (hp : InPiece s p x) :
    1 ≤ winding s.pos (colSides (s.F x.1).color s) p := by
  have h1 : Small fun e => ∀ x ∈ pieces s, ∀ y ∈ pieceSides x, side (s.pos y.1) (s.pos y.2) (nudge p e) ≠ 0 := by
    refine Small.all _ fun x hx => Small.all _ fun y hy => nudge_side_ne ?_ p
    obtain ⟨n1, n2, n3⟩ := ccw_ne (h.ccw x hx)
    simp only [pieceSides, List.mem_cons, List.not_mem_nil, or_false] at hy
    rcases hy with rfl | rfl | rfl
    · exact n1
    · exact n2
    · exact n3
  have h2 : Small fun e => InPiece s (nudge p e) x := (nudge_in hp).mono fun e _ h => h
  have h3 : Small fun e => winding s.pos (colSides (s.F x.1).color s) (nudge p e) = winding s.pos (colSides (s.F x.1).color s) p := by
    refine (nudge_wind (segs s.pos (colSides (s.F x.1).color s)) p).mono fun e _ h => ?_
    rw [winding_wind, winding_wind]; exact h
  obtain ⟨e, _, h1, h2, h3⟩ := (h1.and (h2.and h3)).get
  rw [← h3, winding_colour _ h.wf h.ccw h1]
  have : 0 < (pieces s).countP fun y => decide ((s.F y.1).color = (s.F x.1).color ∧ InPiece s (nudge p e) y) :=
    List.countP_pos_iff.mpr ⟨x, hx, by simpa using h2⟩
  omega

/-- A point in the region of a colour, on no line through a side of a piece, is in a piece of that colour. -/
theorem colour_full {s : St K} (h : Complete s) {p : Pt K} {k : Int} (hw : 1 ≤ winding s.pos (colSides k s) p)
    (hg : ∀ x ∈ pieces s, ∀ e ∈ pieceSides x, side (s.pos e.1) (s.pos e.2) p ≠ 0) : ∃ x ∈ pieces s, InPiece s p x ∧ (s.F x.1).color = k := by
  rw [winding_colour k h.wf h.ccw hg] at hw
  have : 0 < (pieces s).countP fun y => decide ((s.F y.1).color = k ∧ InPiece s p y) := by omega
  obtain ⟨x, hx, hd⟩ := List.countP_pos_iff.mp this
  have := of_decide_eq_true hd
  exact ⟨x, hx, this.2, this.1⟩

end TQ.Whole

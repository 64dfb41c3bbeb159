import Verif.QuadLayer.Layers
import Verif.FrontUpdate.Tiling

/-! # Properties of the quad layers: ends of a layer, conservation -/

set_option linter.unusedSectionVars false

namespace TQ
open MS MS.St MeshSpec FUSpec MCSpec QLSpec FU QL TG
variable {K : Type*} [Field K] [LinearOrder K] [IsStrictOrderedRing K]

/-- The vector functions of the environment are exact. -/
structure ExactVec (L : LEnv K) : Prop where
  nonneg : ∀ p, 0 ≤ L.env.norm p
  sq : ∀ p, L.env.norm p * L.env.norm p = Pt.normSq p
  cos : ∀ a b, L.cosAngle a b * (L.env.norm a * L.env.norm b) = Pt.dot a b

theorem normSq_pos {p : Pt K} (h : p ≠ 0) : 0 < Pt.normSq p := by
  have : p.x ≠ 0 ∨ p.y ≠ 0 := by
    by_contra hc
    push Not at hc
    exact h (Pt.ext' hc.1 hc.2)
  unfold Pt.normSq
  rcases this with h | h
  · have := mul_self_pos.mpr h; have := mul_self_nonneg p.y; linarith
  · have := mul_self_pos.mpr h; have := mul_self_nonneg p.x; linarith

theorem ExactVec.pos {L : LEnv K} (hv : ExactVec L) {p : Pt K} (h : p ≠ 0) : 0 < L.env.norm p := by
  have h1 := normSq_pos h
  rw [← hv.sq] at h1
  rcases lt_or_eq_of_le (hv.nonneg p) with h2 | h2
  · exact h2
  · rw [← h2] at h1; simp at h1

theorem splitFactor {L : LEnv K} (hv : ExactVec L) {u w : Pt K} {h : K} (hh : 0 < h) (hw : L.env.norm w = h) (hu : u ≠ 0) :
    h * L.cosAngle u w / L.env.norm u * Pt.normSq u = Pt.dot u w := by
  have h1 := hv.pos hu
  have h2 := hv.cos u w
  rw [← hv.sq, hw] at *
  rw [div_mul_eq_mul_div, div_eq_iff (ne_of_gt h1), ← h2]
  ring

/-- `p` is the foot of `x` on the line through `v` and `q`, at the fraction `t`. -/
def FootAt (v q x p : Pt K) (t : K) : Prop :=
  p = v + Pt.smul t (q - v) ∧ Pt.dot (p - v) (q - v) = Pt.dot (x - v) (q - v)

theorem foot_of {v q x : Pt K} {t : K} (ht : t * Pt.normSq (q - v) = Pt.dot (q - v) (x - v)) :
    FootAt v q x (v + Pt.smul t (q - v)) t := by
  refine ⟨rfl, ?_⟩
  unfold Pt.normSq Pt.dot at *
  simp only [Pt.add_x, Pt.add_y, Pt.sub_x, Pt.sub_y, Pt.smul_x, Pt.smul_y] at *
  linear_combination ht

/-- **C118.** The end of a layer is placed on the neighbouring front edge `v q` (for a projected coordinate `x` at
distance `h` of the corner `v`): if `q` is nearer than `h` to `x`, then `q` is moved to the foot of `x` on the line `v q`,
beyond the middle of the edge; otherwise, if the edge is longer than `h`, it is split at the foot of `x`, strictly
between the ends; otherwise the end is `q` and nothing changes. -/
theorem C118_end_placed {L : LEnv K} (hv : ExactVec L) {s s' : St K} (hw : WF s) {e v q : Nat} {h : K} {x p : Pt K} {atEnd : Bool}
    (he : e ∈ s.es .front) (hd : ((s.E e).v1, (s.E e).v2) = if atEnd then (v, q) else (q, v)) (hqv : s.pos q ≠ s.pos v)
    (hh : 0 < h) (hx : L.env.norm (x - s.pos v) = h) (hp : place L s e v q h x atEnd = some (s', p)) :
    (Pt.normSq (s.pos q - x) < h * h → (∃ t, 1 / 2 < t ∧ FootAt (s.pos v) (s.pos q) x p t) ∧ s' = s.setPos q p) ∧
    (h * h ≤ Pt.normSq (s.pos q - x) → h < len L s e →
      (∃ t, 0 < t ∧ t < 1 ∧ FootAt (s.pos v) (s.pos q) x p t) ∧ s'.verts = s.verts ++ [s.nxt] ∧ s'.pos s.nxt = p ∧
      (((s.E e).v1, (s.E e).v2) :: pairs s' .front).Perm
        (pairs s .front ++ [((s.E e).v1, s.nxt), (s.nxt, (s.E e).v2)])) ∧
    (h * h ≤ Pt.normSq (s.pos q - x) → len L s e ≤ h → p = s.pos q ∧ s' = s) := by
  have hu : s.pos q - s.pos v ≠ 0 := by
    intro hc
    apply hqv
    have h1 := congrArg Pt.x hc
    have h2 := congrArg Pt.y hc
    simp only [Pt.sub_x, Pt.sub_y, Pt.zero_x, Pt.zero_y] at h1 h2
    exact Pt.ext' (by linarith) (by linarith)
  have hsq := normSq_pos hu
  have hlen : len L s e = L.env.norm (s.pos q - s.pos v) := by
    have : len L s e * len L s e = L.env.norm (s.pos q - s.pos v) * L.env.norm (s.pos q - s.pos v) := by
      unfold len
      rw [hv.sq, hv.sq]
      cases atEnd with
      | true => simp only [if_true, Prod.mk.injEq] at hd; rw [hd.1, hd.2]
      | false =>
        simp only [Bool.false_eq_true, if_false, Prod.mk.injEq] at hd
        rw [hd.1, hd.2]
        unfold Pt.normSq; simp only [Pt.sub_x, Pt.sub_y]; ring
    exact (mul_self_inj (hv.nonneg _) (hv.nonneg _)).mp this
  have hf := splitFactor hv hh hx hu
  refine ⟨fun h1 => ?_, fun h1 h2 => ?_, fun h1 h2 => ?_⟩
  · unfold place at hp
    dsimp only at hp
    rw [if_pos h1] at hp
    simp only [Option.some.injEq, Prod.mk.injEq] at hp
    rw [← hp.1, ← hp.2]
    refine ⟨⟨Pt.dot (s.pos q - s.pos v) (x - s.pos v) / Pt.normSq (s.pos q - s.pos v), ?_, ?_⟩, rfl⟩
    · rw [lt_div_iff₀ hsq]
      rw [← hx, hv.sq] at h1
      unfold Pt.normSq Pt.dot at *
      simp only [Pt.sub_x, Pt.sub_y] at *
      nlinarith [h1]
    · exact foot_of (div_mul_cancel₀ _ (ne_of_gt hsq))
  · unfold place at hp
    dsimp only at hp
    rw [if_neg (not_lt.mpr h1), if_pos h2] at hp
    generalize hs : QL.split s e _ = o at hp
    cases o with
    | none => cases hp
    | some r =>
      obtain ⟨s1, n⟩ := r
      simp only [Option.some.injEq, Prod.mk.injEq] at hp
      obtain ⟨rfl, rfl⟩ := hp
      obtain ⟨rfl, -, h3, h4, h5, h6, h7, -⟩ := split_spec hw he hs
      refine ⟨?_, h3, rfl, h7⟩
      rw [hlen] at h4 h5 h6
      generalize h * L.cosAngle (s.pos q - s.pos v) (x - s.pos v) / L.env.norm (s.pos q - s.pos v) = f at *
      rw [h4]
      cases atEnd with
      | true =>
        simp only [if_true, Prod.mk.injEq] at hd h5 h6 ⊢
        rw [hd.1, hd.2]
        refine ⟨f, by linarith, by linarith, ?_⟩
        have := foot_of hf
        have e1 : Pt.smul (1 - f) (s.pos v) + Pt.smul (1 - (1 - f)) (s.pos q) = s.pos v + Pt.smul f (s.pos q - s.pos v) := by
          apply Pt.ext' <;> simp <;> ring
        rw [e1]; exact this
      | false =>
        simp only [Bool.false_eq_true, if_false, Prod.mk.injEq] at hd h5 h6 ⊢
        rw [hd.1, hd.2]
        refine ⟨f, h5, h6, ?_⟩
        have := foot_of hf
        have e1 : Pt.smul f (s.pos q) + Pt.smul (1 - f) (s.pos v) = s.pos v + Pt.smul f (s.pos q - s.pos v) := by
          apply Pt.ext' <;> simp <;> ring
        rw [e1]; exact this
  · unfold place at hp
    dsimp only at hp
    rw [if_neg (not_lt.mpr h1), if_neg (not_lt.mpr h2)] at hp
    simp only [Option.some.injEq, Prod.mk.injEq] at hp
    exact ⟨hp.2.symm, hp.1.symm⟩

/-- **C118.** The split never fails for its factor: when the other end of the neighbouring edge is left of the base
edge and the projected coordinate is at the height `h` above the corner, the factor is between 0 and 1. -/
theorem C118_factor {L : LEnv K} (hv : ExactVec L) {u w d : Pt K} {h l : K} (hh : 0 < h) (hx : L.env.norm w = h)
    (hw : w = Pt.smul l ⟨-d.y, d.x⟩) (hl : 0 < l) (hleft : 0 < Pt.cross d u) (hlen : h < L.env.norm u) :
    0 < h * L.cosAngle u w / L.env.norm u ∧ h * L.cosAngle u w / L.env.norm u < 1 := by
  have hu : u ≠ 0 := by
    rintro rfl
    unfold Pt.cross at hleft
    simp at hleft
  have hn := hv.pos hu
  have hs := normSq_pos hu
  have hf := splitFactor hv hh hx hu
  have hdot : 0 < Pt.dot u w := by
    rw [hw]
    unfold Pt.cross at hleft
    unfold Pt.dot
    simp only [Pt.smul_x, Pt.smul_y]
    have := mul_pos hl hleft
    linarith
  have hcs : Pt.dot u w * Pt.dot u w ≤ Pt.normSq u * Pt.normSq w := by
    have := mul_self_nonneg (u.x * w.y - u.y * w.x)
    unfold Pt.dot Pt.normSq
    linarith
  have hww : Pt.normSq w < Pt.normSq u := by
    rw [← hv.sq, ← hv.sq, hx]
    exact mul_self_lt_mul_self (le_of_lt hh) hlen
  generalize h * L.cosAngle u w / L.env.norm u = f at *
  have f0 : 0 < f := by
    by_contra hc
    push Not at hc
    have := mul_nonpos_of_nonpos_of_nonneg hc (le_of_lt hs)
    linarith
  refine ⟨f0, ?_⟩
  by_contra hc
  push Not at hc
  have h1 : Pt.normSq u ≤ Pt.dot u w := by rw [← hf]; nlinarith
  have h2 : Pt.normSq u * Pt.normSq u ≤ Pt.dot u w * Pt.dot u w := mul_self_le_mul_self (le_of_lt hs) h1
  have h3 : Pt.normSq u * Pt.normSq w < Pt.normSq u * Pt.normSq u := mul_lt_mul_of_pos_left hww hs
  linarith

/-! ### Conservation -/

theorem interval_add {A M B P : K} (Q : Prop) [Decidable Q] (h1 : A ≤ M) (h2 : M ≤ B) :
    ((if A ≤ P ∧ P < M ∧ Q then 1 else 0) + (if M ≤ P ∧ P < B ∧ Q then 1 else 0) : Int) =
      if A ≤ P ∧ P < B ∧ Q then 1 else 0 := by
  by_cases q : Q
  · by_cases u : P < M
    · have : ¬ M ≤ P := not_le.mpr u
      have : P < B := lt_of_lt_of_le u h2
      simp [*]
    · have : M ≤ P := not_lt.mp u
      have : A ≤ P := le_trans h1 this
      simp [*]
  · simp [q]

theorem interval_none {A B P : K} (Q : Prop) [Decidable Q] (h : B ≤ A) : (if A ≤ P ∧ P < B ∧ Q then 1 else 0 : Int) = 0 := by
  rw [if_neg]
  rintro ⟨h1, h2, -⟩
  exact absurd (lt_of_lt_of_le h2 h) (not_lt.mpr h1)

theorem crossing_between {p a m b : Pt K} (h : Between m a b) : crossing p a m + crossing p m b = crossing p a b := by
  obtain ⟨t, t0, t1, rfl⟩ := h
  set m : Pt K := a + Pt.smul t (b - a) with hm
  have hy : m.y = a.y + t * (b.y - a.y) := rfl
  have sam : side a m p = t * side a b p := by
    unfold side; rw [hm]; simp only [Pt.add_x, Pt.add_y, Pt.smul_x, Pt.smul_y, Pt.sub_x, Pt.sub_y]; ring
  have smb : side m b p = (1 - t) * side a b p := by
    unfold side; rw [hm]; simp only [Pt.add_x, Pt.add_y, Pt.smul_x, Pt.smul_y, Pt.sub_x, Pt.sub_y]; ring
  have t1' : 0 < 1 - t := by linarith
  have p1 : 0 < side a m p ↔ 0 < side a b p := by rw [sam]; exact mul_pos_iff_of_pos_left t0
  have p2 : 0 < side m b p ↔ 0 < side a b p := by rw [smb]; exact mul_pos_iff_of_pos_left t1'
  have p3 : 0 < side m a p ↔ 0 < side b a p := by
    rw [side_anti a m, sam, side_anti a b, ← mul_neg]; exact mul_pos_iff_of_pos_left t0
  have p4 : 0 < side b m p ↔ 0 < side b a p := by
    rw [side_anti m b, smb, side_anti a b, ← mul_neg]; exact mul_pos_iff_of_pos_left t1'
  have ord : (a.y ≤ m.y ∧ m.y ≤ b.y) ∨ (b.y ≤ m.y ∧ m.y ≤ a.y) := by
    rcases le_total a.y b.y with h | h
    · left
      have := mul_nonneg (le_of_lt t0) (sub_nonneg.mpr h)
      have := mul_nonneg (le_of_lt t1') (sub_nonneg.mpr h)
      constructor <;> nlinarith
    · right
      have := mul_nonneg (le_of_lt t0) (sub_nonneg.mpr h)
      have := mul_nonneg (le_of_lt t1') (sub_nonneg.mpr h)
      constructor <;> nlinarith
  clear_value m
  have i1 : UpCross p a m ↔ (a.y ≤ p.y ∧ p.y < m.y ∧ 0 < side a b p) := by unfold UpCross; rw [p1]
  have i2 : UpCross p m b ↔ (m.y ≤ p.y ∧ p.y < b.y ∧ 0 < side a b p) := by unfold UpCross; rw [p2]
  have i3 : UpCross p m a ↔ (m.y ≤ p.y ∧ p.y < a.y ∧ 0 < side b a p) := by unfold UpCross; rw [p3]
  have i4 : UpCross p b m ↔ (b.y ≤ p.y ∧ p.y < m.y ∧ 0 < side b a p) := by unfold UpCross; rw [p4]
  have i5 : UpCross p a b ↔ (a.y ≤ p.y ∧ p.y < b.y ∧ 0 < side a b p) := Iff.rfl
  have i6 : UpCross p b a ↔ (b.y ≤ p.y ∧ p.y < a.y ∧ 0 < side b a p) := Iff.rfl
  unfold crossing
  simp only [i1, i2, i3, i4, i5, i6]
  rcases ord with ⟨o1, o2⟩ | ⟨o1, o2⟩
  · rw [← interval_add (0 < side a b p) o1 o2, interval_none (0 < side b a p) o1, interval_none (0 < side b a p) o2,
      interval_none (0 < side b a p) (le_trans o1 o2)]
    ring
  · rw [← interval_add (0 < side b a p) o1 o2, interval_none (0 < side a b p) o1, interval_none (0 < side a b p) o2,
      interval_none (0 < side a b p) (le_trans o1 o2)]
    ring

/-- The winding number as a weight. -/
def windWt (p : Pt K) : Wt K := fun a b => (crossing p a.2 b.2 : K)

theorem windWt_sum (p : Pt K) (s : St K) (es : List (Nat × Nat)) : wsum (windWt p) s es = (winding s.pos es p : K) := by
  rw [winding_eq]
  unfold wsum windWt
  induction es with
  | nil => simp
  | cons e es ih => simp only [List.map_cons, List.sum_cons, Int.cast_add, ih]

variable {L : LEnv K} (he : 0 < L.env.eps) (hq : QueryLive L.env) (hso : SortOK L.env)
include he hq hso

theorem layers_kept {s : St K} (hw : WF s) {fuel n : Nat} {growth ht : K} {xs xe : Pt K} {r}
    (h : layers L fuel growth n s xs xe ht = some r) (good : ∀ x ∈ layersLog L fuel growth n s xs xe ht, Good x) :
    Kept s (layersLog L fuel growth n s xs xe ht) r.1 :=
  kept_run he hq hso hw (layers_tracks (R := regGood he hq hso) he hq hso n hw h good).1 good

/-- **C119** (partial: the changes are good, that is nothing is moved, and new triangles are put on a simple front
along edges of the front).  Quad layers take from the region enclosed by the front what they add to the mesh: the
area of the elements plus the area enclosed by the front is the same as before, the area counter of the mesh follows,
and for every point the winding numbers of the elements and of the front around it add up to the same number as
before. -/
theorem C119_tiling_partial {s : St K} (hw : WF s) {fuel n : Nat} {growth ht : K} {xs xe : Pt K} {r}
    (h : layers L fuel growth n s xs xe ht = some r) (good : ∀ x ∈ layersLog L fuel growth n s xs xe ht, Good x) :
    meshArea r.1 + enclosed r.1.pos (pairs r.1 .front) = meshArea s + enclosed s.pos (pairs s .front) ∧
    r.1.area - s.area = meshArea r.1 - meshArea s ∧
    ∀ p, winding r.1.pos (elemSides r.1) p + winding r.1.pos (pairs r.1 .front) p =
      winding s.pos (elemSides s) p + winding s.pos (pairs s .front) p := by
  have k := layers_kept he hq hso hw h good
  refine ⟨?_, by linear_combination k.area, fun p => ?_⟩
  · have := k.sum cw cw_anti (by
      rintro a b n _ - p q m ⟨t, -, -, rfl⟩
      unfold cw Pt.cross
      simp only [Pt.add_x, Pt.add_y, Pt.smul_x, Pt.smul_y, Pt.sub_x, Pt.sub_y]
      ring)
    unfold acct at this
    rw [meshArea_cw k.wf, meshArea_cw hw, enclosed_cw, enclosed_cw]
    linear_combination this
  · have := k.sum (windWt p) (by
      intro a b
      unfold windWt
      rw [crossing_anti, Int.cast_neg]) (by
      intro a b n _ _ p' q' m hb
      unfold windWt
      rw [← Int.cast_add, crossing_between hb])
    unfold acct at this
    simp only [windWt_sum] at this
    rw [← Int.cast_add, ← Int.cast_add, Int.cast_inj] at this
    linarith

/-- **C120** (partial: see C119).  The mesh stays consistent, no vertex is lost, and every vertex of the old mesh
keeps its place. -/
theorem C120_places_partial {s : St K} (hw : WF s) {fuel n : Nat} {growth ht : K} {xs xe : Pt K} {r}
    (h : layers L fuel growth n s xs xe ht = some r) (good : ∀ x ∈ layersLog L fuel growth n s xs xe ht, Good x) :
    WF r.1 ∧ ∀ v ∈ s.verts, v ∈ r.1.verts ∧ r.1.pos v = s.pos v :=
  have k := layers_kept he hq hso hw h good
  ⟨k.wf, fun v hv => ⟨k.verts v hv, k.pos v hv⟩⟩

/-- **C121** (partial: see C119; convexity of the quads is missing).  All elements have positive area if the old
ones have. -/
theorem C121_positive_partial {s : St K} (hw : WF s) {fuel n : Nat} {growth ht : K} {xs xe : Pt K} {r}
    (h : layers L fuel growth n s xs xe ht = some r) (good : ∀ x ∈ layersLog L fuel growth n s xs xe ht, Good x) :
    ElemPos s → ElemPos r.1 :=
  (layers_kept he hq hso hw h good).elem

end TQ

#print axioms TQ.C118_end_placed
#print axioms TQ.C118_factor
#print axioms TQ.C119_tiling_partial
#print axioms TQ.C120_places_partial
#print axioms TQ.C121_positive_partial

import Verif.FrontUpdate.Region
import Mathlib.Data.Finset.Sort

/-! # Lemmas: closed chains with non-negative winding numbers enclose a non-negative area -/

set_option linter.unusedSectionVars false

namespace TQ.FU
open TQ.MS TQ.MeshSpec TQ.FUSpec TQ.MS.St TQ.GeoSpec
variable {K : Type*} [Field K] [LinearOrder K] [IsStrictOrderedRing K]

/-- Neighbouring values of a list. -/
def strips (ys : List K) : List (K × K) := ys.zip ys.tail

theorem strips_cons (y z : K) (ys : List K) : strips (y :: z :: ys) = (y, z) :: strips (z :: ys) := rfl

theorem strips_mem {ys : List K} (h : ys.Pairwise (· < ·)) {p : K × K} (hp : p ∈ strips ys) :
    p.1 ∈ ys ∧ p.2 ∈ ys ∧ p.1 < p.2 ∧ ∀ y ∈ ys, y ≤ p.1 ∨ p.2 ≤ y := by
  induction ys with
  | nil => simp [strips] at hp
  | cons y ys ih =>
    cases ys with
    | nil => simp [strips] at hp
    | cons z zs =>
      rw [strips_cons, List.mem_cons] at hp
      have h' := List.pairwise_cons.mp h
      have h'' := List.pairwise_cons.mp h'.2
      rcases hp with rfl | hp
      · refine ⟨by simp, by simp, h'.1 z (by simp), fun x hx => ?_⟩
        rcases List.mem_cons.mp hx with rfl | hx
        · exact Or.inl le_rfl
        · rcases List.mem_cons.mp hx with rfl | hx
          · exact Or.inr le_rfl
          · exact Or.inr (h''.1 x hx).le
      · obtain ⟨i1, i2, i3, i4⟩ := ih h'.2 hp
        refine ⟨List.mem_cons_of_mem _ i1, List.mem_cons_of_mem _ i2, i3, fun x hx => ?_⟩
        rcases List.mem_cons.mp hx with rfl | hx
        · exact Or.inl (h'.1 _ i1).le
        · exact i4 x hx

/-- Telescoping over the strips between `a` and `b`. -/
theorem strips_sum {ys : List K} (h : ys.Pairwise (· < ·)) (G : K → K) {a b : K} (ha : a ∈ ys) (hb : b ∈ ys) (hab : a ≤ b) :
    ((strips ys).map fun p => if a ≤ p.1 ∧ p.2 ≤ b then G p.2 - G p.1 else 0).sum = G b - G a := by
  induction ys generalizing a with
  | nil => simp at ha
  | cons y ys ih =>
    have h' := List.pairwise_cons.mp h
    cases ys with
    | nil =>
      obtain rfl : a = y := by simpa using ha
      obtain rfl : b = a := by simpa using hb
      simp [strips]
    | cons z zs =>
      have h'' := List.pairwise_cons.mp h'.2
      have hyz := h'.1 z (by simp)
      rw [strips_cons, List.map_cons, List.sum_cons]
      rcases List.mem_cons.mp ha with rfl | ha
      · rcases List.mem_cons.mp hb with rfl | hb
        · rw [if_neg (by simp only [not_and, not_le]; exact fun _ => hyz)]
          have : ((strips (z :: zs)).map fun p => if b ≤ p.1 ∧ p.2 ≤ b then G p.2 - G p.1 else 0) =
              (strips (z :: zs)).map fun _ => 0 := by
            refine List.map_congr_left fun p hp => ?_
            obtain ⟨-, i2, -, -⟩ := strips_mem h'.2 hp
            rw [if_neg]
            rintro ⟨-, k⟩
            exact absurd (h'.1 _ i2) (not_lt.mpr k)
          rw [this]; simp
        · have hzb : z ≤ b := by
            rcases List.mem_cons.mp hb with rfl | hb
            · exact le_rfl
            · exact (h''.1 b hb).le
          rw [if_pos ⟨le_rfl, hzb⟩]
          have : ((strips (z :: zs)).map fun p => if a ≤ p.1 ∧ p.2 ≤ b then G p.2 - G p.1 else 0) =
              (strips (z :: zs)).map fun p => if z ≤ p.1 ∧ p.2 ≤ b then G p.2 - G p.1 else 0 := by
            refine List.map_congr_left fun p hp => ?_
            obtain ⟨i1, -, -, -⟩ := strips_mem h'.2 hp
            have k1 : a ≤ p.1 := (h'.1 _ i1).le
            have k2 : z ≤ p.1 := by
              rcases List.mem_cons.mp i1 with i | i
              · exact i.ge
              · exact (h''.1 _ i).le
            simp [k1, k2]
          rw [this, ih h'.2 (by simp) hb hzb]
          ring
      · have hb : b ∈ z :: zs := by
          rcases List.mem_cons.mp hb with hb | hb
          · exact absurd (h'.1 _ ha) (not_lt.mpr (hb ▸ hab))
          · exact hb
        rw [if_neg (by simp only [not_and]; intro k; exact absurd (h'.1 _ ha) (not_lt.mpr k)), zero_add]
        exact ih h'.2 ha hb hab

theorem sum_comm' {α β : Type*} (l : List α) (m : List β) (f : α → β → K) :
    (l.map fun a => (m.map fun b => f a b).sum).sum = (m.map fun b => (l.map fun a => f a b).sum).sum := by
  induction l with
  | nil => simp
  | cons a l ih => simp only [List.map_cons, List.sum_cons, ih, ← List.sum_map_add]

theorem sum_neg' {α : Type*} (l : List α) (f : α → K) : - (l.map f).sum = (l.map fun a => - f a).sum := by
  induction l with
  | nil => simp
  | cons a l ih => simp only [List.map_cons, List.sum_cons, ← ih]; ring

theorem sum_nonneg' {α : Type*} (l : List α) (f : α → K) (h : ∀ a ∈ l, 0 ≤ f a) : 0 ≤ (l.map f).sum :=
  List.sum_nonneg (by simpa using h)

/-- The sorted values. -/
def sorted (l : List K) : List K := l.toFinset.sort (· ≤ ·)

theorem sorted_lt (l : List K) : (sorted l).Pairwise (· < ·) := by
  unfold sorted
  exact (Finset.sortedLT_sort _).pairwise

theorem sorted_mem {l : List K} {x : K} : x ∈ sorted l ↔ x ∈ l := by unfold sorted; simp

/-- Signed points on a line, as many positive as negative ones, with non-negative sums to the right of every point. -/
theorem line_nonneg (l : List (K × K)) (hs : (l.map Prod.snd).sum = 0)
    (hw : ∀ x, 0 ≤ (l.map fun p => if x < p.1 then p.2 else 0).sum) : 0 ≤ (l.map fun p => p.2 * p.1).sum := by
  cases hl : sorted (l.map Prod.fst) with
  | nil =>
    have : l = [] := by
      by_contra hne
      obtain ⟨p, l', rfl⟩ := List.exists_cons_of_ne_nil hne
      have : p.1 ∈ sorted ((p :: l').map Prod.fst) := sorted_mem.mpr (by simp)
      rw [hl] at this; simp at this
    subst this; simp
  | cons c0 cs =>
    have hsort := sorted_lt (l.map Prod.fst)
    rw [hl] at hsort
    have hmem : ∀ p ∈ l, p.1 ∈ c0 :: cs := fun p hp => by rw [← hl]; exact sorted_mem.mpr (List.mem_map_of_mem hp)
    have hle : ∀ c ∈ c0 :: cs, c0 ≤ c := by
      intro c hc
      rcases List.mem_cons.mp hc with rfl | hc
      · exact le_rfl
      · exact ((List.pairwise_cons.mp hsort).1 c hc).le
    have e1 : (l.map fun p => p.2 * p.1).sum = (l.map fun p => p.2 * (p.1 - c0)).sum := by
      have : (l.map fun p => p.2 * (p.1 - c0)) = l.map fun p => p.2 * p.1 + p.2 * (-c0) := by
        refine List.map_congr_left fun p _ => by ring
      rw [this, List.sum_map_add, List.sum_map_mul_right, hs, zero_mul, add_zero]
    have e2 : (l.map fun p => p.2 * (p.1 - c0)) = l.map fun p => ((strips (c0 :: cs)).map fun q =>
        (if q.2 ≤ p.1 then p.2 else 0) * (q.2 - q.1)).sum := by
      refine List.map_congr_left fun p hp => ?_
      have k0 := strips_sum hsort (fun x => x) (List.mem_cons_self ..) (hmem p hp) (hle _ (hmem p hp))
      rw [← k0, ← List.sum_map_mul_left]
      congr 1
      refine List.map_congr_left fun q hq => ?_
      have := hle _ (strips_mem hsort hq).1
      by_cases k : q.2 ≤ p.1
      · simp [this, k]
      · simp [k]
    rw [e1, e2, sum_comm']
    refine sum_nonneg' _ _ fun q hq => ?_
    rw [List.sum_map_mul_right]
    obtain ⟨-, -, i3, i4⟩ := strips_mem hsort hq
    refine mul_nonneg ?_ (by linarith)
    have := hw q.1
    have e3 : (l.map fun p => if q.1 < p.1 then p.2 else 0) = l.map fun p => if q.2 ≤ p.1 then p.2 else 0 := by
      refine List.map_congr_left fun p hp => ?_
      have : q.1 < p.1 ↔ q.2 ≤ p.1 := by
        constructor
        · intro k
          rcases i4 _ (hmem p hp) with i | i
          · exact absurd k (not_lt.mpr i)
          · exact i
        · exact fun k => lt_of_lt_of_le i3 k
      simp [this]
    rwa [e3] at this

/-- Where the line through `a` and `b` has the height `m`. -/
def xAt (a b : Pt K) (m : K) : K := a.x + (m - a.y) / (b.y - a.y) * (b.x - a.x)

/-- The part of the area below `m` left of the line through `a` and `b`. -/
def prim (a b : Pt K) (m : K) : K := a.x * m + (m - a.y) * (m - a.y) / (2 * (b.y - a.y)) * (b.x - a.x)

/-- `1` for segments upwards across the strip, `-1` for segments downwards. -/
def dirn (p : K × K) (a b : Pt K) : K :=
  (if a.y ≤ p.1 ∧ p.2 ≤ b.y then 1 else 0) - (if b.y ≤ p.1 ∧ p.2 ≤ a.y then 1 else 0)

theorem prim_strip {a b : Pt K} (h : a.y ≠ b.y) (p : K × K) :
    prim a b p.2 - prim a b p.1 = (p.2 - p.1) * xAt a b ((p.1 + p.2) / 2) := by
  unfold prim xAt
  have : b.y - a.y ≠ 0 := sub_ne_zero.mpr (Ne.symm h)
  field_simp
  ring

theorem prim_ends {a b : Pt K} (h : a.y ≠ b.y) : prim a b b.y - prim a b a.y = 1 / 2 * (a.x + b.x) * (b.y - a.y) := by
  unfold prim
  have : b.y - a.y ≠ 0 := sub_ne_zero.mpr (Ne.symm h)
  field_simp
  ring

/-- The area left of a segment is the sum over the strips. -/
theorem seg_strips {ys : List K} (h : ys.Pairwise (· < ·)) {a b : Pt K} (ha : a.y ∈ ys) (hb : b.y ∈ ys) :
    1 / 2 * (a.x + b.x) * (b.y - a.y) =
      ((strips ys).map fun p => (p.2 - p.1) * (dirn p a b * xAt a b ((p.1 + p.2) / 2))).sum := by
  rcases lt_trichotomy a.y b.y with hlt | heq | hlt
  · rw [← prim_ends hlt.ne, ← strips_sum h (prim a b) ha hb hlt.le]
    congr 1
    refine List.map_congr_left fun p hp => ?_
    obtain ⟨-, -, i3, -⟩ := strips_mem h hp
    have : ¬ (b.y ≤ p.1 ∧ p.2 ≤ a.y) := by rintro ⟨k1, k2⟩; linarith
    unfold dirn
    rw [if_neg this, prim_strip hlt.ne]
    split_ifs <;> ring
  · have : ((strips ys).map fun p => (p.2 - p.1) * (dirn p a b * xAt a b ((p.1 + p.2) / 2))) = (strips ys).map fun _ => 0 := by
      refine List.map_congr_left fun p hp => ?_
      obtain ⟨-, -, i3, -⟩ := strips_mem h hp
      unfold dirn
      rw [heq]; ring
    rw [this, heq]; simp
  · have := strips_sum h (prim a b) hb ha hlt.le
    have e : 1 / 2 * (a.x + b.x) * (b.y - a.y) = -(prim a b a.y - prim a b b.y) := by
      rw [← prim_ends hlt.ne']; ring
    rw [e, ← this, sum_neg']
    congr 1
    refine List.map_congr_left fun p hp => ?_
    obtain ⟨-, -, i3, -⟩ := strips_mem h hp
    have : ¬ (a.y ≤ p.1 ∧ p.2 ≤ b.y) := by rintro ⟨k1, k2⟩; linarith
    unfold dirn
    rw [if_neg this, prim_strip hlt.ne']
    split_ifs <;> ring

/-- Crossings of a horizontal line in a strip without end points. -/
theorem upCross_strip {p : K × K} (hp : p.1 < p.2) {a b : Pt K} (ha : a.y ≤ p.1 ∨ p.2 ≤ a.y) (hb : b.y ≤ p.1 ∨ p.2 ≤ b.y) (x : K) :
    UpCross ⟨x, (p.1 + p.2) / 2⟩ a b ↔ (a.y ≤ p.1 ∧ p.2 ≤ b.y) ∧ x < xAt a b ((p.1 + p.2) / 2) := by
  have m1 : p.1 < (p.1 + p.2) / 2 := by linarith
  have m2 : (p.1 + p.2) / 2 < p.2 := by linarith
  have key : a.y < b.y → (0 < side a b ⟨x, (p.1 + p.2) / 2⟩ ↔ x < xAt a b ((p.1 + p.2) / 2)) := by
    intro hab
    have hd : 0 < b.y - a.y := by linarith
    have : side a b ⟨x, (p.1 + p.2) / 2⟩ = (b.y - a.y) * (xAt a b ((p.1 + p.2) / 2) - x) := by
      unfold side xAt
      have := hd.ne'
      field_simp
      ring
    rw [this, mul_pos_iff_of_pos_left hd, sub_pos]
  unfold UpCross
  constructor
  · rintro ⟨h1, h2, h3⟩
    simp only at h1 h2
    have k1 : a.y ≤ p.1 := ha.resolve_right fun k => by linarith
    have k2 : p.2 ≤ b.y := hb.resolve_left fun k => by linarith
    exact ⟨⟨k1, k2⟩, (key (by linarith)).mp h3⟩
  · rintro ⟨⟨k1, k2⟩, h3⟩
    exact ⟨by simp only; linarith, by simp only; linarith, (key (by linarith)).mpr h3⟩

theorem xAt_comm {a b : Pt K} (h : a.y ≠ b.y) (m : K) : xAt a b m = xAt b a m := by
  unfold xAt
  have h1 : b.y - a.y ≠ 0 := sub_ne_zero.mpr (Ne.symm h)
  have h2 : a.y - b.y ≠ 0 := sub_ne_zero.mpr h
  field_simp
  ring

theorem crossing_strip {p : K × K} (hp : p.1 < p.2) {a b : Pt K} (ha : a.y ≤ p.1 ∨ p.2 ≤ a.y) (hb : b.y ≤ p.1 ∨ p.2 ≤ b.y) (x : K) :
    ((crossing ⟨x, (p.1 + p.2) / 2⟩ a b : Int) : K) = if x < xAt a b ((p.1 + p.2) / 2) then dirn p a b else 0 := by
  unfold crossing dirn
  have e1 := upCross_strip hp ha hb x
  have e2 := upCross_strip hp hb ha x
  by_cases k1 : a.y ≤ p.1 ∧ p.2 ≤ b.y
  · have k2 : ¬ (b.y ≤ p.1 ∧ p.2 ≤ a.y) := by rintro ⟨k, -⟩; have := k1.2; linarith
    simp only [e1, e2, k1, k2, true_and, false_and, if_true, if_false]
    split_ifs <;> simp
  · by_cases k2 : b.y ≤ p.1 ∧ p.2 ≤ a.y
    · have hne : b.y ≠ a.y := by
        intro h; have := k2.1; have := k2.2; linarith
      rw [xAt_comm hne] at e2
      simp only [e1, e2, k1, k2, true_and, false_and, if_true, if_false]
      split_ifs <;> simp
    · simp only [e1, e2, k1, k2, false_and, if_false]
      simp

theorem closed_sum {l : List (Pt K × Pt K)} (h : Closed l) (f : Pt K → K) :
    (l.map fun e => f e.2 - f e.1).sum = 0 := by
  have := ((h.map f).sum_eq)
  rw [List.map_map, List.map_map] at this
  have e : (l.map fun e => f e.2 - f e.1) = l.map fun e => f e.2 + - f e.1 := List.map_congr_left fun e _ => by ring
  rw [e, List.sum_map_add]
  have e2 : (l.map fun e => - f e.1).sum = - (l.map fun e => f e.1).sum := by
    rw [sum_neg']
  rw [e2]
  have e3 : (l.map fun e => f e.1).sum = (l.map fun e => f e.2).sum := this
  rw [e3]; ring

theorem chain_nonneg {l : List (Pt K × Pt K)} (hc : Closed l) (hw : ∀ p, 0 ≤ wind l p) :
    0 ≤ (l.map fun e => 1 / 2 * Pt.cross e.1 e.2).sum := by
  set ys := sorted (l.map (fun e => e.1.y) ++ l.map fun e => e.2.y) with hys
  have hsort : ys.Pairwise (· < ·) := sorted_lt _
  have hm : ∀ e ∈ l, e.1.y ∈ ys ∧ e.2.y ∈ ys := fun e he =>
    ⟨sorted_mem.mpr (List.mem_append_left _ (List.mem_map_of_mem (f := fun e : Pt K × Pt K => e.1.y) he)),
      sorted_mem.mpr (List.mem_append_right _ (List.mem_map_of_mem (f := fun e : Pt K × Pt K => e.2.y) he))⟩
  have e1 : (l.map fun e => 1 / 2 * Pt.cross e.1 e.2).sum = (l.map fun e => 1 / 2 * (e.1.x + e.2.x) * (e.2.y - e.1.y)).sum := by
    have h0 := closed_sum hc fun p => 1 / 2 * (p.x * p.y)
    have : (l.map fun e => 1 / 2 * (e.1.x + e.2.x) * (e.2.y - e.1.y)) =
        l.map fun e => 1 / 2 * Pt.cross e.1 e.2 + (1 / 2 * (e.2.x * e.2.y) - 1 / 2 * (e.1.x * e.1.y)) :=
      List.map_congr_left fun e _ => by unfold Pt.cross; ring
    rw [this, List.sum_map_add, h0, add_zero]
  have e2 : (l.map fun e => 1 / 2 * (e.1.x + e.2.x) * (e.2.y - e.1.y)) = l.map fun e =>
      ((strips ys).map fun p => (p.2 - p.1) * (dirn p e.1 e.2 * xAt e.1 e.2 ((p.1 + p.2) / 2))).sum :=
    List.map_congr_left fun e he => seg_strips hsort (hm e he).1 (hm e he).2
  rw [e1, e2, sum_comm']
  refine sum_nonneg' _ _ fun p hp => ?_
  obtain ⟨-, -, i3, i4⟩ := strips_mem hsort hp
  rw [List.sum_map_mul_left]
  refine mul_nonneg (by linarith) ?_
  have key := line_nonneg (l.map fun e => (xAt e.1 e.2 ((p.1 + p.2) / 2), dirn p e.1 e.2)) ?_ ?_
  · rw [List.map_map] at key
    exact key
  · rw [List.map_map]
    have h0 := closed_sum hc fun q => if p.2 ≤ q.y then 1 else 0
    have : (l.map (Prod.snd ∘ fun e => (xAt e.1 e.2 ((p.1 + p.2) / 2), dirn p e.1 e.2))) =
        l.map fun e => (if p.2 ≤ e.2.y then 1 else 0) - (if p.2 ≤ e.1.y then (1 : K) else 0) := by
      refine List.map_congr_left fun e he => ?_
      simp only [Function.comp, dirn]
      have j : ∀ y ∈ ys, y ≤ p.1 ↔ ¬ p.2 ≤ y := fun y hy =>
        ⟨fun k => not_le.mpr (lt_of_le_of_lt k i3), fun k => (i4 y hy).resolve_right k⟩
      simp only [j _ (hm e he).1, j _ (hm e he).2]
      by_cases k1 : p.2 ≤ e.1.y <;> by_cases k2 : p.2 ≤ e.2.y <;> simp [k1, k2]
    rw [this]; exact h0
  · intro x
    rw [List.map_map]
    have h0 := hw ⟨x, (p.1 + p.2) / 2⟩
    have h1 : (0 : K) ≤ ((wind l ⟨x, (p.1 + p.2) / 2⟩ : Int) : K) := by exact_mod_cast h0
    unfold wind at h1
    have hcast : ∀ l : List Int, ((l.sum : Int) : K) = (l.map fun z : Int => (z : K)).sum := by
      intro l
      induction l with
      | nil => simp
      | cons a l ih => rw [List.sum_cons, List.map_cons, List.sum_cons, Int.cast_add, ih]
    rw [hcast, List.map_map] at h1
    refine le_of_le_of_eq h1 ?_
    congr 1
    refine List.map_congr_left fun e he => ?_
    exact crossing_strip i3 (i4 _ (hm e he).1) (i4 _ (hm e he).2) x

/-- A closed chain that winds around no point negatively encloses a non-negative area. -/
theorem enclosed_nonneg {pos : Nat → Pt K} {es : List (Nat × Nat)} (hb : FUSpec.Balanced es) (hw : ∀ p, 0 ≤ winding pos es p) :
    0 ≤ enclosed pos es := by
  have := chain_nonneg (closed_segs hb pos) fun p => by rw [← winding_wind]; exact hw p
  unfold segs at this
  rw [List.map_map] at this
  exact this

theorem simple_nonneg {pos : Nat → Pt K} {es : List (Nat × Nat)} (h : SimpleFront pos es) : 0 ≤ enclosed pos es :=
  enclosed_nonneg h.balanced fun p => by rcases h.once p with k | k <;> omega

end TQ.FU

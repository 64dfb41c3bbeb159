import Verif.Geometry.Spec
import Mathlib.Data.List.GetD
import Mathlib.Data.List.Zip
import Mathlib.Algebra.BigOperators.Ring.List

/-! # Helper lemmas for planar geometry -/

set_option linter.unusedSectionVars false

namespace TQ
open GeoSpec
variable {K : Type*} [Field K] [LinearOrder K] [IsStrictOrderedRing K]

theorem orientation_CCW_iff {eps : K} (p q r : Pt K) :
    orientation eps p q r = .CCW ↔ eps ≤ area2 p q r * area2 p q r ∧ 0 < area2 p q r := by
  unfold orientation; dsimp only; split_ifs <;> simp_all

theorem orientation_CW_iff {eps : K} (p q r : Pt K) :
    orientation eps p q r = .CW ↔ eps ≤ area2 p q r * area2 p q r ∧ area2 p q r ≤ 0 := by
  unfold orientation; dsimp only; split_ifs <;> simp_all

theorem orientation_CL_iff {eps : K} (p q r : Pt K) :
    orientation eps p q r = .CL ↔ area2 p q r * area2 p q r < eps := by
  unfold orientation; dsimp only; split_ifs <;> simp_all

theorem area2_swap (p q r : Pt K) : area2 q p r = - area2 p q r := by
  unfold area2; ring

theorem area2_rot (p q r : Pt K) : area2 q r p = area2 p q r := by
  unfold area2; ring

theorem orientation_swap {eps : K} (he : 0 < eps) (p q r : Pt K) :
    orientation eps q p r = mirror (orientation eps p q r) := by
  unfold orientation; dsimp only
  rw [area2_swap]
  generalize area2 p q r = a
  rw [neg_mul_neg]
  split_ifs with h1 h2 h3 h3
  · rfl
  · exact absurd h2 (by linarith)
  · rfl
  · rfl
  · have : a = 0 := by linarith [not_lt.mp h2, not_lt.mp h3]
    subst this; simp at h1; exact absurd he (not_lt.mpr h1)

theorem orientation_rot {eps : K} (p q r : Pt K) :
    orientation eps q r p = orientation eps p q r := by
  unfold orientation; dsimp only; rw [area2_rot]

theorem opposite_comm (a b : Orientation) : opposite a b = opposite b a := by
  cases a <;> cases b <;> rfl

theorem opposite_mirror (a b : Orientation) :
    opposite (mirror a) (mirror b) = opposite a b := by
  cases a <;> cases b <;> rfl

theorem mirror_CL (a : Orientation) : (mirror a == .CL) = (a == .CL) := by
  cases a <;> rfl

theorem dot_swap_lt (p q r : Pt K) :
    (0 < Pt.dot (r - q) (p - q)) = (Pt.dot (r - p) (q - p) < Pt.normSq (q - p)) := by
  unfold Pt.dot Pt.normSq; simp only [Pt.sub_x, Pt.sub_y]
  apply propext; constructor <;> intro h <;> nlinarith

theorem dot_swap_lt' (p q r : Pt K) :
    (Pt.dot (r - q) (p - q) < Pt.normSq (p - q)) = (0 < Pt.dot (r - p) (q - p)) := by
  unfold Pt.dot Pt.normSq; simp only [Pt.sub_x, Pt.sub_y]
  apply propext; constructor <;> intro h <;> nlinarith

theorem inSegment_swap {eps : K} (he : 0 < eps) (p q r : Pt K) :
    inSegment eps q p r = inSegment eps p q r := by
  unfold inSegment
  rw [orientation_swap he]
  have hm : (mirror (orientation eps p q r) ≠ .CL) = (orientation eps p q r ≠ .CL) := by
    cases orientation eps p q r <;> simp [mirror]
  simp only [hm]
  split_ifs with h
  · rfl
  · have h1 := dot_swap_lt p q r
    have h2 := dot_swap_lt' p q r
    rw [Bool.and_comm]
    congr 1
    · simp only [h2]
    · simp only [h1]

/-- the four-way test of `lineLineIntersection` as one disjunction -/
theorem lineLineIntersection_eq (eps : K) (p1 q1 p2 q2 : Pt K) :
    lineLineIntersection eps p1 q1 p2 q2 =
      ((opposite (orientation eps p1 q1 p2) (orientation eps p1 q1 q2) &&
        opposite (orientation eps p2 q2 p1) (orientation eps p2 q2 q1)) ||
      inSegment eps p1 q1 p2 || inSegment eps p1 q1 q2 ||
      inSegment eps p2 q2 p1 || inSegment eps p2 q2 q1) := by
  have h : ∀ p q r : Pt K, (orientation eps p q r == .CL && inSegment eps p q r)
      = inSegment eps p q r := by
    intro p q r; unfold inSegment
    cases orientation eps p q r <;> simp
  unfold lineLineIntersection
  dsimp only
  simp only [h]
  simp only [Bool.if_true_left, Bool.if_false_right, Bool.and_true]
  simp only [Bool.decide_eq_true, Bool.or_assoc]

theorem area2_onSeg (p q a b : Pt K) (t : K) :
    area2 p q (onSeg a b t) = (1 - t) * area2 p q a + t * area2 p q b := by
  unfold area2 onSeg; simp only []; ring

/-- opposite signs mean a negative product -/
theorem opposite_neg {eps : K} {p q a b : Pt K}
    (h : opposite (orientation eps p q a) (orientation eps p q b) = true) (he : 0 < eps) :
    area2 p q a * area2 p q b < 0 := by
  unfold opposite at h
  simp only [Bool.or_eq_true, Bool.and_eq_true, beq_iff_eq, orientation_CCW_iff,
    orientation_CW_iff] at h
  have key : ∀ x : K, eps ≤ x * x → x ≤ 0 → x < 0 := by
    intro x h1 h2
    rcases lt_or_eq_of_le h2 with h | h
    · exact h
    · subst h; simp at h1; exact absurd he (not_lt.mpr h1)
  rcases h with ⟨⟨_, h2⟩, h3, h4⟩ | ⟨⟨h1, h2⟩, _, h4⟩
  · exact mul_neg_of_pos_of_neg h2 (key _ h3 h4)
  · exact mul_neg_of_neg_of_pos (key _ h1 h2) h4

theorem opposite_of_neg {eps : K} {p q a b : Pt K}
    (ha : orientation eps p q a ≠ .CL) (hb : orientation eps p q b ≠ .CL)
    (h : area2 p q a * area2 p q b < 0) :
    opposite (orientation eps p q a) (orientation eps p q b) = true := by
  rw [Ne, orientation_CL_iff, not_lt] at ha hb
  unfold opposite
  simp only [Bool.or_eq_true, Bool.and_eq_true, beq_iff_eq, orientation_CCW_iff,
    orientation_CW_iff]
  rcases mul_neg_iff.mp h with ⟨h1, h2⟩ | ⟨h1, h2⟩
  · exact Or.inl ⟨⟨ha, h1⟩, hb, h2.le⟩
  · exact Or.inr ⟨⟨ha, h1.le⟩, hb, h2⟩

/-- the intersection parameter lies in (0,1) when the end values have opposite sign -/
theorem param_mem {a b : K} (h : a * b < 0) :
    a - b ≠ 0 ∧ 0 < a / (a - b) ∧ a / (a - b) < 1 := by
  rcases mul_neg_iff.mp h with ⟨h1, h2⟩ | ⟨h1, h2⟩
  · have hp : 0 < a - b := by linarith
    exact ⟨hp.ne', div_pos h1 hp, by rw [div_lt_one hp]; linarith⟩
  · have hp : a - b < 0 := by linarith
    refine ⟨hp.ne, div_pos_of_neg_of_neg h1 hp, ?_⟩
    rw [div_lt_one_of_neg hp]; linarith

/-- combination of opposite-signed values at an interior parameter that vanishes -/
theorem neg_of_combo_zero {a b t : K} (h0 : 0 < t) (h1 : t < 1) (h : (1 - t) * a + t * b = 0)
    (ha : a ≠ 0) : a * b < 0 := by
  have hb : b = - ((1 - t) / t * a) := by
    field_simp; linarith
  rw [hb]
  have hp : 0 < (1 - t) / t := div_pos (by linarith) h0
  have : 0 < a * a := mul_self_pos.mpr ha
  nlinarith [mul_pos hp this]

/-! ### polygon sums -/

theorem cyclicPairs_eq_ofFn {α : Type*} (l : List α) (i : Nat) (hi : i < l.length) :
    (cyclicPairs l)[i]'(by simp [cyclicPairs, hi]) =
      (l[i], l[(i + 1) % l.length]'(Nat.mod_lt _ (by omega))) := by
  unfold cyclicPairs
  simp only [List.getElem_zip, List.getElem_rotate]

theorem polygonLoop_eq (vs : List (Pt K)) (f : Nat) :
    ∀ (i : Nat) (acc : K), i + f = vs.length →
      polygonLoop vs vs.length f i acc =
        acc + (((cyclicPairs vs).drop i).map fun e => shoe e.1 e.2).sum := by
  induction f with
  | zero =>
    intro i acc h
    have : (cyclicPairs vs).drop i = [] := by
      apply List.drop_eq_nil_of_le; simp [cyclicPairs]; omega
    simp [polygonLoop, this]
  | succ f ih =>
    intro i acc h
    have hi : i < vs.length := by omega
    have hj : ((i + 1) % vs.length + vs.length) % vs.length = (i + 1) % vs.length := by
      rw [Nat.add_mod_right, Nat.mod_mod]
    have hlen : (cyclicPairs vs).length = vs.length := by simp [cyclicPairs]
    unfold polygonLoop
    rw [ih (i + 1) _ (by omega)]
    rw [List.drop_eq_getElem_cons (i := i) (by omega)]
    rw [List.map_cons, List.sum_cons, cyclicPairs_eq_ofFn vs i hi, hj]
    rw [List.getD_eq_getElem _ _ hi,
      List.getD_eq_getElem _ _ (Nat.mod_lt (i + 1) (by omega : 0 < vs.length))]
    ring

theorem polygonArea_eq_cyclicSum (vs : List (Pt K)) :
    polygonArea vs = cyclicSum shoe vs / 2 := by
  unfold polygonArea cyclicSum
  rw [polygonLoop_eq vs vs.length 0 0 (by omega)]
  simp

theorem cyclicPairs_rotate {α : Type*} (l : List α) (n : Nat) :
    cyclicPairs (l.rotate n) = (cyclicPairs l).rotate n := by
  unfold cyclicPairs
  rw [List.zip_eq_zipWith, List.zip_eq_zipWith, List.zipWith_rotate_distrib _ _ _ _ (by simp), List.rotate_rotate,
    List.rotate_rotate, Nat.add_comm]

theorem sum_rotate (l : List K) (n : Nat) : (l.rotate n).sum = l.sum :=
  (List.rotate_perm l n).sum_eq

theorem cyclicSum_rotate (f : Pt K → Pt K → K) (l : List (Pt K)) (n : Nat) :
    cyclicSum f (l.rotate n) = cyclicSum f l := by
  unfold cyclicSum
  rw [cyclicPairs_rotate, List.map_rotate, sum_rotate]

theorem cyclicPairs_reverse_perm {α : Type*} (l : List α) :
    (cyclicPairs l.reverse).Perm ((cyclicPairs l).map Prod.swap) := by
  have h1 : (cyclicPairs l).map Prod.swap = (l.rotate 1).zip l := by
    unfold cyclicPairs; exact List.zip_swap _ _
  rw [h1]
  have h2 : cyclicPairs l.reverse = (((l.rotate 1).zip l).rotate (l.length - 1 % l.length)).reverse := by
    unfold cyclicPairs
    rw [List.rotate_reverse, List.zip_eq_zipWith, List.zip_eq_zipWith, List.zipWith_rotate_distrib _ _ _ _ (by simp),
      List.rotate_rotate, List.reverse_zipWith (by simp)]
    have : 1 + (l.length - 1 % l.length) = l.length ∨ l.length = 1 ∨ l.length = 0 := by
      rcases Nat.lt_or_ge l.length 2 with h | h
      · omega
      · left; rw [Nat.mod_eq_of_lt (by omega : 1 < l.length)]; omega
    rcases this with h | h | h
    · rw [h, List.rotate_length]
    · obtain ⟨a, rfl⟩ := List.length_eq_one_iff.mp h
      simp
    · rw [List.length_eq_zero_iff.mp h]; simp
  rw [h2]
  exact (List.reverse_perm _).trans (List.rotate_perm _ _)

theorem cyclicSum_reverse (f : Pt K → Pt K → K) (l : List (Pt K)) :
    cyclicSum f l.reverse = cyclicSum (fun a b => f b a) l := by
  unfold cyclicSum
  rw [((cyclicPairs_reverse_perm l).map _).sum_eq, List.map_map]
  rfl

theorem cyclicSum_add (f g : Pt K → Pt K → K) (l : List (Pt K)) :
    cyclicSum (fun a b => f a b + g a b) l = cyclicSum f l + cyclicSum g l := by
  unfold cyclicSum
  exact List.sum_map_add

theorem cyclicSum_smul (c : K) (f : Pt K → Pt K → K) (l : List (Pt K)) :
    cyclicSum (fun a b => c * f a b) l = c * cyclicSum f l := by
  unfold cyclicSum
  exact List.sum_map_mul_left _ _ _

theorem cyclicSum_fst (g : Pt K → K) (l : List (Pt K)) :
    cyclicSum (fun a _ => g a) l = (l.map g).sum := by
  unfold cyclicSum cyclicPairs
  have : (l.zip (l.rotate 1)).map (fun e => g e.1) = ((l.zip (l.rotate 1)).map Prod.fst).map g := by
    rw [List.map_map]; rfl
  rw [this, List.map_fst_zip (by simp)]

theorem cyclicSum_snd (g : Pt K → K) (l : List (Pt K)) :
    cyclicSum (fun _ b => g b) l = (l.map g).sum := by
  unfold cyclicSum cyclicPairs
  have : (l.zip (l.rotate 1)).map (fun e => g e.2) = ((l.zip (l.rotate 1)).map Prod.snd).map g := by
    rw [List.map_map]; rfl
  rw [this, List.map_snd_zip (by simp)]
  exact ((List.rotate_perm l 1).map g).sum_eq

/-- sums of differences around a cycle vanish -/
theorem cyclicSum_telescope (g : Pt K → K) (l : List (Pt K)) :
    cyclicSum (fun a b => g a - g b) l = 0 := by
  have h := cyclicSum_add (fun a _ => g a) (fun _ b => (-1) * g b) l
  have h2 := cyclicSum_smul (-1) (fun _ b => g b) l
  rw [h2, cyclicSum_fst, cyclicSum_snd] at h
  have e : (fun a b : Pt K => g a - g b) = fun a b => g a + (-1) * g b := by
    funext a b; ring
  rw [e, h]; ring

theorem cyclicSum_map (f : Pt K → Pt K → K) (g : Pt K → Pt K) (l : List (Pt K)) :
    cyclicSum f (l.map g) = cyclicSum (fun a b => f (g a) (g b)) l := by
  unfold cyclicSum cyclicPairs
  rw [← List.map_rotate, List.zip_map, List.map_map]
  rfl

end TQ

import Verif.Utils.Model
import Verif.Utils.Spec
import Mathlib.Tactic.Ring
import Mathlib.Tactic.Linarith
import Mathlib.Tactic.NormNum
import Mathlib.Tactic.Order
import Mathlib.Order.Fin.Basic
import Mathlib.Algebra.Order.Ring.Rat
import Mathlib.Algebra.Order.BigOperators.Group.List
import Mathlib.Algebra.BigOperators.Ring.List

/-! # Property theorems C10, C16, C75, C76, C77 -/

set_option linter.unusedSectionVars false

namespace TQ
open UtilSpec

/-! ## C10 flags -/

namespace Flags

/-- C10: bit by bit, `add_property` is union, `remove_property` difference, and `has_property` asks
whether the intersection is non-empty; for all words and masks. -/
theorem C10_bitwise (w p q : BitVec 8) :
    (∀ i, (add w p).getLsbD i = (w.getLsbD i || p.getLsbD i)) ∧
    (∀ i, i < 8 → (remove w p).getLsbD i = (w.getLsbD i && !p.getLsbD i)) ∧
    (has w q = true ↔ ∃ i, w.getLsbD i = true ∧ q.getLsbD i = true) ∧
    (has (add w p) q = true ↔ has w q = true ∨ has p q = true) ∧
    has (remove w p) p = false ∧
    (has p q = false → has (remove w p) q = has w q) := by
  have hhas : ∀ w q : BitVec 8, has w q = true ↔ ∃ i, w.getLsbD i = true ∧ q.getLsbD i = true := by
    intro w q
    unfold has
    rw [bne_iff_ne]
    constructor
    · intro h
      by_contra hc
      push Not at hc
      apply h
      apply BitVec.eq_of_getLsbD_eq
      intro i _
      rw [BitVec.getLsbD_and]
      change _ = (0#8).getLsbD i
      rw [BitVec.getLsbD_zero]
      cases hw : w.getLsbD i with
      | false => rfl
      | true => simpa using hc i hw
    · rintro ⟨i, h1, h2⟩ h
      have := congrArg (fun x => x.getLsbD i) h
      change (w &&& q).getLsbD i = (0#8).getLsbD i at this
      rw [BitVec.getLsbD_and, h1, h2, BitVec.getLsbD_zero] at this
      exact absurd this (by decide)
  have hrm : ∀ i, i < 8 → (remove w p).getLsbD i = (w.getLsbD i && !p.getLsbD i) := by
    intro i hi
    simp [remove, hi]
  have lt8 : ∀ (w : BitVec 8) i, w.getLsbD i = true → i < 8 := by
    intro w i h
    by_contra hc
    rw [BitVec.getLsbD_of_ge w i (by omega)] at h
    exact absurd h (by decide)
  refine ⟨fun i => by simp [add], hrm, hhas w q, ?_, ?_, ?_⟩
  · rw [hhas, hhas, hhas]
    simp only [add, BitVec.getLsbD_or, Bool.or_eq_true]
    constructor
    · rintro ⟨i, h1 | h1, h2⟩
      · exact Or.inl ⟨i, h1, h2⟩
      · exact Or.inr ⟨i, h1, h2⟩
    · rintro (⟨i, h1, h2⟩ | ⟨i, h1, h2⟩)
      · exact ⟨i, Or.inl h1, h2⟩
      · exact ⟨i, Or.inr h1, h2⟩
  · rw [← Bool.not_eq_true, hhas]
    rintro ⟨i, h1, h2⟩
    rw [hrm i (lt8 _ i h1), h2] at h1
    simp at h1
  · intro hpq
    rw [← Bool.not_eq_true, hhas] at hpq
    push Not at hpq
    rw [Bool.eq_iff_iff, hhas, hhas]
    constructor
    · rintro ⟨i, h1, h2⟩
      rw [hrm i (lt8 _ i h1), Bool.and_eq_true] at h1
      exact ⟨i, h1.1, h2⟩
    · rintro ⟨i, h1, h2⟩
      refine ⟨i, ?_, h2⟩
      rw [hrm i (lt8 _ i h1), h1]
      cases hp : p.getLsbD i with
      | false => rfl
      | true => exact absurd h2 (hpq i hp)

/-- the words of the flags -/
def vmask : VName → BitVec 8
  | .onFront => vOnFront
  | .inQuadLayer => vInQuadLayer
  | .isFixed => vIsFixed
  | .onBoundary => vOnBoundary

def emask : EName → BitVec 8
  | .onBoundary => eOnBoundary
  | .isFixed => eIsFixed
  | .isGhost => eIsGhost

/-- view of a word as abstract flags -/
def vabs (w : BitVec 8) : VFlags := ⟨has w vOnFront, has w vInQuadLayer, has w vIsFixed, has w vOnBoundary⟩
def eabs (w : BitVec 8) : EFlags := ⟨has w eOnBoundary, has w eIsFixed, has w eIsGhost⟩

theorem vmask_disjoint : ∀ a b : VName, has (vmask a) (vmask b) = decide (a = b) := by
  intro a b; cases a <;> cases b <;> rfl
theorem emask_disjoint : ∀ a b : EName, has (emask a) (emask b) = decide (a = b) := by
  intro a b; cases a <;> cases b <;> rfl

theorem vget (w : BitVec 8) (n : VName) : (vabs w).get n = has w (vmask n) := by
  cases n <;> rfl
theorem eget (w : BitVec 8) (n : EName) : (eabs w).get n = has w (emask n) := by
  cases n <;> rfl

theorem VFlags.ext {f g : VFlags} (h : ∀ n, f.get n = g.get n) : f = g := by
  cases f; cases g
  have h1 := h .onFront; have h2 := h .inQuadLayer; have h3 := h .isFixed; have h4 := h .onBoundary
  simp only [VFlags.get] at h1 h2 h3 h4
  subst h1; subst h2; subst h3; subst h4; rfl
theorem EFlags.ext {f g : EFlags} (h : ∀ n, f.get n = g.get n) : f = g := by
  cases f; cases g
  have h1 := h .onBoundary; have h2 := h .isFixed; have h3 := h .isGhost
  simp only [EFlags.get] at h1 h2 h3
  subst h1; subst h2; subst h3; rfl

theorem VFlags.get_put (f : VFlags) (v : Bool) (n m : VName) :
    (f.put v n).get m = if m = n then v else f.get m := by
  cases n <;> cases m <;> rfl
theorem EFlags.get_put (f : EFlags) (v : Bool) (n m : EName) :
    (f.put v n).get m = if m = n then v else f.get m := by
  cases n <;> cases m <;> rfl

/-- C10: on vertices, any sequence of adding (`true`) and removing (`false`) named flags, from any
word, acts on the four flags as on four independent booleans. -/
theorem C10_vertex_flags_independent (ops : List (Bool × VName)) (w : BitVec 8) :
    vabs (ops.foldl (fun w o => if o.1 then add w (vmask o.2) else remove w (vmask o.2)) w) =
      ops.foldl (fun f o => f.put o.1 o.2) (vabs w) := by
  induction ops generalizing w with
  | nil => rfl
  | cons o ops ih =>
    simp only [List.foldl_cons]
    rw [ih]
    congr 1
    apply VFlags.ext
    intro m
    rw [vget, VFlags.get_put, vget]
    obtain ⟨v, n⟩ := o
    cases v with
    | true =>
      simp only [if_true]
      rw [Bool.eq_iff_iff, (C10_bitwise w (vmask n) (vmask m)).2.2.2.1, vmask_disjoint]
      by_cases h : m = n
      · simp [h]
      · simp [h, Ne.symm h]
    | false =>
      simp only [Bool.false_eq_true, if_false]
      by_cases h : m = n
      · subst h; simp [(C10_bitwise w (vmask m) (vmask m)).2.2.2.2.1]
      · rw [if_neg h]
        apply (C10_bitwise w (vmask n) (vmask m)).2.2.2.2.2
        rw [vmask_disjoint]; simpa using Ne.symm h

/-- C10: the same for edges. -/
theorem C10_edge_flags_independent (ops : List (Bool × EName)) (w : BitVec 8) :
    eabs (ops.foldl (fun w o => if o.1 then add w (emask o.2) else remove w (emask o.2)) w) =
      ops.foldl (fun f o => f.put o.1 o.2) (eabs w) := by
  induction ops generalizing w with
  | nil => rfl
  | cons o ops ih =>
    simp only [List.foldl_cons]
    rw [ih]
    congr 1
    apply EFlags.ext
    intro m
    rw [eget, EFlags.get_put, eget]
    obtain ⟨v, n⟩ := o
    cases v with
    | true =>
      simp only [if_true]
      rw [Bool.eq_iff_iff, (C10_bitwise w (emask n) (emask m)).2.2.2.1, emask_disjoint]
      by_cases h : m = n
      · simp [h]
      · simp [h, Ne.symm h]
    | false =>
      simp only [Bool.false_eq_true, if_false]
      by_cases h : m = n
      · subst h; simp [(C10_bitwise w (emask m) (emask m)).2.2.2.2.1]
      · rw [if_neg h]
        apply (C10_bitwise w (emask n) (emask m)).2.2.2.2.2
        rw [emask_disjoint]; simpa using Ne.symm h

/-- a history with interleaved flags (the theorems above have no hypotheses) -/
example : vabs ([(true, VName.isFixed), (true, .onFront), (false, .isFixed), (true, .onBoundary)].foldl
    (fun w o => if o.1 then add w (vmask o.2) else remove w (vmask o.2)) 0) =
    ⟨true, false, false, true⟩ := by decide

end Flags

/-! ## C16 -/

/-- the intermediate value of `MOD` stays between `-M` and `2*M` -/
theorem mod_intermediate (n M : Int) (hM : 0 < M) :
    -M < Int.tmod n M ∧ 0 < Int.tmod n M + M ∧ Int.tmod n M + M < 2 * M := by
  have h1 := Int.tmod_lt_of_pos n hM
  have h2 : -M < Int.tmod n M := by
    have := Int.lt_tmod_of_pos n hM
    omega
  omega

/-- C16: `MOD` is the mathematical residue. -/
theorem C16_mod (n M : Int) (hM : 0 < M) :
    0 ≤ cppMOD n M ∧ cppMOD n M < M ∧ M ∣ n - cppMOD n M := by
  obtain ⟨h1, h2, h3⟩ := mod_intermediate n M hM
  unfold cppMOD
  refine ⟨Int.tmod_nonneg _ h2.le, Int.tmod_lt_of_pos _ hM, ?_⟩
  have e1 := Int.mul_tdiv_add_tmod n M
  have e2 := Int.mul_tdiv_add_tmod (n.tmod M + M) M
  refine ⟨n.tdiv M + (n.tmod M + M).tdiv M - 1, ?_⟩
  have : M * (n.tdiv M + (n.tmod M + M).tdiv M - 1) =
      M * n.tdiv M + M * (n.tmod M + M).tdiv M - M := by ring
  omega

/-- C16: `CLAMP` ends in the interval and does not move values inside of it. -/
theorem C16_clamp {T : Type*} [LinearOrder T] (x lo hi : T) (h : lo ≤ hi) :
    lo ≤ cppCLAMP x lo hi ∧ cppCLAMP x lo hi ≤ hi ∧ (lo ≤ x → x ≤ hi → cppCLAMP x lo hi = x) ∧
    (x < lo → cppCLAMP x lo hi = lo) ∧ (hi < x → cppCLAMP x lo hi = hi) := by
  unfold cppCLAMP cppMAX cppMIN
  refine ⟨?_, ?_, ?_, ?_, ?_⟩
  · split_ifs <;> order
  · split_ifs <;> order
  · intro h1 h2; split_ifs <;> order
  · intro h1; split_ifs <;> order
  · intro h1; split_ifs <;> order

/-- C16: `argsort` is the stable sorting permutation of the indices. -/
theorem C16_argsort {T : Type*} [LinearOrder T] (v : Array T) :
    StableSorted (fun i : Fin v.size => v[i]) (argsort v) := by
  have htr : ∀ a b c : Fin v.size, (!decide (v[b] < v[a])) = true → (!decide (v[c] < v[b])) = true →
      (!decide (v[c] < v[a])) = true := by
    intro a b c h1 h2
    simp only [Bool.not_eq_true', decide_eq_false_iff_not, not_lt] at *
    exact h1.trans h2
  have hto : ∀ a b : Fin v.size, ((!decide (v[b] < v[a])) || (!decide (v[a] < v[b]))) = true := by
    intro a b
    simp only [Bool.or_eq_true, Bool.not_eq_true', decide_eq_false_iff_not, not_lt]
    exact le_total _ _
  have hperm : (argsort v).Perm (List.finRange v.size) := List.mergeSort_perm _ _
  refine ⟨hperm, ?_⟩
  have hsorted := List.pairwise_mergeSort htr hto (List.finRange v.size)
  have hnd : (argsort v).Nodup := hperm.nodup_iff.mpr (List.nodup_finRange _)
  -- stability: equal pairs keep their order
  have hstab : ∀ i j : Fin v.size, i < j → v[i] = v[j] → [i, j].Sublist (argsort v) := by
    intro i j hij he
    apply List.sublist_mergeSort htr hto
    · simp only [List.pairwise_cons, List.mem_singleton, forall_eq, Bool.not_eq_true',
        decide_eq_false_iff_not, not_lt, List.not_mem_nil, false_imp_iff, implies_true,
        List.Pairwise.nil, and_true]
      exact he.le
    · have hs : (List.finRange v.size).Pairwise (· < ·) := List.pairwise_lt_finRange _
      have hi : i ∈ List.finRange v.size := List.mem_finRange i
      obtain ⟨l1, l2, e⟩ := List.append_of_mem hi
      have hj : j ∈ l2 := by
        have hj : j ∈ List.finRange v.size := List.mem_finRange j
        rw [e] at hs hj
        rcases List.mem_append.mp hj with h | h
        · rw [List.pairwise_append] at hs
          have := hs.2.2 j h i List.mem_cons_self
          exact absurd this (not_lt.mpr hij.le)
        · rcases List.mem_cons.mp h with h | h
          · exact absurd h hij.ne'
          · exact h
      rw [e]
      exact List.Sublist.trans (List.Sublist.cons_cons i (List.singleton_sublist.mpr hj))
        (List.sublist_append_right l1 _)
  have key : ∀ i j : Fin v.size, [i, j].Sublist (argsort v) →
      v[i] < v[j] ∨ v[i] = v[j] ∧ i < j := by
    intro i j hsub
    have h1 : v[i] ≤ v[j] := by
      have := List.pairwise_iff_forall_sublist.mp hsorted hsub
      simpa using this
    rcases h1.lt_or_eq with h | h
    · exact Or.inl h
    · refine Or.inr ⟨h, ?_⟩
      rcases lt_trichotomy i j with hlt | heq | hgt
      · exact hlt
      · subst heq
        have := List.Nodup.sublist hsub hnd
        simp at this
      · have h2 := hstab j i hgt h.symm
        -- both orders: contradiction with no duplicates
        have hne : i ≠ j := hgt.ne'
        have : ∀ (l : List (Fin v.size)), l.Nodup → [i, j].Sublist l → [j, i].Sublist l → False := by
          intro l
          induction l with
          | nil => intro _ h _; simp at h
          | cons a l ih =>
            intro hn ha hb
            rw [List.nodup_cons] at hn
            cases ha with
            | cons _ ha =>
              cases hb with
              | cons _ hb => exact ih hn.2 ha hb
              | cons_cons _ hb =>
                exact hn.1 (ha.subset (by simp))
            | cons_cons _ ha =>
              cases hb with
              | cons _ hb => exact hn.1 (hb.subset (by simp))
              | cons_cons _ hb => exact hne rfl
        exact (this _ hnd hsub h2).elim
  exact List.pairwise_iff_forall_sublist.mpr fun {i j} h => key i j h

/-- C16: there is only one stable sorting permutation, so the choice of the algorithm behind
`std::stable_sort` does not matter. -/
theorem C16_argsort_unique {T : Type*} [LinearOrder T] (v : Array T) (l : List (Fin v.size))
    (h : StableSorted (fun i : Fin v.size => v[i]) l) : l = argsort v := by
  obtain ⟨p1, s1⟩ := h
  obtain ⟨p2, s2⟩ := C16_argsort v
  refine List.Perm.eq_of_pairwise ?_ s1 s2 (p1.trans p2.symm)
  intro a b _ _ h1 h2
  rcases h1 with h1 | ⟨h1, h1'⟩ <;> rcases h2 with h2 | ⟨h2, h2'⟩
  · exact absurd h1 (not_lt.mpr h2.le)
  · exact absurd h1 (by rw [h2]; exact lt_irrefl _)
  · exact absurd h2 (by rw [h1]; exact lt_irrefl _)
  · exact absurd h1' (not_lt.mpr h2'.le)

example : cppMOD (-7) 5 = 3 := by decide
example : argsort #[3, 1, 3, 2] = [1, 3, 0, 2] :=
  (C16_argsort_unique _ _ ⟨by decide, by decide⟩).symm

/-! ## C75 -/

namespace Vec
variable {K : Type*} [Field K]

theorem innerLoop_eq (acc : K) (a b : List K) :
    innerLoop acc a b = acc + (List.zipWith (· * ·) a b).sum := by
  induction a generalizing acc b with
  | nil => cases b <;> simp [innerLoop]
  | cons x a ih =>
    cases b with
    | nil => simp [innerLoop]
    | cons y b => simp only [innerLoop, ih, List.zipWith_cons_cons, List.sum_cons]; ring

theorem dot_eq_sum (a b : List K) : dot a b = (List.zipWith (· * ·) a b).sum := by
  unfold dot; rw [innerLoop_eq, zero_add]

/-- C75: all operations act on each component. -/
theorem C75_componentwise (a b : List K) (n : Nat) (ha : a.length = n) (hb : b.length = n) (s : K) :
    (add a b).length = n ∧ (sub a b).length = n ∧ (neg a).length = n ∧ (mulS a s).length = n ∧
    ∀ (i : Nat) (x y : K), a[i]? = some x → b[i]? = some y →
      (add a b)[i]? = some (x + y) ∧ (sub a b)[i]? = some (x - y) ∧ (neg a)[i]? = some (-x) ∧
      (mul a b)[i]? = some (x * y) ∧ (div a b)[i]? = some (x / y) ∧
      (addS a s)[i]? = some (x + s) ∧ (subS a s)[i]? = some (x - s) ∧
      (sSub s a)[i]? = some (s - x) ∧ (mulS a s)[i]? = some (x * s) ∧
      (divS a s)[i]? = some (x / s) ∧ (sDiv s a)[i]? = some (s / x) := by
  refine ⟨by simp [add, ha, hb], by simp [sub, ha, hb], by simp [neg, ha], by simp [mulS, ha], ?_⟩
  intro i x y h1 h2
  simp [add, sub, neg, mul, div, addS, subS, sSub, mulS, divS, sDiv, List.getElem?_zipWith, h1, h2]

/-- C75: the vector space laws. -/
theorem C75_vector_space (a b c : List K) (n : Nat) (ha : a.length = n) (hb : b.length = n)
    (hc : c.length = n) (s t : K) :
    add a b = add b a ∧ add (add a b) c = add a (add b c) ∧
    add a (List.replicate n 0) = a ∧ add a (neg a) = List.replicate n 0 ∧ sub a b = add a (neg b) ∧
    mulS (add a b) s = add (mulS a s) (mulS b s) ∧ mulS a (s + t) = add (mulS a s) (mulS a t) ∧
    mulS (mulS a s) t = mulS a (s * t) ∧ mulS a 1 = a := by
  subst ha
  refine ⟨?_, ?_, ?_, ?_, ?_, ?_, ?_, ?_, ?_⟩ <;>
    (apply List.ext_getElem?; intro i
     simp only [add, neg, sub, mulS, List.getElem?_zipWith, List.getElem?_map,
       List.getElem?_replicate])
  · cases h1 : a[i]? <;> cases h2 : b[i]? <;> simp [add_comm]
  · cases h1 : a[i]? <;> cases h2 : b[i]? <;> cases h3 : c[i]? <;> simp [add_assoc]
  · by_cases hi : i < a.length
    · simp [hi]
    · simp [hi]
  · by_cases hi : i < a.length
    · simp [hi]
    · simp [hi]
  · cases h1 : a[i]? <;> cases h2 : b[i]? <;> simp [sub_eq_add_neg]
  · cases h1 : a[i]? <;> cases h2 : b[i]? <;> simp [add_mul]
  · cases h1 : a[i]? <;> simp [mul_add]
  · cases h1 : a[i]? <;> simp [mul_assoc]
  · cases h1 : a[i]? <;> simp

/-- C75: `dot` is symmetric and linear. -/
theorem C75_dot (a b c : List K) (n : Nat) (ha : a.length = n) (hb : b.length = n)
    (hc : c.length = n) (s : K) :
    dot a b = dot b a ∧ dot (add a b) c = dot a c + dot b c ∧ dot (mulS a s) b = s * dot a b ∧
    normSqr a = dot a a := by
  refine ⟨?_, ?_, ?_, rfl⟩
  · rw [dot_eq_sum, dot_eq_sum, List.zipWith_comm]
    congr 1; congr 1; funext x y; ring
  · rw [dot_eq_sum, dot_eq_sum, dot_eq_sum]
    subst ha
    induction a generalizing b c with
    | nil =>
      cases b <;> simp_all [add]
    | cons x a ih =>
      cases b with
      | nil => simp at hb
      | cons y b =>
        cases c with
        | nil => simp at hc
        | cons z c =>
          have := ih b c (by simpa using hb) (by simpa using hc)
          simp only [add, List.zipWith_cons_cons, List.sum_cons] at this ⊢
          rw [this]; ring
  · rw [dot_eq_sum, dot_eq_sum]
    clear hb hc ha
    induction a generalizing b with
    | nil => simp [mulS]
    | cons x a ih =>
      cases b with
      | nil => simp [mulS]
      | cons y b =>
        have := ih b
        simp only [mulS, List.map_cons, List.zipWith_cons_cons, List.sum_cons] at this ⊢
        rw [this]; ring

/-- C75: the three-dimensional cross product is antisymmetric and orthogonal to its factors. -/
theorem C75_cross3 (ax ay az bx b_y bz : K) :
    let c := cross3 (ax, ay, az) (bx, b_y, bz)
    cross3 (bx, b_y, bz) (ax, ay, az) = (-c.1, -c.2.1, -c.2.2) ∧
    ax * c.1 + ay * c.2.1 + az * c.2.2 = 0 ∧ bx * c.1 + b_y * c.2.1 + bz * c.2.2 = 0 := by
  simp only [cross3]
  refine ⟨?_, by ring, by ring⟩
  congr 1
  · ring
  · congr 1 <;> ring

variable [LinearOrder K] [IsStrictOrderedRing K]

/-- C75: `a == b` holds exactly for equal vectors, whatever the tolerance factor `c < 1`
(`c = epsilon * ulp`). -/
theorem C75_eq_iff (c : K) (hc : c < 1) (a b : List K) (n : Nat) (ha : a.length = n)
    (hb : b.length = n) : eq c a b = true ↔ a = b := by
  have hnn : ∀ l : List K, 0 ≤ dot l l := by
    intro l
    rw [dot_eq_sum]
    apply List.sum_nonneg
    intro x hx
    rw [List.zipWith_self] at hx
    obtain ⟨y, _, rfl⟩ := List.mem_map.mp hx
    exact mul_self_nonneg y
  have hz : ∀ l : List K, dot l l = 0 → ∀ x ∈ l, x = 0 := by
    intro l
    induction l with
    | nil => intro _ x hx; simp at hx
    | cons y l ih =>
      intro h x hx
      have e : dot (y :: l) (y :: l) = y * y + dot l l := by
        rw [dot_eq_sum, dot_eq_sum, List.zipWith_cons_cons, List.sum_cons]
      rw [e] at h
      have h1 := hnn l
      have h2 := mul_self_nonneg y
      rcases List.mem_cons.mp hx with rfl | hx
      · have : x * x = 0 := by linarith
        exact mul_self_eq_zero.mp this
      · exact ih (by linarith) x hx
  unfold eq isZero
  rw [decide_eq_true_eq]
  change dot (sub a b) (sub a b) ≤ c * dot (sub a b) (sub a b) ↔ _
  have h0 := hnn (sub a b)
  constructor
  · intro h
    have h1 : dot (sub a b) (sub a b) = 0 := by
      by_contra hne
      have hpos := lt_of_le_of_ne h0 (Ne.symm hne)
      nlinarith
    have h2 := hz _ h1
    apply List.ext_getElem (by rw [ha, hb])
    intro i hi1 hi2
    have : a[i] - b[i] ∈ sub a b := by
      unfold sub
      rw [List.mem_iff_getElem]
      exact ⟨i, by simp [hi1, hi2], by simp⟩
    exact sub_eq_zero.mp (h2 _ this)
  · rintro rfl
    have : sub a a = List.replicate a.length 0 := by
      unfold sub
      rw [List.zipWith_self]
      apply List.ext_getElem <;> simp
    have h0' : dot (sub a a) (sub a a) = 0 := by
      rw [this, dot_eq_sum, List.zipWith_self]
      simp
    rw [h0']; simp

/-- `sum` for integral entries (the part of C75 on `sum` that holds) -/
theorem C75_sum_integral_partial (a : List Int) :
    sum (a.map (fun z : Int => (z : ℚ))) = ((a.sum : Int) : ℚ) := by
  unfold sum
  have key : ∀ (l : List Int) (acc : Int),
      (l.map (fun z : Int => (z : ℚ))).foldl (fun (acc : Int) x => toInt ((acc : ℚ) + x)) acc
        = acc + l.sum := by
    intro l
    induction l with
    | nil => intro acc; simp
    | cons z l ih =>
      intro acc
      simp only [List.map_cons, List.foldl_cons, List.sum_cons]
      have : toInt ((acc : ℚ) + (z : ℚ)) = acc + z := by
        unfold toInt
        rw [← Int.cast_add, Int.floor_intCast, Int.ceil_intCast]
        split_ifs <;> rfl
      rw [this, ih]; ring
  rw [key, zero_add]

/-- C75 is violated by `sum`: `Vec2d{0.5, 0.5}.sum()` is 0. -/
theorem C75_sum_violated : sum [1/2, 1/2] = 0 ∧ ([1/2, 1/2] : List ℚ).sum = 1 := by
  constructor
  · decide +kernel
  · norm_num

example : eq (1/1000 : ℚ) [1, 2] [1, 2] = true ∧ eq (1/1000 : ℚ) [1, 2] [1, 3] = false := by
  constructor <;> decide +kernel

end Vec

/-! ## C76 -/

/-- C76 is violated: swapping a 1x2 and a 2x1... here a 1x2 with a 3x1 matrix; the second matrix
keeps its dimensions and its data no longer fits. -/
theorem C76_swap_violated :
    ∃ a b : Mat Nat, a.data.length = a.rows * a.cols ∧ b.data.length = b.rows * b.cols ∧
      (Mat.swap a b).2 ≠ a ∧ (Mat.swap a b).2.get 2 0 = none ∧ (Mat.swap a b).2.rows = 3 :=
  ⟨⟨1, 2, [1, 2]⟩, ⟨3, 1, [3, 4, 5]⟩, by decide⟩

/-- C76, the part that holds: the receiver always becomes the argument; the argument becomes the
receiver exactly when both have the same dimensions. -/
theorem C76_swap_partial {T : Type*} (a b : Mat T) :
    (Mat.swap a b).1 = b ∧ ((Mat.swap a b).2 = a ↔ a.rows = b.rows ∧ a.cols = b.cols) := by
  refine ⟨rfl, ?_⟩
  cases a; cases b
  simp only [Mat.swap, Mat.mk.injEq, and_true]
  constructor <;> rintro ⟨rfl, rfl⟩ <;> exact ⟨rfl, rfl⟩

/-! ## C89: matrix indexing -/

/-- C89: in a matrix whose buffer has `rows * cols` entries (as after construction), `m[i][j]` is defined
for every index pair in range, and different index pairs name different entries of the buffer. -/
theorem C89_indexing {T : Type*} (m : Mat T) (h : m.data.length = m.rows * m.cols) (i j : ℕ)
    (hi : i < m.rows) (hj : j < m.cols) :
    (∃ x, m.get i j = some x) ∧
    ∀ i' j', j' < m.cols → i * m.cols + j = i' * m.cols + j' → i = i' ∧ j = j' := by
  constructor
  · have : i * m.cols + j < m.data.length := by
      rw [h]
      calc i * m.cols + j < i * m.cols + m.cols := by omega
        _ = (i + 1) * m.cols := by ring
        _ ≤ m.rows * m.cols := Nat.mul_le_mul_right _ hi
    exact ⟨_, List.getElem?_eq_getElem this⟩
  · intro i' j' hj' he
    have hc : 0 < m.cols := by omega
    have h1 : i = i' := by
      have := congrArg (· / m.cols) he
      simpa [Nat.add_comm, Nat.add_mul_div_right _ _ hc, Nat.div_eq_of_lt hj, Nat.div_eq_of_lt hj'] using this
    subst h1
    exact ⟨rfl, by omega⟩

/-- C89: `resize` yields a matrix of the requested dimensions whose buffer fits, the old buffer is kept as a
prefix (cut off or filled up with zeros), and if the number of columns is unchanged every old entry that is
still in range keeps its place. -/
theorem C89_resize_partial {T : Type*} [Zero T] (m : Mat T) (h : m.data.length = m.rows * m.cols) (r c : ℕ) :
    (m.resize r c).rows = r ∧ (m.resize r c).cols = c ∧ (m.resize r c).data.length = r * c ∧
    (∀ k < r * c, (m.resize r c).data[k]? = some (if hk : k < m.data.length then m.data[k] else 0)) ∧
    (c = m.cols → ∀ i j, i < r → j < c →
      (m.resize r c).get i j = if i < m.rows then m.get i j else some 0) := by
  have hd : ∀ k < r * c, (m.resize r c).data[k]? =
      some (if hk : k < m.data.length then m.data[k] else 0) := by
    intro k hk
    simp only [Mat.resize, List.getElem?_append, List.length_take, List.getElem?_take,
      List.getElem?_replicate]
    by_cases h1 : k < m.data.length
    · simp [h1, hk]
    · rw [if_neg (by omega), if_pos (by omega), dif_neg h1]
  refine ⟨rfl, rfl, ?_, hd, ?_⟩
  · simp only [Mat.resize, List.length_append, List.length_take, List.length_replicate]; omega
  · rintro rfl i j hi hj
    have hk : i * m.cols + j < r * m.cols := by
      calc i * m.cols + j < i * m.cols + m.cols := by omega
        _ = (i + 1) * m.cols := by ring
        _ ≤ r * m.cols := Nat.mul_le_mul_right _ hi
    have := hd _ hk
    simp only [Mat.get]
    rw [show (m.resize r m.cols).cols = m.cols from rfl, this]
    by_cases h1 : i < m.rows
    · have h2 : i * m.cols + j < m.data.length := by
        rw [h]
        calc i * m.cols + j < i * m.cols + m.cols := by omega
          _ = (i + 1) * m.cols := by ring
          _ ≤ m.rows * m.cols := Nat.mul_le_mul_right _ h1
      simp [h1, h2]
    · have h2 : ¬ i * m.cols + j < m.data.length := by
        rw [h]
        have : m.rows * m.cols ≤ i * m.cols := Nat.mul_le_mul_right _ (by omega)
        omega
      simp [h1, h2]

/-- C89 is violated when the number of columns changes: enlarging a 2x2 matrix to 2x3 moves the entry
in row 1, column 0. -/
theorem C89_resize_violated :
    ∃ m : Mat Nat, m.data.length = m.rows * m.cols ∧ 1 < m.rows ∧ 0 < m.cols ∧
      (m.resize 2 3).get 1 0 ≠ m.get 1 0 := ⟨⟨2, 2, [1, 2, 3, 4]⟩, by decide⟩

example : ((⟨2, 2, [1, 2, 3, 4]⟩ : Mat Nat).resize 3 2).get 1 0 = some 3 ∧
    ((⟨2, 2, [1, 2, 3, 4]⟩ : Mat Nat).resize 3 2).get 2 1 = some 0 := by decide

/-! ## C77 -/

theorem splitLoop_nomem (d : Char) : ∀ (s cur : List Char), d ∉ cur →
    ∀ p ∈ splitLoop d cur s, d ∉ p := by
  intro s
  induction s with
  | nil =>
    intro cur h p hp
    unfold splitLoop at hp
    split at hp
    · simp at hp
    · rw [List.mem_singleton] at hp; subst hp; exact h
  | cons c cs ih =>
    intro cur h p hp
    unfold splitLoop at hp
    split at hp
    · rcases List.mem_cons.mp hp with rfl | hp
      · exact h
      · exact ih [] (by simp) p hp
    · rename_i hc
      exact ih _ (by simp [h, Ne.symm hc]) p hp

theorem splitLoop_terminated (d : Char) : ∀ (s cur : List Char), d ∉ cur →
    terminated d (splitLoop d cur s) =
      if (cur ++ s) = [] ∨ (cur ++ s).getLast? = some d then cur ++ s else cur ++ s ++ [d] := by
  intro s
  induction s with
  | nil =>
    intro cur h
    unfold splitLoop
    rw [List.append_nil]
    cases hcur : cur with
    | nil => simp [terminated]
    | cons a l =>
      have : cur.getLast? ≠ some d := by
        intro he
        exact h (List.mem_of_getLast? he)
      rw [hcur] at this
      simp [terminated, this]
  | cons c cs ih =>
    intro cur h
    unfold splitLoop
    by_cases hc : c = d
    · subst hc
      rw [if_pos rfl]
      have e := ih [] (by simp)
      simp only [terminated, List.flatMap_cons] at e ⊢
      rw [e]
      simp only [List.nil_append]
      cases cs with
      | nil => simp
      | cons x xs =>
        have h1 : (cur ++ c :: x :: xs).getLast? = (x :: xs).getLast? := by
          rw [List.getLast?_append, List.getLast?_cons_cons]
          cases hh : (x :: xs).getLast? with
          | none => simp at hh
          | some v => rfl
        rw [h1]
        by_cases hl : (x :: xs).getLast? = some c
        · simp [hl]
        · simp [hl]
    · rw [if_neg hc, ih _ (by simp [h, Ne.symm hc])]
      simp only [List.append_assoc, List.cons_append, List.nil_append]

/-- C77: without removing empty parts, putting the delimiter behind every part gives back the string,
plus a delimiter at the end if the string does not end with one (and is not empty); no part contains
the delimiter. -/
theorem C77_split_join (s : List Char) (d : Char) :
    terminated d (split s d false) =
      (if s = [] ∨ s.getLast? = some d then s else s ++ [d]) ∧
    ∀ p ∈ split s d false, d ∉ p := by
  unfold split
  simp only [Bool.false_eq_true, if_false]
  refine ⟨?_, splitLoop_nomem d s [] (by simp)⟩
  have := splitLoop_terminated d s [] (by simp)
  simpa using this

/-- C77: joining delimiter-free parts and splitting gives the parts back. -/
theorem C77_join_split (d : Char) (parts : List (List Char)) (h : ∀ p ∈ parts, d ∉ p) :
    split (terminated d parts) d false = parts := by
  unfold split
  simp only [Bool.false_eq_true, if_false]
  have key : ∀ (p cur rest : List Char), d ∉ p →
      splitLoop d cur (p ++ d :: rest) = (cur ++ p) :: splitLoop d [] rest := by
    intro p
    induction p with
    | nil => intro cur rest _; simp [splitLoop]
    | cons c p ih =>
      intro cur rest hp
      rw [List.mem_cons, not_or] at hp
      simp only [List.cons_append, splitLoop, if_neg (Ne.symm hp.1)]
      rw [ih _ _ hp.2]; simp
  induction parts with
  | nil => rfl
  | cons p ps ih =>
    have e : terminated d (p :: ps) = p ++ d :: terminated d ps := by
      simp [terminated]
    rw [e, key p [] _ (h p List.mem_cons_self), ih fun q hq => h q (List.mem_cons_of_mem _ hq)]
    rfl

/-- C77: with `remove_empty_elements` the non-empty parts remain, in order. -/
theorem C77_remove_empty (s : List Char) (d : Char) :
    split s d true = (split s d false).filter (fun p => !p.isEmpty) ∧
    (∀ p ∈ split s d true, p ≠ [] ∧ d ∉ p) := by
  refine ⟨by simp [split], ?_⟩
  intro p hp
  unfold split at hp
  rw [if_pos rfl, List.mem_filter] at hp
  refine ⟨?_, splitLoop_nomem d s [] (by simp) p hp.1⟩
  rintro rfl
  simp at hp

example : split "a,,b,".toList ',' false = ["a".toList, [], "b".toList] := by decide

end TQ

#print axioms TQ.Flags.C10_bitwise
#print axioms TQ.Flags.C10_vertex_flags_independent
#print axioms TQ.Flags.C10_edge_flags_independent
#print axioms TQ.C16_mod
#print axioms TQ.C16_clamp
#print axioms TQ.C16_argsort
#print axioms TQ.C16_argsort_unique
#print axioms TQ.Vec.C75_componentwise
#print axioms TQ.Vec.C75_vector_space
#print axioms TQ.Vec.C75_dot
#print axioms TQ.Vec.C75_cross3
#print axioms TQ.Vec.C75_eq_iff
#print axioms TQ.Vec.C75_sum_integral_partial
#print axioms TQ.Vec.C75_sum_violated
#print axioms TQ.C76_swap_violated
#print axioms TQ.C76_swap_partial
#print axioms TQ.C89_indexing
#print axioms TQ.C89_resize_partial
#print axioms TQ.C89_resize_violated
#print axioms TQ.C77_split_join
#print axioms TQ.C77_join_split
#print axioms TQ.C77_remove_empty

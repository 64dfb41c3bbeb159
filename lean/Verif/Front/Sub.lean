import Verif.Front.Spec
import Mathlib.Data.List.Chain
import Mathlib.Algebra.Order.BigOperators.Group.List
import Mathlib.Algebra.Order.Ring.Abs
import Mathlib.Tactic.LinearCombination

/-! # Lemmas on the refinement of front edges -/

set_option linter.unusedSectionVars false

namespace TQ
open Fr FrSpec
variable {K : Type*} [Field K] [LinearOrder K] [IsStrictOrderedRing K]

/-- the loop on abscissae: interior points and the last one -/
def tLoop (ρ : K → K) (S : K) : Nat → K → Option (List K × K)
  | 0, _ => none
  | n + 1, x =>
    let y := x + 1 / 2 * (ρ x + ρ (x + ρ x))
    if S < y then some ([], y) else (tLoop ρ S n y).map fun q => (y :: q.1, q.2)

/-- the point at distance `t` -/
def ray (a tang : Pt K) (t : K) : Pt K := a + Pt.smul t tang

theorem ray_add (a tang : Pt K) (t u : K) : ray a tang t + Pt.smul u tang = ray a tang (t + u) := by
  unfold ray; apply Pt.ext' <;> simp <;> ring

theorem norm_smul_unit {norm : Pt K → K} (hn : IsNorm norm) {tang : Pt K} (hu : Pt.normSq tang = 1)
    {t : K} (ht : 0 ≤ t) : norm (Pt.smul t tang) = t := by
  obtain ⟨h1, h2⟩ := hn (Pt.smul t tang)
  have h3 : Pt.normSq (Pt.smul t tang) = t * t := by
    have : Pt.normSq (Pt.smul t tang) = t * t * Pt.normSq tang := by
      unfold Pt.normSq; simp; ring
    rw [this, hu, mul_one]
  rw [h3] at h2
  exact mul_self_inj_of_nonneg h1 ht |>.mp h2

theorem subLoop_eq {norm : Pt K → K} (hn : IsNorm norm) {rho : Pt K → K} {a tang : Pt K}
    (hu : Pt.normSq tang = 1) {len : K} (hlen : 0 < len) (sEnd : K)
    (hpos : ∀ t, 0 < rho (ray a tang t)) (n : Nat) : ∀ x, 0 ≤ x →
    subLoop norm rho a tang len sEnd n (ray a tang x) =
      (tLoop (fun t => rho (ray a tang t)) (sEnd * len) n x).map fun q =>
        (q.1.map (ray a tang) ++ [ray a tang q.2], q.2 / len) := by
  induction n with
  | zero => intro x _; rfl
  | succ n ih =>
    intro x hx
    rw [subLoop, tLoop]
    try dsimp only
    simp only [ray_add]
    have hy : 0 ≤ x + 1 / 2 * (rho (ray a tang x) + rho (ray a tang (x + rho (ray a tang x)))) := by
      have := hpos x
      have := hpos (x + rho (ray a tang x))
      linarith
    generalize hyd : x + 1 / 2 * (rho (ray a tang x) + rho (ray a tang (x + rho (ray a tang x)))) = y
      at hy ⊢
    have hny : norm (ray a tang y - a) = y := by
      have : ray a tang y - a = Pt.smul y tang := by
        unfold ray; apply Pt.ext' <;> simp
      rw [this]; exact norm_smul_unit hn hu hy
    rw [hny]
    have hiff : y / len > sEnd ↔ sEnd * len < y := by
      rw [gt_iff_lt, lt_div_iff₀ hlen]
    by_cases hc : sEnd * len < y
    · rw [if_pos (hiff.mpr hc), if_pos hc]; rfl
    · rw [if_neg fun h => hc (hiff.mp h), if_neg hc, ih y hy]
      cases ht : tLoop (fun t => rho (ray a tang t)) (sEnd * len) n y with
      | none => rfl
      | some l => rfl

/-- step sizes and stopping -/
theorem tLoop_spec {ρ : K → K} {S r R : K} (hr : ∀ t, r ≤ ρ t ∧ ρ t ≤ R) (n : Nat) :
    ∀ x xs z, tLoop ρ S n x = some (xs, z) →
      (x :: xs ++ [z]).IsChain (fun u v => u + r ≤ v ∧ v ≤ u + R) ∧ (∀ y ∈ xs, y ≤ S) ∧ S < z := by
  induction n with
  | zero => intro x xs z h; simp [tLoop] at h
  | succ n ih =>
    intro x xs z h
    rw [tLoop] at h
    try dsimp only at h
    have h1 := hr x
    have h2 := hr (x + ρ x)
    split_ifs at h with hS
    · simp only [Option.some.injEq, Prod.mk.injEq] at h
      obtain ⟨rfl, rfl⟩ := h
      refine ⟨?_, by simp, hS⟩
      rw [List.cons_append, List.nil_append, List.isChain_cons_cons]
      exact ⟨⟨by linarith, by linarith⟩, List.isChain_singleton _⟩
    · simp only [Option.map_eq_some_iff, Prod.mk.injEq] at h
      obtain ⟨⟨xs', z'⟩, hl', rfl, rfl⟩ := h
      obtain ⟨a1, a2, a3⟩ := ih _ _ _ hl'
      refine ⟨?_, ?_, a3⟩
      · rw [List.cons_append, List.cons_append, List.isChain_cons_cons]
        exact ⟨⟨by linarith, by linarith⟩, a1⟩
      · intro y hy
        rcases List.mem_cons.mp hy with rfl | hy
        · exact not_lt.mp hS
        · exact a2 y hy

theorem tLoop_terminates {ρ : K → K} {S r : K} (hr : ∀ t, r ≤ ρ t) (n : Nat) :
    ∀ x, S < x + n * r → 0 < n → ∃ q, tLoop ρ S n x = some q := by
  induction n with
  | zero => intro x _ h; omega
  | succ n ih =>
    intro x h _
    rw [tLoop]
    try dsimp only
    split_ifs with hS
    · exact ⟨_, rfl⟩
    · have h1 := hr x
      have h2 := hr (x + ρ x)
      have h3 : S < x + 1 / 2 * (ρ x + ρ (x + ρ x)) + n * r := by
        push_cast at h; linarith
      have hn : 0 < n := by
        rcases Nat.eq_zero_or_pos n with h0 | h0
        · exfalso; rw [h0] at h3; simp at h3 hS; linarith
        · exact h0
      obtain ⟨l, hl⟩ := ih _ h3 hn
      exact ⟨_, by rw [hl]; rfl⟩

/-- more fuel does not change the result -/
theorem tLoop_mono {ρ : K → K} {S : K} (n : Nat) : ∀ m x q, n ≤ m → tLoop ρ S n x = some q →
    tLoop ρ S m x = some q := by
  induction n with
  | zero => intro m x q _ h; simp [tLoop] at h
  | succ n ih =>
    intro m x q hm h
    obtain ⟨m, rfl⟩ : ∃ k, m = k + 1 := ⟨m - 1, by omega⟩
    rw [tLoop] at h ⊢
    try dsimp only at h ⊢
    split_ifs at h ⊢ with hS
    · exact h
    · simp only [Option.map_eq_some_iff] at h ⊢
      obtain ⟨q', h1, h2⟩ := h
      exact ⟨q', ih _ _ _ (by omega) h1, h2⟩

/-- the final abscissae -/
def tFinish (ρ : K → K) (len : K) (xs : List K) (z : K) : List K :=
  0 :: xs.map (fun x => x + ρ x / (xs.map ρ).sum * (len - z)) ++ [len]

theorem foldl_add (l : List K) : l.foldl (· + ·) 0 = l.sum := by
  have : ∀ (l : List K) (a : K), l.foldl (· + ·) a = a + l.sum := by
    intro l
    induction l with
    | nil => intro a; simp
    | cons b l ih => intro a; rw [List.foldl_cons, ih, List.sum_cons]; ring
  rw [this]; ring

theorem subFinish_eq (rho : Pt K → K) (a b tang : Pt K) {len : K} (hlen : 0 < len)
    (hb : b = ray a tang len) (xs : List K) (z : K) :
    subFinish rho a b tang len (xs.map (ray a tang) ++ [ray a tang z]) (z / len) =
      (tFinish (fun t => rho (ray a tang t)) len xs z).map (ray a tang) := by
  unfold subFinish tFinish
  dsimp only
  have ha : a = ray a tang 0 := by unfold ray; apply Pt.ext' <;> simp
  have hd : (1 - z / len) * len = len - z := by field_simp
  rw [List.dropLast_concat, List.map_map, List.map_map, foldl_add, hd]
  simp only [List.map_append, List.map_cons, List.map_nil, List.map_map, List.cons_append]
  rw [← ha, ← hb]
  congr 2
  apply List.map_congr_left
  intro t _
  have hs : (xs.map (rho ∘ ray a tang)).sum = (xs.map fun t => rho (ray a tang t)).sum := rfl
  simp only [Function.comp_apply]
  rw [hs]
  generalize (xs.map fun t => rho (ray a tang t)).sum = s
  generalize rho (ray a tang t) = u
  unfold ray; apply Pt.ext' <;> simp <;> ring

theorem sum_ge {ρ : K → K} {r : K} (hr : ∀ t, r ≤ ρ t) (l : List K) : l.length * r ≤ (l.map ρ).sum := by
  induction l with
  | nil => simp
  | cons a l ih => simp only [List.length_cons, List.map_cons, List.sum_cons]; push_cast; linarith [hr a]

theorem mem_le_sum {ρ : K → K} (hr : ∀ t, 0 ≤ ρ t) (l : List K) : ∀ x ∈ l, ρ x ≤ (l.map ρ).sum := by
  induction l with
  | nil => simp
  | cons a l ih =>
    intro x hx
    simp only [List.map_cons, List.sum_cons]
    have h0 : 0 ≤ (l.map ρ).sum := by
      apply List.sum_nonneg; intro y hy; obtain ⟨z, _, rfl⟩ := List.mem_map.mp hy; exact hr z
    rcases List.mem_cons.mp hx with rfl | hx
    · linarith
    · linarith [ih x hx, hr a]

/-- the last step starts at an interior point or at zero -/
theorem last_step {r R : K} {xs : List K} {z : K}
    (hch : ((0 : K) :: xs ++ [z]).IsChain (fun u v => u + r ≤ v ∧ v ≤ u + R)) :
    ∃ w, (w = 0 ∧ xs = [] ∨ xs.getLast? = some w) ∧ w + r ≤ z ∧ z ≤ w + R := by
  rw [List.isChain_append] at hch
  obtain ⟨_, _, h3⟩ := hch
  cases xs with
  | nil => exact ⟨0, Or.inl ⟨rfl, rfl⟩, h3 0 (by simp) z (by simp)⟩
  | cons b m =>
    refine ⟨(b :: m).getLast (by simp), Or.inr (List.getLast?_eq_some_getLast (by simp)), ?_⟩
    exact h3 _ (by rw [List.getLast?_cons_cons, List.getLast?_eq_some_getLast (by simp)]; simp) z (by simp)

/-- Chains under a map with end points. -/
theorem chain_ends {Q : K → K → Prop} {f : K → K} {xs : List K} {len : K} {P : K → K → Prop}
    (hne : xs ≠ []) (hP : xs.IsChain P) (hQ : ∀ u ∈ xs, ∀ v ∈ xs, P u v → Q (f u) (f v))
    (h0 : ∀ u, xs.head? = some u → Q 0 (f u)) (h1 : ∀ u, xs.getLast? = some u → Q (f u) len) :
    (0 :: xs.map f ++ [len]).IsChain Q := by
  have hm : (xs.map f).IsChain Q := by
    rw [List.isChain_map]
    clear h0 h1 hne
    induction xs with
    | nil => exact List.isChain_nil
    | cons a l ih =>
      cases l with
      | nil => exact List.isChain_singleton _
      | cons b l =>
        rw [List.isChain_cons_cons] at hP ⊢
        exact ⟨hQ a (by simp) b (by simp) hP.1,
          ih hP.2 fun u hu v hv => hQ u (List.mem_cons_of_mem _ hu) v (List.mem_cons_of_mem _ hv)⟩
  rw [List.isChain_append]
  refine ⟨?_, List.isChain_singleton _, ?_⟩
  · cases xs with
    | nil => exact absurd rfl hne
    | cons a l =>
      rw [List.map_cons, List.isChain_cons_cons]
      exact ⟨h0 a rfl, hm⟩
  · intro u hu v hv
    simp at hv
    subst hv
    cases xs with
    | nil => exact absurd rfl hne
    | cons a l =>
      rw [List.map_cons, List.getLast?_cons_cons, ← List.map_cons, List.getLast?_map] at hu
      simp only [Option.mem_def, Option.map_eq_some_iff] at hu
      obtain ⟨w, hw, rfl⟩ := hu
      exact h1 w hw

/-- The abscissae after the loop are strictly increasing if the size varies by less than 3/2. -/
theorem tFinish_sorted {ρ : K → K} {r R len m : K} (h0 : 0 < r) (hr : ∀ t, r ≤ ρ t ∧ ρ t ≤ R)
    (hR : 2 * R < 3 * r) (hlen : 0 < len) (hm0 : r ≤ m ∨ m = len) (hmR : m ≤ R) (hml : m ≤ len)
    {n : Nat} {xs : List K} {z : K} (h : tLoop ρ (len - m / 2) n 0 = some (xs, z)) :
    (tFinish ρ len xs z).IsChain (· < ·) := by
  obtain ⟨hch, hxs, hz⟩ := tLoop_spec hr n 0 xs z h
  obtain ⟨w, hw, hw1, hw2⟩ := last_step hch
  unfold tFinish
  rcases hw with ⟨rfl, rfl⟩ | hw
  · simpa using hlen
  have hne : xs ≠ [] := by rintro rfl; simp at hw
  have hwm : w ∈ xs := List.mem_of_getLast? hw
  have hchx : ((0 : K) :: xs).IsChain (fun u v => u + r ≤ v ∧ v ≤ u + R) := by
    rw [List.isChain_append] at hch; exact hch.1
  have hge : ∀ x ∈ xs, r ≤ x := by
    have h1 := List.IsChain.imp (fun u v h => (show u + r ≤ v from h.1)) hchx
    have : ((0 : K) :: xs).Pairwise (fun u v => u + r ≤ v) := by
      have : IsTrans K (fun u v => u + r ≤ v) := ⟨fun a b c h1 h2 => by linarith⟩
      exact List.isChain_iff_pairwise.mp h1
    intro x hx
    have := List.rel_of_pairwise_cons this hx
    linarith
  have hm : r ≤ m := by
    rcases hm0 with h | h
    · exact h
    · have h2 := hxs _ hwm
      have h3 := hge _ hwm
      linarith
  have hwS := hxs w hwm
  have hd1 : len - z ≤ m / 2 := by linarith
  have hd2 : m / 2 - R ≤ len - z := by linarith
  have htot : ∀ x ∈ xs, 0 < (xs.map ρ).sum ∧ ρ x / (xs.map ρ).sum ≤ 1 ∧ 0 < ρ x / (xs.map ρ).sum := by
    intro x hx
    have h1 := mem_le_sum (fun t => h0.le.trans (hr t).1) xs x hx
    have h2 : 0 < ρ x := lt_of_lt_of_le h0 (hr x).1
    have h3 : 0 < (xs.map ρ).sum := by linarith
    exact ⟨h3, (div_le_one h3).mpr h1, div_pos h2 h3⟩
  apply chain_ends hne (List.isChain_cons.mp hchx).2
  · intro u hu v hv huv
    obtain ⟨hs, u1, u2⟩ := htot u hu
    obtain ⟨_, v1, v2⟩ := htot v hv
    have hlen2 : 2 ≤ xs.length := by
      match xs, hu, hv with
      | [a], hu, hv =>
        simp only [List.mem_singleton] at hu hv
        subst hu; subst hv
        linarith [huv.1]
      | a :: b :: l, _, _ => simp
    have hsum : 2 * r ≤ (xs.map ρ).sum := by
      have h1 := sum_ge (fun t => (hr t).1) xs
      have h2 : (2 : K) ≤ xs.length := by exact_mod_cast hlen2
      nlinarith
    -- (ρ v - ρ u) / tot * d > - r
    have e : v + ρ v / (xs.map ρ).sum * (len - z) - (u + ρ u / (xs.map ρ).sum * (len - z)) =
        (v - u) + (ρ v - ρ u) * (len - z) / (xs.map ρ).sum := by field_simp; ring
    have hdd : -r < (ρ v - ρ u) * (len - z) / (xs.map ρ).sum := by
      rw [lt_div_iff₀ hs]
      have a1 : ρ v - ρ u ≤ R - r := by linarith [(hr v).2, (hr u).1]
      have a2 : -(R - r) ≤ ρ v - ρ u := by linarith [(hr v).1, (hr u).2]
      have a3 : |ρ v - ρ u| ≤ R - r := abs_le.mpr ⟨a2, a1⟩
      have a4 : |len - z| ≤ R := abs_le.mpr ⟨by linarith, by linarith⟩
      have a5 : |(ρ v - ρ u) * (len - z)| ≤ (R - r) * R := by
        rw [abs_mul]; exact mul_le_mul a3 a4 (abs_nonneg _) (by linarith [hr 0])
      have a6 := (abs_le.mp a5).1
      nlinarith
    have := huv.1
    linarith [e]
  · intro u hu
    have hum : u ∈ xs := List.mem_of_head? hu
    obtain ⟨_, u1, u2⟩ := htot u hum
    have := hge u hum
    have hd3 : -r < len - z := by linarith
    rcases le_total 0 (len - z) with h | h
    · have := mul_nonneg u2.le h; linarith
    · nlinarith
  · intro u hu
    have hum : u ∈ xs := List.mem_of_getLast? hu
    obtain ⟨_, u1, u2⟩ := htot u hum
    have huw : u = w := by rw [hw] at hu; exact (Option.some.inj hu).symm
    subst huw
    rcases le_total 0 (len - z) with h | h
    · have : ρ u / (xs.map ρ).sum * (len - z) ≤ len - z := by nlinarith
      linarith
    · have := mul_nonpos_of_nonneg_of_nonpos u2.le h
      linarith

/-- Constant size: all pieces between `h/2` and `3h/2`. -/
theorem tFinish_const {ρ : K → K} {h len m : K} (h0 : 0 < h) (hr : ∀ t, ρ t = h)
    (hlen : 0 < len) (hm : m = h ∨ m = len) (hmh : m ≤ h) (hml : m ≤ len)
    {n : Nat} {xs : List K} {z : K} (ht : tLoop ρ (len - m / 2) n 0 = some (xs, z)) (hne : xs ≠ []) :
    (tFinish ρ len xs z).IsChain (fun u v => h / 2 ≤ v - u ∧ v - u < 3 * h / 2) := by
  have hr' : ∀ t, h ≤ ρ t ∧ ρ t ≤ h := fun t => by rw [hr t]; exact ⟨le_refl _, le_refl _⟩
  obtain ⟨hch, hxs, hz⟩ := tLoop_spec hr' n 0 xs z ht
  obtain ⟨w, hw, hw1, hw2⟩ := last_step hch
  rcases hw with ⟨rfl, rfl⟩ | hw
  · exact absurd rfl hne
  have hwm : w ∈ xs := List.mem_of_getLast? hw
  have hchx : ((0 : K) :: xs).IsChain (fun u v => u + h ≤ v ∧ v ≤ u + h) := by
    rw [List.isChain_append] at hch; exact hch.1
  have hfirst : ∀ u, xs.head? = some u → u = h := by
    intro u hu
    cases xs with
    | nil => simp at hu
    | cons a l =>
      simp at hu; subst hu
      rw [List.isChain_cons_cons] at hchx
      linarith [hchx.1.1, hchx.1.2]
  have hge : ∀ x ∈ xs, h ≤ x := by
    have h1 := List.IsChain.imp (fun u v h' => (show u + h ≤ v from h'.1)) hchx
    have : ((0 : K) :: xs).Pairwise (fun u v => u + h ≤ v) := by
      have : IsTrans K (fun u v => u + h ≤ v) := ⟨fun a b c h1 h2 => by linarith⟩
      exact List.isChain_iff_pairwise.mp h1
    intro x hx
    have := List.rel_of_pairwise_cons this hx
    linarith
  have hmeq : m = h := by
    rcases hm with hm | hm
    · exact hm
    · have h2 := hxs _ hwm
      have h3 := hge _ hwm
      linarith
  subst hmeq
  have hwS := hxs w hwm
  have hzw : z = w + m := by linarith
  have hlenpos : (1 : K) ≤ xs.length := by
    have : 1 ≤ xs.length := by
      cases xs with
      | nil => exact absurd rfl hne
      | cons a l => simp
    exact_mod_cast this
  have hsum : (xs.map ρ).sum = xs.length * m := by
    clear * - hr
    induction xs with
    | nil => simp
    | cons a l ih => simp only [List.map_cons, List.sum_cons, List.length_cons, ih, hr]; push_cast; ring
  have hq : ∀ x : K, ρ x / (xs.map ρ).sum = 1 / xs.length := by
    intro x; rw [hr, hsum]; field_simp
  have hq0 : (0 : K) < 1 / xs.length := by positivity
  have hq1 : (1 : K) / xs.length ≤ 1 := by rw [div_le_one (by linarith)]; exact hlenpos
  have hcong : xs.map (fun x => x + ρ x / (xs.map ρ).sum * (len - z)) =
      xs.map (fun x => x + 1 / xs.length * (len - z)) := by
    apply List.map_congr_left; intro x _; rw [hq]
  unfold tFinish
  rw [hcong]
  generalize hQ : (1 : K) / xs.length = c at hq0 hq1 ⊢
  have hd1 : len - z < m / 2 := by linarith
  have hd2 : -(m / 2) ≤ len - z := by linarith
  apply chain_ends hne (List.isChain_cons.mp hchx).2
  · intro u _ v _ huv
    constructor <;> linarith [huv.1, huv.2]
  · intro u hu
    rw [hfirst u hu]
    rcases le_total 0 (len - z) with h | h
    · constructor <;> nlinarith
    · constructor <;> nlinarith
  · intro u hu
    have huw : u = w := by rw [hw] at hu; exact (Option.some.inj hu).symm
    subst huw
    rcases le_total 0 (len - z) with h | h
    · constructor <;> nlinarith
    · constructor <;> nlinarith

/-! ### From abscissae to points -/

theorem unit_tang {norm : Pt K → K} (hn : IsNorm norm) {p1 p2 : Pt K} (h : p1 ≠ p2) :
    0 < norm (p2 - p1) ∧ Pt.normSq (Pt.smul (1 / norm (p2 - p1)) (p2 - p1)) = 1 := by
  obtain ⟨h1, h2⟩ := hn (p2 - p1)
  have hpos : 0 < norm (p2 - p1) := by
    rcases lt_or_eq_of_le h1 with h3 | h3
    · exact h3
    · exfalso; apply h
      rw [← h3] at h2
      have e : Pt.normSq (p2 - p1) = (p2.x - p1.x) * (p2.x - p1.x) + (p2.y - p1.y) * (p2.y - p1.y) := by
        unfold Pt.normSq; simp
      rw [e] at h2
      have hx : p2.x - p1.x = 0 := by nlinarith [mul_self_nonneg (p2.x - p1.x), mul_self_nonneg (p2.y - p1.y)]
      have hy : p2.y - p1.y = 0 := by nlinarith [mul_self_nonneg (p2.x - p1.x), mul_self_nonneg (p2.y - p1.y)]
      apply Pt.ext' <;> linarith
  refine ⟨hpos, ?_⟩
  have : Pt.normSq (Pt.smul (1 / norm (p2 - p1)) (p2 - p1)) =
      1 / norm (p2 - p1) * (1 / norm (p2 - p1)) * Pt.normSq (p2 - p1) := by
    unfold Pt.normSq; simp; ring
  rw [this, ← h2]
  field_simp

theorem subEnd_mul {r1 r2 len : K} (hlen : 0 < len) :
    subEnd r1 r2 len * len = len - cppMIN len (1 / 2 * (r1 + r2)) / 2 := by
  unfold subEnd
  have : cppMIN 1 (1 / 2 * (r1 + r2) / len) * len = cppMIN len (1 / 2 * (r1 + r2)) := by
    unfold cppMIN
    have hiff : (1 : K) < 1 / 2 * (r1 + r2) / len ↔ len < 1 / 2 * (r1 + r2) := by
      rw [lt_div_iff₀ hlen, one_mul]
    split_ifs with h1 h2 h2
    · ring
    · exact absurd (hiff.mp h1) h2
    · exact absurd (hiff.mpr h2) h1
    · field_simp
  linear_combination (-1 / 2) * this

/-- The result of `create_sub_vertex_coords` in terms of abscissae, in either direction. -/
theorem subCoords_eq {norm : Pt K → K} (hn : IsNorm norm) {rho : Pt K → K} {p1 p2 : Pt K}
    (h : p1 ≠ p2) (hpos : ∀ t, 0 < rho (onLine p1 p2 t)) (fuel : Nat) :
    ∃ ρ : K → K, ∃ rev : Bool, rev = !decide (rho p1 < rho p2) ∧
      (∀ t, ρ t = rho (onLine p1 p2 (if rev then 1 - t / norm (p2 - p1) else t / norm (p2 - p1)))) ∧
      subCoords norm rho fuel p1 p2 =
        (tLoop ρ (norm (p2 - p1) - cppMIN (norm (p2 - p1)) (1 / 2 * (rho p1 + rho p2)) / 2) fuel 0).map
          fun q =>
            if rev then
              (((tFinish ρ (norm (p2 - p1)) q.1 q.2).map fun t => 1 - t / norm (p2 - p1)).reverse).map
                (onLine p1 p2)
            else ((tFinish ρ (norm (p2 - p1)) q.1 q.2).map fun t => t / norm (p2 - p1)).map (onLine p1 p2) := by
  obtain ⟨hlen, hu⟩ := unit_tang hn h
  have hlen' := hlen.ne'
  generalize hL : norm (p2 - p1) = len at *
  have hr1 : ∀ t, ray p1 (Pt.smul (1 / len) (p2 - p1)) t = onLine p1 p2 (t / len) := by
    intro t; unfold ray onLine; apply Pt.ext' <;> simp <;> field_simp
  have hr2 : ∀ t, ray p2 (-(Pt.smul (1 / len) (p2 - p1))) t = onLine p1 p2 (1 - t / len) := by
    intro t; unfold ray onLine; apply Pt.ext' <;> simp <;> field_simp <;> ring_nf
  have hu2 : Pt.normSq (-(Pt.smul (1 / len) (p2 - p1))) = 1 := by
    refine Eq.trans ?_ hu; unfold Pt.normSq; simp
  unfold subCoords
  dsimp only
  rw [hL]
  split_ifs with hc
  · refine ⟨fun t => rho (ray p1 (Pt.smul (1 / len) (p2 - p1)) t), false, by simp [hc], fun t => by rw [if_neg (by simp), ← hr1], ?_⟩
    have e0 : p1 = ray p1 (Pt.smul (1 / len) (p2 - p1)) 0 := by unfold ray; apply Pt.ext' <;> simp
    have e1 : p2 = ray p1 (Pt.smul (1 / len) (p2 - p1)) len := by
      rw [hr1, div_self hlen']; unfold onLine; apply Pt.ext' <;> simp
    have := subLoop_eq hn hu hlen (subEnd (rho p1) (rho p2) len) (rho := rho)
      (fun t => by rw [hr1]; exact hpos _) fuel 0 (le_refl _)
    rw [← e0, subEnd_mul hlen] at this
    rw [this]
    cases tLoop (fun t => rho (ray p1 (Pt.smul (1 / len) (p2 - p1)) t))
        (len - cppMIN len (1 / 2 * (rho p1 + rho p2)) / 2) fuel 0 with
    | none => rfl
    | some q =>
      simp only [Option.map_some, Bool.false_eq_true, if_false]
      rw [subFinish_eq rho p1 p2 _ hlen e1, List.map_map]
      congr 1
      apply List.map_congr_left
      intro t _
      exact hr1 t
  · refine ⟨fun t => rho (ray p2 (-(Pt.smul (1 / len) (p2 - p1))) t), true, by simp [hc], fun t => by rw [if_pos rfl, ← hr2], ?_⟩
    have e0 : p2 = ray p2 (-(Pt.smul (1 / len) (p2 - p1))) 0 := by unfold ray; apply Pt.ext' <;> simp
    have e1 : p1 = ray p2 (-(Pt.smul (1 / len) (p2 - p1))) len := by
      rw [hr2, div_self hlen']; unfold onLine; apply Pt.ext' <;> simp
    have := subLoop_eq hn hu2 hlen (subEnd (rho p1) (rho p2) len) (rho := rho)
      (fun t => by rw [hr2]; exact hpos _) fuel 0 (le_refl _)
    rw [← e0, subEnd_mul hlen] at this
    rw [this]
    cases tLoop (fun t => rho (ray p2 (-(Pt.smul (1 / len) (p2 - p1))) t))
        (len - cppMIN len (1 / 2 * (rho p1 + rho p2)) / 2) fuel 0 with
    | none => rfl
    | some q =>
      simp only [Option.map_some, if_true]
      rw [subFinish_eq rho p2 p1 _ hlen e1, List.map_reverse, List.map_map]
      congr 2
      apply List.map_congr_left
      intro t _
      exact hr2 t

end TQ

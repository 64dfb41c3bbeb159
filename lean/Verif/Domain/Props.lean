import Verif.Domain.Spec
import Verif.Boundary.Props
import Verif.Boundary.InsideProps
import Mathlib.Analysis.Complex.Exponential

/-!
# Properties of domains: C20 (domain), C23 (domain), C25, C27, C28, C84
-/

set_option linter.unusedSectionVars false

namespace TQ
open Dom DomSpec GeoSpec BdSpec
variable {K : Type*} [Field K] [LinearOrder K] [IsStrictOrderedRing K]

theorem cppMIN_cases (a b : K) : cppMIN a b = a ∨ cppMIN a b = b := by
  unfold cppMIN; split_ifs <;> simp
theorem cppMIN_le_left (a b : K) : cppMIN a b ≤ a := by
  unfold cppMIN; split_ifs with h
  · exact le_refl _
  · exact not_lt.mp h
theorem cppMIN_le_right (a b : K) : cppMIN a b ≤ b := by
  unfold cppMIN; split_ifs with h
  · exact h.le
  · exact le_refl _
theorem cppMAX_cases (a b : K) : cppMAX a b = a ∨ cppMAX a b = b := by
  unfold cppMAX; split_ifs <;> simp
theorem le_cppMAX_left (a b : K) : a ≤ cppMAX a b := by
  unfold cppMAX; split_ifs with h
  · exact le_refl _
  · exact not_lt.mp h
theorem le_cppMAX_right (a b : K) : b ≤ cppMAX a b := by
  unfold cppMAX; split_ifs with h
  · exact h.le
  · exact le_refl _

/-! ## C23: the domain test -/

/-- C23: a point is inside the domain iff it is inside every exterior and no interior boundary. -/
theorem C23_domain_inside (tol mn mr eps : K) (D : Domain K) (o : Pt K) :
    domInside tol mn mr eps D o = true ↔
      ∀ b ∈ D.bdries, (b.1 = .exterior → isInside tol mn mr eps D.pos b.2.edges o = true) ∧
        (b.1 = .interior → isInside tol mn mr eps D.pos b.2.edges o = false) := by
  unfold domInside
  have : ∀ (bs : List (BdryType × EList K)) (acc : Bool),
      (bs.foldl (fun inside b =>
        inside && ((b.1 == .exterior && isInside tol mn mr eps D.pos b.2.edges o) ||
          (b.1 == .interior && !isInside tol mn mr eps D.pos b.2.edges o))) acc) = true ↔
      acc = true ∧ ∀ b ∈ bs, (b.1 = .exterior → isInside tol mn mr eps D.pos b.2.edges o = true) ∧
        (b.1 = .interior → isInside tol mn mr eps D.pos b.2.edges o = false) := by
    intro bs
    induction bs with
    | nil => intro acc; simp
    | cons b bs ih =>
      intro acc
      rw [List.foldl_cons, ih]
      obtain ⟨t, L⟩ := b
      cases t <;> cases acc <;> cases h : isInside tol mn mr eps D.pos L.edges o <;>
        simp [h]
  rw [this]; simp

/-- a square domain with a square hole -/
def holeDomain : Domain ℚ where
  pos := fun i => match i with
    | 0 => ⟨0, 0⟩ | 1 => ⟨4, 0⟩ | 2 => ⟨4, 4⟩ | 3 => ⟨0, 4⟩
    | 4 => ⟨1, 1⟩ | 5 => ⟨1, 2⟩ | 6 => ⟨2, 2⟩ | 7 => ⟨2, 1⟩ | _ => ⟨9, 9⟩
  verts := [0, 1, 2, 3, 4, 5, 6, 7]
  bdries := [(.exterior, ⟨true, [⟨0, 1, 1, 1⟩, ⟨1, 2, 1, 1⟩, ⟨2, 3, 1, 1⟩, ⟨3, 0, 1, 1⟩], 16⟩),
    (.interior, ⟨true, [⟨4, 5, 1, 1⟩, ⟨5, 6, 1, 1⟩, ⟨6, 7, 1, 1⟩, ⟨7, 4, 1, 1⟩], -1⟩)]

example : domInside 0 0 (1 / 2 ^ 52) (1 / 2 ^ 52) holeDomain ⟨3, 3⟩ = true ∧
    domInside 0 0 (1 / 2 ^ 52) (1 / 2 ^ 52) holeDomain ⟨3 / 2, 3 / 2⟩ = false := by
  decide +kernel

/-! ## C20: the domain area -/

theorem area_eq_sum (D : Domain K) : area D = (D.bdries.map fun b => b.2.area).sum := by
  unfold area
  have : ∀ (bs : List (BdryType × EList K)) (a : K),
      bs.foldl (fun a b => a + b.2.area) a = a + (bs.map fun b => b.2.area).sum := by
    intro bs
    induction bs with
    | nil => intro a; simp
    | cons b bs ih => intro a; rw [List.foldl_cons, ih, List.map_cons, List.sum_cons]; ring
  rw [this]; ring

/-- C20: `Domain::area()` is the enclosed area of the exterior minus that of the interior boundaries,
if every boundary was built by `create_boundary_shape` from coordinates `coords b`. -/
theorem C20_domain_area (D : Domain K) (coords : EList K → List (Pt K))
    (hb : ∀ b ∈ D.bdries, ∃ nearest st st' props colors,
      createShape nearest b.1 st emptyBoundary (coords b.2) props colors = .ok (st', b.2)) :
    area D = ((D.bdries.filter fun b => b.1 == .exterior).map fun b => |polygonArea (coords b.2)|).sum
      - ((D.bdries.filter fun b => b.1 == .interior).map fun b => |polygonArea (coords b.2)|).sum := by
  rw [area_eq_sum]
  generalize D.bdries = bs at hb
  induction bs with
  | nil => simp
  | cons b bs ih =>
    obtain ⟨nearest, st, st', props, colors, h⟩ := hb b (by simp)
    obtain ⟨_, _, _, _, h1, h2⟩ := C18_shape nearest b.1 st st' (coords b.2) props colors b.2 h
    rw [List.map_cons, List.sum_cons, ih fun c hc => hb c (List.mem_cons_of_mem _ hc)]
    obtain ⟨t, L⟩ := b
    cases t
    · have h1 : L.area = |polygonArea (coords L)| := h1 rfl
      simp [h1]; ring
    · have h2 : L.area = -|polygonArea (coords L)| := h2 rfl
      simp [h2]; ring

example : area holeDomain = 15 := by decide +kernel

/-! ## C25 -/

theorem extent_fold (D : Domain K) (vs : List Nat) : ∀ (a b c d : K),
    let r := vs.foldl (fun acc v =>
      ((cppMIN acc.1.1 (D.pos v).x, cppMAX acc.1.2 (D.pos v).x),
       (cppMIN acc.2.1 (D.pos v).y, cppMAX acc.2.2 (D.pos v).y))) ((a, b), (c, d))
    IsMinOf r.1.1 (a :: vs.map fun v => (D.pos v).x) ∧
    IsMaxOf r.1.2 (b :: vs.map fun v => (D.pos v).x) ∧
    IsMinOf r.2.1 (c :: vs.map fun v => (D.pos v).y) ∧
    IsMaxOf r.2.2 (d :: vs.map fun v => (D.pos v).y) := by
  have mn : ∀ (m a x : K) (l : List K), IsMinOf m (cppMIN a x :: l) → IsMinOf m (a :: x :: l) := by
    rintro m a x l ⟨h1, h2⟩
    constructor
    · rcases List.mem_cons.mp h1 with h | h
      · rcases cppMIN_cases a x with h' | h' <;> rw [h, h'] <;> simp
      · simp [h]
    · intro b hb
      simp only [List.mem_cons] at hb
      have h3 := h2 _ (List.mem_cons_self ..)
      rcases hb with rfl | rfl | hb
      · exact h3.trans (cppMIN_le_left _ _)
      · exact h3.trans (cppMIN_le_right _ _)
      · exact h2 b (List.mem_cons_of_mem _ hb)
  have mx : ∀ (m a x : K) (l : List K), IsMaxOf m (cppMAX a x :: l) → IsMaxOf m (a :: x :: l) := by
    rintro m a x l ⟨h1, h2⟩
    constructor
    · rcases List.mem_cons.mp h1 with h | h
      · rcases cppMAX_cases a x with h' | h' <;> rw [h, h'] <;> simp
      · simp [h]
    · intro b hb
      simp only [List.mem_cons] at hb
      have h3 := h2 _ (List.mem_cons_self ..)
      rcases hb with rfl | rfl | hb
      · exact (le_cppMAX_left _ _).trans h3
      · exact (le_cppMAX_right _ _).trans h3
      · exact h2 b (List.mem_cons_of_mem _ hb)
  induction vs with
  | nil => intro a b c d; simp [IsMinOf, IsMaxOf]
  | cons v vs ih =>
    intro a b c d
    obtain ⟨h1, h2, h3, h4⟩ := ih (cppMIN a (D.pos v).x) (cppMAX b (D.pos v).x)
      (cppMIN c (D.pos v).y) (cppMAX d (D.pos v).y)
    exact ⟨mn _ _ _ _ h1, mx _ _ _ _ h2, mn _ _ _ _ h3, mx _ _ _ _ h4⟩

/-- C25 (refuted): a domain with all its vertices in the first quadrant has the extent of a box that
reaches to the origin. -/
theorem C25_extent_violated : ∃ D : Domain ℚ, D.verts ≠ [] ∧
    ¬ IsMinOf (extent D).1.1 (D.verts.map fun v => (D.pos v).x) ∧
    ¬ IsMinOf (extent D).2.1 (D.verts.map fun v => (D.pos v).y) := by
  refine ⟨⟨fun i => if i = 0 then ⟨4, 4⟩ else if i = 1 then ⟨6, 4⟩ else ⟨5, 7⟩, [0, 1, 2], []⟩,
    by simp, ?_, ?_⟩ <;> unfold IsMinOf <;> decide +kernel

/-- C25, what holds: the extent is the bounding box of the vertices and the origin, hence the bounding
box of the vertices if that contains the origin. -/
theorem C25_extent_partial (D : Domain K) :
    (IsMinOf (extent D).1.1 (0 :: D.verts.map fun v => (D.pos v).x) ∧
     IsMaxOf (extent D).1.2 (0 :: D.verts.map fun v => (D.pos v).x) ∧
     IsMinOf (extent D).2.1 (0 :: D.verts.map fun v => (D.pos v).y) ∧
     IsMaxOf (extent D).2.2 (0 :: D.verts.map fun v => (D.pos v).y)) ∧
    ((∃ v ∈ D.verts, (D.pos v).x ≤ 0) → IsMinOf (extent D).1.1 (D.verts.map fun v => (D.pos v).x)) ∧
    ((∃ v ∈ D.verts, 0 ≤ (D.pos v).x) → IsMaxOf (extent D).1.2 (D.verts.map fun v => (D.pos v).x)) ∧
    ((∃ v ∈ D.verts, (D.pos v).y ≤ 0) → IsMinOf (extent D).2.1 (D.verts.map fun v => (D.pos v).y)) ∧
    ((∃ v ∈ D.verts, 0 ≤ (D.pos v).y) → IsMaxOf (extent D).2.2 (D.verts.map fun v => (D.pos v).y)) := by
  have h := extent_fold D D.verts 0 0 0 0
  have dropMin : ∀ (m : K) (l : List K), IsMinOf m (0 :: l) → (∃ a ∈ l, a ≤ 0) → IsMinOf m l := by
    rintro m l ⟨h1, h2⟩ ⟨a, ha, h0⟩
    refine ⟨?_, fun b hb => h2 b (List.mem_cons_of_mem _ hb)⟩
    rcases List.mem_cons.mp h1 with h | h
    · have := h2 a (List.mem_cons_of_mem _ ha)
      have : m = a := le_antisymm this (by rw [h]; exact h0)
      rw [this]; exact ha
    · exact h
  have dropMax : ∀ (m : K) (l : List K), IsMaxOf m (0 :: l) → (∃ a ∈ l, 0 ≤ a) → IsMaxOf m l := by
    rintro m l ⟨h1, h2⟩ ⟨a, ha, h0⟩
    refine ⟨?_, fun b hb => h2 b (List.mem_cons_of_mem _ hb)⟩
    rcases List.mem_cons.mp h1 with h | h
    · have := h2 a (List.mem_cons_of_mem _ ha)
      have : m = a := le_antisymm (by rw [h]; exact h0) this
      rw [this]; exact ha
    · exact h
  refine ⟨h, ?_, ?_, ?_, ?_⟩
  · rintro ⟨v, hv, hx⟩; exact dropMin _ _ h.1 ⟨_, List.mem_map_of_mem (f := fun v => (D.pos v).x) hv, hx⟩
  · rintro ⟨v, hv, hx⟩
    exact dropMax _ _ h.2.1 ⟨_, List.mem_map_of_mem (f := fun v => (D.pos v).x) hv, hx⟩
  · rintro ⟨v, hv, hx⟩
    exact dropMin _ _ h.2.2.1 ⟨_, List.mem_map_of_mem (f := fun v => (D.pos v).y) hv, hx⟩
  · rintro ⟨v, hv, hx⟩
    exact dropMax _ _ h.2.2.2 ⟨_, List.mem_map_of_mem (f := fun v => (D.pos v).y) hv, hx⟩

example : extent holeDomain = ((0, 4), (0, 4)) := by decide +kernel

/-! ## C27 -/

/-- values in [0,1] for arguments ≤ 0, and 1 at 0: all that is used of `exp` -/
def ExpLike (E : K → K) : Prop := (∀ x, x ≤ 0 → 0 ≤ E x ∧ E x ≤ 1) ∧ E 0 = 1

example : ExpLike Real.exp :=
  ⟨fun _ hx => ⟨(Real.exp_pos _).le, Real.exp_le_one_iff.mpr hx⟩, Real.exp_zero⟩

theorem arg_nonpos (d s : K) (hd : 0 ≤ d) : -d * s * s ≤ 0 := by
  nlinarith [mul_nonneg hd (mul_self_nonneg s)]

theorem normSq_nonneg (p : Pt K) : 0 ≤ Pt.normSq p := by
  unfold Pt.normSq; nlinarith [mul_self_nonneg p.x, mul_self_nonneg p.y]

/-- closed under convex combinations -/
def ConvexP (P : K → Prop) : Prop :=
  ∀ a b z : K, P a → P b → 0 ≤ z → z ≤ 1 → P (z * a + (1 - z) * b)

theorem evaluate_convex (E : K → K) (hE : ExpLike E) (P : K → Prop) (hP : ConvexP P) (hFun : K)
    (h0 : P hFun) (xy : Pt K) :
    (∀ (es : List (SEdge K)) (h : K), P h →
      (∀ e ∈ es, P e.len ∧ (0 < e.v1.meshSize → P e.v1.meshSize) ∧
        (0 < e.v2.meshSize → P e.v2.meshSize)) → P (edgeLoop E hFun xy h es)) ∧
    (∀ (vs : List (SVert K)) (h : K), P h → (∀ v ∈ vs, 0 < v.meshSize → P v.meshSize) →
      P (fixedLoop E hFun xy h vs)) := by
  have minP : ∀ a b, P a → P b → P (cppMIN a b) := by
    intro a b ha hb; rcases cppMIN_cases a b with h | h <;> rw [h] <;> assumption
  have endP : ∀ (el : K) (v : SVert K), P el → (0 < v.meshSize → P v.meshSize) →
      P (endSize E hFun el xy v) := by
    intro el v h1 h2
    unfold endSize
    dsimp only
    apply hP _ _ _ _ h0
    · exact (hE.1 _ (arg_nonpos _ _ (normSq_nonneg _))).1
    · exact (hE.1 _ (arg_nonpos _ _ (normSq_nonneg _))).2
    · apply minP _ _ _ h1
      split_ifs with h
      · exact h0
      · exact h2 (not_le.mp h)
  constructor
  · intro es
    induction es with
    | nil => intro h hh _; exact hh
    | cons e es ih =>
      intro h hh hes
      obtain ⟨h1, h2, h3⟩ := hes e (by simp)
      rw [edgeLoop]
      exact ih _ (minP _ _ (minP _ _ hh (endP _ _ h1 h2)) (endP _ _ h1 h3))
        fun f hf => hes f (List.mem_cons_of_mem _ hf)
  · intro vs
    induction vs with
    | nil => intro h hh _; exact hh
    | cons v vs ih =>
      intro h hh hvs
      rw [fixedLoop]
      split_ifs with hm
      · exact ih h hh fun w hw => hvs w (List.mem_cons_of_mem _ hw)
      · refine ih _ (minP _ _ hh ?_) fun w hw => hvs w (List.mem_cons_of_mem _ hw)
        unfold fixedSize
        dsimp only
        refine hP _ _ _ (hvs v (by simp) (not_le.mp hm)) h0 ?_ ?_
        · exact (hE.1 _ (arg_nonpos _ _ (normSq_nonneg _))).1
        · exact (hE.1 _ (arg_nonpos _ _ (normSq_nonneg _))).2

theorem edgeLoop_le (E : K → K) (hFun : K) (xy : Pt K) (es : List (SEdge K)) :
    ∀ h, edgeLoop E hFun xy h es ≤ h ∧
      ∀ e ∈ es, edgeLoop E hFun xy h es ≤ endSize E hFun e.len xy e.v1 ∧
        edgeLoop E hFun xy h es ≤ endSize E hFun e.len xy e.v2 := by
  induction es with
  | nil => intro h; exact ⟨le_refl _, by simp⟩
  | cons e es ih =>
    intro h
    rw [edgeLoop]
    obtain ⟨h1, h2⟩ := ih (cppMIN (cppMIN h (endSize E hFun e.len xy e.v1))
      (endSize E hFun e.len xy e.v2))
    have h3 := cppMIN_le_left (cppMIN h (endSize E hFun e.len xy e.v1)) (endSize E hFun e.len xy e.v2)
    have h4 := cppMIN_le_right (cppMIN h (endSize E hFun e.len xy e.v1)) (endSize E hFun e.len xy e.v2)
    have h5 := cppMIN_le_left h (endSize E hFun e.len xy e.v1)
    have h6 := cppMIN_le_right h (endSize E hFun e.len xy e.v1)
    refine ⟨h1.trans (h3.trans h5), ?_⟩
    intro f hf
    rcases List.mem_cons.mp hf with rfl | hf
    · exact ⟨h1.trans (h3.trans h6), h1.trans h4⟩
    · exact h2 f hf

theorem fixedLoop_le (E : K → K) (hE : ExpLike E) (hFun : K) (xy : Pt K) (vs : List (SVert K)) :
    ∀ h, fixedLoop E hFun xy h vs ≤ h ∧
      ∀ v ∈ vs, 0 < v.meshSize → v.xy = xy → fixedLoop E hFun xy h vs ≤ v.meshSize := by
  induction vs with
  | nil => intro h; exact ⟨le_refl _, by simp⟩
  | cons v vs ih =>
    intro h
    rw [fixedLoop]
    split_ifs with hm
    · obtain ⟨h1, h2⟩ := ih h
      refine ⟨h1, ?_⟩
      intro w hw hp hx
      rcases List.mem_cons.mp hw with rfl | hw
      · exact absurd hp (not_lt.mpr hm)
      · exact h2 w hw hp hx
    · obtain ⟨h1, h2⟩ := ih (cppMIN h (fixedSize E hFun xy v))
      refine ⟨h1.trans (cppMIN_le_left _ _), ?_⟩
      intro w hw hp hx
      rcases List.mem_cons.mp hw with rfl | hw
      · refine h1.trans ((cppMIN_le_right _ _).trans ?_)
        unfold fixedSize
        dsimp only
        have : Pt.normSq (xy - w.xy) = 0 := by rw [hx]; unfold Pt.normSq; simp
        rw [this]
        simp [hE.2]
      · exact h2 w hw hp hx

/-- C27: evaluation ends the program iff the user value is not positive; otherwise the size is
positive, at most the user value and at least the minimum of the user value, the edge lengths and the
positive vertex sizes. -/
theorem C27_size_bounds (E : K → K) (hE : ExpLike E) (f : Pt K → K)
    (bdries : List (List (SEdge K))) (fixed : List (SVert K)) (xy : Pt K)
    (hlen : ∀ b ∈ bdries, ∀ e ∈ b, 0 < e.len) :
    (evaluate E f bdries fixed xy = none ↔ f xy ≤ 0) ∧
    ∀ h, evaluate E f bdries fixed xy = some h →
      0 < h ∧ h ≤ f xy ∧
      ∀ m, m ≤ f xy →
        (∀ b ∈ bdries, ∀ e ∈ b, m ≤ e.len ∧ (0 < e.v1.meshSize → m ≤ e.v1.meshSize) ∧
          (0 < e.v2.meshSize → m ≤ e.v2.meshSize)) →
        (∀ v ∈ fixed, 0 < v.meshSize → m ≤ v.meshSize) → m ≤ h := by
  unfold evaluate
  dsimp only
  by_cases hf : f xy ≤ 0
  · rw [if_pos hf]; simp [hf]
  · rw [if_neg hf]
    refine ⟨by simp [hf], ?_⟩
    intro h hh
    simp only [Option.some.injEq] at hh
    subst hh
    rw [not_le] at hf
    refine ⟨?_, ?_, ?_⟩
    · have hP : ConvexP (fun x : K => 0 < x) := by
        intro a b z ha hb z0 z1
        rcases eq_or_lt_of_le z0 with h | h
        · rw [← h]; simpa using hb
        · have := mul_pos h ha
          have := mul_nonneg (sub_nonneg.mpr z1) hb.le
          linarith
      obtain ⟨h1, h2⟩ := evaluate_convex E hE _ hP (f xy) hf xy
      apply h2 _ _ _ (fun v _ hv => hv)
      apply h1 _ _ hf
      intro e he
      obtain ⟨b, hb, he⟩ := List.mem_flatten.mp he
      exact ⟨hlen b hb e he, fun h => h, fun h => h⟩
    · exact (fixedLoop_le E hE _ _ _ _).1.trans (edgeLoop_le E _ _ _ _).1
    · intro m hm hedges hfix
      have hP : ConvexP (fun x : K => m ≤ x) := by
        intro a b z ha hb z0 z1
        have := mul_le_mul_of_nonneg_left ha z0
        have := mul_le_mul_of_nonneg_left hb (sub_nonneg.mpr z1)
        linarith
      obtain ⟨h1, h2⟩ := evaluate_convex E hE _ hP (f xy) hm xy
      apply h2 _ _ _ hfix
      apply h1 _ _ hm
      intro e he
      obtain ⟨b, hb, he⟩ := List.mem_flatten.mp he
      exact hedges b hb e he

/-- C27: the size prescribed at a vertex is respected there: at a boundary vertex with a positive mesh
size, at most that size and at most the length of the incident edges; at a fixed vertex at most its
mesh size. Without local sizes below the user value the user value is used. -/
theorem C27_local_sizes (E : K → K) (hE : ExpLike E) (f : Pt K → K)
    (bdries : List (List (SEdge K))) (fixed : List (SVert K)) (xy : Pt K) (h : K)
    (hev : evaluate E f bdries fixed xy = some h) :
    (∀ b ∈ bdries, ∀ e ∈ b, ∀ v, v = e.v1 ∨ v = e.v2 → v.xy = xy →
      h ≤ e.len ∧ (0 < v.meshSize → h ≤ v.meshSize)) ∧
    (∀ v ∈ fixed, 0 < v.meshSize → v.xy = xy → h ≤ v.meshSize) := by
  unfold evaluate at hev
  dsimp only at hev
  split_ifs at hev with hf
  simp only [Option.some.injEq] at hev
  subst hev
  refine ⟨?_, fun v hv hp hx => (fixedLoop_le E hE _ _ _ _).2 v hv hp hx⟩
  intro b hb e he v hv hx
  have h1 := (fixedLoop_le E hE (f xy) xy fixed (edgeLoop E (f xy) xy (f xy) bdries.flatten)).1
  have h2 := (edgeLoop_le E (f xy) xy bdries.flatten (f xy)).2 e (List.mem_flatten.mpr ⟨b, hb, he⟩)
  have hend : endSize E (f xy) e.len xy v =
      cppMIN (if v.meshSize ≤ 0 then f xy else v.meshSize) e.len := by
    unfold endSize
    dsimp only
    have : Pt.normSq (xy - v.xy) = 0 := by rw [hx]; unfold Pt.normSq; simp
    rw [this]; simp [hE.2]
  have h3 : edgeLoop E (f xy) xy (f xy) bdries.flatten ≤ endSize E (f xy) e.len xy v := by
    rcases hv with rfl | rfl
    · exact h2.1
    · exact h2.2
  rw [hend] at h3
  refine ⟨h1.trans (h3.trans (cppMIN_le_right _ _)), ?_⟩
  intro hp
  rw [if_neg (not_le.mpr hp)] at h3
  exact h1.trans (h3.trans (cppMIN_le_left _ _))

/-- a step function with the required properties of `exp` -/
def stepExp (x : ℚ) : ℚ := if x < 0 then 1 / 2 else 1

example : ExpLike stepExp ∧
    evaluate stepExp (fun _ => 2) [[⟨⟨⟨0, 0⟩, 1, 0⟩, ⟨⟨3, 0⟩, 0, 0⟩, 3⟩]] [⟨⟨1, 1⟩, 1 / 2, 1⟩] ⟨0, 0⟩
      = some 1 ∧
    evaluate stepExp (fun _ => 2) [[⟨⟨⟨0, 0⟩, 1, 0⟩, ⟨⟨3, 0⟩, 0, 0⟩, 3⟩]] [⟨⟨1, 1⟩, 1 / 2, 1⟩] ⟨1, 1⟩
      = some (1 / 2) := by
  refine ⟨⟨?_, by decide +kernel⟩, by decide +kernel, by decide +kernel⟩
  intro x hx; unfold stepExp; split_ifs <;> norm_num

/-! ## C28 -/

theorem gridValues_length {V : Type*} (f : Nat → Nat → V) (nx ny : Nat) :
    (gridValues f nx ny).length = nx * ny := by
  unfold gridValues
  rw [List.length_flatMap]
  simp [Nat.mul_comm]

theorem gridValues_get {V : Type*} (f : Nat → Nat → V) (nx ny i j : Nat) (hi : i < nx) (hj : j < ny) :
    (gridValues f nx ny)[j * nx + i]? = some (f i j) := by
  induction ny with
  | zero => omega
  | succ n ih =>
    have hs : gridValues f nx (n + 1) = gridValues f nx n ++ (List.range nx).map fun i => f i n := by
      unfold gridValues; rw [List.range_succ, List.flatMap_append]; simp
    rw [hs]
    rcases Nat.lt_or_ge j n with h | h
    · have hlt : j * nx + i < nx * n := by
        have : (j + 1) * nx ≤ n * nx := Nat.mul_le_mul_right _ h
        rw [Nat.add_mul, Nat.mul_comm n] at this; omega
      rw [List.getElem?_append_left (by rw [gridValues_length]; exact hlt)]
      exact ih h
    · have : j = n := by omega
      subst this
      rw [List.getElem?_append_right (by rw [gridValues_length, Nat.mul_comm]; omega),
        gridValues_length, Nat.mul_comm]
      simp [hi]

theorem fullRow_eq {V : Type*} (values : List V) (index : Nat) (h : index + 10 ≤ values.length) :
    fullRow values index = some (renderLine ((values.drop index).take 10)) := by
  have g : ∀ i, i < 10 → ∃ v, values[index + i]? = some v ∧ (values.drop index)[i]? = some v := by
    intro i hi
    refine ⟨values[index + i]'(by omega), List.getElem?_eq_getElem _, ?_⟩
    rw [List.getElem?_drop]; exact List.getElem?_eq_getElem _
  obtain ⟨v0, a0, b0⟩ := g 0 (by omega)
  obtain ⟨v1, a1, b1⟩ := g 1 (by omega)
  obtain ⟨v2, a2, b2⟩ := g 2 (by omega)
  obtain ⟨v3, a3, b3⟩ := g 3 (by omega)
  obtain ⟨v4, a4, b4⟩ := g 4 (by omega)
  obtain ⟨v5, a5, b5⟩ := g 5 (by omega)
  obtain ⟨v6, a6, b6⟩ := g 6 (by omega)
  obtain ⟨v7, a7, b7⟩ := g 7 (by omega)
  obtain ⟨v8, a8, b8⟩ := g 8 (by omega)
  obtain ⟨v9, a9, b9⟩ := g 9 (by omega)
  have hr : List.range 10 = [0, 1, 2, 3, 4, 5, 6, 7, 8, 9] := rfl
  have ht : (values.drop index).take 10 = [v0, v1, v2, v3, v4, v5, v6, v7, v8, v9] := by
    apply List.ext_getElem?
    intro i
    rcases Nat.lt_or_ge i 10 with hi | hi
    · rw [List.getElem?_take, if_pos hi]
      match i, hi with
      | 0, _ => exact b0
      | 1, _ => exact b1
      | 2, _ => exact b2
      | 3, _ => exact b3
      | 4, _ => exact b4
      | 5, _ => exact b5
      | 6, _ => exact b6
      | 7, _ => exact b7
      | 8, _ => exact b8
      | 9, _ => exact b9
    · rw [List.getElem?_take, if_neg (by omega)]
      rw [List.getElem?_eq_none (by simpa using hi)]
  rw [ht]
  unfold fullRow
  rw [hr]
  simp only [List.foldl_cons, List.foldl_nil, a0, a1, a2, a3, a4, a5, a6, a7, a8, a9]
  rfl

theorem fullRows_eq {V : Type*} (values : List V) (k : Nat) : ∀ index,
    index + 10 * k ≤ values.length →
    fullRows values index k =
      some (renderFile ((List.range k).map fun i => (values.drop (index + 10 * i)).take 10)) := by
  induction k with
  | zero => intro index _; rfl
  | succ k ih =>
    intro index h
    rw [fullRows, fullRow_eq _ _ (by omega), ih _ (by omega)]
    dsimp only
    rw [List.range_succ_eq_map, List.map_cons, List.map_map]
    unfold renderFile
    rw [List.flatMap_cons]
    simp only [Nat.mul_zero, Nat.add_zero, List.append_assoc, List.singleton_append]
    have : (fun i => (values.drop (index + 10 + 10 * i)).take 10) =
        ((fun i => (values.drop (index + 10 * i)).take 10) ∘ Nat.succ) := by
      funext i; simp only [Function.comp]; congr 2; omega
    rw [this]

theorem restRow_eq {V : Type*} (values : List V) (k : Nat) : ∀ index,
    index + k = values.length →
    restRow values values.length index k = some (renderLine (values.drop index)) := by
  induction k with
  | zero =>
    intro index h
    rw [restRow, List.drop_eq_nil_of_le (by omega)]; rfl
  | succ k ih =>
    intro index h
    have hlt : index < values.length := by omega
    rw [restRow, ih _ (by omega), List.getElem?_eq_getElem hlt]
    dsimp only
    rw [List.drop_eq_getElem_cons hlt]
    congr 1
    cases hc : values.drop (index + 1) with
    | nil =>
      have : index = values.length - 1 := by
        have := congrArg List.length hc; simp at this; omega
      rw [if_pos this]; rfl
    | cons a l =>
      have : ¬ index = values.length - 1 := by
        have := congrArg List.length hc; simp at this; omega
      rw [if_neg this]; rfl

/-- C28: as long as `Nx*Ny` is a 32 bit number, the file consists of lines of ten comma separated
values and a last, shorter (possibly empty) line, which together contain the grid values once each in
row-major order. -/
theorem C28_export {V : Type*} (f : Nat → Nat → V) (nx ny : Nat) (hn : nx * ny < 2 ^ 32) :
    ∃ lines : List (List V), exportSize f nx ny = some (renderFile lines) ∧
      (∀ l ∈ lines.dropLast, l.length = 10) ∧ (∀ l ∈ lines.getLast?, l.length < 10) ∧
      lines.length = nx * ny / 10 + 1 ∧
      lines.flatten.length = nx * ny ∧
      ∀ i j, i < nx → j < ny → lines.flatten[j * nx + i]? = some (f i j) := by
  generalize hv : gridValues f nx ny = values
  have hlen : values.length = nx * ny := by rw [← hv, gridValues_length]
  generalize hr : nx * ny / 10 = rows
  have hlines : ∀ k index, index + 10 * k ≤ values.length →
      ((List.range k).map fun i => (values.drop (index + 10 * i)).take 10).flatten =
        (values.drop index).take (10 * k) := by
    intro k
    induction k with
    | zero => intro index _; simp
    | succ k ih =>
      intro index h
      rw [List.range_succ, List.map_append, List.flatten_append, ih index (by omega)]
      simp only [List.map_cons, List.map_nil, List.flatten_cons, List.flatten_nil, List.append_nil]
      rw [Nat.mul_succ, List.take_add, List.drop_drop]
  have hflat : (((List.range rows).map fun i => (values.drop (0 + 10 * i)).take 10) ++
      [values.drop (10 * rows)]).flatten = values := by
    rw [List.flatten_append, hlines rows 0 (by omega)]
    simp
  refine ⟨((List.range rows).map fun i => (values.drop (0 + 10 * i)).take 10) ++
    [values.drop (10 * rows)], ?_, ?_, ?_, by simp, ?_, ?_⟩
  · unfold exportSize
    dsimp only
    rw [hv, Nat.mod_eq_of_lt hn, hr, ← hlen, fullRows_eq _ _ _ (by omega),
      Nat.mul_comm rows 10, restRow_eq _ _ _ (by omega)]
    dsimp only
    unfold renderFile
    rw [List.flatMap_append]
    simp
  · intro l hl
    rw [List.dropLast_concat] at hl
    obtain ⟨i, hi, rfl⟩ := List.mem_map.mp hl
    have := List.mem_range.mp hi
    simp; omega
  · intro l hl
    rw [List.getLast?_concat] at hl
    simp at hl
    rw [← hl]; simp; omega
  · rw [hflat, hlen]
  · intro i j hi hj
    rw [hflat, ← hv]
    exact gridValues_get f nx ny i j hi hj

example : exportSize (fun i j => 10 * i + j) 4 3 = some (renderFile
    [[0, 10, 20, 30, 1, 11, 21, 31, 2, 12], [22, 32]]) := by decide +kernel

/-- C28: the values exported are those of the size function at the points of the grid that starts in `lo`
and divides each side of the box into `Nx` and `Ny` equal parts. -/
theorem C28_grid {V : Type*} (h : Pt K → V) (lo up : Pt K) (nx ny : Nat) (hn : nx * ny < 2 ^ 32) :
    ∃ lines : List (List V), exportGrid h lo up nx ny = some (renderFile lines) ∧
      lines.flatten.length = nx * ny ∧
      ∀ i j, i < nx → j < ny → ∃ s t : K, s * nx = i ∧ t * ny = j ∧ 0 ≤ s ∧ s < 1 ∧ 0 ≤ t ∧ t < 1 ∧
        lines.flatten[j * nx + i]? =
          some (h ⟨(1 - s) * lo.x + s * up.x, (1 - t) * lo.y + t * up.y⟩) := by
  obtain ⟨lines, h1, -, -, -, h2, h3⟩ :=
    C28_export (fun i j => h (gridPoint lo up nx ny i j)) nx ny hn
  refine ⟨lines, h1, h2, fun i j hi hj => ?_⟩
  have hx : (0 : K) < nx := by exact_mod_cast (by omega : 0 < nx)
  have hy : (0 : K) < ny := by exact_mod_cast (by omega : 0 < ny)
  have hi' : (i : K) < nx := by exact_mod_cast hi
  have hj' : (j : K) < ny := by exact_mod_cast hj
  refine ⟨i / nx, j / ny, div_mul_cancel₀ _ hx.ne', div_mul_cancel₀ _ hy.ne', by positivity,
    (div_lt_one hx).2 hi', by positivity, (div_lt_one hy).2 hj', ?_⟩
  rw [h3 i j hi hj]
  have e : gridPoint lo up nx ny i j = ⟨(1 - (i : K) / nx) * lo.x + (i : K) / nx * up.x,
      (1 - (j : K) / ny) * lo.y + (j : K) / ny * up.y⟩ := by
    unfold gridPoint
    apply Pt.ext' <;> dsimp only <;> ring
  rw [e]

example : exportGrid (fun p : Pt ℚ => p.x + 10 * p.y) ⟨0, 0⟩ ⟨4, 6⟩ 2 3 =
    some (renderFile [[0, 2, 20, 22, 40, 42]]) := by decide +kernel

/-- C28 (refuted for large grids): the product of the dimensions overflows, e.g. nothing but an empty
line is printed for a grid of 65536 × 65536 points. -/
theorem C28_overflow_violated (f : Nat → Nat → K) :
    exportSize f 65536 65536 = some (renderFile [[]]) ∧
    (gridValues f 65536 65536).length = 2 ^ 32 := by
  constructor
  · unfold exportSize
    dsimp only
    have : 65536 * 65536 % 2 ^ 32 = 0 := by norm_num
    rw [this]
    rfl
  · rw [gridValues_length]; norm_num

/-! ## C84 -/

theorem segmentOverlap_iff {tol : K} (_ht0 : 0 ≤ tol) (ht : tol < 1) (a b c d : Pt K) :
    segmentOverlap tol a b c d = true ↔ SameSegment a b c d := by
  have he : ∀ p q : Pt K, vecEq tol p q = true ↔ p = q := by
    intro p q
    constructor
    · exact vecEq_eq ht
    · rintro rfl; unfold vecEq Pt.normSq; simp
  unfold segmentOverlap SameSegment
  split_ifs with h1 h2
  · simp only [Bool.and_eq_true, he] at h1; simp [h1]
  · simp only [Bool.and_eq_true, he] at h2; simp [h2]
  · simp only [Bool.and_eq_true, he] at h1 h2
    simp only [false_iff, not_or]
    exact ⟨h1, h2⟩

/-- C84: `count_edge_overlaps` is the number of pairs of boundary edges of the two domains that have
the same end points; the search radius never hides one. -/
theorem C84_overlaps [DecidableEq K] (tol : K) (ht0 : 0 ≤ tol) (ht : tol < 1) (D E : Domain K)
    (hnd : ∀ b ∈ D.bdries, ∀ e ∈ b.2.edges, D.pos e.v1 ≠ D.pos e.v2) :
    countOverlaps tol D E =
      ((D.bdries.flatMap fun b => b.2.edges).map fun e =>
        (E.bdries.flatMap fun b => b.2.edges).countP fun g =>
          decide ((D.pos e.v1 = E.pos g.v1 ∧ D.pos e.v2 = E.pos g.v2) ∨
            (D.pos e.v1 = E.pos g.v2 ∧ D.pos e.v2 = E.pos g.v1))).sum := by
  have inner : ∀ b ∈ D.bdries, ∀ e ∈ b.2.edges,
      (boundaryEdges E (edgeCentroid D.pos e) (9 / 4 * Pt.normSq (D.pos e.v1 - D.pos e.v2))).countP
        (fun g => segmentOverlap tol (D.pos e.v1) (D.pos e.v2) (E.pos g.v1) (E.pos g.v2)) =
      (E.bdries.flatMap fun b => b.2.edges).countP fun g =>
          decide ((D.pos e.v1 = E.pos g.v1 ∧ D.pos e.v2 = E.pos g.v2) ∨
            (D.pos e.v1 = E.pos g.v2 ∧ D.pos e.v2 = E.pos g.v1)) := by
    intro b hb e he
    have hbe : boundaryEdges E (edgeCentroid D.pos e) (9 / 4 * Pt.normSq (D.pos e.v1 - D.pos e.v2)) =
        (E.bdries.flatMap fun b => b.2.edges).filter fun g =>
          decide (Pt.normSq (edgeCentroid E.pos g - edgeCentroid D.pos e) <
            9 / 4 * Pt.normSq (D.pos e.v1 - D.pos e.v2)) := by
      unfold boundaryEdges; rw [List.filter_flatMap]
    rw [hbe, List.countP_filter]
    apply List.countP_congr
    intro g _
    have hpos : 0 < 9 / 4 * Pt.normSq (D.pos e.v1 - D.pos e.v2) := by
      have h0 := normSq_nonneg (D.pos e.v1 - D.pos e.v2)
      rcases eq_or_lt_of_le h0 with h | h
      · exfalso
        apply hnd b hb e he
        unfold Pt.normSq at h
        simp only [Pt.sub_x, Pt.sub_y] at h
        have hx : (D.pos e.v1).x - (D.pos e.v2).x = 0 := by
          by_contra hc
          nlinarith [mul_self_pos.mpr hc, mul_self_nonneg ((D.pos e.v1).y - (D.pos e.v2).y)]
        have hy : (D.pos e.v1).y - (D.pos e.v2).y = 0 := by
          by_contra hc
          nlinarith [mul_self_pos.mpr hc, mul_self_nonneg ((D.pos e.v1).x - (D.pos e.v2).x)]
        exact Pt.ext' (by linarith) (by linarith)
      · have : (0 : K) < 9 / 4 := by norm_num
        exact mul_pos this h
    rw [Bool.and_eq_true, segmentOverlap_iff ht0 ht, decide_eq_true_eq, decide_eq_true_eq]
    unfold SameSegment
    constructor
    · exact fun h => h.1
    · intro h
      refine ⟨h, ?_⟩
      have : edgeCentroid E.pos g = edgeCentroid D.pos e := by
        unfold edgeCentroid
        rcases h with ⟨h1, h2⟩ | ⟨h1, h2⟩
        · rw [h1, h2]
        · rw [h1, h2]; apply Pt.ext' <;> simp [add_comm]
      rw [this]
      have : Pt.normSq (edgeCentroid D.pos e - edgeCentroid D.pos e) = 0 := by
        unfold Pt.normSq; simp
      rw [this]; exact hpos
  unfold countOverlaps
  have hsum : ∀ (f : BEdge → Nat) (bs : List (BdryType × EList K)),
      ((bs.flatMap fun b => b.2.edges).map f).sum = (bs.map fun b => (b.2.edges.map f).sum).sum := by
    intro f bs
    induction bs with
    | nil => rfl
    | cons b bs ih => simp [List.flatMap_cons, ih]
  rw [hsum]
  congr 1
  apply List.map_congr_left
  intro b hb
  congr 1
  apply List.map_congr_left
  intro e he
  exact inner b hb e he

/-- two squares side by side share one edge -/
example : countOverlaps 0
    (⟨usq, [0, 1, 2, 3], [(.exterior, ⟨true, usqEdges, 1⟩)]⟩ : Domain ℚ)
    ⟨fun i => usq i + ⟨1, 0⟩, [0, 1, 2, 3], [(.exterior, ⟨true, usqEdges, 1⟩)]⟩ = 1 := by
  decide +kernel

end TQ

#print axioms TQ.C20_domain_area
#print axioms TQ.C23_domain_inside
#print axioms TQ.C25_extent_violated
#print axioms TQ.C25_extent_partial
#print axioms TQ.C27_size_bounds
#print axioms TQ.C27_local_sizes
#print axioms TQ.C28_export
#print axioms TQ.C28_grid
#print axioms TQ.C28_overflow_violated
#print axioms TQ.C84_overlaps

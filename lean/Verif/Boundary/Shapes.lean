import Verif.Boundary.Props
import Mathlib.Analysis.SpecialFunctions.Trigonometric.Basic
import Mathlib.Tactic.Linarith
import Mathlib.Tactic.FieldSimp
import Mathlib.Tactic.IntervalCases

/-!
# The predefined shapes: C139
-/

set_option linter.unusedSectionVars false

namespace TQ

section
variable {K : Type*} [Field K] [LinearOrder K]

/-- `set_shape_rectangle` (src/algorithm/Boundary.h:252-277). -/
def setRectangle (nearest : List (BVert K) → Pt K → Out (Option Nat)) (bt : BdryType)
    (st : List (BVert K)) (L : EList K) (color : Int) (xy : Pt K) (w h size range : K) :
    Out (List (BVert K) × EList K) :=
  createShape nearest bt st L (rectangleCoords xy w h) (List.replicate 4 ⟨size, range⟩)
    (List.replicate 4 color)

/-- `set_shape_square` (src/algorithm/Boundary.h:230-236). -/
def setSquare (nearest : List (BVert K) → Pt K → Out (Option Nat)) (bt : BdryType)
    (st : List (BVert K)) (L : EList K) (color : Int) (xy : Pt K) (w size range : K) :
    Out (List (BVert K) × EList K) :=
  setRectangle nearest bt st L color xy w w size range

/-- The coordinates of `set_shape_circle` (src/algorithm/Boundary.h:295-303); `dir i` stands for
`{ cos(ang_i), sin(ang_i) }`. -/
def circleCoords (dir : Nat → Pt K) (xy : Pt K) (r : K) (n : Nat) : List (Pt K) :=
  (List.range n).map fun i => ⟨xy.x + r * (dir i).x, xy.y + r * (dir i).y⟩

/-- `set_shape_circle` (src/algorithm/Boundary.h:282-307). -/
def setCircle (dir : Nat → Pt K) (nearest : List (BVert K) → Pt K → Out (Option Nat))
    (bt : BdryType) (st : List (BVert K)) (L : EList K) (color : Int) (xy : Pt K) (r : K) (n : Nat)
    (size range : K) : Out (List (BVert K) × EList K) :=
  if n < 3 then .ok (st, L)
  else createShape nearest bt st L (circleCoords dir xy r n)
    ((List.range n).map fun _ => ⟨size, range⟩) ((List.range n).map fun _ => color)

end

/-- `ang_i = i * delta_a` with `delta_a = 2.0 * M_PI / n` (src/algorithm/Boundary.h:293-298), in exact
arithmetic. -/
noncomputable def circleDir (n i : Nat) : Pt ℝ :=
  ⟨Real.cos (i * (2 * Real.pi / n)), Real.sin (i * (2 * Real.pi / n))⟩

/-- `set_shape_triangle` (src/algorithm/Boundary.h:241-247). -/
noncomputable def setTriangle (nearest : List (BVert ℝ) → Pt ℝ → Out (Option Nat))
    (bt : BdryType) (st : List (BVert ℝ)) (L : EList ℝ) (color : Int) (xy : Pt ℝ) (a size range : ℝ) :
    Out (List (BVert ℝ) × EList ℝ) :=
  setCircle (circleDir 3) nearest bt st L color xy (a / Real.sqrt 3) 3 size range

open GeoSpec BdSpec

section
variable {K : Type*} [Field K] [LinearOrder K] [IsStrictOrderedRing K]

/-- Specification: the boundary is the closed polygon with the given corners, every segment carries
the color, and the area counted is `A` for an exterior, `-A` for an interior boundary. -/
def IsPolygon (bt : BdryType) (st : List (BVert K)) (L : EList K) (pts : List (Pt K)) (color : Int)
    (A : K) : Prop :=
  L.edges.length = pts.length ∧ Loop L.edges ∧
  (∀ p, p ∈ corners (storePos st) L.edges ↔ p ∈ pts) ∧
  (∀ e ∈ cyclicPairs pts, HasSegment (storePos st) L.edges e.1 e.2 color) ∧
  (bt = .exterior → L.area = A) ∧ (bt = .interior → L.area = - A)

theorem createShape_polygon (nearest : List (BVert K) → Pt K → Out (Option Nat)) (bt : BdryType)
    (st st' : List (BVert K)) (coords props : List (Pt K)) (colors : List Int) (color : Int)
    (L : EList K) (hc : ∀ c ∈ colors, c = color)
    (h : createShape nearest bt st emptyBoundary coords props colors = .ok (st', L)) :
    IsPolygon bt st' L coords color |polygonArea coords| := by
  obtain ⟨hl, hloop, hcor, -, hE, hI⟩ := C18_shape nearest bt st st' coords props colors L h
  refine ⟨hl, hloop, ?_, ?_, hE, hI⟩
  · intro p
    rcases hcor with e | e <;> rw [e]
    simp
  · intro e he
    unfold cyclicPairs at he
    obtain ⟨i, hi, hie⟩ := List.getElem_of_mem he
    have hi' : i < coords.length := by
      have := hi; rw [List.length_zip, List.length_rotate] at this; omega
    rw [List.getElem_zip] at hie
    obtain ⟨c, hs, h1, h2⟩ := C19_markers_partial nearest bt st st' coords props colors L h i hi'
    have hcc : c = color := by
      by_cases hp : 0 < polygonArea coords
      · cases bt with
        | exterior => exact hc _ (List.mem_of_getElem? (h1 (Or.inl ⟨rfl, hp⟩)))
        | interior => exact hc _ (List.mem_of_getElem? (h2 (Or.inr ⟨rfl, hp⟩)))
      · push Not at hp
        cases bt with
        | exterior => exact hc _ (List.mem_of_getElem? (h2 (Or.inl ⟨rfl, hp⟩)))
        | interior => exact hc _ (List.mem_of_getElem? (h1 (Or.inr ⟨rfl, hp⟩)))
    subst hcc
    rw [← hie]
    simp only [List.getElem_rotate]
    exact hs

theorem rectangle_area (xy : Pt K) (w h : K) : polygonArea (rectangleCoords xy w h) = w * h := by
  rw [C15_fan _ xy]
  show triArea xy _ _ + (triArea xy _ _ + (triArea xy _ _ + (triArea xy _ _ + 0))) = w * h
  simp only [triArea]
  ring

/-- C139: `set_shape_rectangle` on an empty boundary succeeds for non-zero extents and yields the
axis-parallel rectangle with centre `xy` and sides `|w|`, `|h|`: four segments of the color given between
the four points `xy ± (w/2, h/2)`, of area `|w*h|`. -/
theorem C139_rectangle (nearest : List (BVert K) → Pt K → Out (Option Nat))
    (hn : ∀ st p, ∃ r, nearest st p = .ok r) (bt : BdryType) (st : List (BVert K)) (color : Int)
    (hcol : 0 ≤ color) (xy : Pt K) (w h size range : K) (hw : w ≠ 0) (hh : h ≠ 0) :
    ∃ st' L, setRectangle nearest bt st emptyBoundary color xy w h size range = .ok (st', L) ∧
      IsPolygon bt st' L [⟨xy.x - w / 2, xy.y - h / 2⟩, ⟨xy.x + w / 2, xy.y - h / 2⟩,
        ⟨xy.x + w / 2, xy.y + h / 2⟩, ⟨xy.x - w / 2, xy.y + h / 2⟩] color |w * h| := by
  have e : rectangleCoords xy w h = [⟨xy.x - w / 2, xy.y - h / 2⟩, ⟨xy.x + w / 2, xy.y - h / 2⟩,
        ⟨xy.x + w / 2, xy.y + h / 2⟩, ⟨xy.x - w / 2, xy.y + h / 2⟩] := by
    unfold rectangleCoords
    have e1 : 1 / 2 * w = w / 2 := by ring
    have e2 : 1 / 2 * h = h / 2 := by ring
    simp only [e1, e2]
  obtain ⟨⟨st', L⟩, hr⟩ := C18_progress nearest hn bt st (rectangleCoords xy w h)
    (List.replicate 4 ⟨size, range⟩) (List.replicate 4 color) (by
      rw [e]
      have h2 : (2 : K) ≠ 0 := two_ne_zero
      have hx : xy.x - w / 2 ≠ xy.x + w / 2 := by
        intro hc; apply hw; linarith
      have hy : xy.y - h / 2 ≠ xy.y + h / 2 := by
        intro hc; apply hh; linarith
      simp [hx, hy, hx.symm, hy.symm]) (by simp [rectangleCoords]) (by simp [rectangleCoords])
      (by simp [rectangleCoords]) (by intro c hc; rw [List.eq_of_mem_replicate hc]; exact hcol)
  refine ⟨st', L, hr, ?_⟩
  have := createShape_polygon nearest bt st st' (rectangleCoords xy w h) _ _ color L
    (fun c hc => List.eq_of_mem_replicate hc) hr
  rw [rectangle_area, e] at this
  exact this

/-- C139: a square is the rectangle with equal sides; its area is `w²`. -/
theorem C139_square (nearest : List (BVert K) → Pt K → Out (Option Nat))
    (hn : ∀ st p, ∃ r, nearest st p = .ok r) (bt : BdryType) (st : List (BVert K)) (color : Int)
    (hcol : 0 ≤ color) (xy : Pt K) (w size range : K) (hw : w ≠ 0) :
    ∃ st' L, setSquare nearest bt st emptyBoundary color xy w size range = .ok (st', L) ∧
      IsPolygon bt st' L [⟨xy.x - w / 2, xy.y - w / 2⟩, ⟨xy.x + w / 2, xy.y - w / 2⟩,
        ⟨xy.x + w / 2, xy.y + w / 2⟩, ⟨xy.x - w / 2, xy.y + w / 2⟩] color (w ^ 2) := by
  have := C139_rectangle nearest hn bt st color hcol xy w w size range hw hw
  rwa [abs_of_nonneg (mul_self_nonneg w), ← pow_two] at this

/-- Specification: all sides of the cyclic polygon have the squared length `d`. -/
def SidesSqr (pts : List (Pt K)) (d : K) : Prop :=
  ∀ e ∈ cyclicPairs pts, (e.2.x - e.1.x) ^ 2 + (e.2.y - e.1.y) ^ 2 = d

/-- C139 (silent failure): a circle with fewer than three segments leaves the boundary empty, without an
error. -/
theorem C139_circle_few (dir : Nat → Pt K) (nearest : List (BVert K) → Pt K → Out (Option Nat))
    (bt : BdryType) (st : List (BVert K)) (color : Int) (xy : Pt K) (r : K) (n : Nat) (size range : K)
    (hn : n < 3) :
    setCircle dir nearest bt st emptyBoundary color xy r n size range = .ok (st, emptyBoundary) := by
  unfold setCircle; rw [if_pos hn]

end

/-! ## The circle -/

theorem range_rotate {α : Type*} (f : Nat → α) (n : Nat) (h : f n = f 0) :
    ((List.range n).map f).rotate 1 = (List.range n).map fun i => f (i + 1) := by
  cases n with
  | zero => rfl
  | succ k =>
    conv_lhs => rw [List.range_succ_eq_map]
    rw [List.map_cons, List.rotate_cons_succ, List.rotate_zero, List.map_map, List.range_succ,
      List.map_append]
    simp [Function.comp_def, h]

theorem circleDir_period (n : Nat) (hn : n ≠ 0) : circleDir n n = circleDir n 0 := by
  unfold circleDir
  have : (n : ℝ) * (2 * Real.pi / n) = 2 * Real.pi := by
    have : (n : ℝ) ≠ 0 := by exact_mod_cast hn
    field_simp
  rw [this]; simp

theorem circle_pairs (xy : Pt ℝ) (r : ℝ) (n : Nat) (hn : n ≠ 0) :
    cyclicPairs (circleCoords (circleDir n) xy r n) = (List.range n).map fun i =>
      ((⟨xy.x + r * (circleDir n i).x, xy.y + r * (circleDir n i).y⟩ : Pt ℝ),
       (⟨xy.x + r * (circleDir n (i + 1)).x, xy.y + r * (circleDir n (i + 1)).y⟩ : Pt ℝ)) := by
  unfold cyclicPairs circleCoords
  rw [range_rotate _ n (by rw [circleDir_period n hn]), List.zip_map']

theorem circleDir_succ (n i : Nat) : circleDir n (i + 1) =
    ⟨Real.cos (i * (2 * Real.pi / n)) * Real.cos (2 * Real.pi / n) -
      Real.sin (i * (2 * Real.pi / n)) * Real.sin (2 * Real.pi / n),
     Real.sin (i * (2 * Real.pi / n)) * Real.cos (2 * Real.pi / n) +
      Real.cos (i * (2 * Real.pi / n)) * Real.sin (2 * Real.pi / n)⟩ := by
  unfold circleDir
  have e : ((i + 1 : Nat) : ℝ) * (2 * Real.pi / n) = i * (2 * Real.pi / n) + 2 * Real.pi / n := by
    push_cast; ring
  rw [e, Real.cos_add, Real.sin_add]

theorem circle_area (xy : Pt ℝ) (r : ℝ) (n : Nat) (hn : n ≠ 0) :
    polygonArea (circleCoords (circleDir n) xy r n) =
      n * (r ^ 2 / 2 * Real.sin (2 * Real.pi / n)) := by
  rw [C15_fan _ xy]
  unfold cyclicSum
  rw [circle_pairs xy r n hn, List.map_map]
  have : ((fun e : Pt ℝ × Pt ℝ => triArea xy e.1 e.2) ∘ fun i =>
      ((⟨xy.x + r * (circleDir n i).x, xy.y + r * (circleDir n i).y⟩ : Pt ℝ),
       (⟨xy.x + r * (circleDir n (i + 1)).x, xy.y + r * (circleDir n (i + 1)).y⟩ : Pt ℝ))) =
      fun _ => r ^ 2 / 2 * Real.sin (2 * Real.pi / n) := by
    funext i
    simp only [Function.comp_def, triArea, circleDir_succ]
    unfold circleDir
    have := Real.sin_sq_add_cos_sq ((i : ℝ) * (2 * Real.pi / n))
    generalize Real.sin ((i : ℝ) * (2 * Real.pi / n)) = s at *
    generalize Real.cos ((i : ℝ) * (2 * Real.pi / n)) = c at *
    generalize Real.sin (2 * Real.pi / n) = s' at *
    generalize Real.cos (2 * Real.pi / n) = c' at *
    dsimp only
    linear_combination (r ^ 2 / 2 * s') * this
  rw [this]
  simp

theorem circle_sides (xy : Pt ℝ) (r : ℝ) (n : Nat) (hn : n ≠ 0) :
    SidesSqr (circleCoords (circleDir n) xy r n) ((2 * r * Real.sin (Real.pi / n)) ^ 2) := by
  intro e he
  rw [circle_pairs xy r n hn, List.mem_map] at he
  obtain ⟨i, -, rfl⟩ := he
  simp only [circleDir_succ]
  unfold circleDir
  have h1 := Real.sin_sq_add_cos_sq ((i : ℝ) * (2 * Real.pi / n))
  have h2 := Real.sin_sq_add_cos_sq (2 * Real.pi / n : ℝ)
  have h3 : Real.cos (2 * Real.pi / n) = 1 - 2 * Real.sin (Real.pi / n) ^ 2 := by
    have e : 2 * Real.pi / n = 2 * (Real.pi / n) := by ring
    rw [e, Real.cos_two_mul]
    have := Real.sin_sq_add_cos_sq (Real.pi / n : ℝ)
    linarith
  generalize Real.sin ((i : ℝ) * (2 * Real.pi / n)) = s at *
  generalize Real.cos ((i : ℝ) * (2 * Real.pi / n)) = c at *
  generalize Real.sin (2 * Real.pi / n) = s' at *
  generalize Real.cos (2 * Real.pi / n) = c' at *
  generalize Real.sin (Real.pi / n) = t at *
  dsimp only
  linear_combination (r ^ 2 * (c' ^ 2 + s' ^ 2 - 2 * c' + 1)) * h1 + r ^ 2 * h2 - 2 * r ^ 2 * h3

theorem circle_nodup (xy : Pt ℝ) (r : ℝ) (hr : r ≠ 0) (n : Nat) :
    (circleCoords (circleDir n) xy r n).Nodup := by
  unfold circleCoords
  refine List.Nodup.map_on ?_ List.nodup_range
  intro i hi j hj hij
  rw [List.mem_range] at hi hj
  have hn : (0 : ℝ) < n := by exact_mod_cast (by omega : 0 < n)
  have hx := congrArg Pt.x hij
  have hy := congrArg Pt.y hij
  simp only [circleDir, add_right_inj, mul_eq_mul_left_iff, hr, or_false] at hx hy
  have hd : Real.cos (i * (2 * Real.pi / n) - j * (2 * Real.pi / n)) = 1 := by
    rw [Real.cos_sub, hx, hy]
    have := Real.sin_sq_add_cos_sq ((j : ℝ) * (2 * Real.pi / n))
    nlinarith
  have hpi := Real.pi_pos
  rw [Real.cos_eq_one_iff_of_lt_of_lt] at hd
  · have h2 : (2 * Real.pi / n : ℝ) ≠ 0 := by positivity
    have : ((i : ℝ) - j) * (2 * Real.pi / n) = 0 := by linarith
    rcases mul_eq_zero.1 this with h | h
    · exact_mod_cast (sub_eq_zero.1 h)
    · exact absurd h h2
  · have : (j : ℝ) < n := by exact_mod_cast hj
    have hi0 : (0 : ℝ) ≤ i := by positivity
    have e : (i : ℝ) * (2 * Real.pi / n) - j * (2 * Real.pi / n) = ((i - j) / n) * (2 * Real.pi) := by
      field_simp
    rw [e]
    have : (-1 : ℝ) < (i - j) / n := by rw [lt_div_iff₀ hn]; linarith
    nlinarith
  · have : (i : ℝ) < n := by exact_mod_cast hi
    have hj0 : (0 : ℝ) ≤ j := by positivity
    have e : (i : ℝ) * (2 * Real.pi / n) - j * (2 * Real.pi / n) = ((i - j) / n) * (2 * Real.pi) := by
      field_simp
    rw [e]
    have : ((i : ℝ) - j) / n < 1 := by rw [div_lt_iff₀ hn]; linarith
    nlinarith

/-- C139: `set_shape_circle` with `n ≥ 3` and `r ≠ 0` yields a regular `n`-gon: `n` segments of the color
given, all corners at distance `|r|` from the centre `xy`, all sides of length `2|r| sin(π/n)`, enclosed
area `n/2 r² sin(2π/n)`. -/
theorem C139_circle (nearest : List (BVert ℝ) → Pt ℝ → Out (Option Nat))
    (hne : ∀ st p, ∃ r, nearest st p = .ok r) (bt : BdryType) (st : List (BVert ℝ)) (color : Int)
    (hcol : 0 ≤ color) (xy : Pt ℝ) (r size range : ℝ) (hr : r ≠ 0) (n : Nat) (hn : 3 ≤ n) :
    ∃ st' L pts,
      setCircle (circleDir n) nearest bt st emptyBoundary color xy r n size range = .ok (st', L) ∧
      IsPolygon bt st' L pts color (n / 2 * r ^ 2 * Real.sin (2 * Real.pi / n)) ∧
      pts.length = n ∧ pts.Nodup ∧ pts.head? = some ⟨xy.x + r, xy.y⟩ ∧
      (∀ p ∈ pts, (p.x - xy.x) ^ 2 + (p.y - xy.y) ^ 2 = r ^ 2) ∧
      SidesSqr pts ((2 * r * Real.sin (Real.pi / n)) ^ 2) := by
  have hn0 : n ≠ 0 := by omega
  obtain ⟨⟨st', L⟩, h⟩ := C18_progress nearest hne bt st (circleCoords (circleDir n) xy r n)
    ((List.range n).map fun _ => ⟨size, range⟩) ((List.range n).map fun _ => color)
    (circle_nodup xy r hr n) (by simp [circleCoords]; omega) (by simp [circleCoords])
    (by simp [circleCoords]) (by intro c hc; rw [List.mem_map] at hc; obtain ⟨_, _, rfl⟩ := hc; exact hcol)
  refine ⟨st', L, circleCoords (circleDir n) xy r n, ?_, ?_, by simp [circleCoords],
    circle_nodup xy r hr n, ?_, ?_, circle_sides xy r n hn0⟩
  · unfold setCircle; rw [if_neg (by omega)]; exact h
  · have := createShape_polygon nearest bt st st' (circleCoords (circleDir n) xy r n) _ _ color L
      (by intro c hc; rw [List.mem_map] at hc; obtain ⟨_, _, rfl⟩ := hc; rfl) h
    rw [circle_area xy r n hn0, abs_of_nonneg] at this
    · have e : (n : ℝ) * (r ^ 2 / 2 * Real.sin (2 * Real.pi / n)) =
        n / 2 * r ^ 2 * Real.sin (2 * Real.pi / n) := by ring
      rwa [e] at this
    · have hpi := Real.pi_pos
      have h3 : (3 : ℝ) ≤ n := by exact_mod_cast hn
      have : 0 ≤ Real.sin (2 * Real.pi / n) := by
        apply Real.sin_nonneg_of_nonneg_of_le_pi
        · positivity
        · rw [div_le_iff₀ (by linarith)]; nlinarith
      positivity
  · unfold circleCoords
    obtain ⟨k, rfl⟩ : ∃ k, n = k + 1 := ⟨n - 1, by omega⟩
    rw [List.range_succ_eq_map]
    simp [circleDir]
  · intro p hp
    unfold circleCoords at hp
    rw [List.mem_map] at hp
    obtain ⟨i, -, rfl⟩ := hp
    unfold circleDir
    have := Real.sin_sq_add_cos_sq ((i : ℝ) * (2 * Real.pi / n))
    dsimp only
    linear_combination r ^ 2 * this

/-- C139: `set_shape_triangle` yields an equilateral triangle of side `|a|` and area `√3/4 a²`. -/
theorem C139_triangle (nearest : List (BVert ℝ) → Pt ℝ → Out (Option Nat))
    (hne : ∀ st p, ∃ r, nearest st p = .ok r) (bt : BdryType) (st : List (BVert ℝ)) (color : Int)
    (hcol : 0 ≤ color) (xy : Pt ℝ) (a size range : ℝ) (ha : a ≠ 0) :
    ∃ st' L pts, setTriangle nearest bt st emptyBoundary color xy a size range = .ok (st', L) ∧
      IsPolygon bt st' L pts color (Real.sqrt 3 / 4 * a ^ 2) ∧ pts.length = 3 ∧ pts.Nodup ∧
      SidesSqr pts (a ^ 2) ∧
      (∀ p ∈ pts, (p.x - xy.x) ^ 2 + (p.y - xy.y) ^ 2 = a ^ 2 / 3) := by
  have h3 : (0 : ℝ) < Real.sqrt 3 := Real.sqrt_pos.2 (by norm_num)
  have hs : Real.sqrt 3 ^ 2 = 3 := Real.sq_sqrt (by norm_num)
  obtain ⟨st', L, pts, h, hp, hl, hnd, -, hd, hsd⟩ := C139_circle nearest hne bt st color hcol xy
    (a / Real.sqrt 3) size range (div_ne_zero ha h3.ne') 3 le_rfl
  have e1 : ((3 : Nat) : ℝ) = 3 := by norm_num
  rw [e1] at hp hsd
  have s1 : Real.sin (Real.pi / 3) = Real.sqrt 3 / 2 := Real.sin_pi_div_three
  have s2 : Real.sin (2 * Real.pi / 3) = Real.sqrt 3 / 2 := by
    have : 2 * Real.pi / 3 = Real.pi - Real.pi / 3 := by ring
    rw [this, Real.sin_pi_sub, s1]
  have q : (a / Real.sqrt 3) ^ 2 = a ^ 2 / 3 := by rw [div_pow, hs]
  refine ⟨st', L, pts, h, ?_, hl, hnd, ?_, ?_⟩
  · rw [s2, q] at hp
    have : (3 : ℝ) / 2 * (a ^ 2 / 3) * (Real.sqrt 3 / 2) = Real.sqrt 3 / 4 * a ^ 2 := by ring
    rwa [this] at hp
  · rw [s1] at hsd
    have : (2 * (a / Real.sqrt 3) * (Real.sqrt 3 / 2)) ^ 2 = a ^ 2 := by
      have : 2 * (a / Real.sqrt 3) * (Real.sqrt 3 / 2) = a := by field_simp
      rw [this]
    rwa [this] at hsd
  · intro p hp; rw [hd p hp, q]

/-- the hypotheses are met: a lookup that always answers, a proper rectangle -/
example : (∀ (st : List (BVert ℚ)) p, ∃ r, exactNearest st p = .ok r) ∧ (0 : Int) ≤ 2 ∧
    (∃ st' L, setRectangle exactNearest .interior [] emptyBoundary 2 (⟨1, 1⟩ : Pt ℚ) 4 2 0 0 =
      .ok (st', L) ∧ L.area = -8 ∧ L.edges.length = 4) := by
  refine ⟨fun st p => ⟨_, rfl⟩, by decide, ?_⟩
  obtain ⟨st', L, h, hl, -, -, -, -, hA⟩ := C139_rectangle exactNearest (fun st p => ⟨_, rfl⟩) .interior
    [] 2 (by decide) (⟨1, 1⟩ : Pt ℚ) 4 2 0 0 (by norm_num) (by norm_num)
  refine ⟨st', L, h, ?_, hl⟩
  rw [hA rfl]; norm_num

end TQ

#print axioms TQ.C139_rectangle
#print axioms TQ.C139_square
#print axioms TQ.C139_circle_few
#print axioms TQ.C139_circle
#print axioms TQ.C139_triangle

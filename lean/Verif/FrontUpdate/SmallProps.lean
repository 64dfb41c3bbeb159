import Verif.FrontUpdate.Props
import Verif.QuadLayer.Lemmas
import Verif.Geometry.UnitProps

/-! # C198: domains that are small in their unit of length are not meshed -/

set_option linter.unusedSectionVars false

namespace TQ
open MS MS.St MeshSpec FU FUSpec GeoSpec
variable {K : Type*} [Field K] [LinearOrder K] [IsStrictOrderedRing K]

theorem near_line {eps L : K} (hL : 4 * L ^ 4 < eps) {p q r : Pt K} (h1 : Near L p r) (h2 : Near L q r) : orientation eps p q r = .CL := by
  have h0 : 0 ≤ L := (abs_nonneg _).trans h1.1
  have ha : |area2 p q r| ≤ 2 * L ^ 2 := by
    unfold area2
    have m1 : |(p.x - r.x) * (q.y - r.y)| ≤ L * L := by rw [abs_mul]; exact mul_le_mul h1.1 h2.2 (abs_nonneg _) h0
    have m2 : |(q.x - r.x) * (p.y - r.y)| ≤ L * L := by rw [abs_mul]; exact mul_le_mul h2.1 h1.2 (abs_nonneg _) h0
    calc _ ≤ |(p.x - r.x) * (q.y - r.y)| + |(q.x - r.x) * (p.y - r.y)| := abs_sub _ _
      _ ≤ 2 * L ^ 2 := by linarith
  unfold orientation
  refine if_pos (lt_of_le_of_lt ?_ hL)
  calc area2 p q r * area2 p q r = |area2 p q r| * |area2 p q r| := (abs_mul_abs_self _).symm
    _ ≤ 2 * L ^ 2 * (2 * L ^ 2) := mul_le_mul ha ha (abs_nonneg _) (by positivity)
    _ = 4 * L ^ 4 := by ring

theorem try_line {env : Env K} {b1 b2 : Nat} : ∀ (l : List Nat) (s : St K), (∀ v ∈ l, orientation env.eps (s.pos b1) (s.pos b2) (s.pos v) = .CL) →
    l.foldl (tryVertex env b1 b2) (s, []) = (s, [])
  | [], _, _ => rfl
  | v :: l, s, h => by
    rw [List.foldl_cons]
    have : tryVertex env b1 b2 (s, []) v = (s, []) := by
      unfold tryVertex
      dsimp only
      split_ifs with h1 h2 h3
      · rfl
      · rfl
      · exact absurd (h v (by simp)) h2
      · exact absurd (h v (by simp)) h2
    rw [this]
    exact try_line l s fun w hw => h w (by simp [hw])

/-- **C198 is violated by the meshing:** in a square of side `L` with `4 L⁴` below the tolerance (about a ten-thousandth of the unit of length), the exhaustive search never makes a triangle, and the
usual step makes one only if no third vertex is within the range of its checks. -/
theorem C198_small_violated {env : Env K} (hq : QueryExact env) (hs : SortOK env) {s : St K} (hw : WF s) {base : Nat} (hb1 : (s.E base).v1 ∈ s.verts) (hb2 : (s.E base).v2 ∈ s.verts)
    {L : K} (hL : 4 * L ^ 4 < env.eps) (hn : ∀ v ∈ s.verts, ∀ w ∈ s.verts, Near L (s.pos v) (s.pos w)) {newPos : Pt K} (hp : ∀ v ∈ s.verts, Near L newPos (s.pos v)) :
    (∀ v ∈ s.verts, updateFrontExhaustive env s base v = (s, none)) ∧
    ∀ w ∈ s.verts, w ≠ (s.E base).v1 → w ≠ (s.E base).v2 →
      Pt.normSq (s.pos w - triCentroid (s.pos (s.E base).v1) (s.pos (s.E base).v2) newPos) <
        checkRange env (s.pos (s.E base).v1) (s.pos (s.E base).v2) newPos * checkRange env (s.pos (s.E base).v1) (s.pos (s.E base).v2) newPos →
      ∀ searchPos range, (updateFront env s base newPos searchPos range).2 = none := by
  refine ⟨fun v hv => ?_, fun w hwm h1 h2 hr searchPos range => ?_⟩
  · unfold updateFrontExhaustive
    rw [near_line hL (hn _ hb1 _ hv) (hn _ hb2 _ hv)]
    split_ifs
    · rfl
    · rfl
    all_goals simp_all
  · have hc : createPossible env s base searchPos range = (s, []) := try_line _ _ fun v hv => by
      have hv' := ((hq.verts _ _ _ _).mp hv).1
      exact near_line hL (hn _ hb1 _ hv') (hn _ hb2 _ hv')
    unfold updateFront
    rw [hc]
    have hcb : chooseBest env s [] = none := by
      unfold chooseBest
      rw [List.perm_nil.mp (hs (sortKey env s) []).1]
    dsimp only
    rw [hcb]
    dsimp only
    generalize hb1' : (s.E base).v1 = b1 at *
    generalize hb2' : (s.E base).v2 = b2 at *
    have hlt : ∀ v ∈ s.verts, v ≠ s.nxt := fun v hv => (hw.vlt v hv).ne
    have hpos : ∀ v ∈ s.verts, ((s.addVertex newPos).addTri b1 b2 s.nxt (-1)).pos v = s.pos v := fun v hv => by
      rw [show ((s.addVertex newPos).addTri b1 b2 s.nxt (-1)).pos v = (s.addVertex newPos).pos v from QL.addTri_pos _ _ _ _ _ _]
      simp [St.pos, St.addVertex, upd, hlt v hv]
    have hposn : ((s.addVertex newPos).addTri b1 b2 s.nxt (-1)).pos s.nxt = newPos := by
      rw [show ((s.addVertex newPos).addTri b1 b2 s.nxt (-1)).pos s.nxt = (s.addVertex newPos).pos s.nxt from QL.addTri_pos _ _ _ _ _ _]
      simp [St.pos, St.addVertex, upd]
    have hinv : triangleIsValid env ((s.addVertex newPos).addTri b1 b2 s.nxt (-1)) (s.addVertex newPos).nxt b1 b2 s.nxt = false := by
      unfold triangleIsValid
      rw [hpos b1 hb1, hpos b2 hb2, hposn]
      have hany : (env.qVerts ((s.addVertex newPos).addTri b1 b2 s.nxt (-1)) (triCentroid (s.pos b1) (s.pos b2) newPos)
          (cppMAX (2 * env.rho (triCentroid (s.pos b1) (s.pos b2) newPos)) (maxEdgeLength env (s.pos b1) (s.pos b2) newPos))).any
          (hitsVertex env.eps ((s.addVertex newPos).addTri b1 b2 s.nxt (-1)) b1 b2 s.nxt) = true := by
        refine List.any_eq_true.mpr ⟨w, (hq.verts _ _ _ _).mpr ⟨?_, ?_⟩, ?_⟩
        · simp [St.addTri, St.addVertex, hwm]
        · rw [hpos w hwm]
          rw [FU.checkRange_eq]; exact hr
        · unfold hitsVertex
          rw [if_neg (by simp [h1, h2, hlt w hwm]), hpos w hwm, hpos b1 hb1, hpos b2 hb2, hposn]
          unfold inOnTriangle isLefton
          rw [near_line hL (hn _ hb1 _ hwm) (hn _ hb2 _ hwm), near_line hL (hn _ hb2 _ hwm) (hp _ hwm), near_line hL (hp _ hwm) (hn _ hb1 _ hwm)]
          rfl
      dsimp only
      rw [hany]
      split_ifs <;> simp_all
    rw [hinv]
    simp

namespace SmallEx
open FUEx
/-- A square with sides of a tenth. -/
def small : St ℚ := fe (fe (fe (fe (fv (fv (fv (fv (St.empty 1) 0 0) (1/10) 0) (1/10) (1/10)) 0 (1/10)) 0 1) 1 2) 2 3) 3 0
theorem wf_small : WF small := by
  unfold small fe
  refine wf_addEdge (wf_addEdge (wf_addEdge (wf_addEdge
    (wf_fv (wf_fv (wf_fv (wf_fv (wf_empty 1) _ _) _ _) _ _) _ _) _ _ _ ?_ ?_ ?_) _ _ _ ?_ ?_ ?_) _ _ _ ?_ ?_ ?_)
    _ _ _ ?_ ?_ ?_ <;> decide +kernel
instance (L : ℚ) (p q : Pt ℚ) : Decidable (Near L p q) := inferInstanceAs (Decidable (_ ∧ _))
/-- With the tolerance 1/1000 no triangle is made in the small square, although one is made in the unit square. -/
example : (updateFront env small 4 ⟨1/20, 1/20⟩ ⟨1/20, 1/20⟩ 2).2 = none ∧ (updateFront env square 4 ⟨1/2, 3/4⟩ ⟨1/2, 3/4⟩ 2).2 = some 8 :=
  ⟨(C198_small_violated (L := 1/10) exact sortOK wf_small (base := 4) (by decide +kernel) (by decide +kernel) (by decide +kernel) (by decide +kernel) (by decide +kernel)).2 2 (by decide +kernel)
    (by decide +kernel) (by decide +kernel) (by decide +kernel) _ _, step1⟩
end SmallEx

end TQ

#print axioms TQ.C198_small_violated

import Verif.Triangulation.PlaceLemmas
import Verif.FrontUpdate.Props
import Mathlib.Tactic.LinearCombination

/-! # C199: the mesh of a shifted or turned domain is the shifted or turned mesh -/

set_option linter.unusedSectionVars false

namespace TQ
open MS MS.St FU TG GeoSpec PlaceSpec
variable {K : Type*} [Field K] [LinearOrder K] [IsStrictOrderedRing K]

section loops
variable {f : Similarity K} {lam : K} {env env' : Env K} (h : Follows f lam env env')

/-- The variables of a loop at another place. -/
def placeL (f : Similarity K) (L : Lp K) : Lp K := { L with s := place f L.s }
/-- A turn at another place. -/
def placeT (f : Similarity K) : Turn K → Turn K
  | .next L => .next (placeL f L)
  | .ret b L => .ret b (placeL f L)
  | .undef => .undef
/-- The result of a loop at another place. -/
def placeRs (f : Similarity K) : Res K → Res K
  | .ret b L => .ret b (placeL f L)
  | .undef => .undef
  | .fuel L => .fuel (placeL f L)

include h

theorem elen_place (s : St K) (e : Nat) : elen env' (place f s) e = lam * elen env s e := h.norm _ _

omit h in
theorem emid_place (s : St K) (e : Nat) : emid (place f s) e = f.at (emid s e) := by
  refine Pt.ext' ?_ ?_ <;> simp only [emid, pos_place, show (place f s).E = s.E from rfl, Similarity.at, Pt.smul_x, Pt.smul_y, Pt.add_x, Pt.add_y] <;> ring

theorem newPos_place (s : St K) (e : Nat) (len : K) :
    emid (place f s) e + Pt.smul (lam * len) (enormal env' (place f s) e) = f.at (emid s e + Pt.smul len (enormal env s e)) := by
  have h0 : lam * lam⁻¹ = 1 := mul_inv_cancel₀ h.pos.ne'
  rw [emid_place]
  unfold enormal
  rw [elen_place h]
  generalize elen env s e = l
  generalize emid s e = m
  simp only [pos_place, show (place f s).E = s.E from rfl]
  generalize s.pos (s.E e).v1 = p
  generalize s.pos (s.E e).v2 = q
  refine Pt.ext' ?_ ?_
  · simp only [Similarity.at, Pt.smul_x, Pt.add_x, Pt.add_y, Pt.smul_y, Pt.sub_x, Pt.sub_y, div_eq_mul_inv, mul_inv]
    linear_combination (-(len * l⁻¹ * (f.b * q.x + f.a * q.y - f.b * p.x - f.a * p.y))) * h0
  · simp only [Similarity.at, Pt.smul_x, Pt.add_x, Pt.add_y, Pt.smul_y, Pt.sub_x, Pt.sub_y, div_eq_mul_inv, mul_inv]
    linear_combination (len * l⁻¹ * (f.a * q.x - f.b * q.y - f.a * p.x + f.b * p.y)) * h0

theorem advTriangle_place (par : Par K) (s : St K) (e : Nat) (wide : Bool) : advTriangle env' par (place f s) e wide = placeP f (advTriangle env par s e wide) := by
  unfold advTriangle
  dsimp only
  rw [elen_place h, emid_place, h.rho, show lam * elen env s e * par.h * par.baseFactor = lam * (elen env s e * par.h * par.baseFactor) by ring, cppMIN_mul h, ← emid_place, newPos_place h]
  generalize cppMIN (elen env s e * par.h * par.baseFactor) (env.rho (emid s e)) = len
  rw [show (if wide = true then par.rangeFactor * (lam * len) * par.wideFactor else par.rangeFactor * (lam * len)) =
    lam * (if wide = true then par.rangeFactor * len * par.wideFactor else par.rangeFactor * len) by split_ifs <;> ring]
  exact update_place h _ _ _ _ _

omit h in
theorem insertionSort_congr {α : Type*} {r r' : α → α → Prop} [d : DecidableRel r] [d' : DecidableRel r'] (hr : ∀ a b, r a b ↔ r' a b) (l : List α) :
    l.insertionSort r = l.insertionSort r' := by
  have : r = r' := funext fun a => funext fun b => propext (hr a b)
  subst this
  congr

theorem sortFront_place (asc : Bool) (s : St K) : sortFront env' asc (place f s) = place f (sortFront env asc s) := by
  unfold sortFront setFront
  rw [show (place f s).es = s.es from rfl]
  rw [insertionSort_congr (r' := fun a b => if asc = true then elen env s a ≤ elen env s b else elen env s b ≤ elen env s a)]
  · rfl
  · intro a b
    simp only [elen_place h, mul_le_mul_iff_right₀ h.pos]

omit h in
theorem advChecks_place (nEl : Nat) (L : Lp K) : advChecks nEl (placeL f L) = placeT f (advChecks nEl L) := by
  obtain ⟨s, b, fb, it, w, n, lg⟩ := L
  unfold advChecks placeL
  dsimp only
  rw [show (place f s).es = s.es from rfl]
  split_ifs <;> rfl

omit h in
theorem exhChecks_place (nEl : Nat) (L : Lp K) : exhChecks nEl (placeL f L) = placeT f (exhChecks nEl L) := by
  obtain ⟨s, b, fb, it, w, n, lg⟩ := L
  unfold exhChecks placeL
  dsimp only
  rw [show (place f s).es = s.es from rfl]
  split_ifs <;> rfl

theorem advTurn_place (par : Par K) (nEl : Nat) (L : Lp K) : advTurn env' par nEl (placeL f L) = placeT f (advTurn env par nEl L) := by
  obtain ⟨s, b, fb, it, w, n, lg⟩ := L
  unfold advTurn placeL
  dsimp only
  rcases b with _ | e
  · rfl
  · dsimp only
    rw [advTriangle_place h]
    rcases advTriangle env par s e w with ⟨s', _ | t⟩
    · dsimp only [placeP]
      rw [show baseNext (place f s') fb = baseNext s' fb from rfl]
      rcases baseNext s' fb with _ | b
      · rfl
      · exact advChecks_place nEl ⟨s', b.1, b.2, it + 1, w, n, lg ++ [⟨e, w, false⟩]⟩
    · dsimp only [placeP]
      rw [sortFront_place h, show (if w = true then place f (sortFront env false s') else place f s') = place f (if w = true then sortFront env false s' else s') by split_ifs <;> rfl]
      generalize (if w = true then sortFront env false s' else s') = s''
      exact advChecks_place nEl ⟨s'', (baseFirst s'' fb).1, (baseFirst s'' fb).2, 0, false, n + 1, lg ++ [⟨e, w, true⟩]⟩

theorem advLoop_place (par : Par K) (nEl : Nat) : ∀ (k : Nat) (L : Lp K), advLoop env' par nEl k (placeL f L) = placeRs f (advLoop env par nEl k L)
  | 0, _ => rfl
  | k + 1, L => by
    unfold advLoop
    rw [advTurn_place h]
    rcases advTurn env par nEl L with L' | ⟨b, L'⟩ | _
    · exact advLoop_place par nEl k L'
    · rfl
    · rfl

theorem exhWalk_place (base : Nat) : ∀ (k : Nat) (s : St K) (o : Option Nat), exhWalk env' base k (place f s) o = placeP f (exhWalk env base k s o)
  | 0, _, _ => rfl
  | _ + 1, _, none => rfl
  | k + 1, s, some ne => by
    unfold exhWalk
    dsimp only
    rw [show (place f s).E = s.E from rfl, exhaustive_place h]
    split_ifs
    · rfl
    · rcases updateFrontExhaustive env s base (s.E ne).v2 with ⟨s', _ | t⟩
      · exact exhWalk_place base k s' (s'.nextEdge ne)
      · rfl
    · exact exhWalk_place base k s (s.nextEdge ne)

theorem exhTriangle_place (s : St K) (base : Nat) : exhTriangle env' (place f s) base = placeP f (exhTriangle env s base) := exhWalk_place h base _ s _

theorem exhTurn_place (nEl : Nat) (L : Lp K) : exhTurn env' nEl (placeL f L) = placeT f (exhTurn env nEl L) := by
  obtain ⟨s, b, fb, it, w, n, lg⟩ := L
  unfold exhTurn placeL
  dsimp only
  rcases b with _ | e
  · rfl
  · dsimp only
    rw [exhTriangle_place h]
    rcases exhTriangle env s e with ⟨s', _ | _⟩
    · dsimp only [placeP]
      rw [show baseNext (place f s') fb = baseNext s' fb from rfl]
      rcases baseNext s' fb with _ | b
      · rfl
      · exact exhChecks_place nEl ⟨s', b.1, b.2, it + 1, w, n, lg ++ [⟨e, w, false⟩]⟩
    · exact exhChecks_place nEl ⟨s', (baseFirst s' fb).1, (baseFirst s' fb).2, 0, w, n + 1, lg ++ [⟨e, w, true⟩]⟩

theorem exhLoop_place (nEl : Nat) : ∀ (k : Nat) (L : Lp K), exhLoop env' nEl k (placeL f L) = placeRs f (exhLoop env nEl k L)
  | 0, _ => rfl
  | k + 1, L => by
    unfold exhLoop
    rw [exhTurn_place h]
    rcases exhTurn env nEl L with L' | ⟨b, L'⟩ | _
    · exact exhLoop_place nEl k L'
    · rfl
    · rfl

theorem advStart_place (s : St K) : advStart env' (place f s) = placeL f (advStart env s) := by
  unfold advStart placeL
  dsimp only
  rw [sortFront_place h]
  rfl

theorem exhStart_place (s : St K) (fb : Option Nat) : exhStart env' (place f s) fb = placeL f (exhStart env s fb) := by
  unfold exhStart placeL
  dsimp only
  rw [sortFront_place h]
  rfl

/-- **C199 with the unit of length.** In surroundings that follow the domain, the meshing of a domain at another place, in another direction and in another unit gives the same elements at the new place. -/
theorem C199_similar (par : Par K) (nEl fuel : Nat) (s : St K) :
    generate env' par nEl fuel (place f s) = placeRes f (generate env par nEl fuel s) ∧
    generateExhaustive env' nEl fuel (place f s) = placeRes f (generateExhaustive env nEl fuel s) := by
  constructor
  · unfold generate
    rw [advStart_place h, advLoop_place h]
    rcases advLoop env par nEl fuel (advStart env s) with ⟨b, L⟩ | _ | L
    · rcases b with _ | _
      · dsimp only [placeRs]
        rw [show (placeL f L).n = L.n from rfl, show (placeL f L).s = place f L.s from rfl, show (placeL f L).fbase = L.fbase from rfl, exhStart_place h, exhLoop_place h]
        rcases exhLoop env (nEl - L.n) fuel (exhStart env L.s L.fbase) with ⟨b, L'⟩ | _ | L' <;> rfl
      · rfl
    · rfl
    · rfl
  · unfold generateExhaustive
    rw [sortFront_place h, exhStart_place h, show baseFirst (place f s) none = baseFirst s none from rfl, exhLoop_place h]
    rcases exhLoop env nEl fuel (exhStart env (sortFront env false s) (baseFirst s none).2) with ⟨b, L'⟩ | _ | L' <;> rfl

end loops

/-- **C199.** The tolerance of the code fits to shifts and turns: with the same tolerance and the same sizes, the mesh of the moved domain is the moved mesh, element by element, with the same area. -/
theorem C199_moved {f : Similarity K} (hf : f.Motion) {env env' : Env K} (h : Follows f 1 env env') (par : Par K) (nEl fuel : Nat) (s : St K) :
    env'.eps = env.eps ∧ generate env' par nEl fuel (place f s) = placeRes f (generate env par nEl fuel s) ∧ ∀ s' : St K, (place f s').area = s'.area := by
  have h1 : f.factor = 1 := hf
  exact ⟨by rw [h.eps, h1]; ring, (C199_similar h par nEl fuel s).1, fun s' => by simp [place, h1]⟩

namespace PlaceEx
open FUEx
/-- A quarter turn with a shift. -/
def quarter : Similarity ℚ := ⟨0, 1, ⟨5, -2⟩⟩
theorem motion : quarter.Motion := by norm_num [quarter, Similarity.Motion, Similarity.factor]
/-- The sides of the unit square. -/
def sides : List (Pt ℚ × Pt ℚ) := [(⟨0, 0⟩, ⟨1, 0⟩), (⟨1, 0⟩, ⟨1, 1⟩), (⟨1, 1⟩, ⟨0, 1⟩), (⟨0, 1⟩, ⟨0, 0⟩)]
/-- Queries for live elements in a circle; sizes that depend on the place. -/
def env1 : Env ℚ := { FUEx.env with
  rho := fun p => 1 + (p.x - 5) ^ 2
  bdryEdges := fun _ _ => sides
  qTris := fun s p r => s.tris.filter fun t => decide ((s.F (.tri t)).corners.length = 3 ∧ Pt.normSq (s.fCentroid (.tri t) - p) < r * r)
  qQuads := fun s p r => s.quads.filter fun t => decide ((s.F (.quad t)).corners.length = 4 ∧ Pt.normSq (s.fCentroid (.quad t) - p) < r * r) }
/-- The same for the turned square. -/
def env2 : Env ℚ := { env1 with
  rho := fun p => 1 + (p.y - 3) ^ 2
  bdryEdges := fun _ _ => sides.map fun e => (quarter.at e.1, quarter.at e.2) }
theorem nsq (p q : Pt ℚ) : Pt.normSq (quarter.at p - quarter.at q) = Pt.normSq (p - q) := by
  rw [normSq_at, show quarter.factor = 1 from motion, one_mul]
theorem cen {s : St ℚ} {t : FRef} (ht : (s.F t).corners.length = 3 ∨ (s.F t).corners.length = 4) : (place quarter s).fCentroid t = quarter.at (s.fCentroid t) := by
  unfold fCentroid
  rw [show (place quarter s).F = s.F from rfl]
  rcases hc : (s.F t).corners with _ | ⟨a, _ | ⟨b, _ | ⟨c, _ | ⟨d, _ | ⟨e, l⟩⟩⟩⟩⟩
  · simp [hc] at ht
  · simp [hc] at ht
  · simp [hc] at ht
  · exact triCentroid_at _ _ _ _
  · exact quadCentroid_at _ _ _ _ _
  · simp [hc] at ht
theorem follows : Follows quarter 1 env1 env2 where
  pos := one_pos
  factor := by rw [show quarter.factor = 1 from motion]; norm_num
  eps := by rw [show quarter.factor = 1 from motion, one_pow, one_mul]; rfl
  rho := fun p => by simp only [env1, env2, quarter, Similarity.at]; ring
  inside := fun _ => rfl
  bdry := fun _ _ => rfl
  norm := fun p q => by
    have h1 : ((quarter.at p - quarter.at q).x) = -(p - q).y := by simp only [quarter, Similarity.at, Pt.sub_x, Pt.sub_y]; ring
    have h2 : ((quarter.at p - quarter.at q).y) = (p - q).x := by simp only [quarter, Similarity.at, Pt.sub_x, Pt.sub_y]; ring
    show |(quarter.at p - quarter.at q).x| + |(quarter.at p - quarter.at q).y| = 1 * (|(p - q).x| + |(p - q).y|)
    rw [h1, h2, abs_neg, one_mul, add_comm]
  angle := fun _ _ _ => rfl
  quality := rfl
  cell := rfl
  normF := rfl
  verts := fun s p r => by
    show s.verts.filter (fun v => decide (Pt.normSq (quarter.at (s.pos v) - quarter.at p) < 1 * r * (1 * r))) = s.verts.filter fun v => decide (Pt.normSq (s.pos v - p) < r * r)
    simp only [nsq, one_mul]
  tris := fun s p r => by
    show s.tris.filter (fun t => decide ((s.F (.tri t)).corners.length = 3 ∧ Pt.normSq ((place quarter s).fCentroid (.tri t) - quarter.at p) < 1 * r * (1 * r))) =
      s.tris.filter fun t => decide ((s.F (.tri t)).corners.length = 3 ∧ Pt.normSq (s.fCentroid (.tri t) - p) < r * r)
    refine List.filter_congr fun t _ => decide_eq_decide.mpr (and_congr_right fun hl => ?_)
    rw [cen (Or.inl hl), nsq, one_mul]
  quads := fun s p r => by
    show s.quads.filter (fun t => decide ((s.F (.quad t)).corners.length = 4 ∧ Pt.normSq ((place quarter s).fCentroid (.quad t) - quarter.at p) < 1 * r * (1 * r))) =
      s.quads.filter fun t => decide ((s.F (.quad t)).corners.length = 4 ∧ Pt.normSq (s.fCentroid (.quad t) - p) < r * r)
    refine List.filter_congr fun t _ => decide_eq_decide.mpr (and_congr_right fun hl => ?_)
    rw [cen (Or.inr hl), nsq, one_mul]
  front := fun s p r => by
    show (s.es .front).filter (fun e => decide (Pt.normSq (emid (place quarter s) e - quarter.at p) < 1 * r * (1 * r))) = (s.es .front).filter fun e => decide (Pt.normSq (emid s e - p) < r * r)
    simp only [emid_place, nsq, one_mul]
  sort := rfl
/-- The meshing of the turned square. -/
example (par : Par ℚ) (n k : Nat) := C199_moved motion follows par n k square
/-- A triangle of the unit square at the new place. -/
example : (updateFront env2 (place quarter square) 4 (quarter.at ⟨1/2, 3/4⟩) (quarter.at ⟨1/2, 3/4⟩) 2).2 = some 8 ∧ (place quarter square).pos 2 = ⟨4, -1⟩ := by decide +kernel
end PlaceEx

end TQ

#print axioms TQ.C199_similar
#print axioms TQ.C199_moved

import Verif.Smoothing.PlaceSpec
import Verif.Cleanup.PlaceLemmas

/-! # Lemmas for C200: the steps of the smoothing follow the place of the mesh -/

set_option linter.unusedSectionVars false

namespace TQ
open MS MS.St MC GeoSpec PlaceSpec
variable {K : Type*} [Field K] [LinearOrder K] [IsStrictOrderedRing K]

section vectors
variable (f : Similarity K)

theorem at_sub (p q : Pt K) : f.at p - f.at q = f.turn (p - q) := by
  refine Pt.ext' ?_ ?_ <;> simp only [Similarity.at, Similarity.turn, Pt.sub_x, Pt.sub_y] <;> ring

theorem at_add (p u : Pt K) : f.at p + f.turn u = f.at (p + u) := by
  refine Pt.ext' ?_ ?_ <;> simp only [Similarity.at, Similarity.turn, Pt.add_x, Pt.add_y] <;> ring

theorem turn_sub (p q : Pt K) : f.turn p - f.turn q = f.turn (p - q) := by
  refine Pt.ext' ?_ ?_ <;> simp only [Similarity.turn, Pt.sub_x, Pt.sub_y] <;> ring

theorem turn_smul (c : K) (p : Pt K) : Pt.smul c (f.turn p) = f.turn (Pt.smul c p) := by
  refine Pt.ext' ?_ ?_ <;> simp only [Similarity.turn, Pt.smul_x, Pt.smul_y] <;> ring

theorem turn_dot (p q : Pt K) : Pt.dot (f.turn p) (f.turn q) = f.factor * Pt.dot p q := by
  simp only [Similarity.turn, Similarity.factor, Pt.dot]; ring

theorem turn_normSq (p : Pt K) : Pt.normSq (f.turn p) = f.factor * Pt.normSq p := by
  simp only [Similarity.turn, Similarity.factor, Pt.normSq]; ring

theorem turn_zero : f.turn (0 : Pt K) = 0 := by
  refine Pt.ext' ?_ ?_ <;> simp only [Similarity.turn, Pt.zero_x, Pt.zero_y] <;> ring

theorem setPos_place (s : St K) (v : Nat) (p : Pt K) : (place f s).setPos v (f.at p) = place f (s.setPos v p) := by
  unfold setPos place
  simp only [St.mk.injEq, true_and, and_true]
  exact upd_place f _ fun _ => rfl

theorem laplace_place : RuleFollows f (laplaceRule : Rule K) laplaceRule := by
  intro s v ns
  unfold laplaceRule
  rcases ns with _ | ⟨n, ns⟩
  · rfl
  · rw [if_neg (by simp), if_neg (by simp), Option.map_some, Option.some_inj]
    have hsum : ∀ (l : List Nat) (p p' : Pt K) (k : K), p'.x = f.a * p.x - f.b * p.y + k * f.t.x ∧ p'.y = f.b * p.x + f.a * p.y + k * f.t.y →
        (l.foldl (fun p w => p + (place f s).pos w) p').x = f.a * (l.foldl (fun p w => p + s.pos w) p).x - f.b * (l.foldl (fun p w => p + s.pos w) p).y + (k + l.length) * f.t.x ∧
        (l.foldl (fun p w => p + (place f s).pos w) p').y = f.b * (l.foldl (fun p w => p + s.pos w) p).x + f.a * (l.foldl (fun p w => p + s.pos w) p).y + (k + l.length) * f.t.y := by
      intro l
      induction l with
      | nil => intro p p' k h; simpa using h
      | cons w l ih =>
        intro p p' k h
        have := ih (p + s.pos w) (p' + (place f s).pos w) (k + 1) (by
          rw [pos_place]
          simp only [Pt.add_x, Pt.add_y, Similarity.at, h.1, h.2]
          constructor <;> ring)
        simp only [List.foldl_cons, List.length_cons, Nat.cast_add, Nat.cast_one]
        rw [show k + ((l.length : K) + 1) = k + 1 + l.length by ring]
        exact this
    have hl : ((n :: ns).length : K) ≠ 0 := by simp only [List.length_cons, Nat.cast_add, Nat.cast_one]; positivity
    obtain ⟨hx, hy⟩ := hsum (n :: ns) 0 0 0 (by simp only [Pt.zero_x, Pt.zero_y]; constructor <;> ring)
    generalize ((n :: ns).length : K) = k at hx hy hl ⊢
    generalize (n :: ns).foldl (fun p w => p + (place f s).pos w) 0 = P' at hx hy ⊢
    generalize (n :: ns).foldl (fun p w => p + s.pos w) 0 = P at hx hy ⊢
    rw [pos_place]
    refine Pt.ext' ?_ ?_
    · simp only [Similarity.at, Similarity.turn, Pt.sub_x, Pt.smul_x, Pt.sub_y, Pt.smul_y, hx]
      field_simp
      ring
    · simp only [Similarity.at, Similarity.turn, Pt.sub_x, Pt.smul_x, Pt.sub_y, Pt.smul_y, hy]
      field_simp
      ring

theorem torsionTerm_place (sn cs : K → K) (angle : Pt K → Pt K → K) (ha : ∀ u v, angle (f.turn u) (f.turn v) = angle u v) (af : K) (s : St K) (v : Nat) (ns : List Nat) (j w : Nat) :
    torsionTerm sn cs angle af (place f s) v ns j w = f.at (torsionTerm sn cs angle af s v ns j w) := by
  unfold torsionTerm
  dsimp only
  simp only [pos_place, at_sub, ha]
  generalize af * _ = b
  refine Pt.ext' ?_ ?_ <;> simp only [Similarity.at, Similarity.turn] <;> ring

theorem torsion_place (sn cs : K → K) (angle : Pt K → Pt K → K) (ha : ∀ u v, angle (f.turn u) (f.turn v) = angle u v) (af : K) :
    RuleFollows f (torsionRule sn cs angle af) (torsionRule sn cs angle af) := by
  intro s v ns
  unfold torsionRule
  by_cases h0 : ns = []
  · rw [if_pos h0, if_pos h0]; rfl
  · rw [if_neg h0, if_neg h0, Option.map_some, Option.some_inj]
    simp only [torsionTerm_place f sn cs angle ha af s v ns]
    generalize (fun x : Nat × Nat => torsionTerm sn cs angle af s v ns x.2 x.1) = g
    have hsum : ∀ (l : List (Nat × Nat)) (g : Nat × Nat → Pt K) (p p' : Pt K) (k : K), p'.x = f.a * p.x - f.b * p.y + k * f.t.x ∧ p'.y = f.b * p.x + f.a * p.y + k * f.t.y →
        (l.foldl (fun p x => p + f.at (g x)) p').x = f.a * (l.foldl (fun p x => p + g x) p).x - f.b * (l.foldl (fun p x => p + g x) p).y + (k + l.length) * f.t.x ∧
        (l.foldl (fun p x => p + f.at (g x)) p').y = f.b * (l.foldl (fun p x => p + g x) p).x + f.a * (l.foldl (fun p x => p + g x) p).y + (k + l.length) * f.t.y := by
      intro l g
      induction l with
      | nil => intro p p' k h; simpa using h
      | cons w l ih =>
        intro p p' k h
        have := ih (p + g w) (p' + f.at (g w)) (k + 1) (by
          simp only [Pt.add_x, Pt.add_y, Similarity.at, h.1, h.2]
          constructor <;> ring)
        simp only [List.foldl_cons, List.length_cons, Nat.cast_add, Nat.cast_one]
        rw [show k + ((l.length : K) + 1) = k + 1 + l.length by ring]
        exact this
    have hl : (ns.length : K) ≠ 0 := by
      rw [Nat.cast_ne_zero]; exact fun h => h0 (List.length_eq_zero_iff.mp h)
    obtain ⟨hx, hy⟩ := hsum ns.zipIdx (fun x => torsionTerm sn cs angle af s v ns x.2 x.1) 0 0 0 (by simp only [Pt.zero_x, Pt.zero_y]; constructor <;> ring)
    rw [List.length_zipIdx] at hx hy
    generalize (ns.length : K) = k at hx hy hl ⊢
    generalize ns.zipIdx.foldl (fun p x => p + f.at (torsionTerm sn cs angle af s v ns x.2 x.1)) 0 = P' at hx hy ⊢
    generalize ns.zipIdx.foldl (fun p x => p + torsionTerm sn cs angle af s v ns x.2 x.1) 0 = P at hx hy ⊢
    rw [pos_place]
    refine Pt.ext' ?_ ?_
    · simp only [Similarity.at, Similarity.turn, Pt.sub_x, Pt.smul_x, Pt.sub_y, Pt.smul_y, hx]
      field_simp
      ring
    · simp only [Similarity.at, Similarity.turn, Pt.sub_x, Pt.smul_x, Pt.sub_y, Pt.smul_y, hy]
      field_simp
      ring

theorem sideSqrs_place (s : St K) (g : FRef) : (place f s).sideSqrs g = (s.sideSqrs g).map (f.factor * ·) := by
  unfold sideSqrs
  rw [show (place f s).F = s.F from rfl]
  split <;> simp only [pos_place, at_sub, turn_normSq, List.map_cons, List.map_nil]

theorem foldl_max_mul {c : K} (hc : 0 < c) : ∀ (l : List K) (m : K), (l.map (c * ·)).foldl max (c * m) = c * l.foldl max m
  | [], _ => rfl
  | x :: l, m => by rw [List.map_cons, List.foldl_cons, List.foldl_cons, ← mul_max_of_nonneg _ _ hc.le]; exact foldl_max_mul hc l _

theorem searchSqr_place (hc : 0 < f.factor) (s : St K) (v : Nat) : (place f s).searchSqr v = f.factor * s.searchSqr v := by
  unfold searchSqr
  rw [← foldl_max_mul hc, mul_zero, show ((place f s).V v).facets = (s.V v).facets from rfl, List.map_flatMap,
    show (place f s).sideSqrs = fun g => (s.sideSqrs g).map (f.factor * ·) from funext (sideSqrs_place f s)]

theorem edgesNear_place (hc : 0 < f.factor) (s : St K) (l : EL) (v : Nat) : (place f s).edgesNear l v = s.edgesNear l v := by
  unfold edgesNear
  rw [show (place f s).es = s.es from rfl]
  refine List.filter_congr fun e _ => ?_
  unfold QT.circQuery
  rw [edgeMid_place, pos_place, at_sub, turn_normSq, searchSqr_place f hc]
  simp only [mul_lt_mul_iff_right₀ hc]

end vectors

section tol
variable {f : Similarity K} {eps eps' : K} (T : SameTests f.at Set.univ eps' eps) (hc : 0 < f.factor)
include T

theorem facetOriented_place (s : St K) (g : FRef) : (place f s).facetOriented eps' g = s.facetOriented eps g := by
  unfold facetOriented
  rw [show (place f s).F = s.F from rfl]
  split
  · rw [pos_place, pos_place, pos_place, T.orient _ trivial _ trivial _ trivial]
  · rw [pos_place, pos_place, pos_place, pos_place, T.orient _ trivial _ trivial _ trivial, T.orient _ trivial _ trivial _ trivial]
  · rfl

theorem edgesCross_place (s : St K) (e g : Nat) : (place f s).edgesCross eps' e g = s.edgesCross eps e g :=
  (T.lines _ trivial _ trivial _ trivial _ trivial).1

include hc in
theorem crossFree_place (s : St K) (v : Nat) : (place f s).crossFree eps' v = s.crossFree eps v := by
  unfold crossFree
  simp only [edgesNear_place f hc, edgesCross_place T]

end tol

section rotation

theorem foldl_add_sum (p : Pt K) : ∀ (l : List (Pt K)), (l.foldl (· + ·) p).x = p.x + (l.map (·.x)).sum ∧ (l.foldl (· + ·) p).y = p.y + (l.map (·.y)).sum := by
  intro l
  induction l generalizing p with
  | nil => simp
  | cons q l ih =>
    obtain ⟨h1, h2⟩ := ih (p + q)
    rw [List.foldl_cons, List.map_cons, List.map_cons, List.sum_cons, List.sum_cons, h1, h2, Pt.add_x, Pt.add_y]
    constructor <;> ring

theorem foldl_add_perm {l l' : List (Pt K)} (h : l.Perm l') (p : Pt K) : l.foldl (· + ·) p = l'.foldl (· + ·) p := by
  obtain ⟨h1, h2⟩ := foldl_add_sum p l
  obtain ⟨h3, h4⟩ := foldl_add_sum p l'
  refine Pt.ext' ?_ ?_
  · rw [h1, h3, (h.map _).sum_eq]
  · rw [h2, h4, (h.map _).sum_eq]

/-- The displacement does not depend on the neighbour with which the list begins. -/
def RuleTurns (r : Rule K) : Prop := ∀ s v ns ns', ns ~r ns' → r s v ns = r s v ns'

theorem laplace_turns : RuleTurns (laplaceRule : Rule K) := by
  intro s v ns ns' h
  unfold laplaceRule
  have hl := h.perm.length_eq
  have h1 := foldl_add_perm (h.perm.map s.pos) 0
  rw [List.foldl_map, List.foldl_map] at h1
  by_cases h0 : ns = []
  · rw [if_pos h0, if_pos (List.length_eq_zero_iff.mp (by rw [← hl, h0]; rfl))]
  · rw [if_neg h0, if_neg (fun h2 => h0 (List.length_eq_zero_iff.mp (by rw [hl, h2]; rfl))), h1, hl]

theorem torsion_range (sn cs : K → K) (angle : Pt K → Pt K → K) (af : K) (s : St K) (v : Nat) (ns : List Nat) :
    ns.zipIdx.map (fun x => torsionTerm sn cs angle af s v ns x.2 x.1) = (List.range ns.length).map fun j => torsionTerm sn cs angle af s v ns j (ns.getD j 0) := by
  refine List.ext_getElem (by simp) fun j h1 h2 => ?_
  have hj : j < ns.length := by simpa using h1
  simp [hj]

theorem torsion_turns (sn cs : K → K) (angle : Pt K → Pt K → K) (af : K) : RuleTurns (torsionRule sn cs angle af) := by
  intro s v ns' ns h
  obtain ⟨k, rfl⟩ := h.symm
  unfold torsionRule
  by_cases h0 : ns = []
  · subst h0; rw [List.rotate_nil]
  have hn : 0 < ns.length := List.length_pos_iff.mpr h0
  rw [if_neg h0, if_neg (by rwa [List.rotate_eq_nil_iff]), List.length_rotate]
  have key : ((ns.rotate k).zipIdx.map fun x => torsionTerm sn cs angle af s v (ns.rotate k) x.2 x.1).Perm (ns.zipIdx.map fun x => torsionTerm sn cs angle af s v ns x.2 x.1) := by
    rw [torsion_range, torsion_range, List.length_rotate]
    refine List.Perm.trans (List.Perm.of_eq ?_) ((List.rotate_perm (List.range ns.length) k).map _)
    refine List.ext_getElem (by simp) fun j h1 h2 => ?_
    have hj : j < ns.length := by simpa using h1
    have hd : ∀ i w, i < ns.length → (ns.rotate k).getD i w = ns.getD ((i + k) % ns.length) w := fun i w hi => by
      rw [List.getD_eq_getElem _ _ (by rwa [List.length_rotate]), List.getElem_rotate, List.getD_eq_getElem _ _ (Nat.mod_lt _ hn)]
    rw [List.getElem_map, List.getElem_map, List.getElem_range, List.getElem_rotate, List.getElem_range, List.length_range]
    unfold torsionTerm
    dsimp only
    rw [List.length_rotate, hd j 0 hj, hd _ _ (Nat.mod_lt _ hn), hd _ _ (Nat.mod_lt _ hn)]
    have e1 : ((j + ns.length - 1) % ns.length + k) % ns.length = ((j + k) % ns.length + ns.length - 1) % ns.length := by
      rw [Nat.mod_add_mod, Nat.add_sub_assoc hn, Nat.add_sub_assoc hn, Nat.mod_add_mod]
      congr 1; omega
    have e2 : ((j + 1) % ns.length + k) % ns.length = ((j + k) % ns.length + 1) % ns.length := by
      rw [Nat.mod_add_mod, Nat.mod_add_mod]
      congr 1; omega
    rw [e1, e2]
  have h1 := foldl_add_perm key 0
  rw [List.foldl_map, List.foldl_map] at h1
  rw [h1]

end rotation

section cfg
variable {f : Similarity K} {lam : K} {c c' : SmoothCfg K} {nearest nearest' : St K → Pt K → Option Nat} {norm norm' : Pt K → K}
variable (h : SmoothFollows f lam c c' nearest nearest' norm norm')
include h

theorem smooth_fact : 0 < f.factor := by rw [h.factor]; exact pow_pos h.pos 2

theorem smooth_tests : SameTests f.at Set.univ c'.eps c.eps := by
  rw [h.eps]; exact C198_fitting_partial f (smooth_fact h) c.eps

theorem placeValid_place (s : St K) (v : Nat) : (place f s).placeValid c' v = s.placeValid c v := by
  unfold placeValid
  rw [pos_place, h.inside, crossFree_place (smooth_tests h) (smooth_fact h), show (place f s).facetOriented c'.eps = s.facetOriented c.eps from funext (facetOriented_place (smooth_tests h) s)]
  rfl

theorem keeps_place (s : St K) (v : Nat) : (place f s).keeps c' v = s.keeps c v := by
  unfold keeps
  rw [h.layers]
  rfl

/-- A direction of length one at another place. -/
def placeDir (f : Similarity K) (lam : K) (d : Pt K) : Pt K := Pt.smul (1 / lam) (f.turn d)

theorem dir_place (delta d : Pt K) : f.turn delta - Pt.smul (Pt.dot (f.turn delta) (placeDir f lam d)) (placeDir f lam d) = f.turn (delta - Pt.smul (Pt.dot delta d) d) := by
  have h0 : Pt.dot (f.turn delta) (placeDir f lam d) = lam * Pt.dot delta d := by
    unfold placeDir
    rw [turn_smul, turn_dot, h.factor]
    have := h.pos.ne'
    simp only [Pt.dot, Pt.smul_x, Pt.smul_y]
    field_simp
  rw [h0]
  unfold placeDir
  have := h.pos.ne'
  refine Pt.ext' ?_ ?_ <;> simp only [Similarity.turn, Pt.sub_x, Pt.smul_x, Pt.sub_y, Pt.smul_y] <;> field_simp <;> ring

theorem towardsEdge_place (s : St K) (v e : Nat) : (place f s).towardsEdge norm' v e = placeDir f lam (s.towardsEdge norm v e) := by
  unfold towardsEdge placeDir
  dsimp only
  simp only [pos_place, show (place f s).E = s.E from rfl, at_sub, turn_dot, turn_normSq]
  rw [mul_div_mul_left _ _ (smooth_fact h).ne', turn_smul, at_add, at_sub, h.norm, ← turn_smul]
  refine Pt.ext' ?_ ?_ <;> simp only [Pt.smul_x, Pt.smul_y, one_div, mul_inv] <;> ring

theorem layerDirs_place (s : St K) : layerDirs nearest' norm' c' (place f s) = (layerDirs nearest norm c s).map (placeDir f lam) := by
  unfold layerDirs
  rw [List.map_append, List.map_replicate, show placeDir f lam (0 : Pt K) = 0 by unfold placeDir; rw [turn_zero]; refine Pt.ext' ?_ ?_ <;> simp, h.layers]
  congr 1
  split_ifs
  · rw [List.map_filterMap]
    refine List.filterMap_congr fun v _ => ?_
    rw [show ((place f s).V v).props = (s.V v).props from rfl, pos_place, h.near]
    split_ifs
    · rw [Option.map_map]
      refine congrArg (fun g => Option.map g (nearest s (s.pos v))) (funext fun e => ?_)
      exact towardsEdge_place h s v e
    · rfl
  · rfl

/-- Neighbours that begin at another one. -/
def TurnedNbrs (o o' : Nat → List Nat) : Prop := ∀ v, o' v ~r o v

theorem smoothVertex_place {r r' : Rule K} (hr : RuleFollows f r r') (ht : RuleTurns r') (dirs : List (Pt K)) (step : K) {o o' : Nat → List Nat} (ho : TurnedNbrs o o') (s : St K) (x : Nat × Nat) :
    smoothVertex c' r' (dirs.map (placeDir f lam)) step (place f s) ((x.1, o' x.1), x.2) = (smoothVertex c r dirs step s ((x.1, o x.1), x.2)).map (place f) := by
  unfold smoothVertex
  dsimp only
  rw [keeps_place h, show ((place f s).V x.1).props = (s.V x.1).props from rfl, ht _ _ _ _ (ho x.1), hr]
  split_ifs with h1 h2
  · rfl
  · rw [List.getElem?_map]
    rcases dirs[x.2]? with _ | d
    · rfl
    · dsimp only [Option.map_some]
      rcases r s x.1 (o x.1) with _ | delta
      · rfl
      · dsimp only [Option.map_some]
        rw [dir_place h, pos_place, turn_smul, at_add, h.inside, setPos_place, setPos_place, placeValid_place h]
        split_ifs <;> rfl
  · dsimp only
    rcases r s x.1 (o x.1) with _ | delta
    · rfl
    · dsimp only [Option.map_some]
      have h0 : f.turn delta - Pt.smul (Pt.dot (f.turn delta) 0) 0 = f.turn (delta - Pt.smul (Pt.dot delta 0) 0) := by
        refine Pt.ext' ?_ ?_ <;> simp [Similarity.turn]
      rw [h0, pos_place, turn_smul, at_add, h.inside, setPos_place, setPos_place, placeValid_place h]
      split_ifs <;> rfl

omit h in
theorem loopM_map {α β γ : Type*} (step : β → α → Option β) (g : γ → α) : ∀ (l : List γ) (s : β), loopM step s (l.map g) = loopM (fun s x => step s (g x)) s l
  | [], _ => rfl
  | x :: l, s => by
    rw [List.map_cons]
    unfold loopM
    rcases step s (g x) with _ | t
    · rfl
    · exact loopM_map step g l t

theorem smoothIter_place {r r' : Rule K} (hr : RuleFollows f r r') (ht : RuleTurns r') (dirs : List (Pt K)) (step : K) {o o' : Nat → List Nat} (ho : TurnedNbrs o o') (l : List Nat) (s : St K) :
    smoothIter c' r' (dirs.map (placeDir f lam)) step (l.map fun v => (v, o' v)) (place f s) = (smoothIter c r dirs step (l.map fun v => (v, o v)) s).map (place f) := by
  unfold smoothIter
  rw [List.zipIdx_map, List.zipIdx_map, loopM_map, loopM_map]
  exact loopM_place (place f) (fun s x => smoothVertex_place h hr ht dirs step ho s x) _ s

theorem smoothLoop_place {r r' : Rule K} (hr : RuleFollows f r r') (ht : RuleTurns r') (dirs : List (Pt K)) (decay : K) {o o' : Nat → List Nat} (ho : TurnedNbrs o o') (l : List Nat) :
    ∀ (n : Nat) (x : St K × K), smoothLoop c' r' (dirs.map (placeDir f lam)) decay (l.map fun v => (v, o' v)) n (placeP f x) =
      (smoothLoop c r dirs decay (l.map fun v => (v, o v)) n x).map (placeP f)
  | 0, _ => rfl
  | n + 1, x => by
    unfold smoothLoop
    rw [show (placeP f x).2 = x.2 from rfl, show (placeP f x).1 = place f x.1 from rfl, smoothIter_place h hr ht dirs x.2 ho]
    rcases smoothIter c r dirs x.2 (l.map fun v => (v, o v)) x.1 with _ | t
    · rfl
    · exact smoothLoop_place hr ht dirs decay ho l n (t, x.2 * (-decay))

theorem mixedLoop_place {r r' q q' : Rule K} (hr : RuleFollows f r r') (ht : RuleTurns r') (hq : RuleFollows f q q') (hu : RuleTurns q') (dirs : List (Pt K)) (decay : K)
    {o o' : Nat → List Nat} (ho : TurnedNbrs o o') (l : List Nat) :
    ∀ (n : Nat) (x : St K × K), mixedLoop c' r' q' (dirs.map (placeDir f lam)) decay (l.map fun v => (v, o' v)) n (placeP f x) =
      (mixedLoop c r q dirs decay (l.map fun v => (v, o v)) n x).map (placeP f)
  | 0, _ => rfl
  | n + 1, x => by
    unfold mixedLoop
    rw [show (placeP f x).2 = x.2 from rfl, show (placeP f x).1 = place f x.1 from rfl, smoothIter_place h hr ht dirs x.2 ho]
    rcases smoothIter c r dirs x.2 (l.map fun v => (v, o v)) x.1 with _ | t
    · rfl
    · dsimp only [Option.map_some]
      rw [smoothIter_place h hq hu dirs x.2 ho]
      rcases smoothIter c q dirs x.2 (l.map fun v => (v, o v)) t with _ | u
      · rfl
      · exact mixedLoop_place hr ht hq hu dirs decay ho l n (u, x.2 * decay)

theorem conn_place (s : St K) : TurnedNbrs (fun v => c.order s v (s.starNbrs v)) (fun v => c'.order (place f s) v ((place f s).starNbrs v)) :=
  fun v => h.order s v (s.starNbrs v)

theorem smooth_place {r r' : Rule K} (hr : RuleFollows f r r') (ht : RuleTurns r') (decay : K) (n : Nat) (x : St K × K) :
    smooth nearest' norm' c' r' decay n (placeP f x) = (smooth nearest norm c r decay n x).map (placeP f) := by
  unfold smooth
  dsimp only [placeP]
  rw [setup_place (smooth_tests h), layerDirs_place h]
  exact smoothLoop_place h hr ht _ decay (conn_place h _) _ n (_, x.2)

theorem smoothMixed_place {r r' q q' : Rule K} (hr : RuleFollows f r r') (ht : RuleTurns r') (hq : RuleFollows f q q') (hu : RuleTurns q') (decay : K) (n : Nat) (x : St K × K) :
    smoothMixed nearest' norm' c' r' q' decay n (placeP f x) = (smoothMixed nearest norm c r q decay n x).map (placeP f) := by
  unfold smoothMixed
  dsimp only [placeP]
  rw [setup_place (smooth_tests h), layerDirs_place h]
  exact mixedLoop_place h hr ht hq hu _ decay (conn_place h _) _ n (_, x.2)

end cfg

end TQ

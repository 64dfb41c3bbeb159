import Verif.Cleanup.OrderModel
import Verif.Cleanup.OrderSpec
import Verif.Cleanup.MergeProps

/-! # Lemmas for C202 -/

set_option linter.unusedSectionVars false

namespace TQ
open MS MeshSpec MCSpec MC MS.St
variable {K : Type*} [Field K] [LinearOrder K] [IsStrictOrderedRing K]

theorem between_fl {p : St K} (dp : DirUnique p) {e x y : Nat} (hb : Between p e x y) (hl : Linked p e) : (p.E e).fl = .tri x ∧ (p.E e).fr = .tri y :=
  ⟨dp _ _ _ _ hl.1.1 hb.left.1 hl.1.2 hb.left.2, dp _ _ _ _ hl.2.1 hb.right.1 hl.2.2 hb.right.2⟩

/-- The smallest square of a triangle belongs to a side, and no side has a smaller one. -/
theorem minSqr_tri {p : St K} (wp : WF p) {x : Nat} (hx : x ∈ p.tris) :
    (∃ a b, HasSide p (.tri x) a b ∧ Pt.normSq (p.pos b - p.pos a) = minSqr p (.tri x)) ∧
    ∀ a b, HasSide p (.tri x) a b → minSqr p (.tri x) ≤ Pt.normSq (p.pos b - p.pos a) := by
  have hlen := wp.tcor x hx
  obtain ⟨a, b, c, hc⟩ : ∃ a b c, (p.F (.tri x)).corners = [a, b, c] := by
    generalize (p.F (.tri x)).corners = l at hlen
    match l, hlen with
    | [a, b, c], _ => exact ⟨a, b, c, rfl⟩
  have hs := fun u v => rot3_side (s := p) (f := .tri x) (a := a) (b := b) (c := c) (Or.inl hc) u v
  have hm : minSqr p (.tri x) = min (min (Pt.normSq (p.pos b - p.pos a)) (Pt.normSq (p.pos c - p.pos b))) (Pt.normSq (p.pos a - p.pos c)) := by
    unfold minSqr sideSqrs; rw [hc]; rfl
  constructor
  · rw [hm]
    rcases min_choice (min (Pt.normSq (p.pos b - p.pos a)) (Pt.normSq (p.pos c - p.pos b))) (Pt.normSq (p.pos a - p.pos c)) with h | h
    · rcases min_choice (Pt.normSq (p.pos b - p.pos a)) (Pt.normSq (p.pos c - p.pos b)) with h' | h'
      · exact ⟨a, b, (hs a b).mpr (by simp), by rw [h, h']⟩
      · exact ⟨b, c, (hs b c).mpr (by simp), by rw [h, h']⟩
    · exact ⟨c, a, (hs c a).mpr (by simp), by rw [h]⟩
  · intro u v huv
    rw [hm]
    rcases (hs u v).mp huv with h | h | h <;> cases h
    · exact (min_le_left _ _).trans (min_le_left _ _)
    · exact (min_le_left _ _).trans (min_le_right _ _)
    · exact min_le_right _ _

theorem noLonger_of_key {p : St K} (wp : WF p) (dp : DirUnique p) {e e' x y x' y' : Nat} (hb : Between p e x y) (hb' : Between p e' x' y')
    (hl : Linked p e) (hl' : Linked p e') (hk : mergeKey p e' ≤ mergeKey p e) : NoLonger p x' y' x y := by
  obtain ⟨f1, f2⟩ := between_fl dp hb hl
  obtain ⟨g1, g2⟩ := between_fl dp hb' hl'
  unfold mergeKey at hk
  rw [f1, f2, g1, g2] at hk
  have below : ∀ c d, SideOf p x y c d → min (minSqr p (.tri x)) (minSqr p (.tri y)) ≤ Pt.normSq (p.pos d - p.pos c) := by
    rintro c d (h | h)
    · exact (min_le_left _ _).trans ((minSqr_tri wp hb.left.1).2 c d h)
    · exact (min_le_right _ _).trans ((minSqr_tri wp hb.right.1).2 c d h)
  rcases min_choice (minSqr p (.tri x')) (minSqr p (.tri y')) with h | h
  · obtain ⟨a, b, h1, h2⟩ := (minSqr_tri wp hb'.left.1).1
    exact ⟨a, b, .inl h1, fun c d hcd => by rw [h2, ← h]; exact hk.trans (below c d hcd)⟩
  · obtain ⟨a, b, h1, h2⟩ := (minSqr_tri wp hb'.right.1).1
    exact ⟨a, b, .inr h1, fun c d hcd => by rw [h2, ← h]; exact hk.trans (below c d hcd)⟩

/-- Where the quads come from: each new one from two triangles along an edge that has been dealt with. -/
def Origin (p t : St K) (done : List Nat) : Prop :=
  ∀ q ∈ t.quads, q ∈ p.quads ∨ ∃ e' ∈ done, e' ∉ t.es .intr ∧ ∃ x' y', Between p e' x' y' ∧
    ∀ a b, HasSide t (.quad q) a b → SideOf p x' y' a b

/-- Why edges that have been dealt with are still there. -/
def Passed (p t : St K) (done : List Nat) : Prop :=
  ∀ e ∈ done, e ∈ t.es .intr → ∃ e' ∈ done, e' ∉ t.es .intr ∧ mergeKey p e' ≤ mergeKey p e ∧ ∃ x' y', Between p e' x' y' ∧
    (SideOf p x' y' (p.E e).v1 (p.E e).v2 ∨ SideOf p x' y' (p.E e).v2 (p.E e).v1)

theorem greedy_step {col : FData → Int} {p t u : St K} (dp : DirUnique p) {done rest : List Nat} {e : Nat}
    (hi : MInv col p t done (e :: rest)) (hB : ∃ x y, Between p e x y) (hk : ∀ e' ∈ done, mergeKey p e' ≤ mergeKey p e)
    (hO : Origin p t done) (hP : Passed p t done) (hu : mergeEdge col t e = some u) : Origin p u (done ++ [e]) ∧ Passed p u (done ++ [e]) := by
  obtain ⟨he, hl⟩ := hi.linked e (by simp)
  have pm := hi.merged
  by_cases h3 : nVerts t (t.E e).fl > 3 ∨ nVerts t (t.E e).fr > 3
  · have : u = t := by
      unfold mergeEdge at hu; dsimp only at hu; rw [if_pos h3, Option.some.injEq] at hu; exact hu.symm
    subst this
    refine ⟨fun q hq => (hO q hq).imp id fun ⟨e', h1, h2⟩ => ⟨e', List.mem_append_left _ h1, h2⟩, fun x hx hxi => ?_⟩
    rcases List.mem_append.mp hx with hx | hx
    · obtain ⟨e', h1, h2⟩ := hP x hx hxi
      exact ⟨e', List.mem_append_left _ h1, h2⟩
    rw [List.mem_singleton] at hx
    subst hx
    have isQ : ∀ f, Live u f → nVerts u f > 3 → ∃ q, f = .quad q ∧ q ∈ u.quads := by
      intro f hf hn
      cases f with
      | null => exact absurd hf (by simp [Live])
      | tri x => exact absurd (hi.wf.tcor x hf) (by unfold nVerts at hn; omega)
      | quad q => exact ⟨q, rfl, hf⟩
    obtain ⟨tx, ty, hb⟩ := hB
    obtain ⟨d1, d2, -⟩ := pm.edata x
    have old : ∀ q ∈ p.quads, ∀ a b, HasSide u (.quad q) a b → HasSide p (.quad q) a b := by
      intro q hq a b h; unfold HasSide at h ⊢; rwa [pm.oldQuads q hq] at h
    rcases h3 with h3 | h3
    · obtain ⟨q, q1, q2⟩ := isQ _ hl.1.1 h3
      have hs := hl.1.2
      rw [q1, d1, d2] at hs
      rcases hO q q2 with hq | ⟨e', h1, h2, x', y', h4, h5⟩
      · exact absurd (dp _ _ _ _ (show Live p (.quad q) from hq) (show Live p (.tri tx) from hb.left.1) (old q hq _ _ hs) hb.left.2) (by simp)
      · exact ⟨e', List.mem_append_left _ h1, h2, hk e' h1, x', y', h4, .inl (h5 _ _ hs)⟩
    · obtain ⟨q, q1, q2⟩ := isQ _ hl.2.1 h3
      have hs := hl.2.2
      rw [q1, d1, d2] at hs
      rcases hO q q2 with hq | ⟨e', h1, h2, x', y', h4, h5⟩
      · exact absurd (dp _ _ _ _ (show Live p (.quad q) from hq) (show Live p (.tri ty) from hb.right.1) (old q hq _ _ hs) hb.right.2) (by simp)
      · exact ⟨e', List.mem_append_left _ h1, h2, hk e' h1, x', y', h4, .inr (h5 _ _ hs)⟩
  · obtain ⟨tl, tr, ql, qr, u', hu', hcf, hm⟩ := merge_step col hi.wf hi.uniq hi.ccw he hl h3
    obtain rfl : u' = u := by rw [hu'] at hu; exact Option.some.inj hu
    have ub : ∀ x, x ∈ u'.es .intr ↔ x ∈ t.es .intr ∧ x ≠ e := by
      intro x; rw [hm.intr, List.mem_filter]; simp
    have sideP : ∀ z a b, HasSide t (.tri z) a b ↔ HasSide p (.tri z) a b := by
      intro z a b; unfold HasSide; rw [hi.F z]
    obtain ⟨d1, d2, -⟩ := pm.edata e
    constructor
    · intro q hq
      rw [hm.quads] at hq
      rcases List.mem_append.mp hq with hq | hq
      · rcases hO q hq with h | ⟨e', h1, h2, x', y', h4, h5⟩
        · exact .inl h
        · refine .inr ⟨e', List.mem_append_left _ h1, fun h => h2 ((ub _).mp h).1, x', y', h4, fun a b hab => h5 a b ?_⟩
          rwa [merged_side hi.wf hm (show Live t (.quad q) from hq)] at hab
      · rw [List.mem_singleton] at hq
        subst hq
        refine .inr ⟨e, by simp, fun h => ((ub _).mp h).2 rfl, tl, tr, ⟨pm.intr.subset he, ⟨pm.tris.1.subset hcf.hl, ?_⟩, pm.tris.1.subset hcf.hr, ?_⟩, ?_⟩
        · have := hl.1.2; rwa [hcf.fl, sideP, d1, d2] at this
        · have := hl.2.2; rwa [hcf.fr, sideP, d1, d2] at this
        · intro a b hab
          have := (qside_old hcf hm hab).1
          rwa [sideP, sideP] at this
    · intro x hx hxi
      rw [ub] at hxi
      rcases List.mem_append.mp hx with hx | hx
      · obtain ⟨e', h1, h2, h4⟩ := hP x hx hxi.1
        exact ⟨e', List.mem_append_left _ h1, fun h => h2 ((ub _).mp h).1, h4⟩
      · rw [List.mem_singleton] at hx; exact absurd hx hxi.2

theorem greedy_loop {col : FData → Int} {p : St K} (wp : WF p) (dp : DirUnique p) : ∀ (rest done : List Nat) (t : St K), MInv col p t done rest →
    rest.Nodup → (∀ e ∈ rest, ∃ x y, Between p e x y) → rest.Pairwise (fun a b => mergeKey p a ≤ mergeKey p b) →
    (∀ e' ∈ done, ∀ e ∈ rest, mergeKey p e' ≤ mergeKey p e) → Origin p t done → Passed p t done →
    ∃ u, mergeTriangles col rest t = some u ∧ Passed p u (done ++ rest) := by
  intro rest
  induction rest with
  | nil => intro done t _ _ _ _ _ _ hP; exact ⟨t, rfl, by simpa using hP⟩
  | cons e rest ih =>
    intro done t hi hn hB hs hk hO hP
    rw [List.nodup_cons] at hn
    rw [List.pairwise_cons] at hs
    obtain ⟨u, h1, h2⟩ := minv_step wp hi hn.1
    obtain ⟨o, q⟩ := greedy_step dp hi (hB e (by simp)) (fun e' he' => hk e' he' e (by simp)) hO hP h1
    obtain ⟨v, h3, h4⟩ := ih (done ++ [e]) u h2 hn.2 (fun x hx => hB x (by simp [hx])) hs.2 (by
      intro x hx y hy
      rcases List.mem_append.mp hx with hx | hx
      · exact hk x hx y (by simp [hy])
      · rw [List.mem_singleton] at hx; subst hx; exact hs.1 y hy) o q
    exact ⟨v, by simp only [mergeTriangles, h1, Option.bind_some, h3], by simpa using h4⟩

end TQ

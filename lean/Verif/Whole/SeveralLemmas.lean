import Verif.Whole.SeveralSpec
import Verif.Whole.MultiProps
import Verif.Whole.FileStart

/-! # Lemmas: domains beside a mesh -/

set_option linter.unusedSectionVars false
set_option linter.unusedSimpArgs false

namespace TQ.Sev
open QL MS MeshSpec MCSpec MC MS.St FUSpec WholeSpec RefSpec CleanSpec Whole QLSpec SmSpec Sm GN MM MergeSpec CK FU AM AppSpec LinkSpec OutlSpec Outl SevSpec Sh FrSpec
variable {K : Type*} [Field K] [LinearOrder K] [IsStrictOrderedRing K]

/-! ### Cuts -/

theorem cross_onLine (p q : Pt K) (u v : K) : Pt.cross (onLine p q u) (onLine p q v) = (v - u) * Pt.cross p q := by
  unfold Pt.cross onLine
  simp
  ring

theorem cut_area (p q : Pt K) : ∀ (ts : List K) (s : K), ((cut p q s ts).map fun s => Pt.cross s.1 s.2).sum = (1 - s) * Pt.cross p q := by
  intro ts
  induction ts with
  | nil => intro s; simp [cut, cross_onLine]
  | cons t ts ih => intro s; rw [cut, List.map_cons, List.sum_cons, ih, cross_onLine]; ring

theorem isCut_area {s : Pt K × Pt K} {l : List (Pt K × Pt K)} (h : IsCut s l) : (l.map fun s => Pt.cross s.1 s.2).sum = Pt.cross s.1 s.2 := by
  obtain ⟨ts, -, rfl⟩ := h
  rw [cut_area]; ring

theorem cuts_area {ss : List (Pt K × Pt K)} {ls : List (List (Pt K × Pt K))} (h : List.Forall₂ IsCut ss ls) :
    (ls.flatten.map fun s => Pt.cross s.1 s.2).sum = (ss.map fun s => Pt.cross s.1 s.2).sum := by
  induction h with
  | nil => rfl
  | cons h1 _ ih => rw [List.flatten_cons, List.map_append, List.sum_append, isCut_area h1, ih, List.map_cons, List.sum_cons]

theorem cut_leads (p q : Pt K) : ∀ (ts : List K) (s : K),
    (onLine p q 1 :: (cut p q s ts).map Prod.fst).Perm (onLine p q s :: (cut p q s ts).map Prod.snd) := by
  intro ts
  induction ts with
  | nil => intro s; exact List.Perm.swap _ _ _
  | cons t ts ih =>
    intro s
    rw [cut, List.map_cons, List.map_cons]
    exact (List.Perm.swap _ _ _).trans ((ih t).cons _)

theorem isCut_leads {s : Pt K × Pt K} {l : List (Pt K × Pt K)} (h : IsCut s l) : (s.2 :: l.map Prod.fst).Perm (s.1 :: l.map Prod.snd) := by
  obtain ⟨ts, -, rfl⟩ := h
  have := cut_leads s.1 s.2 ts 0
  rwa [onLine_one, onLine_zero] at this

/-- The area for any neighbours. -/
theorem sourceArea_outline (nbr : Fr.SrcEdge K → List (Fr.SrcEdge K)) (bd : List (List (Fr.SrcEdge K))) :
    sourceArea nbr bd = 1 / 2 * ((outline nbr bd).map fun s => Pt.cross s.1 s.2).sum := by
  unfold sourceArea outline
  congr 1
  induction bd with
  | nil => rfl
  | cons b bd ih =>
    rw [List.map_cons, List.sum_cons, ih, List.flatMap_cons, List.map_append, List.sum_append]
    congr 1
    clear ih
    induction b with
    | nil => rfl
    | cons e b ih =>
      rw [List.map_cons, List.sum_cons, ih, List.flatMap_cons, List.map_append, List.sum_append]
      congr 1
      split_ifs
      · simp
      · rw [List.map_map]; rfl

/-- The front can be set up if the edges without neighbours can be divided. -/
theorem initFront_free {nbr : Fr.SrcEdge K → List (Fr.SrcEdge K)} {bd : List (List (Fr.SrcEdge K))} {fx : List (Fr.SrcEdge K)}
    {sub : List (Fr.MVert K) → Fr.FEdge → Option (List (Pt K))}
    (hs : ∀ s e, (∃ c ∈ Fr.collectCalls nbr bd fx, c.2 = false ∧ (Fr.vpos s e.v1, Fr.vpos s e.v2) = callPts c) → ∃ coords, sub s e = some coords) :
    ∃ r, Fr.initFront sub [] (Fr.collect nbr bd fx) = some r := by
  have hg := good_collect nbr bd fx
  obtain ⟨es0, h0, hfa⟩ := initEdges_calls hg 0
  have tot : ∀ (f : Fr.FEdge → Option (List (Pt K))) (es : List Fr.FEdge), (∀ e ∈ es, e.twin = false → ∃ l, f e = some l) → ∀ st, ∃ q, Fr.refineEdges f st es = some q := by
    intro f es
    induction es with
    | nil => intro _ st; exact ⟨_, rfl⟩
    | cons e es ih =>
      intro hf st
      have ih := ih fun e he => hf e (List.mem_cons_of_mem _ he)
      rw [Fr.refineEdges]
      split_ifs with ht
      · obtain ⟨q, hq⟩ := ih st
        rw [hq]; exact ⟨_, rfl⟩
      · obtain ⟨l, hl⟩ := hf e (List.mem_cons_self ..) (by simpa using ht)
        rw [hl]
        dsimp only
        obtain ⟨q, hq⟩ := ih (Fr.refineEdge l st e).1
        rw [hq]; exact ⟨_, rfl⟩
  unfold Fr.initFront
  rw [show ([] : List (Fr.MVert K)).length = 0 from rfl, h0]
  dsimp only
  obtain ⟨q, hq⟩ := tot (sub (Fr.initVerts [] (Fr.collect nbr bd fx))) es0 (by
    intro e he ht
    obtain ⟨c, hc, i, j, rfl, hi, hj⟩ := forall₂_mem hfa e he
    refine hs _ _ ⟨c, hc, ht, ?_⟩
    have v1 := vpos_init [] _ hi
    have v2 := vpos_init [] _ hj
    simp only [List.length_nil] at v1 v2
    rw [v1, v2]) (Fr.initVerts [] (Fr.collect nbr bd fx))
  rw [hq]; exact ⟨_, rfl⟩

theorem leftFacets_twins {eps : K} {s t : St K} (hl : LeftFacets eps s) (h : SameButTwins s t) : LeftFacets eps t := by
  rw [sbt_form h]
  exact hl

/-! ### Fitting domains -/

theorem fits_perm {eps : K} {s : St K} {ss ts : List (Pt K × Pt K)} (hp : ss.Perm ts) (h : Fits eps s ss) : Fits eps s ts := by
  refine ⟨(hp.pairwise_iff fun {d d'} k e he h1 h2 => k e he h2 h1).1 h.once, fun d hd => h.whole d (hp.symm.subset hd),
    fun d hd hn e he hno => h.apart d (hp.symm.subset hd) hn e he fun d' hd' => hno d' (hp.subset hd'), ?_, fun d hd => h.small d (hp.symm.subset hd)⟩
  obtain ⟨d, hd, k⟩ := h.common
  exact ⟨d, hp.subset hd, k⟩

theorem sides_outline (bd : List (List (Fr.SrcEdge K))) : outline (fun _ => []) bd = LinkSpec.sides bd := by
  unfold outline LinkSpec.sides
  simp only [if_true]
  rw [← flatMap_flatten, List.map_eq_flatMap]

section
variable {eps : K} {w : World K} {oi : Nat}

/-- The neighbours of a side. -/
theorem nbr_along {d : Fr.SrcEdge K} (heps : eps ≤ 2 * (Pt.normSq (d.p2 - d.p1) * Pt.normSq (d.p2 - d.p1))) :
    (((nbrA eps w [oi] d).map (·.2)).map fun n => (n.p2, n.p1)).Perm (along eps (w oi) (d.p1, d.p2)) := by
  have h := ((nbrA_perm eps w [oi] d heps).map (·.2)).map fun n => (n.p2, n.p1)
  refine h.trans (List.Perm.of_eq ?_)
  simp only [List.flatMap_cons, List.flatMap_nil, List.append_nil]
  unfold along GN.bdryOf
  rw [List.filter_map, List.map_map, List.map_map]
  have : ((fun n : (Nat × Nat) × Fr.SrcEdge K => onIface eps d n.2) ∘ fun e => ((oi, e), edgeSrc (w oi) e)) = fun e => decide (LiesOn eps (d.p1, d.p2) (w oi) e) := by
    funext e
    rw [Bool.eq_iff_iff]
    simp only [Function.comp_apply, decide_eq_true_eq]
    exact lies_iff ..
  rw [this]
  rfl

theorem nbr_nil {d : Fr.SrcEdge K} (heps : eps ≤ 2 * (Pt.normSq (d.p2 - d.p1) * Pt.normSq (d.p2 - d.p1))) :
    (nbrA eps w [oi] d).map (·.2) = [] ↔ ∀ e ∈ (w oi).es .bdry, ¬ LiesOn eps (d.p1, d.p2) (w oi) e := by
  have hl := (nbr_along (w := w) (oi := oi) heps).length_eq
  rw [List.length_map] at hl
  rw [← List.length_eq_zero_iff, hl, List.length_eq_zero_iff]
  unfold along
  rw [List.map_eq_nil_iff, List.filter_eq_nil_iff]
  simp

/-- The pieces of a side in the outline. -/
theorem piece_cut {bd : List (List (Fr.SrcEdge K))} (F : Fits eps (w oi) (LinkSpec.sides bd)) {e : Fr.SrcEdge K} (he : e ∈ bd.flatten) :
    ∃ l, IsCut (e.p1, e.p2) l ∧ (if (nbrA eps w [oi] e).map (·.2) = [] then [(e.p1, e.p2)] else ((nbrA eps w [oi] e).map (·.2)).map fun n => (n.p2, n.p1)).Perm l := by
  have hd : (e.p1, e.p2) ∈ LinkSpec.sides bd := List.mem_map_of_mem (f := fun d : Fr.SrcEdge K => (d.p1, d.p2)) he
  split_ifs with h
  · exact ⟨_, isCut_self _, List.Perm.refl _⟩
  · rw [nbr_nil (F.small _ hd)] at h
    push Not at h
    obtain ⟨l, l1, l2⟩ := F.whole _ hd h
    exact ⟨l, l1, (nbr_along (F.small _ hd)).trans l2⟩

/-- The outline beside a mesh is the outline of the domain, cut at the vertices of the mesh. -/
theorem outline_cuts {bd : List (List (Fr.SrcEdge K))} (F : Fits eps (w oi) (LinkSpec.sides bd)) :
    ∃ ls, List.Forall₂ IsCut (LinkSpec.sides bd) ls ∧ (outline (fun e => (nbrA eps w [oi] e).map (·.2)) bd).Perm ls.flatten := by
  have key : ∀ l : List (Fr.SrcEdge K), (∀ e ∈ l, e ∈ bd.flatten) → ∃ ls, List.Forall₂ IsCut (l.map fun d => (d.p1, d.p2)) ls ∧
      (l.flatMap fun e => if (nbrA eps w [oi] e).map (·.2) = [] then [(e.p1, e.p2)] else ((nbrA eps w [oi] e).map (·.2)).map fun n => (n.p2, n.p1)).Perm ls.flatten := by
    intro l
    induction l with
    | nil => intro _; exact ⟨[], .nil, List.Perm.refl _⟩
    | cons e l ih =>
      intro hl
      obtain ⟨ls, a1, a2⟩ := ih fun e he => hl e (List.mem_cons_of_mem _ he)
      obtain ⟨m, b1, b2⟩ := piece_cut F (hl e (List.mem_cons_self ..))
      exact ⟨m :: ls, .cons b1 a1, by rw [List.flatMap_cons, List.flatten_cons]; exact b2.append a2⟩
  obtain ⟨ls, h1, h2⟩ := key bd.flatten fun _ h => h
  refine ⟨ls, h1, ?_⟩
  rw [flatMap_flatten] at h2
  exact h2

/-- The domain beside a mesh is as needed for the preparation. -/
theorem fits_data {bd : List (List (Fr.SrcEdge K))} {fx : List (Fr.SrcEdge K)} (D : DomainData (fun _ => []) bd fx) (F : Fits eps (w oi) (LinkSpec.sides bd))
    (R : SevSpec.Ready (w oi)) : DomainData (fun e => (nbrA eps w [oi] e).map (·.2)) bd fx := by
  have prop : ∀ b ∈ bd, ∀ e ∈ b, e.p1 ≠ e.p2 := by
    intro b hb e he
    refine D.ne (e, false) ?_
    unfold Fr.collectCalls
    exact List.mem_append_left _ (List.mem_flatMap.mpr ⟨b, hb, List.mem_flatMap.mpr ⟨e, he, by simp⟩⟩)
  refine ⟨D.closed, ?_, ?_, D.fixed, ?_⟩
  · intro b hb e he hne
    obtain ⟨l, l1, l2⟩ := piece_cut F (List.mem_flatten.mpr ⟨b, hb, he⟩)
    rw [if_neg hne] at l2
    have h1 := l2.map Prod.fst
    have h2 := l2.map Prod.snd
    rw [List.map_map] at h1 h2
    exact (h1.cons _).trans ((isCut_leads l1).trans (h2.symm.cons _))
  · intro b hb e he
    refine ⟨(D.free b hb e he).1, fun n hn => ?_⟩
    have sm := F.small (e.p1, e.p2) (List.mem_map_of_mem (f := fun d : Fr.SrcEdge K => (d.p1, d.p2)) (List.mem_flatten.mpr ⟨b, hb, he⟩))
    obtain ⟨x, hx, rfl⟩ := List.mem_map.mp hn
    obtain ⟨q1, q2, -, q4⟩ := (nbrA_addr sm x).mp hx
    simp only [List.mem_singleton] at q1
    rw [q1] at q2 q4
    rw [q4]
    exact R.unfixed _ q2
  · intro c hc
    unfold Fr.collectCalls at hc
    rcases List.mem_append.mp hc with hc | hc
    · obtain ⟨b, hb, hc⟩ := List.mem_flatMap.mp hc
      obtain ⟨e, he, hc⟩ := List.mem_flatMap.mp hc
      split_ifs at hc with hl
      · obtain ⟨n, hn, rfl⟩ := List.mem_map.mp hc
        obtain ⟨l, l1, l2⟩ := piece_cut F (List.mem_flatten.mpr ⟨b, hb, he⟩)
        rw [if_neg (by intro hh; dsimp only at hl; rw [hh] at hl; simp at hl)] at l2
        have := isCut_proper (prop b hb e he) l1 (n.p2, n.p1) (l2.subset (List.mem_map_of_mem (f := fun n : Fr.SrcEdge K => (n.p2, n.p1)) hn))
        exact this.symm
      · simp only [List.mem_singleton] at hc
        subst hc
        exact prop b hb e he
    · refine D.ne c ?_
      unfold Fr.collectCalls
      exact List.mem_append_right _ hc

theorem fits_neighbours {a : Nat} (ha : a ≠ oi) {ss : List (Pt K × Pt K)} (F : Fits eps (w oi) ss) (hw : ((w oi).es .bdry).Nodup) : Neighbours eps w [oi] a ss :=
  ⟨by simpa using ha, by simp, by simpa using hw, by simpa using F.once, F.small⟩

theorem pairwise_mem_or {α : Type*} {R : α → α → Prop} {l : List α} (h : l.Pairwise R) {x y : α} (hx : x ∈ l) (hy : y ∈ l) (hne : x ≠ y) : R x y ∨ R y x := by
  induction h with
  | nil => simp at hx
  | cons h1 _ ih =>
    rcases List.mem_cons.mp hx with h | h <;> rcases List.mem_cons.mp hy with h' | h'
    · exact absurd (h.trans h'.symm) hne
    · exact Or.inl (h ▸ h1 _ h')
    · exact Or.inr (h' ▸ h1 _ h)
    · exact ih h h'

/-- Midpoint of a segment. -/
theorem mid_inner {p q : Pt K} (h : p ≠ q) : OnClosed p q (onLine p q (1 / 2)) ∧ onLine p q (1 / 2) ≠ p ∧ onLine p q (1 / 2) ≠ q := by
  refine ⟨onClosed_onLine (by norm_num) (by norm_num), fun hh => ?_, fun hh => ?_⟩
  · have := onLine_inj h (hh.trans (onLine_zero p q).symm); norm_num at this
  · have := onLine_inj h (hh.trans (onLine_one p q).symm); norm_num at this

/-- The boundaries without the linked edges are apart. -/
theorem fits_rims {bd : List (List (Fr.SrcEdge K))} {fx : List (Fr.SrcEdge K)} {a : Nat} {w' : World K} (D : DomainData (fun _ => []) bd fx)
    (F : Fits eps (w oi) (LinkSpec.sides bd)) (R : SevSpec.Ready (w oi)) (ha : a ≠ oi) (hnd : ((w oi).es .bdry).Nodup)
    (hold : SimpleFront (w oi).pos (pairs (w oi) .bdry)) (hsim : SimpleOutline (LinkSpec.sides bd)) {P : Prep K}
    (hF : P.front = Fr.collect (fun e => (nbrA eps w [oi] e).map (·.2)) bd fx) (hR : P.refs = refsOf eps w [oi] bd) (hS : PartSub P.sub) (hw : WF (w a))
    (h : prepareMesh P w a = .ret true w') : RimsApart w' a oi := by
  have D' := fits_data D F R
  have N := fits_neighbours ha F hnd
  obtain ⟨k1, -, same, -, -⟩ := C177_links D' N hF hR (partSub_line hS) hw h
  have hr : ∀ x ∈ P.refs, x.1 ≠ a := by
    intro x hx hxa
    rw [hR] at hx
    unfold refsOf at hx
    obtain ⟨b, hb, hx⟩ := List.mem_flatMap.mp hx
    obtain ⟨e, he, hx⟩ := List.mem_flatMap.mp hx
    obtain ⟨n, hn, rfl⟩ := List.mem_map.mp hx
    have := ((nbrA_addr (F.small (e.p1, e.p2) (List.mem_map_of_mem (f := fun d : Fr.SrcEdge K => (d.p1, d.p2)) (List.mem_flatten.mpr ⟨b, hb, he⟩))) n).mp hn).1
    simp only [List.mem_singleton] at this
    exact ha (by rw [← hxa, this])
  obtain ⟨ls, p1, p2⟩ := C170_pieces D' hF hS hw hr h
  obtain ⟨cs, c1, c2⟩ := outline_cuts F
  have hS' : SimpleOutline (outline (fun e => (nbrA eps w [oi] e).map (·.2)) bd) := simple_of_perm c2.symm (cuts_simple c1 hsim)
  have hsf := (C170_simple D' hF hS hw hr h).1 hS'
  have so := same oi ha.symm
  have hb : (w' oi).es .bdry = (w oi).es .bdry := by rw [so.1]
  intro e he ht e' he' ht' x hx hx'
  rw [hb] at he'
  obtain ⟨g1, g2⟩ := edgeSrc_same so e'
  rw [g1, g2] at hx' ⊢
  -- the piece of the outline
  have hm : ((w' a).pos ((w' a).E e).v1, (w' a).pos ((w' a).E e).v2) ∈ ls.flatten := by
    rw [← p1]; exact List.mem_map_of_mem (f := fun e => ((w' a).pos ((w' a).E e).v1, (w' a).pos ((w' a).E e).v2)) he
  obtain ⟨l, hl, hm⟩ := List.mem_flatten.mp hm
  obtain ⟨o, ho, hcut⟩ := forall₂_mem p2.flip l hl
  have hop := hS'.proper o ho
  -- the old edge lies on no side
  have hno : ∀ d' ∈ LinkSpec.sides bd, ¬ LiesOn eps d' (w oi) e' := by
    intro d' hd' hl'
    obtain ⟨f, -, L⟩ := k1 oi (by simp) e' he' ⟨d', hd', hl'⟩
    have := L.back
    rw [ht'] at this
    simp at this
  unfold outline at ho
  obtain ⟨b, hb', ho⟩ := List.mem_flatMap.mp ho
  obtain ⟨d, hd, ho⟩ := List.mem_flatMap.mp ho
  have hds : (d.p1, d.p2) ∈ LinkSpec.sides bd := List.mem_map_of_mem (f := fun d : Fr.SrcEdge K => (d.p1, d.p2)) (List.mem_flatten.mpr ⟨b, hb', hd⟩)
  split_ifs at ho with hnil
  · simp only [List.mem_singleton] at ho
    subst ho
    rw [nbr_nil (F.small _ hds)] at hnil
    have ap := F.apart _ hds hnil e' he' hno
    exact segApart_cuts hop (hold.proper _ (List.mem_map_of_mem (f := fun e => (((w oi).E e).v1, ((w oi).E e).v2)) he')) ap hcut (isCut_self _) _ hm _ (List.mem_singleton.mpr rfl) x hx hx'
  · exfalso
    obtain ⟨n, hn, rfl⟩ := List.mem_map.mp ho
    obtain ⟨y, hy, rfl⟩ := List.mem_map.mp hn
    obtain ⟨q1, q2, q3, q4⟩ := (nbrA_addr (F.small _ hds) y).mp hy
    simp only [List.mem_singleton] at q1
    rw [q1] at q2 q3 q4
    obtain ⟨f, hf, L⟩ := k1 oi (by simp) y.1.2 q2 ⟨_, hds, q3⟩
    obtain ⟨s1, s2⟩ := edgeSrc_same so y.1.2
    have hef : e ≠ f := by
      intro hh
      have := L.twin
      rw [← hh, ht] at this
      simp at this
    obtain ⟨m1, m2, m3⟩ := mid_inner (isCut_proper hop hcut _ hm)
    have hon := (isCut_on hop hcut hm m1).1
    rw [q4, ← s1, ← s2, ← L.first, ← L.second] at hon
    have hap := hsf.apart
    unfold pairs at hap
    rw [List.pairwise_map] at hap
    rcases pairwise_mem_or hap he hf hef with k | k
    · rcases (k _ m1 hon).1 with k | k
      · exact m2 k
      · exact m3 k
    · rcases (k _ hon m1).2 with k | k
      · exact m2 k
      · exact m3 k
end

end TQ.Sev

namespace TQ.Fl
open QL MS MeshSpec MCSpec MC MS.St FUSpec WholeSpec RefSpec CleanSpec Whole QLSpec SmSpec Sm GN MM MergeSpec CK FU AM AppSpec LinkSpec OutlSpec Outl SevSpec Sh FrSpec FlSpec Cf TQ.Sev
variable {K : Type} [Field K] [LinearOrder K] [IsStrictOrderedRing K]

/-- The mesh of a fitting drawing is prepared beside the mesh `oi`. -/
theorem next_prepared {D : DEnv K} {c : Cfg K} {d : Dm K} {b : BDef K} {bs : List (BDef K)} {ps : List (Pt K)} {hs : List (List (Pt K))}
    (H : Drawing D c b bs ps hs) (h : makeDomain D c = .ok d) (hsim : SimpleOutline (withHoles ps hs)) (hnd : ∀ q ∈ ps :: hs, q.Nodup)
    {fs : List (Pt K × Pt K)} (hf : FixedDrawn c fs) {eps : K} (he : 0 < eps) (hsh : Sharp eps (ps ++ hs.flatten))
    {sub : List (Fr.MVert K) → Fr.FEdge → Option (List (Pt K))} (hS : PartSub sub) (hsub : Divisible sub (withHoles ps hs ++ fs))
    {w : World K} {oi a : Nat} {m : Int} (ha : a ≠ oi) (hw : w a = St.empty m) (hc : Complete (w oi)) (R : SevSpec.Ready (w oi)) (F : Fits eps (w oi) (withHoles ps hs))
    (disj : ∀ p, segWinding (withHoles ps hs) p + winding (w oi).pos (pairs (w oi) .bdry) p ≤ 1) :
    ∃ w', prepareMesh (d.prepNext eps sub w [oi]) w a = .ret true w' ∧ Prepared (w' a) ∧ SameButTwins (w oi) (w' oi) ∧ Beside w' a oi ∧
      enclosed (w' a).pos (pairs (w' a) .bdry) = polygonArea ps - (hs.map polygonArea).sum ∧
      ∀ p, winding (w' a).pos (pairs (w' a) .bdry) p = segWinding (withHoles ps hs) p := by
  have hout := drawing_outline H h
  have hout' := hout
  rw [sides_outline] at hout
  have hfx := fixed_drawn h H.few hf
  have D0 := drawing_data H h hsim.proper
  have F' := fits_perm hout.symm F
  have D' := fits_data D0 F' R
  have hwf : WF (w a) := by rw [hw]; exact wf_empty m
  have hex : ∃ w', prepareMesh (d.prepNext eps sub w [oi]) w a = .ret true w' := by
    unfold prepareMesh
    rw [if_neg (by simp [isEmpty, hw, MS.St.empty])]
    have hck := drawing_check H h hsim hnd he hsh
    change checkDomain (d.prepNext eps sub w [oi]).eps (d.prepNext eps sub w [oi]).pos (d.prepNext eps sub w [oi]).bdries = some true at hck
    rw [hck]
    obtain ⟨⟨vs, es, A⟩, hi⟩ := initFront_free (nbr := fun e => (nbrA eps w [oi] e).map (·.2)) (bd := d.sources) (fx := d.fixedSources) (sub := sub) (by
      intro s e ⟨x, hx, hx2, hxe⟩
      refine hsub s e ?_
      rw [hxe]
      unfold Fr.collectCalls at hx
      rcases List.mem_append.mp hx with hx | hx
      · apply List.mem_append_left
        rw [← hout'.mem_iff]
        obtain ⟨b, hb, hx⟩ := List.mem_flatMap.mp hx
        obtain ⟨e, he, hx⟩ := List.mem_flatMap.mp hx
        split_ifs at hx
        · obtain ⟨n, -, rfl⟩ := List.mem_map.mp hx
          simp at hx2
        · simp only [List.mem_singleton] at hx
          subst hx
          unfold outline
          exact List.mem_flatMap.mpr ⟨b, hb, List.mem_flatMap.mpr ⟨e, he, by simp [callPts]⟩⟩
      · apply List.mem_append_right
        obtain ⟨e, he, rfl⟩ := List.mem_map.mp hx
        rw [← hfx]
        exact List.mem_map_of_mem (f := fun e : Fr.SrcEdge K => (e.p1, e.p2)) he)
    change Fr.initFront (d.prepNext eps sub w [oi]).sub [] (d.prepNext eps sub w [oi]).front = _ at hi
    dsimp only
    rw [hi]
    dsimp only
    rw [if_neg (by simp [checkFront])]
    exact ⟨_, rfl⟩
  obtain ⟨w', hp⟩ := hex
  have hb := (hc.wf.ends .bdry).1
  have N := fits_neighbours ha F' hb
  have hsim' : SimpleOutline (LinkSpec.sides d.sources) := simple_of_perm hout.symm hsim
  have hr : ∀ x ∈ (d.prepNext eps sub w [oi]).refs, x.1 ≠ a := by
    intro x hx hxa
    change x ∈ refsOf eps w [oi] d.sources at hx
    unfold refsOf at hx
    obtain ⟨b, hb, hx⟩ := List.mem_flatMap.mp hx
    obtain ⟨e, he, hx⟩ := List.mem_flatMap.mp hx
    obtain ⟨n, hn, rfl⟩ := List.mem_map.mp hx
    have := ((nbrA_addr (F'.small (e.p1, e.p2) (List.mem_map_of_mem (f := fun d : Fr.SrcEdge K => (d.p1, d.p2)) (List.mem_flatten.mpr ⟨b, hb, he⟩))) n).mp hn).1
    simp only [List.mem_singleton] at this
    exact ha (by rw [← hxa, this])
  obtain ⟨cs, c1, c2⟩ := outline_cuts F'
  obtain ⟨k1, k2⟩ := C170_simple D' (P := d.prepNext eps sub w [oi]) rfl hS hwf hr hp
  obtain ⟨-, -, -, -, -, -, c7, c8, -, c10, same⟩ := C115_prepared D' (P := d.prepNext eps sub w [oi]) rfl (partSub_line hS) hwf hr hp
  have hwind : ∀ p, winding (w' a).pos (pairs (w' a) .bdry) p = segWinding (withHoles ps hs) p := fun p => by
    rw [k2, segWinding_wind, segWinding_wind, wind_perm c2, cuts_wind c1, wind_perm hout]
  have harea : enclosed (w' a).pos (pairs (w' a) .bdry) = polygonArea ps - (hs.map polygonArea).sum := by
    rw [c7, sourceArea_outline, ← withHoles_area, (c2.map _).sum_eq, cuts_area c1, (hout.map _).sum_eq]
  have so := same oi ha.symm
  have hop : pairs (w' oi) .bdry = pairs (w oi) .bdry ∧ (w' oi).pos = (w oi).pos := by
    have hp' : (w' oi).pos = (w oi).pos := by rw [so.1]; rfl
    refine ⟨?_, hp'⟩
    unfold pairs
    rw [show (w' oi).es .bdry = (w oi).es .bdry by rw [so.1]]
    apply List.map_congr_left
    intro e _
    rw [so.2 e]
  refine ⟨w', hp, ⟨prepared_bare D' (P := d.prepNext eps sub w [oi]) rfl (partSub_line hS) hw hr hp (k1 (simple_of_perm c2.symm (cuts_simple c1 hsim'))), c8, by rw [c10, hw]; rfl⟩,
    so, ?_, harea, hwind⟩
  refine C177_beside D' N (P := d.prepNext eps sub w [oi]) rfl rfl (partSub_line hS) hwf hp R.unlinked R.ends F'.common ?_
    (fits_rims D0 F' R ha hb hc.bdry hsim' (P := d.prepNext eps sub w [oi]) rfl rfl hS hwf hp)
  intro p
  rw [hwind, hop.1, hop.2]
  exact disj p

end TQ.Fl
